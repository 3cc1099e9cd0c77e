import Verif.Model.Warn

/-!
# C56: repeated warnings are suppressed
-/

namespace Sink
namespace Spec

/-- The messages received, in order: those with which `warnonce` returned. -/
def received (l : List WarnObs) : List Str := l.filterMap fun o => match o with | .ret _ m => some m | _ => none

/-- What was written, in order. -/
def printed (l : List WarnObs) : List Str := l.filterMap fun o => match o with | .print s => some s | _ => none

/-- The messages with which goroutine `k` called `warnonce`, in order. -/
def calledBy (k : Nat) (l : List WarnObs) : List Str :=
  l.filterMap fun o => match o with | .call j m => if j = k then some m else none | _ => none

/-- The messages received from goroutine `k`, in order. -/
def receivedFrom (k : Nat) (l : List WarnObs) : List Str :=
  l.filterMap fun o => match o with | .ret j m => if j = k then some m else none | _ => none

/-- Of a list of messages, those that are not empty and are not the same as the one before, as they are written. -/
def news (ms : List Str) : List Str :=
  (([] :: ms).zip ms).filterMap fun (before, m) => if m ≠ [] ∧ m ≠ before then some (b!"sinksmtp: " ++ m) else none

example : news [b!"a", b!"a", b!"b", b!"", b!"b", b!"a"] = [b!"sinksmtp: a", b!"sinksmtp: b", b!"sinksmtp: b", b!"sinksmtp: a"] := by decide

end Spec
open Spec

theorem news_concat (ms : List Str) (m : Str) :
    news (ms ++ [m]) = news ms ++ (if m ≠ [] ∧ m ≠ ms.getLastD [] then [b!"sinksmtp: " ++ m] else []) := by
  unfold news
  have : ∀ (ms : List Str) (a : Str), ((a :: (ms ++ [m])).zip (ms ++ [m])) = (a :: ms).zip ms ++ [(ms.getLastD a, m)] := by
    intro ms
    induction ms with
    | nil => intro a; rfl
    | cons x xs ih =>
      intro a
      have := ih x
      simp only [List.cons_append, List.zip_cons_cons] at this ⊢
      rw [this]
      cases xs <;> rfl
  rw [this, List.filterMap_append]
  congr 1
  by_cases h : m ≠ [] ∧ m ≠ ms.getLastD []
  · simp only [List.filterMap_cons, if_pos h, List.filterMap_nil]
  · simp only [List.filterMap_cons, if_neg h, List.filterMap_nil]

/-- The invariant: what has been printed and what `lastmsg` is. -/
def WarnInv (l : List WarnObs) (w : Warner) : Prop :=
  match w.pc with
  | .recv => printed l = news (received l) ∧ w.lastmsg = (received l).getLastD []
  | .compare m => ∃ r, received l = r ++ [m] ∧ printed l = news r ∧ w.lastmsg = r.getLastD []
  | .print m => ∃ r, received l = r ++ [m] ∧ printed l = news r ∧ m ≠ [] ∧ m ≠ r.getLastD []
  | .keep m => ∃ r, received l = r ++ [m] ∧ printed l = news (received l)

theorem Warner.Runs.inv {l : List WarnObs} {w : Warner} (h : Warner.Runs l w) : WarnInv l w := by
  induction h with
  | init => exact ⟨rfl, rfl⟩
  | @step l w w' o _ hs ih =>
    have pr : ∀ o : List WarnObs, printed (l ++ o) = printed l ++ printed o := fun o => List.filterMap_append
    have re : ∀ o : List WarnObs, received (l ++ o) = received l ++ received o := fun o => List.filterMap_append
    cases hs with
    | call _ =>
      unfold WarnInv at ih ⊢
      simpa [pr, re, printed, received] using ih
    | pass hw hp =>
      unfold WarnInv at ih ⊢
      rw [hp] at ih
      simp only [re, pr]
      exact ⟨_, rfl, by simpa [printed] using ih.1, ih.2⟩
    | @compare m hp =>
      unfold WarnInv at ih
      rw [hp] at ih
      obtain ⟨r, h1, h2, h3⟩ := ih
      simp only [Option.toList_none, List.append_nil]
      by_cases hm : m = w.lastmsg
      · subst hm
        simp only [WarnInv, ne_eq, not_true, if_false]
        rw [h1, news_concat, h2, ← h3]
        simp
      · by_cases he : m = []
        · subst he
          rw [if_pos hm, if_neg (by simp)]
          simp only [WarnInv]
          refine ⟨r, h1, ?_⟩
          rw [h1, news_concat, h2]
          simp
        · rw [if_pos hm, if_pos he]
          exact ⟨r, h1, h2, he, by rw [← h3]; exact hm⟩
    | @print m hp =>
      unfold WarnInv at ih
      rw [hp] at ih
      obtain ⟨r, h1, h2, h3, h4⟩ := ih
      refine ⟨r, by rw [re, h1]; exact List.append_nil _, ?_⟩
      simp only [pr, re, Option.toList_some]
      rw [h1, h2, show received [WarnObs.print (b!"sinksmtp: " ++ m)] = [] from rfl, List.append_nil, news_concat, if_pos ⟨h3, h4⟩]
      rfl
    | @keep m hp =>
      unfold WarnInv at ih
      rw [hp] at ih
      obtain ⟨r, h1, h2⟩ := ih
      simp only [Option.toList_none, List.append_nil, WarnInv]
      exact ⟨h2, by rw [h1]; simp⟩

/-- **C56.** In every execution with any number of goroutines what is written is, in order, the messages received that are not
empty and differ from the one received just before; only the last one received may not have been written yet. -/
theorem C56_printed {l : List WarnObs} {w : Warner} (h : Warner.Runs l w) :
    printed l = news (received l) ∨ ∃ r m, received l = r ++ [m] ∧ printed l = news r := by
  have := h.inv
  unfold WarnInv at this
  split at this
  · exact .inl this.1
  · obtain ⟨r, h1, h2, _⟩ := this; exact .inr ⟨r, _, h1, h2⟩
  · obtain ⟨r, h1, h2, _⟩ := this; exact .inr ⟨r, _, h1, h2⟩
  · obtain ⟨r, h1, h2⟩ := this; exact .inl h2

/-- **C56.** When `warnonce` returns, everything received before has been written: an empty message flushes (sinksmtp.go:1654-1660). -/
theorem C56_flush {l : List WarnObs} {w w' : Warner} {k : Nat} {m : Str} (h : Warner.Runs l w)
    (hs : Warner.Step w (some (.ret k m)) w') : printed l = news (received l) := by
  have := h.inv
  cases hs with
  | pass hw hp =>
    unfold WarnInv at this
    rw [hp] at this
    exact this.1

/-- **C56.** No message is lost, repeated or overtaken by another of the same goroutine: what was received from a goroutine is what
it called `warnonce` with, without the call it is still in. -/
theorem C56_order {l : List WarnObs} {w : Warner} (h : Warner.Runs l w) (k : Nat) :
    calledBy k l = receivedFrom k l ++ (w.waits k).toList := by
  induction h with
  | init => rfl
  | @step l w w' o _ hs ih =>
    have ca : ∀ o : List WarnObs, calledBy k (l ++ o) = calledBy k l ++ calledBy k o := fun o => List.filterMap_append
    have re : ∀ o : List WarnObs, receivedFrom k (l ++ o) = receivedFrom k l ++ receivedFrom k o := fun o => List.filterMap_append
    rw [ca, re, ih]
    cases hs with
    | @call j m hw =>
      by_cases hj : j = k
      · subst hj; simp [calledBy, receivedFrom, setAt, hw]
      · have hk : k ≠ j := fun h => hj h.symm
        simp [calledBy, receivedFrom, setAt, hj, hk]
    | @pass j m hw hp =>
      by_cases hj : j = k
      · subst hj; simp [calledBy, receivedFrom, setAt, hw]
      · have hk : k ≠ j := fun h => hj h.symm
        simp [calledBy, receivedFrom, setAt, hj, hk]
    | compare hp => simp [calledBy, receivedFrom]
    | print hp => simp [calledBy, receivedFrom]
    | keep hp => simp [calledBy, receivedFrom]

/-- Steps of the backend alone. -/
inductive BackSteps : Nat → Warner → Warner → Prop
  | refl {w : Warner} : BackSteps 0 w w
  | step {n : Nat} {w w' w'' : Warner} {o : Option WarnObs} : (∀ k m, o ≠ some (.call k m) ∧ o ≠ some (.ret k m)) →
      Warner.Step w o w' → BackSteps n w' w'' → BackSteps (n + 1) w w''

/-- **C56.** No deadlock: from every state the backend alone gets, in at most three steps, to a state in which every waiting
`warnonce` can return. -/
theorem C56_progress (w : Warner) : ∃ n w', n ≤ 3 ∧ BackSteps n w w' ∧ w'.waits = w.waits ∧
    ∀ k m, w.waits k = some m → ∃ w'', Warner.Step w' (some (.ret k m)) w'' := by
  have go : ∃ n w', n ≤ 3 ∧ BackSteps n w w' ∧ w'.waits = w.waits ∧ w'.pc = .recv := by
    have k1 : ∀ (w : Warner) m, w.pc = .keep m → ∃ n w', n ≤ 1 ∧ BackSteps n w w' ∧ w'.waits = w.waits ∧ w'.pc = .recv :=
      fun w m hp => ⟨1, _, by omega, .step (by simp) (.keep hp) .refl, rfl, rfl⟩
    have k2 : ∀ (w : Warner) m, w.pc = .print m → ∃ n w', n ≤ 2 ∧ BackSteps n w w' ∧ w'.waits = w.waits ∧ w'.pc = .recv := by
      intro w m hp
      obtain ⟨n, w', h1, h2, h3, h4⟩ := k1 { w with pc := .keep m } m rfl
      exact ⟨n + 1, w', by omega, .step (by simp) (.print hp) h2, h3, h4⟩
    cases hp : w.pc with
    | recv => exact ⟨0, w, by omega, .refl, rfl, hp⟩
    | compare m =>
      have st := Warner.Step.compare hp
      by_cases hm : m ≠ w.lastmsg
      · by_cases he : m ≠ []
        · rw [if_pos hm, if_pos he] at st
          obtain ⟨n, w', h1, h2, h3, h4⟩ := k2 { w with pc := .print m } m rfl
          exact ⟨n + 1, w', by omega, .step (by simp) st h2, h3, h4⟩
        · rw [if_pos hm, if_neg he] at st
          obtain ⟨n, w', h1, h2, h3, h4⟩ := k1 { w with pc := .keep m } m rfl
          exact ⟨n + 1, w', by omega, .step (by simp) st h2, h3, h4⟩
      · rw [if_neg hm] at st
        exact ⟨1, _, by omega, .step (by simp) st .refl, rfl, rfl⟩
    | print m => obtain ⟨n, w', h1, h2⟩ := k2 w m hp; exact ⟨n, w', by omega, h2⟩
    | keep m => obtain ⟨n, w', h1, h2⟩ := k1 w m hp; exact ⟨n, w', by omega, h2⟩
  obtain ⟨n, w', h1, h2, h3, h4⟩ := go
  exact ⟨n, w', h1, h2, h3, fun k m hw => ⟨_, .pass (by rw [h3]; exact hw) h4⟩⟩

/-- Two goroutines warn of the same thing at once: one line. -/
example : ∃ w, Warner.Runs [.call 1 b!"x\n", .call 2 b!"x\n", .ret 2 b!"x\n", .print b!"sinksmtp: x\n", .ret 1 b!"x\n"] w := by
  have h := ((((((((Warner.Runs.init.step (.call (k := 1) (m := b!"x\n") rfl)).step (.call (k := 2) (m := b!"x\n") rfl)).step
    (.pass (k := 2) (m := b!"x\n") rfl rfl)).step (.compare rfl)).step (.print rfl)).step (.keep rfl)).step
    (.pass (k := 1) (m := b!"x\n") rfl rfl)).step (.compare rfl))
  exact ⟨_, h⟩

/-- A message that differs only from an earlier one is written again. -/
example : news [b!"x\n", b!"y\n", b!"x\n"] = [b!"sinksmtp: x\n", b!"sinksmtp: y\n", b!"sinksmtp: x\n"] := by decide

end Sink
