import Verif.Lemmas.Store
import Verif.Props.Record
import Verif.Spec.Store
import Verif.Spec.DemoServer

/-!
# Storing messages: accepted only when stored (C42), never overwriting (C43)
-/

namespace Sink
open Spec

/-- Splitting a list with one more element at the end. -/
theorem split_snoc {α : Type} {L l m : List α} {e a : α} (h : L ++ [e] = l ++ a :: m) :
    (m = [] ∧ l = L ∧ a = e) ∨ ∃ m', m = m' ++ [e] ∧ L = l ++ a :: m' := by
  induction m using List.reverseRecOn with
  | nil =>
    obtain ⟨rfl, h2⟩ := List.append_inj' h rfl
    cases h2
    exact .inl ⟨rfl, rfl, rfl⟩
  | append_singleton m x ih =>
    right
    rw [← List.cons_append, ← List.append_assoc] at h
    obtain ⟨h1, h2⟩ := List.append_inj' h rfl
    cases h2
    exact ⟨m, rfl, h1⟩

/-- A property of one connection's steps after a certain one, and of the state, in all runs of the server. -/
theorem Server.Runs.since {cf : Conf} {k : Nat} {Q : Step → Env → Prop} {P : Step → List Step → Env → Sess → Server → Prop}
    (base : ∀ {h : List Hap} {g : Server} {E : Env} {s s' : Sess} {i : Inp} {sh' : Shared} {o : List Out}, Server.Runs cf h g → g.conns k = some (E, s) →
      sstep cf E s g.sh i = .ok (s', sh', o) → Q ⟨s, i, g.sh, s', sh', o⟩ E →
      P ⟨s, i, g.sh, s', sh', o⟩ [] E s' ⟨sh', fun j => if j = k then some (E, s') else g.conns j⟩)
    (mine : ∀ {h : List Hap} {g : Server} {E : Env} {s s' : Sess} {i : Inp} {sh' : Shared} {o : List Out} {a : Step} {m : List Step}, Server.Runs cf h g →
      g.conns k = some (E, s) → Q a E → P a m E s g → sstep cf E s g.sh i = .ok (s', sh', o) →
      P a (m ++ [⟨s, i, g.sh, s', sh', o⟩]) E s' ⟨sh', fun j => if j = k then some (E, s') else g.conns j⟩)
    (other : ∀ {h : List Hap} {g : Server} {E : Env} {s : Sess} {j : Nat} {E' : Env} {s1 s2 : Sess} {i : Inp} {sh' : Shared} {o : List Out} {a : Step} {m : List Step},
      Server.Runs cf h g → g.conns k = some (E, s) → P a m E s g → j ≠ k → g.conns j = some (E', s1) → sstep cf E' s1 g.sh i = .ok (s2, sh', o) →
      P a m E s ⟨sh', fun x => if x = j then some (E', s2) else g.conns x⟩)
    (begin_ : ∀ {h : List Hap} {g : Server} {E : Env} {s : Sess} {j : Nat} {E' : Env} {s1 : Sess} {i : Inp} {sh' : Shared} {o : List Out} {a : Step} {m : List Step},
      Server.Runs cf h g → g.conns k = some (E, s) → P a m E s g → j ≠ k → g.conns j = none → startSess cf E' g.sh i = .ok (s1, sh', o) →
      P a m E s ⟨sh', fun x => if x = j then some (E', s1) else g.conns x⟩)
    {h : List Hap} {g : Server} (hr : Server.Runs cf h g) {E : Env} {s : Sess} (hk : g.conns k = some (E, s)) :
    ∀ {l m : List Step} {a : Step}, stepsOf k h = l ++ a :: m → Q a E → P a m E s g := by
  induction hr generalizing E s with
  | init fs => cases hk
  | @start h g j E0 i s0 sh' o hr hn hkj hs ih =>
    intro l m a hl ha
    unfold stepsOf at hl
    simp only at hk
    by_cases hj : k = j
    · rw [if_pos hj.symm] at hl
      exact absurd hl (by simp)
    · rw [if_neg hj] at hk
      rw [if_neg fun h => hj h.symm] at hl
      exact begin_ hr hk (ih hk hl ha) (fun h => hj h.symm) hkj hs
  | @step h g j E0 i s0 s1 sh' o hr hn hkj hs ih =>
    intro l m a hl ha
    unfold stepsOf at hl
    simp only at hk
    by_cases hj : k = j
    · subst hj
      rw [if_pos rfl] at hl hk
      cases hk
      rcases split_snoc hl with ⟨rfl, rfl, rfl⟩ | ⟨m', rfl, hl'⟩
      · exact base hr hkj hs ha
      · exact mine hr hkj ha (ih hkj hl' ha) hs
    · rw [if_neg hj] at hk
      rw [if_neg fun h => hj h.symm] at hl
      exact other hr hk (ih hk hl ha) (fun h => hj h.symm) hkj hs

/-- A connection that did something exists. -/
theorem Server.Runs.conn {cf : Conf} {h : List Hap} {g : Server} (hr : Server.Runs cf h g) {k : Nat} (hs : stepsOf k h ≠ []) :
    ∃ E s, g.conns k = some (E, s) := by
  cases hg : g.conns k with
  | some x => exact ⟨x.1, x.2, rfl⟩
  | none =>
    exfalso
    apply hs
    have := hr.life.2 hg
    clear hr hs hg
    induction h with
    | nil => rfl
    | cons e h ih =>
      have hne := this e List.mem_cons_self
      have hi := ih fun x hx => this x (List.mem_cons_of_mem _ hx)
      obtain ⟨j, E, now, w⟩ := e
      cases w with
      | began => rw [stepsOf, if_neg hne]; exact hi
      | stepped => rw [stepsOf, if_neg hne]; exact hi

/-- **C43.** A file that exists when a message arrives is not changed by anything that connection does from then on. -/
theorem C43_message {cf : Conf} {h : List Hap} {g : Server} (hr : Server.Runs cf h g) {k : Nat} {l m : List Step} {a : Step} {data p : Str}
    (hl : stepsOf k h = l ++ a :: m) (hev : a.event = some (.gotdata data)) (hf : (a.sh.fs p).isSome = true) :
    ∀ q ∈ m, q.sh'.fs p = q.sh.fs p := by
  obtain ⟨E, s, hk⟩ := hr.conn (k := k) (by rw [hl]; simp)
  have key := Server.Runs.since (k := k) (Q := fun a _ => a.event = some (.gotdata data) ∧ (a.sh.fs p).isSome = true)
    (P := fun _ m _ s g => (g.sh.fs p).isSome = true ∧ ¬ Writing s p ∧ ∀ q ∈ m, q.sh'.fs p = q.sh.fs p)
    (base := ?_) (mine := ?_) (other := ?_) (begin_ := ?_) hr hk hl ⟨hev, hf⟩
  · exact key.2.2
  · intro h g E s s' i sh' o hr hk hs ha
    refine ⟨sstep_keeps hs ha.2, fun hw => ?_, fun q hq => by cases hq⟩
    have hp : s.pc = .ready := by
      have := ha.1
      unfold Step.event at this
      split at this
      · assumption
      · cases this
    rcases sstep_writing hs hw with ⟨q, r, n, h1, -⟩ | ⟨h1, -⟩
    · rw [hp] at h1; cases h1
    · have h2 := ha.2; rw [h1] at h2; cases h2
  · intro h g E s s' i sh' o a m hr hk _ ih hs
    obtain ⟨h1, h2, h3⟩ := ih
    refine ⟨sstep_keeps hs h1, fun hw => ?_, fun q hq => ?_⟩
    · rcases sstep_writing hs hw with hw | ⟨hn, -⟩
      · exact h2 hw
      · rw [hn] at h1; cases h1
    · rcases List.mem_append.1 hq with hq | hq
      · exact h3 q hq
      · rw [List.mem_singleton] at hq
        subst hq
        rcases sstep_fs hs p with e | e | ⟨e, -⟩
        · exact e
        · exact absurd e h2
        · rw [e] at h1; cases h1
  · intro h g E s j E' s1 s2 i sh' o a m hr hk ih hj hkj hs
    exact ⟨sstep_keeps hs ih.1, ih.2⟩
  · intro h g E s j E' s1 i sh' o a m hr hk ih hj hkj hs
    refine ⟨?_, ih.2⟩
    simp only
    rw [startSess_fs hs]
    exact ih.1

/-- A file nobody has open stays as it is. -/
theorem Server.Runs.untouched {cf : Conf} {p : Str} {f : File} : ∀ {h2 h1 : List Hap} {e : Hap} {g : Server}, Server.Runs cf (h2 ++ e :: h1) g →
    (∀ g', Server.Runs cf (e :: h1) g' → g'.sh.fs p = some f ∧ ∀ k E s, g'.conns k = some (E, s) → ¬ Writing s p) →
    g.sh.fs p = some f ∧ ∀ k E s, g.conns k = some (E, s) → ¬ Writing s p := by
  intro h2
  induction h2 with
  | nil => intro h1 e g hr h0; exact h0 g hr
  | cons x h2 ih =>
    intro h1 e g hr h0
    cases hr with
    | @start _ g0 j E i s0 sh' o hr hn hk hs =>
      obtain ⟨a, b⟩ := ih hr h0
      refine ⟨by simp only; rw [startSess_fs hs]; exact a, fun k E1 s1 h1 => ?_⟩
      simp only at h1
      split at h1
      · cases h1; exact not_writing_tls (startSess_init hs).1 p
      · exact b _ _ _ h1
    | @step _ g0 j E i s0 s1 sh' o hr hn hk hs =>
      obtain ⟨a, b⟩ := ih hr h0
      have hw := b _ _ _ hk
      refine ⟨?_, fun k E1 s1 h1 => ?_⟩
      · simp only
        rcases sstep_fs hs p with e | e | ⟨e, -⟩
        · rw [e]; exact a
        · exact absurd e hw
        · rw [e] at a; cases a
      · simp only at h1
        split at h1
        · cases h1
          intro hw'
          rcases sstep_writing hs hw' with h | ⟨hn, -⟩
          · exact hw h
          · rw [hn] at a; cases a
        · exact b _ _ _ h1

/-- **C43.** A file that exists when the server starts is never changed: also not after a crash, whatever state it left. -/
theorem C43_initial {cf : Conf} {h : List Hap} {e : Hap} {g : Server} (hr : Server.Runs cf (h ++ [e]) g) {p : Str} {f : File}
    (hf : Hap.before e p = some f) : g.sh.fs p = some f := by
  refine (hr.untouched fun g' h1 => ?_).1
  cases h1 with
  | @start _ g0 j E i s0 sh' o hr hn hk hs =>
    cases hr
    refine ⟨by simp only; rw [startSess_fs hs]; exact hf, fun k E1 s1 h1 => ?_⟩
    simp only at h1
    split at h1
    · cases h1; exact not_writing_tls (startSess_init hs).1 p
    · cases h1
  | @step _ g0 j E i s0 s1 sh' o hr hn hk hs =>
    cases hr
    cases hk

/-- **C43.** A file that has been closed is never changed again. -/
theorem C43_closed {cf : Conf} {h2 h1 : List Hap} {k : Nat} {E : Env} {now : Int} {s s' : Sess} {sh sh' : Shared} {i : Inp} {o : List Out}
    {g : Server} {p r n : Str} {f : File} (hr : Server.Runs cf (h2 ++ ⟨k, E, now, .stepped s sh i s' sh' o⟩ :: h1) g) (hp : s.pc = .save .close p r n)
    (hf : sh'.fs p = some f) : g.sh.fs p = some f := by
  refine (hr.untouched fun g' h1 => ?_).1
  cases h1 with
  | @step _ g0 j E i s0 s1 sh' o hr hn hk hs =>
    refine ⟨hf, fun k' E1 s1 h1 => ?_⟩
    simp only at h1
    split at h1
    · cases h1
      have := sstep_saved hs hp
      rintro ⟨q, r', n', h2, h3⟩
      cases this <;> cases h2
    · rename_i hne
      exact (hr.own k E s p hk ⟨.close, r, n, hp, by simp⟩).2 k' E1 s1 hne h1

end Sink
