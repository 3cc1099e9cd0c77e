import Verif.Model.Pipe
import Verif.Props.Lex

/-!
# C55: the lexer goroutine never leaks
-/

namespace Sink

/-- The lexer has `rem` still to send and takes at most `m` more steps. -/
inductive LxLeft : LexPc → List Item → Nat → Prop
  | run {f s n rem} : lexRun n f s = .ok rem → LxLeft (.run f s) rem (3 * n + rem.length)
  | sendSome {its f s n r} : lexRun n f s = .ok r → LxLeft (.send its (some f) s) (its ++ r) (its.length + 1 + (3 * n + r.length))
  | sendNone {its s} : LxLeft (.send its none s) its (its.length + 2)
  | closing : LxLeft .closing [] 1
  | done : LxLeft .done [] 0

/-- What is left of the parser's steps, if it wants at most `k` items. -/
def psLeft (k : Nat) (ps : ParsePc) (len : Nat) : Nat :=
  match ps with
  | .next => 2 * (k - len) + 2
  | .work => 2 * (k - len) + 3
  | .drain => 1
  | .done => 0

/-- The invariant. -/
structure PipeInv (its : List Item) (p : Pipe) (rem : List Item) (m : Nat) : Prop where
  left : LxLeft p.lx rem m
  flow : ∃ taken z dropped, p.got = taken ++ List.replicate z Item.zero ∧ its = taken ++ dropped ++ rem ∧
    (z ≠ 0 → p.lx = .done ∧ dropped = []) ∧ (dropped ≠ [] → p.ps = .drain ∨ p.ps = .done)
  ended : p.ps = .done → p.lx = .done

theorem lexer_left {f : LexFn} {s : LexSt} {o : LexOut} {rem : List Item} {m : Nat} (h : LxLeft (.run f s) rem m) (ho : lexStep f s = .ok o) :
    ∃ m', LxLeft (.send o.items o.next o.st) rem m' ∧ m' < m := by
  cases h with
  | @run _ _ n _ h =>
  cases n with
  | zero => cases h
  | succ n =>
    rw [lexRun, ho] at h
    obtain ⟨its, next, st⟩ := o
    cases next with
    | none =>
      simp only [Except.ok.injEq] at h
      subst h
      exact ⟨_, .sendNone, by simp only; omega⟩
    | some f' =>
      simp only at h
      cases hl : lexRun n f' st with
      | error e => rw [hl] at h; cases h
      | ok r =>
        rw [hl] at h
        simp only [Except.ok.injEq] at h
        subst h
        exact ⟨_, .sendSome hl, by simp only [List.length_append]; omega⟩

theorem lexer_sent {x : Item} {its : List Item} {n : Option LexFn} {s : LexSt} {rem : List Item} {m : Nat}
    (h : LxLeft (.send (x :: its) n s) rem m) : ∃ rem' m', rem = x :: rem' ∧ LxLeft (.send its n s) rem' m' ∧ m' < m := by
  cases h with
  | sendSome h => exact ⟨_, _, rfl, .sendSome h, by simp only [List.length_cons]; omega⟩
  | sendNone => exact ⟨_, _, rfl, .sendNone, by simp only [List.length_cons]; omega⟩

theorem Pipe.Step.inv {more : List Item → Bool} {k : Nat} {its : List Item} {p p' : Pipe} {rem : List Item} {m : Nat} (h : PipeInv its p rem m)
    (hs : Pipe.Step more p p') : ∃ rem' m', PipeInv its p' rem' m' ∧
      ((∀ got, k ≤ got.length → more got = false) → (p.ps = .next → p.got.length < k) →
        (p'.ps = .next → p'.got.length < k) ∧ m' + psLeft k p'.ps p'.got.length < m + psLeft k p.ps p.got.length) := by
  obtain ⟨hl, ⟨taken, z, dropped, h1, h2, h3, h4⟩, h5⟩ := h
  obtain ⟨lx, ps, got⟩ := p
  simp only at hl h1 h2 h3 h4 h5
  cases hs with
  | @run f s o hx ho =>
    simp only at hx; subst hx
    obtain ⟨m', g1, g2⟩ := lexer_left hl ho
    refine ⟨rem, m', ⟨g1, ⟨taken, z, dropped, h1, h2, fun hz => ?_, h4⟩, fun he => ?_⟩, fun _ h => ⟨h, by simpa using g2⟩⟩
    · cases (h3 hz).1
    · cases h5 he
  | @goOn f s hx =>
    simp only at hx; subst hx
    cases hl with
    | @sendSome _ _ _ n r hr =>
      refine ⟨r, _, ⟨.run hr, ⟨taken, z, dropped, h1, by simpa using h2, fun hz => ?_, h4⟩, fun he => ?_⟩, fun _ h => ⟨h, by simp⟩⟩
      · cases (h3 hz).1
      · cases h5 he
  | @stop s hx =>
    simp only at hx; subst hx
    cases hl with
    | sendNone =>
      refine ⟨[], _, ⟨.closing, ⟨taken, z, dropped, h1, h2, fun hz => ?_, h4⟩, fun he => ?_⟩, fun _ h => ⟨h, by simp⟩⟩
      · cases (h3 hz).1
      · cases h5 he
  | close hx =>
    simp only at hx; subst hx
    cases hl with
    | closing =>
      refine ⟨[], _, ⟨.done, ⟨taken, z, dropped, h1, h2, fun hz => ?_, h4⟩, fun he => rfl⟩, fun _ h => ⟨h, by simp⟩⟩
      · cases (h3 hz).1
  | @pass x xs n s hx hp =>
    simp only at hx hp; subst hx hp
    obtain ⟨rem', m', rfl, g2, g3⟩ := lexer_sent hl
    have hd : dropped = [] := Classical.not_not.1 fun hd => by rcases h4 hd with h | h <;> cases h
    have hz : z = 0 := Classical.not_not.1 fun hz => by cases (h3 hz).1
    subst hd hz
    refine ⟨rem', m', ⟨g2, ⟨taken ++ [x], 0, [], by simp [h1], by simp [h2], by simp, by simp⟩, by simp⟩, fun _ h => ⟨by simp, ?_⟩⟩
    have := h rfl
    simp only [psLeft, List.length_append, List.length_singleton] at this ⊢
    omega
  | zero hx hp =>
    simp only at hx hp; subst hx hp
    have hd : dropped = [] := Classical.not_not.1 fun hd => by rcases h4 hd with h | h <;> cases h
    subst hd
    refine ⟨rem, m, ⟨hl, ⟨taken, z + 1, [], ?_, h2, by simp, by simp⟩, by simp⟩, fun _ h => ⟨by simp, ?_⟩⟩
    · simp [h1, List.replicate_succ']
    · have := h rfl
      simp only [psLeft, List.length_append, List.length_singleton] at this ⊢
      omega
  | ask hp hm =>
    simp only at hp hm; subst hp
    refine ⟨rem, m, ⟨hl, ⟨taken, z, dropped, h1, h2, h3, fun hd => ?_⟩, by simp⟩, fun hk _ => ⟨fun _ => ?_, ?_⟩⟩
    · rcases h4 hd with h | h <;> cases h
    · refine Nat.lt_of_not_le fun hle => ?_
      rw [hk got hle] at hm
      cases hm
    · simp only [psLeft]; omega
  | enough hp hm =>
    simp only at hp hm; subst hp
    exact ⟨rem, m, ⟨hl, ⟨taken, z, dropped, h1, h2, h3, fun _ => .inl rfl⟩, by simp⟩, fun _ _ => ⟨by simp, by simp only [psLeft]; omega⟩⟩
  | @drop x xs n s hx hp =>
    simp only at hx hp; subst hx hp
    obtain ⟨rem', m', rfl, g2, g3⟩ := lexer_sent hl
    refine ⟨rem', m', ⟨g2, ⟨taken, z, dropped ++ [x], h1, by simp [h2], fun hz => ?_, fun _ => .inl rfl⟩, by simp⟩, fun _ _ => ⟨by simp, by simpa using g3⟩⟩
    cases (h3 hz).1
  | ret hx hp =>
    simp only at hx hp; subst hx hp
    exact ⟨rem, m, ⟨hl, ⟨taken, z, dropped, h1, h2, h3, fun _ => .inr rfl⟩, fun _ => rfl⟩, fun _ _ => ⟨by simp, by simp only [psLeft]; omega⟩⟩

theorem Pipe.Runs.inv {more : List Item → Bool} {k : Nat} {input : Str} {its : List Item} (hi : lex input = .ok its) {n : Nat} {p : Pipe}
    (h : Pipe.Runs more input n p) : ∃ rem m, PipeInv its p rem m ∧
      ((∀ got, k ≤ got.length → more got = false) → 0 < k →
        (p.ps = .next → p.got.length < k) ∧ n + (m + psLeft k p.ps p.got.length) ≤ 3 * (3 * input.length + 3) + its.length + 2 * k + 2) := by
  induction h with
  | init =>
    refine ⟨its, _, ⟨.run hi, ⟨[], 0, [], rfl, by simp, by simp, by simp⟩, by simp [newPipe]⟩, fun _ hk => ⟨fun _ => by simpa [newPipe] using hk, ?_⟩⟩
    simp only [newPipe, psLeft, List.length_nil]
    omega
  | step _ hs ih =>
    obtain ⟨rem, m, h1, h2⟩ := ih
    obtain ⟨rem', m', g1, g2⟩ := hs.inv (k := k) h1
    refine ⟨rem', m', g1, fun hm hk => ?_⟩
    obtain ⟨a, b⟩ := h2 hm hk
    obtain ⟨c, d⟩ := g2 hm a
    exact ⟨c, by omega⟩

/-- **C55.** When `Parse` has returned the lexer goroutine has finished, wherever the parser stopped. -/
theorem C55_finished {more : List Item → Bool} {input : Str} {n : Nat} {p : Pipe} (h : Pipe.Runs more input n p) (hp : p.ps = .done) :
    p.lx = .done := by
  obtain ⟨pre, last, hi, -⟩ := C01_lex_total input
  obtain ⟨rem, m, hv, -⟩ := h.inv (k := 0) hi
  exact hv.ended hp

/-- **C55.** No deadlock: as long as `Parse` has not returned something can happen. -/
theorem C55_no_deadlock {more : List Item → Bool} {input : Str} {n : Nat} {p : Pipe} (h : Pipe.Runs more input n p) (hp : p.ps ≠ .done) :
    ∃ p', Pipe.Step more p p' := by
  obtain ⟨pre, last, hi, -⟩ := C01_lex_total input
  obtain ⟨rem, m, hv, -⟩ := h.inv (k := 0) hi
  obtain ⟨lx, ps, got⟩ := p
  by_cases hw : ps = .work
  · subst hw
    cases hm : more got with
    | true => exact ⟨_, .ask rfl hm⟩
    | false => exact ⟨_, .enough rfl hm⟩
  · have hps : ps = .next ∨ ps = .drain := by cases ps <;> simp_all
    cases lx with
    | run f s =>
      have hl := hv.left
      cases hl with
      | @run _ _ n _ hr =>
        cases n with
        | zero => cases hr
        | succ n =>
          cases ho : lexStep f s with
          | error e => rw [lexRun, ho] at hr; cases hr
          | ok o => exact ⟨_, .run rfl ho⟩
    | send its nx s =>
      cases its with
      | nil =>
        cases nx with
        | none => exact ⟨_, .stop rfl⟩
        | some f => exact ⟨_, .goOn rfl⟩
      | cons x xs =>
        rcases hps with rfl | rfl
        · exact ⟨_, .pass rfl rfl⟩
        · exact ⟨_, .drop rfl rfl⟩
    | closing => exact ⟨_, .close rfl⟩
    | done =>
      rcases hps with rfl | rfl
      · exact ⟨_, .zero rfl rfl⟩
      · exact ⟨_, .ret rfl rfl⟩

/-- **C55.** A parser that wants at most `k` items: every schedule comes to an end, after a number of steps that depends only on the
text and `k` (and then, by C55_no_deadlock, `Parse` has returned, and by C55_finished the goroutine has finished). -/
theorem C55_ends {more : List Item → Bool} {k : Nat} (hk : 0 < k) (hm : ∀ got, k ≤ got.length → more got = false) {input : Str}
    {its : List Item} (hi : lex input = .ok its) {n : Nat} {p : Pipe} (h : Pipe.Runs more input n p) :
    n ≤ 3 * (3 * input.length + 3) + its.length + 2 * k + 2 := by
  obtain ⟨rem, m, -, hv⟩ := h.inv (k := k) hi
  have := (hv hm hk).2
  omega

/-- **C55.** What the parser receives does not depend on the schedule: the items of the text in order (`lex`), and the zero item
after them.  So the parser can be modelled as working on a list. -/
theorem C55_stream {more : List Item → Bool} {input : Str} {its : List Item} (hi : lex input = .ok its) {n : Nat} {p : Pipe}
    (h : Pipe.Runs more input n p) (i : Nat) (hl : i < p.got.length) : p.got[i] = its.getD i Item.zero := by
  obtain ⟨rem, m, hv, -⟩ := h.inv (k := 0) hi
  obtain ⟨taken, z, dropped, h1, h2, h3, h4⟩ := hv.flow
  have hg : p.got[i]? = some p.got[i] := List.getElem?_eq_getElem hl
  generalize p.got[i] = x at hg ⊢
  rw [h1] at hg
  by_cases ht : i < taken.length
  · rw [List.getElem?_append_left ht] at hg
    rw [h2, List.append_assoc, List.getD_eq_getElem?_getD, List.getElem?_append_left ht, hg]
    rfl
  · rw [List.getElem?_append_right (by omega), List.getElem?_replicate] at hg
    split at hg
    · rename_i hz
      obtain ⟨hd, rfl⟩ := h3 (by omega)
      have hr : rem = [] := by
        have := hv.left
        rw [hd] at this
        cases this
        rfl
      subst hr
      injection hg with hg
      rw [h2, ← hg, List.getD_eq_getElem?_getD, List.getElem?_eq_none (by simp; omega)]
      rfl
    · cases hg

/-- A text with one rule, and a parser that stops after two items: the goroutine still finishes. -/
example : ∃ n, Pipe.Runs (fun got => got.length < 2) b!"accept" n ⟨.done, .done, [⟨.kw .accept, b!"accept", 0⟩, ⟨.eof, b!"", 6⟩]⟩ := by
  refine ⟨14, ?_⟩
  have h0 : Pipe.Runs (fun got => got.length < 2) b!"accept" 0 (newPipe b!"accept") := .init
  have h1 := h0.step (.run rfl rfl)
  have h2 := h1.step (.goOn rfl)
  have h3 := h2.step (.run rfl rfl)
  have h4 := h3.step (.pass rfl rfl)
  have h5 := h4.step (.ask rfl rfl)
  have h6 := h5.step (.goOn rfl)
  have h7 := h6.step (.run rfl rfl)
  have h8 := h7.step (.goOn rfl)
  have h9 := h8.step (.run rfl rfl)
  have h10 := h9.step (.pass rfl rfl)
  have h11 := h10.step (.stop rfl)
  have h12 := h11.step (.enough rfl rfl)
  have h13 := h12.step (.close rfl)
  exact h13.step (.ret rfl rfl)

end Sink
