import Verif.Lemmas.ParseComplete

/-!
# The parser functions never panic and never run out of fuel
-/

namespace Sink

/-- Invariant of parser states: the rest of the token stream is well formed and its positions lie in the input. -/
structure PInv (E : PEnv) (s : PSt) : Prop where
  wf : Wf s.toks
  pos : ∀ t ∈ s.toks, t.pos ≤ E.inp.length

/-- No panic; on success the invariant holds, no tokens were added, and `P` holds. -/
def Safe {α : Type} (E : PEnv) (m : Nat) (P : α → PSt → Prop) : Except Fail (α × PSt) → Prop
  | .ok (a, s') => PInv E s' ∧ s'.toks.length ≤ m ∧ P a s'
  | .error (.err _) => True
  | .error (.panic _) => False

theorem Safe.bind {α β : Type} {E : PEnv} {m : Nat} {P : α → PSt → Prop} {Q : β → PSt → Prop} {x : Except Fail (α × PSt)}
    {f : α × PSt → Except Fail (β × PSt)} (h : Safe E m P x)
    (hf : ∀ a s', PInv E s' → s'.toks.length ≤ m → P a s' → Safe E m Q (f (a, s'))) : Safe E m Q (x >>= f) := by
  match x with
  | .ok (a, s') => exact hf a s' h.1 h.2.1 h.2.2
  | .error (.err _) => trivial
  | .error (.panic _) => exact h.elim

theorem Safe.weaken {α : Type} {E : PEnv} {m m' : Nat} {P Q : α → PSt → Prop} {x : Except Fail (α × PSt)}
    (h : Safe E m P x) (hm : m ≤ m') (hf : ∀ a s', s'.toks.length ≤ m → P a s' → Q a s') : Safe E m' Q x := by
  match x with
  | .ok (a, s') => exact ⟨h.1, h.2.1.trans hm, hf a s' h.2.1 h.2.2⟩
  | .error (.err _) => trivial
  | .error (.panic _) => exact h.elim

theorem PInv.cur {E s} (h : PInv E s) : s.cur.pos ≤ E.inp.length := h.pos _ (by simp [PSt.toks])

theorem lineInfo_safe {inp : Str} {p : Nat} (h : p ≤ inp.length) : ∃ a b, lineInfo inp p = .ok (a, b) := by
  simp only [lineInfo, if_neg (Nat.not_lt.mpr h)]; exact ⟨_, _, rfl⟩

theorem genError_safe {E s} (h : PInv E s) (m : Str) : ∃ m', genError E s m = .err m' := by
  obtain ⟨a, b, hl⟩ := lineInfo_safe h.cur
  unfold genError; rw [hl]; dsimp only
  split <;> exact ⟨_, rfl⟩
theorem posError_safe {E s} (h : PInv E s) (m : Str) : ∃ m', posError E s m = .err m' := by
  obtain ⟨a, b, hl⟩ := lineInfo_safe h.cur
  unfold posError; rw [hl]; exact ⟨_, rfl⟩
theorem lineError_safe {E s} (h : PInv E s) (m : Str) : ∃ m', lineError E s m = .err m' := by
  obtain ⟨a, b, hl⟩ := lineInfo_safe h.cur
  unfold lineError; rw [hl]; exact ⟨_, rfl⟩

theorem safe_gen {α E s m} {P : α → PSt → Prop} (h : PInv E s) (msg : Str) : Safe E m P (.error (genError E s msg)) := by
  obtain ⟨m', e⟩ := genError_safe h msg; rw [e]; trivial
theorem safe_pos {α E s m} {P : α → PSt → Prop} (h : PInv E s) (msg : Str) : Safe E m P (.error (posError E s msg)) := by
  obtain ⟨m', e⟩ := posError_safe h msg; rw [e]; trivial
theorem safe_line {α E s m} {P : α → PSt → Prop} (h : PInv E s) (msg : Str) : Safe E m P (.error (lineError E s msg)) := by
  obtain ⟨m', e⟩ := lineError_safe h msg; rw [e]; trivial

/-- `consume` on a token other than the end of file or an error. -/
theorem consume_adv {E s} (h : PInv E s) (h1 : s.cur.typ ≠ .eof) (h2 : s.cur.typ ≠ .error) :
    ∃ s', consume s = .ok s' ∧ PInv E s' ∧ s'.toks.length + 1 = s.toks.length := by
  obtain ⟨t, r, hr, hc, hw⟩ := consume_ok h.wf h1 h2
  refine ⟨_, hc, ⟨hw, ?_⟩, ?_⟩
  · intro x hx; apply h.pos; simp only [PSt.toks, hr] at hx ⊢; exact List.mem_cons_of_mem _ hx
  · simp [PSt.toks, hr]

theorem consume_adv' {E s T} (h : PInv E s) (hT : s.cur.typ = T) (h1 : T ≠ .eof := by simp) (h2 : T ≠ .error := by simp) :
    ∃ s', consume s = .ok s' ∧ PInv E s' ∧ s'.toks.length + 1 = s.toks.length :=
  consume_adv h (hT ▸ h1) (hT ▸ h2)

theorem consume_end_safe {E s} (h : PInv E s) (h2 : s.cur.typ ≠ .error) :
    ∃ s', consume s = .ok s' ∧ PInv E s' ∧ s'.toks.length ≤ s.toks.length ∧
      (s.cur.typ ≠ .eof → s'.toks.length + 1 = s.toks.length) := by
  by_cases h1 : s.cur.typ = .eof
  · exact ⟨s, by simp [consume, h1], h, le_rfl, fun h => absurd h1 h⟩
  · obtain ⟨s', a, b, c⟩ := consume_adv h h1 h2
    exact ⟨s', a, b, by omega, fun _ => c⟩

theorem toks_pos (s : PSt) : 1 ≤ s.toks.length := by simp [PSt.toks]

/-- Success consumes at least one token. -/
abbrev Adv {α : Type} (s : PSt) : α → PSt → Prop := fun _ s' => s'.toks.length < s.toks.length
/-- A result other than nil means a token was consumed. -/
abbrev AdvS {α : Type} (s : PSt) : Option α → PSt → Prop := fun e s' => e.isSome → s'.toks.length < s.toks.length

theorem pArg_safe {E s} (h : PInv E s) : Safe E s.toks.length (Adv s) (pArg E s) := by
  unfold pArg
  split
  · rename_i hv
    rw [hasValue_iff] at hv
    obtain ⟨s', a, b, c⟩ := consume_adv h hv.2.1 hv.2.2
    rw [a]; exact ⟨b, by omega, by show _ < _; omega⟩
  · exact safe_gen h _

theorem pDomain_safe {E s} (h : PInv E s) : Safe E s.toks.length (Adv s) (pDomain E s) := by
  unfold pDomain
  split
  · exact safe_gen h _
  · rename_i hv
    dsimp only
    split
    · exact safe_pos h _
    · rename_i j hj
      split
      · rename_i hl
        rw [List.getLast?_eq_none_iff] at hl
        rw [hl] at hj; simp [indexByte] at hj
      · obtain ⟨s', a, b, c⟩ := consume_adv' h (not_not.mp hv)
        rw [a]; exact ⟨b, by omega, by show _ < _; omega⟩

theorem pIPArg_safe {E s} (h : PInv E s) : Safe E s.toks.length (Adv s) (pIPArg E s) := by
  unfold pIPArg
  split
  · rename_i hv
    obtain ⟨s', a, b, c⟩ := consume_adv' h hv
    rw [a]; exact ⟨b, by omega, by show _ < _; omega⟩
  · rename_i hv
    split
    · exact safe_gen h _
    · obtain ⟨s', a, b, c⟩ := consume_adv' h hv
      rw [a]; exact ⟨b, by omega, by show _ < _; omega⟩
  · exact safe_gen h _

theorem pOnOff_safe {E s} (h : PInv E s) : Safe E s.toks.length (Adv s) (pOnOff E s) := by
  unfold pOnOff
  split
  · rename_i hv
    obtain ⟨s', a, b, c⟩ := consume_adv' h hv
    rw [a]; exact ⟨b, by omega, by show _ < _; omega⟩
  · rename_i hv
    obtain ⟨s', a, b, c⟩ := consume_adv' h hv
    rw [a]; exact ⟨b, by omega, by show _ < _; omega⟩
  · exact safe_pos h _

theorem pCommaOpts_safe {E m} : ∀ {n s o}, PInv E s → s.toks.length ≤ n → Safe E s.toks.length (Adv s) (pCommaOpts E m n o s) := by
  intro n
  induction n with
  | zero => intro s o _ hn; have := toks_pos s; omega
  | succ n ih =>
    intro s o h hn
    unfold pCommaOpts
    split
    · exact safe_gen h _
    · rename_i ho
      have hk : s.cur.typ ≠ .eof ∧ s.cur.typ ≠ .error := by
        constructor <;> intro e <;> rw [e] at ho <;> exact ho rfl
      obtain ⟨s', a, b, c⟩ := consume_adv h hk.1 hk.2
      simp only [a, ok_bind]
      split
      · rename_i hc
        obtain ⟨s2, a2, b2, c2⟩ := consume_adv' b hc
        simp only [a2, ok_bind]
        exact (ih b2 (by omega)).weaken (by omega) (fun _ _ _ h => by show _ < _; have : _ < _ := h; omega)
      · exact ⟨b, by omega, by show _ < _; omega⟩

theorem PInv.bump {E s} (h : PInv E s) (ph) : PInv E (bump s ph) :=
  ⟨by rw [bump_toks]; exact h.wf, by rw [bump_toks]; exact h.pos⟩

theorem pArgTerm_safe {E s mk k} (h : PInv E s) (hk : s.cur.typ = .kw k) : Safe E s.toks.length (AdvS s) (pArgTerm E mk s) := by
  obtain ⟨s', a, b, c⟩ := consume_adv' h hk
  simp only [pArgTerm, a, ok_bind]
  refine ((pArg_safe b).weaken (by omega) (fun _ _ _ h => h)).bind ?_
  intro x s2 i l p
  exact ⟨i, by omega, fun _ => by have : _ < _ := p; dsimp only; omega⟩

theorem pOptTerm_safe {E s n m k o} (h : PInv E s) (hk : s.cur.typ = .kw k) (hn : s.toks.length ≤ n) :
    Safe E s.toks.length (AdvS s) (pOptTerm E n m o s) := by
  obtain ⟨s', a, b, c⟩ := consume_adv' h hk
  simp only [pOptTerm, a, ok_bind]
  refine ((pCommaOpts_safe b (by omega)).weaken (by omega) (fun _ _ _ h => h)).bind ?_
  intro x s2 i l p
  exact ⟨i, by omega, fun _ => by have : _ < _ := p; dsimp only; omega⟩

theorem pAtom_safe {E s n} (h : PInv E s) (hn : s.toks.length ≤ n) : Safe E s.toks.length (AdvS s) (pAtom E n s) := by
  unfold pAtom
  split
  swap
  · exact ⟨h, le_rfl, by simp⟩
  rename_i k hk
  dsimp only
  have h' := h.bump (minReq k)
  have hk' : (bump s (minReq k)).cur.typ = .kw k := by
    have : (bump s (minReq k)).cur = s.cur := by unfold bump; split <;> rfl
    rw [this, hk]
  have hlen : (bump s (minReq k)).toks.length = s.toks.length := by rw [bump_toks]
  generalize hq : bump s (minReq k) = q at h' hk' hlen
  clear hq
  have conv : ∀ r : Except Fail (Option Expr × PSt), Safe E q.toks.length (AdvS q) r → Safe E s.toks.length (AdvS s) r := by
    intro r hr; exact hr.weaken (by omega) (fun _ _ _ h hh => by have := h hh; omega)
  obtain ⟨s', a, b, c⟩ := consume_adv' h' hk'
  split
  · exact conv _ (pArgTerm_safe h' hk')
  · exact conv _ (pArgTerm_safe h' hk')
  · exact conv _ (pArgTerm_safe h' hk')
  · exact conv _ (pArgTerm_safe h' hk')
  · exact conv _ (pArgTerm_safe h' hk')
  · exact conv _ (pArgTerm_safe h' hk')
  · simp only [a, ok_bind]
    refine ((pIPArg_safe b).weaken (by omega) (fun _ _ _ h => h)).bind ?_
    intro x s2 i l p
    exact ⟨i, by omega, fun _ => by have : _ < _ := p; dsimp only; omega⟩
  · simp only [a, ok_bind]
    refine ((pDomain_safe b).weaken (by omega) (fun _ _ _ h => h)).bind ?_
    intro x s2 i l p
    exact ⟨i, by omega, fun _ => by have : _ < _ := p; dsimp only; omega⟩
  · simp only [a, ok_bind]
    refine ((pOnOff_safe b).weaken (by omega) (fun _ _ _ h => h)).bind ?_
    intro x s2 i l p
    exact ⟨i, by omega, fun _ => by have : _ < _ := p; dsimp only; omega⟩
  · simp only [a, ok_bind]
    exact ⟨b, by omega, fun _ => by omega⟩
  · exact conv _ (pOptTerm_safe h' hk' (by omega))
  · exact conv _ (pOptTerm_safe h' hk' (by omega))
  · exact conv _ (pOptTerm_safe h' hk' (by omega))
  · exact conv _ (pOptTerm_safe h' hk' (by omega))
  · simp only [a, ok_bind, pDblArgs]
    refine Safe.bind (P := Adv s') ?_ ?_
    · refine ((pCommaOpts_safe b (by omega)).weaken (by omega) (fun _ _ _ h => h)).bind ?_
      intro x s2 i l p
      have p' : _ < _ := p
      refine ((pDomain_safe i).weaken l (fun _ _ _ h => h)).bind ?_
      intro y s3 i3 l3 p3
      exact ⟨i3, l3, by show _ < _; have : _ < _ := p3; dsimp only at *; omega⟩
    · intro x s2 i l p
      have : _ < _ := p
      exact ⟨i.bump _, by rw [bump_toks]; dsimp only; omega, fun _ => by rw [bump_toks]; dsimp only; omega⟩
  · exact ⟨h', by omega, by simp⟩

theorem parse_safe (E : PEnv) (n : Nat) :
    (∀ s, PInv E s → 3 * s.toks.length + 1 ≤ n → Safe E s.toks.length (AdvS s) (pTerm E n s)) ∧
    (∀ s, PInv E s → 3 * s.toks.length + 2 ≤ n → Safe E s.toks.length (AdvS s) (pOrl E n s)) ∧
    (∀ s acc, PInv E s → 3 * s.toks.length + 3 ≤ n →
      Safe E s.toks.length (fun e s' => acc = [] → e.isSome → s'.toks.length < s.toks.length) (pAndl E n acc s)) := by
  induction n with
  | zero => exact ⟨fun s _ h => by omega, fun s _ h => by omega, fun s _ _ h => by omega⟩
  | succ n ih =>
    obtain ⟨ihT, ihO, ihA⟩ := ih
    refine ⟨?_, ?_, ?_⟩
    · intro s h hn
      unfold pTerm
      split
      · rename_i hk
        obtain ⟨s', a, b, c⟩ := consume_adv' h hk
        simp only [pNot, a, ok_bind]
        refine ((ihT s' b (by omega)).weaken (by omega) (fun _ _ _ h => h)).bind ?_
        intro e s2 i l p
        dsimp only
        cases e with
        | none => exact safe_gen i _
        | some e => exact ⟨i, l, fun _ => by have := p rfl; omega⟩
      · rename_i hk
        obtain ⟨s', a, b, c⟩ := consume_adv' h hk
        simp only [pParen, a, ok_bind]
        refine ((ihA s' [] b (by omega)).weaken (by omega) (fun _ _ h _ => h)).bind ?_
        intro e s2 i l p
        dsimp only
        split
        · exact safe_gen i _
        · rename_i hr
          cases e with
          | none => exact safe_pos i _
          | some e =>
            obtain ⟨s3, a3, b3, c3⟩ := consume_adv' i (not_not.mp hr)
            simp only [a3, ok_bind]
            exact ⟨b3, by omega, fun _ => by omega⟩
      · exact pAtom_safe h (by omega)
    · intro s h hn
      unfold pOrl
      refine (ihT s h (by omega)).bind ?_
      intro e s2 i l p
      dsimp only
      split
      · exact ⟨i, l, p⟩
      · rename_i hr
        cases e with
        | none => exact safe_pos i _
        | some e =>
          obtain ⟨s3, a3, b3, c3⟩ := consume_adv' i (not_not.mp hr)
          simp only [a3, ok_bind]
          refine ((ihO s3 b3 (by omega)).weaken (by omega) (fun _ _ h _ => h)).bind ?_
          intro e' s4 i4 l4 p4
          dsimp only
          cases e' with
          | none =>
            dsimp only
            split
            · exact safe_pos i4 _
            · exact safe_gen i4 _
          | some e' => exact ⟨i4, l4, fun _ => by omega⟩
    · intro s acc h hn
      unfold pAndl
      refine (ihO s h (by omega)).bind ?_
      intro e s2 i l p
      dsimp only
      cases e with
      | none =>
        refine ⟨i, l, ?_⟩
        rintro rfl hs
        simp [mkAnd] at hs
      | some e =>
        have hlt := p rfl
        exact (ihA s2 (acc ++ [e]) i (by omega)).weaken l (fun _ _ h _ _ _ => by omega)

theorem pWClause_safe {E : PEnv} : ∀ {n s w got}, PInv E s → s.toks.length ≤ n →
    Safe E s.toks.length (fun _ _ => True) (pWClause E n w got s) := by
  intro n
  induction n with
  | zero => intro s w got _ hn; have := toks_pos s; omega
  | succ n ih =>
    intro s w got h hn
    unfold pWClause
    dsimp only
    split
    · rename_i hk
      split
      · exact safe_pos h _
      · obtain ⟨s', a, b, c⟩ := consume_adv' h hk
        simp only [a, ok_bind]
        refine ((pArg_safe b).weaken (by omega) (fun _ _ _ h => h)).bind ?_
        intro x s2 i l p
        exact (ih i (by omega)).weaken l (fun _ _ _ _ => trivial)
    · rename_i hk
      split
      · exact safe_pos h _
      · obtain ⟨s', a, b, c⟩ := consume_adv' h hk
        simp only [a, ok_bind]
        refine ((pArg_safe b).weaken (by omega) (fun _ _ _ h => h)).bind ?_
        intro x s2 i l p
        dsimp only
        split
        · exact safe_pos i _
        · exact (ih i (by omega)).weaken l (fun _ _ _ _ => trivial)
    · rename_i hk
      split
      · exact safe_pos h _
      · obtain ⟨s', a, b, c⟩ := consume_adv' h hk
        simp only [a, ok_bind]
        refine ((pArg_safe b).weaken (by omega) (fun _ _ _ h => h)).bind ?_
        intro x s2 i l p
        exact (ih i (by omega)).weaken l (fun _ _ _ _ => trivial)
    · rename_i hk
      split
      · exact safe_pos h _
      · obtain ⟨s', a, b, c⟩ := consume_adv' h hk
        simp only [a, ok_bind]
        have hp := pArg_safe b
        match hx : pArg E s' with
        | .error (.panic p) => rw [hx] at hp; exact hp.elim
        | .error (.err _) => exact safe_pos b _
        | .ok (x, s2) =>
          rw [hx] at hp
          obtain ⟨i, l, p⟩ := hp
          dsimp only
          split
          · exact safe_pos i _
          · exact (ih i (by omega)).weaken (by omega) (fun _ _ _ _ => trivial)
    · rename_i hk
      split
      · exact safe_pos h _
      · obtain ⟨s', a, b, c⟩ := consume_adv' h hk
        simp only [a, ok_bind]
        exact (ih b (by omega)).weaken (by omega) (fun _ _ _ _ => trivial)
    · exact ⟨h, le_rfl, trivial⟩

theorem pWith_safe {E n s} (h : PInv E s) (hn : s.toks.length ≤ n) : Safe E s.toks.length (fun _ _ => True) (pWith E n s) := by
  unfold pWith
  split
  · exact ⟨h, le_rfl, trivial⟩
  · rename_i hk
    obtain ⟨s', a, b, c⟩ := consume_adv' h (not_not.mp hk)
    simp only [a, ok_bind]
    refine ((pWClause_safe b (by omega)).weaken (by omega) (fun _ _ _ h => h)).bind ?_
    intro x s2 i l p
    dsimp only
    split
    · exact safe_pos i _
    · split
      · exact safe_gen i _
      · exact ⟨i, l, trivial⟩

theorem isEol_ne {s : PSt} (h : isEol s = true) : s.cur.typ ≠ .error := by
  simp only [isEol, decide_eq_true_eq] at h
  rcases h with h | h <;> rw [h] <;> simp

theorem pRClause_safe {E : PEnv} {act n} : ∀ {k s cls}, PInv E s → s.toks.length ≤ k → 3 * s.toks.length + 3 ≤ n →
    Safe E s.toks.length (fun _ s' => isEol s' = true) (pRClause E act n k cls s) := by
  intro k
  induction k with
  | zero => intro s cls _ hn; have := toks_pos s; omega
  | succ k ih =>
    intro s cls h hk hn
    unfold pRClause
    refine ((parse_safe E n).2.2 s [] h hn).bind ?_
    intro e s2 i l p
    dsimp only
    refine ((pWith_safe i (by omega)).weaken l (fun _ _ h _ => h)).bind ?_
    intro w s3 i3 l3 p3
    dsimp only
    split
    · exact safe_gen i3 _
    · rename_i he
      cases e with
      | none => exact safe_line i3 _
      | some e =>
        have hlt := p rfl rfl
        dsimp only
        split
        · exact safe_line i3 _
        · split
          · rename_i hl; exact ⟨i3, l3, hl⟩
          · rename_i hl
            have hsc : s3.cur.typ = .semicolon := by
              simp only [isERule, Bool.not_eq_true', decide_eq_false_iff_not, not_not] at he
              rcases he with he | he
              · exact absurd he hl
              · exact he
            obtain ⟨s4, a4, b4, c4⟩ := consume_adv' i3 hsc
            simp only [a4, ok_bind]
            split
            · rename_i hnl
              obtain ⟨s5, a5, b5, c5⟩ := consume_adv' b4 hnl
              simp only [a5, ok_bind]
              exact (ih b5 (by omega) (by omega)).weaken (by omega) (fun _ _ _ h => h)
            · exact (ih b4 (by omega) (by omega)).weaken (by omega) (fun _ _ _ h => h)

theorem pRule_safe {E : PEnv} {n s} (h : PInv E s) (hn : 3 * s.toks.length + 3 ≤ n) :
    Safe E s.toks.length (AdvS s) (pRule E n s) := by
  unfold pRule
  have h' : PInv E { s with req := .any } := ⟨h.wf, h.pos⟩
  have hl' : ({ s with req := .any } : PSt).toks.length = s.toks.length := rfl
  generalize hq : ({ s with req := .any } : PSt) = q at h' hl'
  clear hq
  dsimp only
  split
  · exact ⟨h', by omega, by simp⟩
  · refine Safe.bind (P := fun _ _ => True) (x := pPhase q) ?_ ?_
    · unfold pPhase
      split
      · rename_i hp
        have : q.cur.typ ≠ .error := by intro e; rw [e] at hp; exact hp rfl
        obtain ⟨s1, a1, b1, c1⟩ := consume_adv h' (by assumption) this
        simp only [a1, ok_bind]
        exact ⟨b1, by omega, trivial⟩
      · exact ⟨h', by omega, trivial⟩
    · intro d s1 i1 l1 _
      dsimp only
      split
      · exact safe_gen i1 _
      · rename_i ha
        have hne : s1.cur.typ ≠ .eof ∧ s1.cur.typ ≠ .error := by
          constructor <;> intro e <;> rw [e] at ha <;> exact ha rfl
        obtain ⟨s2, a2, b2, c2⟩ := consume_adv i1 hne.1 hne.2
        simp only [a2, ok_bind]
        refine ((pRClause_safe b2 (by omega) (by omega)).weaken (m' := s.toks.length) (by omega)
          (Q := fun _ s' => isEol s' = true ∧ s'.toks.length < s.toks.length)
          (fun _ _ l h => ⟨h, by omega⟩)).bind ?_
        intro cls s3 i3 l3 p3
        dsimp only
        split
        · exact safe_line i3 _
        · obtain ⟨s4, a4, b4, c4, -⟩ := consume_end_safe i3 (isEol_ne p3.1)
          simp only [a4, ok_bind]
          exact ⟨b4, by omega, fun _ => by omega⟩

theorem pInclude_safe {E : PEnv} {load s} (h : PInv E s) (hk : s.cur.typ = .kw .include_)
    (hl : ∀ f p, load f ≠ .error (.panic p)) : Safe E s.toks.length (Adv s) (pInclude E load s) := by
  obtain ⟨s', a, b, c⟩ := consume_adv' h hk
  simp only [pInclude, a, ok_bind]
  refine ((pArg_safe b).weaken (m' := s.toks.length) (by omega) (fun _ _ _ h => h)).bind ?_
  intro f s2 i l p
  have p' : _ < _ := p
  dsimp only
  split
  · rename_i pn he; exact absurd he (hl _ _)
  · exact safe_line i _
  · split
    · exact safe_gen i _
    · rename_i he
      obtain ⟨s4, a4, b4, c4, -⟩ := consume_end_safe i (isEol_ne (by simpa using he))
      simp only [a4, ok_bind]
      exact ⟨b4, by omega, by show _ < _; omega⟩

theorem pFile_safe {E : PEnv} {load : Nat → Str → Except Fail (List Rule)} (hl : ∀ i f p, load i f ≠ .error (.panic p)) {n} :
    ∀ {k i s rules}, PInv E s → s.toks.length ≤ k → 3 * s.toks.length + 3 ≤ n →
      ∀ p, pFile E load n k i rules s ≠ .error (.panic p) := by
  intro k
  induction k with
  | zero => intro i s rules _ hn; have := toks_pos s; omega
  | succ k ih =>
    intro i s rules h hk hn p
    unfold pFile
    split
    · rename_i hi
      have hp := pInclude_safe h hi (hl i)
      match hx : pInclude E (load i) s with
      | .error (.panic p) => rw [hx] at hp; exact hp.elim
      | .error (.err _) => simp [err_bind]
      | .ok (x, s2) =>
        rw [hx] at hp
        simp only [ok_bind]
        have : _ < _ := hp.2.2
        exact ih hp.1 (by omega) (by omega) p
    · have hp := pRule_safe h hn
      match hx : pRule E n s with
      | .error (.panic p) => rw [hx] at hp; exact hp.elim
      | .error (.err _) => simp [err_bind]
      | .ok (x, s2) =>
        rw [hx] at hp
        simp only [ok_bind]
        obtain ⟨h1, h2, h3⟩ := hp
        split
        · simp [pure, Except.pure]
        · rename_i hne
          cases x with
          | none =>
            -- a missing rule is the end of the file
            exfalso
            have := pRule_sound h.wf hx
            obtain ⟨-, he, hq⟩ := this
            unfold PSt.toks at hq
            rw [(List.cons.inj hq).1] at hne
            exact hne he
          | some x =>
            have := h3 rfl
            exact ih h1 (by omega) (by omega) p

end Sink
