import Verif.Lemmas.ParseSafe
import Verif.Spec.Place
import Verif.Spec.Lex

/-!
# Two runs of the parser on texts that begin with the same tokens

`Rel` relates a run to a second one whose first `k` tokens have the same types and values.
-/

namespace Sink

open Gram Spec

theorem Spec.Within.append {a b : List Item} (h : Within a) (h2 : Within b) : Within (a ++ b) := by
  induction h with
  | nil => exact h2
  | cons ht _ ih => exact .cons ht ih
  | semi hu ht _ ih => exact .semi hu ht ih

theorem Spec.Within.one {t : Item} (h : t.typ ≠ .eol) : Within [t] := .cons h .nil

/-- The message names the place of a token. -/
def At (inp : Str) (t : Item) (m : Str) : Prop :=
  ∃ ln lp what, lineInfo inp t.pos = .ok (ln, lp) ∧ (m = b!"at line " ++ decDigits ln ++ b!": " ++ what ∨ m = atLineChar ln lp ++ what)

/-- Two states with the same current token (up to its position), whose next `k` tokens agree. -/
structure Agree (k : Nat) (s s' : PSt) : Prop where
  req : s'.req = s.req
  wf : Wf s.toks
  wf' : Wf s'.toks
  cur : s'.cur.tv = s.cur.tv
  len : k ≤ s.toks.length
  toks : (s'.toks.take k).map Item.tv = (s.toks.take k).map Item.tv

theorem Agree.refl {s : PSt} (h : Wf s.toks) : Agree 0 s s := ⟨rfl, h, h, rfl, Nat.zero_le _, by simp⟩
theorem Agree.typ {k s s'} (h : Agree k s s') : s'.cur.typ = s.cur.typ := by have := h.cur; simp only [Item.tv, Prod.mk.injEq] at this; exact this.1
theorem Agree.val {k s s'} (h : Agree k s s') : s'.cur.val = s.cur.val := by have := h.cur; simp only [Item.tv, Prod.mk.injEq] at this; exact this.2

/-- The outcome of a run, and what it says about a second run with outcome `r'`. -/
def Rel {α : Type} (inp : Str) (b : Bool) (ts : List Item) (k : Nat) (r r' : Except Fail (α × PSt)) : Prop :=
  match r with
  | .ok (v, s1) => ∃ d, ts = d ++ s1.toks ∧ Wf s1.toks ∧ (b = true → Within d) ∧
      (d.length < k → ∀ v' s1', r' = .ok (v', s1') → v' = v ∧ Agree (k - d.length) s1 s1')
  | .error (.err m) => ∃ d t rest, ts = d ++ t :: rest ∧ At inp t m ∧ Within d ∧ (d.length < k → ∀ x, r' ≠ .ok x)
  | .error (.panic _) => True

theorem Rel.zero {α inp b ts} {r r' r'' : Except Fail (α × PSt)} (h : Rel inp b ts 0 r r') : Rel inp b ts 0 r r'' := by
  match r with
  | .ok (v, s1) => obtain ⟨d, h1, h2, h3, -⟩ := h; exact ⟨d, h1, h2, h3, fun h => absurd h (Nat.not_lt_zero _)⟩
  | .error (.err m) => obtain ⟨d, t, rest, h1, h2, h3, -⟩ := h; exact ⟨d, t, rest, h1, h2, h3, fun h => absurd h (Nat.not_lt_zero _)⟩
  | .error (.panic _) => trivial

theorem Rel.dead {α inp b ts k k2} {r r' r'' : Except Fail (α × PSt)} (h : Rel inp b ts k r r') (hd : ∀ x, r'' ≠ .ok x) : Rel inp b ts k2 r r'' := by
  match r with
  | .ok (v, s1) => obtain ⟨d, h1, h2, h3, -⟩ := h; exact ⟨d, h1, h2, h3, fun _ v' s1' e => absurd e (hd _)⟩
  | .error (.err m) => obtain ⟨d, t, rest, h1, h2, h3, -⟩ := h; exact ⟨d, t, rest, h1, h2, h3, fun _ => hd⟩
  | .error (.panic _) => trivial

/-- The same, seen from `d` tokens earlier. -/
theorem Rel.shift {α inp b ts ts1 k} {d : List Item} {r r' : Except Fail (α × PSt)} (ht : ts = d ++ ts1) (hd : Within d)
    (h0 : Rel inp b ts1 0 r r) (h : d.length < k → Rel inp b ts1 (k - d.length) r r') : Rel inp b ts k r r' := by
  subst ht
  match r with
  | .error (.panic _) => trivial
  | .ok (v, s1) =>
    by_cases hk : d.length < k
    · obtain ⟨e, rfl, h2, h3, h4⟩ := h hk
      refine ⟨d ++ e, by simp, h2, fun hb => hd.append (h3 hb), fun hl v' s1' hr => ?_⟩
      simp only [List.length_append] at hl ⊢
      have := h4 (by omega) v' s1' hr
      rwa [Nat.sub_sub] at this
    · obtain ⟨e, rfl, h2, h3, -⟩ := h0
      refine ⟨d ++ e, by simp, h2, fun hb => hd.append (h3 hb), fun hl => ?_⟩
      simp only [List.length_append] at hl; omega
  | .error (.err m) =>
    by_cases hk : d.length < k
    · obtain ⟨e, t, rest, rfl, h2, h3, h4⟩ := h hk
      refine ⟨d ++ e, t, rest, by simp, h2, hd.append h3, fun hl => h4 ?_⟩
      simp only [List.length_append] at hl; omega
    · obtain ⟨e, t, rest, rfl, h2, h3, -⟩ := h0
      refine ⟨d ++ e, t, rest, by simp, h2, hd.append h3, fun hl => ?_⟩
      simp only [List.length_append] at hl; omega

theorem Rel.bind {α β : Type} {inp b ts k} {x x' : Except Fail (α × PSt)} {f f' : α × PSt → Except Fail (β × PSt)}
    (h : Rel inp true ts k x x') (hf : ∀ v s1 k1 s1', Agree k1 s1 s1' → Rel inp b s1.toks k1 (f (v, s1)) (f' (v, s1'))) :
    Rel inp b ts k (x >>= f) (x' >>= f') := by
  match x with
  | .error (.panic _) => trivial
  | .error (.err m) =>
    obtain ⟨d, t, rest, h1, h2, h3, h4⟩ := h
    refine ⟨d, t, rest, h1, h2, h3, fun hl y hy => ?_⟩
    obtain ⟨a, ha, -⟩ := bind_ok.mp hy
    exact h4 hl a ha
  | .ok (v, s1) =>
    obtain ⟨d, h1, h2, h3, h4⟩ := h
    have h0 : Rel inp b s1.toks 0 (f (v, s1)) (f (v, s1)) := (hf v s1 0 s1 (.refl h2)).zero
    refine Rel.shift h1 (h3 rfl) h0 fun hl => ?_
    show Rel inp b s1.toks _ (f (v, s1)) _
    match x', h4 with
    | .error _, _ => exact h0.dead (by intro x hx; cases hx)
    | .ok (v', s1'), h4 =>
      obtain ⟨rfl, ha⟩ := h4 hl v' s1' rfl
      exact hf _ _ _ _ ha

theorem Rel.ok {α inp b k s s'} {v : α} (h : Agree k s s') : Rel inp b s.toks k (.ok (v, s)) (.ok (v, s')) := by
  refine ⟨[], rfl, h.wf, fun _ => .nil, fun _ v' s1' e => ?_⟩
  cases e
  exact ⟨rfl, h⟩

theorem gen_at (E : PEnv) (s : PSt) (msg : Str) : (∃ p, genError E s msg = .panic p) ∨ ∃ m, genError E s msg = .err m ∧ At E.inp s.cur m := by
  unfold genError
  cases h : lineInfo E.inp s.cur.pos with
  | error p => exact .inl ⟨p, rfl⟩
  | ok q =>
    obtain ⟨ln, lp⟩ := q
    refine .inr ?_
    dsimp only
    split
    · exact ⟨_, rfl, ln, lp, _, h, .inr (List.append_assoc _ _ _)⟩
    · exact ⟨_, rfl, ln, lp, _, h, .inr (List.append_assoc _ _ _)⟩
    · exact ⟨_, rfl, ln, lp, _, h, .inr (List.append_assoc _ _ _)⟩
    · exact ⟨_, rfl, ln, lp, msg ++ b!", found '" ++ s.cur.val ++ b!"'", h, .inr (by simp)⟩

theorem pos_at (E : PEnv) (s : PSt) (msg : Str) : (∃ p, posError E s msg = .panic p) ∨ ∃ m, posError E s msg = .err m ∧ At E.inp s.cur m := by
  unfold posError
  cases h : lineInfo E.inp s.cur.pos with
  | error p => exact .inl ⟨p, rfl⟩
  | ok q => exact .inr ⟨_, rfl, q.1, q.2, _, h, .inr rfl⟩

theorem line_at (E : PEnv) (s : PSt) (msg : Str) : (∃ p, lineError E s msg = .panic p) ∨ ∃ m, lineError E s msg = .err m ∧ At E.inp s.cur m := by
  unfold lineError
  cases h : lineInfo E.inp s.cur.pos with
  | error p => exact .inl ⟨p, rfl⟩
  | ok q => exact .inr ⟨_, rfl, q.1, q.2, msg, h, .inl rfl⟩

theorem rel_at {α inp b k} {s : PSt} {e : Fail} {r' : Except Fail (α × PSt)} (h : (∃ p, e = Fail.panic p) ∨ ∃ m, e = .err m ∧ At inp s.cur m)
    (hr : ∀ x, r' ≠ .ok x) : Rel inp b s.toks k (.error e) r' := by
  rcases h with ⟨p, rfl⟩ | ⟨m, rfl, ha⟩
  · trivial
  · exact ⟨[], s.cur, s.rest, rfl, ha, .nil, fun _ => hr⟩

theorem rel_gen {α E b k s msg e} : Rel (α := α) E.inp b s.toks k (.error (genError E s msg)) (.error e) :=
  rel_at (gen_at E s msg) (by intro x hx; cases hx)
theorem rel_pos {α E b k s msg e} : Rel (α := α) E.inp b s.toks k (.error (posError E s msg)) (.error e) :=
  rel_at (pos_at E s msg) (by intro x hx; cases hx)
theorem rel_line {α E b k s msg e} : Rel (α := α) E.inp b s.toks k (.error (lineError E s msg)) (.error e) :=
  rel_at (line_at E s msg) (by intro x hx; cases hx)

theorem consume_agree {k s s'} (h : Agree k s s') (h1 : s.cur.typ ≠ .eof) (h2 : s.cur.typ ≠ .error) :
    ∃ s1 s1', consume s = .ok s1 ∧ consume s' = .ok s1' ∧ s.toks = s.cur :: s1.toks ∧ Wf s1.toks ∧ (1 < k → Agree (k - 1) s1 s1') := by
  obtain ⟨t, r, hr, hc, hw⟩ := consume_ok h.wf h1 h2
  obtain ⟨t', r', hr', hc', hw'⟩ := consume_ok h.wf' (h.typ ▸ h1) (h.typ ▸ h2)
  refine ⟨_, _, hc, hc', by simp [PSt.toks, hr], hw, fun hk => ?_⟩
  obtain ⟨m, rfl⟩ : ∃ m, k = m + 2 := ⟨k - 2, by omega⟩
  have ht := h.toks
  have hl := h.len
  simp only [PSt.toks, hr, hr', List.take_succ_cons, List.map_cons, List.cons.injEq, List.length_cons] at ht hl
  exact ⟨h.req, hw, hw', ht.2.1, by simp [PSt.toks]; omega, by simp [PSt.toks, ht.2.1, ht.2.2]⟩

theorem rel_consume {α inp b k s s'} {f f' : PSt → Except Fail (α × PSt)} (h : Agree k s s') (h1 : s.cur.typ ≠ .eof)
    (h2 : s.cur.typ ≠ .error) (h3 : s.cur.typ ≠ .eol)
    (hf : ∀ s1 k1 s1', Agree k1 s1 s1' → Rel inp b s1.toks k1 (f s1) (f' s1')) :
    Rel inp b s.toks k (consume s >>= f) (consume s' >>= f') := by
  obtain ⟨s1, s1', e1, e2, e3, hw, ha⟩ := consume_agree h h1 h2
  rw [e1, e2]
  exact Rel.shift (d := [s.cur]) e3 (.one h3) (hf s1 0 s1 (.refl hw)).zero fun hk => hf _ _ _ (ha (by simpa using hk))

theorem rel_consume' {α inp b k s s' T} {f f' : PSt → Except Fail (α × PSt)} (h : Agree k s s') (hT : s.cur.typ = T)
    (hf : ∀ s1 k1 s1', Agree k1 s1 s1' → Rel inp b s1.toks k1 (f s1) (f' s1'))
    (h1 : T ≠ .eof := by simp) (h2 : T ≠ .error := by simp) (h3 : T ≠ .eol := by simp) :
    Rel inp b s.toks k (consume s >>= f) (consume s' >>= f') :=
  rel_consume h (hT ▸ h1) (hT ▸ h2) (hT ▸ h3) hf

theorem Agree.bump {k s s'} (h : Agree k s s') (p : Phase) : Agree k (bump s p) (bump s' p) := by
  refine ⟨by rw [bump_req, bump_req, h.req], by simpa using h.wf, by simpa using h.wf', by simpa using h.cur, by simpa using h.len,
    by simpa using h.toks⟩

/-! ## The parser functions -/

variable {E E' : PEnv}

theorem pArg_rel {k s s'} (h : Agree k s s') : Rel E.inp true s.toks k (pArg E s) (pArg E' s') := by
  unfold pArg
  rw [h.typ, h.val]
  split
  · rename_i hv
    rw [hasValue_iff] at hv
    exact rel_consume h hv.2.1 hv.2.2 hv.1 fun s1 k1 s1' h1 => .ok h1
  · exact rel_gen

theorem pDomain_rel {k s s'} (h : Agree k s s') : Rel E.inp true s.toks k (pDomain E s) (pDomain E' s') := by
  unfold pDomain
  rw [h.typ, h.val]
  split
  · exact rel_gen
  · rename_i hv
    dsimp only
    cases indexByte s.cur.val c!"." with
    | none => exact rel_pos
    | some i =>
      cases s.cur.val.getLast? with
      | none => trivial
      | some c => exact rel_consume' h (not_not.mp hv) fun s1 k1 s1' h1 => .ok h1

theorem pIPArg_rel (hE : E'.lib = E.lib) {k s s'} (h : Agree k s s') : Rel E.inp true s.toks k (pIPArg E s) (pIPArg E' s') := by
  unfold pIPArg
  rw [h.typ, h.val, hE]
  cases ht : s.cur.typ <;> first
    | exact rel_gen
    | exact rel_consume' h ht fun s1 k1 s1' h1 => .ok h1
    | skip
  dsimp only
  split
  · exact rel_gen
  · exact rel_consume' h ht fun s1 k1 s1' h1 => .ok h1

theorem pOnOff_rel {k s s'} (h : Agree k s s') : Rel E.inp true s.toks k (pOnOff E s) (pOnOff E' s') := by
  unfold pOnOff
  rw [h.typ]
  cases ht : s.cur.typ with
  | kw w => cases w <;> first
    | exact rel_pos
    | exact rel_consume' h ht fun s1 k1 s1' h1 => .ok h1
  | _ => exact rel_pos

theorem pCommaOpts_relA (E : PEnv) {m : Kw → Sink.Opts} : ∀ (n : Nat) (E' : PEnv) (n' : Nat) (o : Sink.Opts) {k s s'}, Agree k s s' →
    Rel E.inp true s.toks k (pCommaOpts E m n o s) (pCommaOpts E' m n' o s') := by
  intro n
  induction n with
  | zero => intros; trivial
  | succ n ih =>
    have key : ∀ (E' : PEnv) (n' : Nat) (o : Sink.Opts) {k s s'}, Agree k s s' →
        Rel E.inp true s.toks k (pCommaOpts E m (n + 1) o s) (pCommaOpts E' m (n' + 1) o s') := by
      intro E' n' o k s s' h
      simp only [pCommaOpts]
      rw [h.typ]
      split
      · exact rel_gen
      · rename_i ho
        have hkw : ∃ w, s.cur.typ = .kw w := by
          cases ht : s.cur.typ with
          | kw w => exact ⟨w, rfl⟩
          | _ => rw [ht] at ho; exact absurd rfl ho
        obtain ⟨w, hw⟩ := hkw
        refine rel_consume' h hw fun s1 k1 s1' h1 => ?_
        rw [h1.typ]
        split
        · rename_i hc
          exact rel_consume' h1 hc fun s2 k2 s2' h2 => ih _ _ _ h2
        · exact .ok h1
    intro E' n' o k s s' h
    cases n' with
    | zero => exact (key E n o (.refl h.wf)).dead (by intro x hx; cases hx)
    | succ n' => exact key E' n' o h

theorem pCommaOpts_rel {m : Kw → Sink.Opts} (n n' : Nat) (o : Sink.Opts) {k s s'} (h : Agree k s s') :
    Rel E.inp true s.toks k (pCommaOpts E m n o s) (pCommaOpts E' m n' o s') := pCommaOpts_relA E n E' n' o h

theorem pDblArgs_rel {n n' k s s'} (h : Agree k s s') : Rel E.inp true s.toks k (pDblArgs E n s) (pDblArgs E' n' s') := by
  unfold pDblArgs
  exact (pCommaOpts_rel n n' _ h).bind fun v s1 k1 s1' h1 => (pDomain_rel h1).bind fun v s1 k1 s1' h1 => .ok h1

theorem pArgTerm_rel {mk : Str → Expr} {T k s s'} (h : Agree k s s') (hT : s.cur.typ = .kw T) :
    Rel E.inp true s.toks k (pArgTerm E mk s) (pArgTerm E' mk s') := by
  unfold pArgTerm
  exact rel_consume' h hT fun s1 k1 s1' h1 => (pArg_rel h1).bind fun v s1 k1 s1' h1 => .ok h1

theorem pOptTerm_rel {n n' m o T k s s'} (h : Agree k s s') (hT : s.cur.typ = .kw T) :
    Rel E.inp true s.toks k (pOptTerm E n m o s) (pOptTerm E' n' m o s') := by
  unfold pOptTerm
  exact rel_consume' h hT fun s1 k1 s1' h1 => (pCommaOpts_rel n n' _ h1).bind fun v s1 k1 s1' h1 => .ok h1

theorem pAtom_rel (hE : E'.lib = E.lib) {n n' k s s'} (h : Agree k s s') : Rel E.inp true s.toks k (pAtom E n s) (pAtom E' n' s') := by
  unfold pAtom
  rw [h.typ]
  cases ht : s.cur.typ with
  | kw w =>
    dsimp only
    have hb := h.bump (minReq w)
    have hT : (bump s (minReq w)).cur.typ = .kw w := by simpa using ht
    rw [← bump_toks s (minReq w)]
    generalize bump s (minReq w) = t at hb hT
    generalize bump s' (minReq w) = t' at hb
    cases w <;> first
      | exact .ok hb
      | exact pArgTerm_rel hb hT
      | exact pOptTerm_rel hb hT
      | exact rel_consume' hb hT fun s1 k1 s1' h1 => .ok h1
      | exact rel_consume' hb hT fun s1 k1 s1' h1 => (pIPArg_rel hE h1).bind fun v s1 k1 s1' h1 => .ok h1
      | exact rel_consume' hb hT fun s1 k1 s1' h1 => (pDomain_rel h1).bind fun v s1 k1 s1' h1 => .ok h1
      | exact rel_consume' hb hT fun s1 k1 s1' h1 => (pOnOff_rel h1).bind fun v s1 k1 s1' h1 => .ok h1
      | exact rel_consume' hb hT fun s1 k1 s1' h1 => (pDblArgs_rel h1).bind fun v s1 k1 s1' h1 => by
          rw [← bump_toks s1 (dblPhase v.1)]; exact .ok (h1.bump _)
  | _ => exact .ok h

theorem pNot_rel {g g' : PSt → PRes (Option Expr)} (hg : ∀ {k s s'}, Agree k s s' → Rel E.inp true s.toks k (g s) (g' s'))
    {k s s'} (h : Agree k s s') (hT : s.cur.typ = .kw .not_) : Rel E.inp true s.toks k (pNot E g s) (pNot E' g' s') := by
  unfold pNot
  refine rel_consume' h hT fun s1 k1 s1' h1 => (hg h1).bind fun v s1 k1 s1' h1 => ?_
  cases v with
  | none => exact rel_gen
  | some e => exact .ok h1

theorem pParen_rel {g g' : PSt → PRes (Option Expr)} (hg : ∀ {k s s'}, Agree k s s' → Rel E.inp true s.toks k (g s) (g' s'))
    {k s s'} (h : Agree k s s') (hT : s.cur.typ = .lparen) : Rel E.inp true s.toks k (pParen E g s) (pParen E' g' s') := by
  unfold pParen
  refine rel_consume' h hT fun s1 k1 s1' h1 => (hg h1).bind fun v s1 k1 s1' h1 => ?_
  dsimp only
  rw [h1.typ]
  split
  · exact rel_gen
  · rename_i hr
    cases v with
    | none => exact rel_pos
    | some e => exact rel_consume' h1 (not_not.mp hr) fun s1 k1 s1' h1 => .ok h1

theorem isERule_agree {k s s'} (h : Agree k s s') : isERule s' = isERule s := by
  unfold isERule isEol; rw [h.typ]
theorem isEol_agree {k s s'} (h : Agree k s s') : isEol s' = isEol s := by simp only [isEol, h.typ]

theorem pExpr_rel (E : PEnv) : ∀ n,
    (∀ (E' : PEnv), E'.lib = E.lib → ∀ n' {k s s'}, Agree k s s' → Rel E.inp true s.toks k (pTerm E n s) (pTerm E' n' s')) ∧
    (∀ (E' : PEnv), E'.lib = E.lib → ∀ n' {k s s'}, Agree k s s' → Rel E.inp true s.toks k (pOrl E n s) (pOrl E' n' s')) ∧
    (∀ (E' : PEnv), E'.lib = E.lib → ∀ n' acc {k s s'}, Agree k s s' → Rel E.inp true s.toks k (pAndl E n acc s) (pAndl E' n' acc s')) := by
  intro n
  induction n with
  | zero => refine ⟨?_, ?_, ?_⟩ <;> intros <;> trivial
  | succ n ih =>
    obtain ⟨ihT, ihO, ihA⟩ := ih
    refine ⟨?_, ?_, ?_⟩
    · have key : ∀ (E' : PEnv), E'.lib = E.lib → ∀ n' {k s s'}, Agree k s s' →
          Rel E.inp true s.toks k (pTerm E (n + 1) s) (pTerm E' (n' + 1) s') := by
        intro E' hE n' k s s' h
        simp only [pTerm]
        rw [h.typ]
        cases ht : s.cur.typ with
        | kw w =>
          cases w <;> first
            | exact pAtom_rel hE h
            | exact pNot_rel (fun h => ihT E' hE n' h) h ht
        | lparen => exact pParen_rel (fun h => ihA E' hE n' [] h) h ht
        | _ => exact pAtom_rel hE h
      intro E' hE n' k s s' h
      cases n' with
      | zero => exact (key E rfl n (.refl h.wf)).dead (by intro x hx; simp [pTerm] at hx)
      | succ n' => exact key E' hE n' h
    · have key : ∀ (E' : PEnv), E'.lib = E.lib → ∀ n' {k s s'}, Agree k s s' →
          Rel E.inp true s.toks k (pOrl E (n + 1) s) (pOrl E' (n' + 1) s') := by
        intro E' hE n' k s s' h
        simp only [pOrl]
        refine (ihT E' hE n' h).bind fun l s1 k1 s1' h1 => ?_
        dsimp only
        rw [h1.typ]
        split
        · exact .ok h1
        · rename_i ho
          cases l with
          | none => exact rel_pos
          | some l =>
            refine rel_consume' h1 (not_not.mp ho) fun s2 k2 s2' h2 => (ihO E' hE n' h2).bind fun r s3 k3 s3' h3 => ?_
            cases r with
            | none =>
              dsimp only
              rw [h3.typ, isERule_agree h3]
              split
              · exact rel_pos
              · exact rel_gen
            | some r => exact .ok h3
      intro E' hE n' k s s' h
      cases n' with
      | zero => exact (key E rfl n (.refl h.wf)).dead (by intro x hx; simp [pOrl] at hx)
      | succ n' => exact key E' hE n' h
    · have key : ∀ (E' : PEnv), E'.lib = E.lib → ∀ n' acc {k s s'}, Agree k s s' →
          Rel E.inp true s.toks k (pAndl E (n + 1) acc s) (pAndl E' (n' + 1) acc s') := by
        intro E' hE n' acc k s s' h
        simp only [pAndl]
        refine (ihO E' hE n' h).bind fun e s1 k1 s1' h1 => ?_
        cases e with
        | none => exact .ok h1
        | some e => exact ihA E' hE n' _ h1
      intro E' hE n' acc k s s' h
      cases n' with
      | zero => exact (key E rfl n acc (.refl h.wf)).dead (by intro x hx; simp [pAndl] at hx)
      | succ n' => exact key E' hE n' acc h

theorem pWClause_rel (E : PEnv) : ∀ (n : Nat) (E' : PEnv) (n' : Nat) (w : Withs) (got : Bool) {k s s'}, Agree k s s' →
    Rel E.inp true s.toks k (pWClause E n w got s) (pWClause E' n' w got s') := by
  intro n
  induction n with
  | zero => intros; trivial
  | succ n ih =>
    have key : ∀ (E' : PEnv) (n' : Nat) (w : Withs) (got : Bool) {k s s'}, Agree k s s' →
        Rel E.inp true s.toks k (pWClause E (n + 1) w got s) (pWClause E' (n' + 1) w got s') := by
      intro E' n' w got k s s' h
      simp only [pWClause]
      rw [h.typ, h.val]
      cases ht : s.cur.typ with
      | kw x =>
        cases x <;> dsimp only <;> first
          | exact .ok h
          | skip
        all_goals
          split
          · exact rel_pos
          · first
            | exact rel_consume' h ht fun s1 k1 s1' h1 => (pArg_rel h1).bind fun v s2 k2 s2' h2 => ih _ _ _ _ h2
            | exact rel_consume' h ht fun s1 k1 s1' h1 => ih _ _ _ _ h1
            | (refine rel_consume' h ht fun s1 k1 s1' h1 => (pArg_rel h1).bind fun v s2 k2 s2' h2 => ?_
               dsimp only
               split
               · exact rel_pos
               · exact ih _ _ _ _ h2)
            | (refine rel_consume' h ht fun s1 k1 s1' h1 => ?_
               by_cases hv : s1.cur.typ.hasValue = true
               · have hv' := (hasValue_iff _).mp hv
                 simp only [pArg, h1.typ, h1.val, hv, if_true]
                 obtain ⟨s2, s2', e1, e2, e3, hw, ha⟩ := consume_agree h1 hv'.2.1 hv'.2.2
                 rw [e1, e2]
                 have hc : ∀ k2 s2', Agree k2 s2 s2' → Rel E.inp true s2.toks k2
                     (if s1.cur.val ≠ b!"off" ∧ s1.cur.val ≠ b!"no-client" then
                        .error (posError E s2 (b!"illegal tls-opt option '" ++ s1.cur.val ++ b!"' in with clause"))
                      else pWClause E n { w with tlsOpt := some s1.cur.val } true s2)
                     (if s1.cur.val ≠ b!"off" ∧ s1.cur.val ≠ b!"no-client" then
                        .error (posError E' s2' (b!"illegal tls-opt option '" ++ s1.cur.val ++ b!"' in with clause"))
                      else pWClause E' n' { w with tlsOpt := some s1.cur.val } true s2') := by
                   intro k2 s2' h2
                   split
                   · exact rel_pos
                   · exact ih _ _ _ _ h2
                 exact Rel.shift (d := [s1.cur]) e3 (.one hv'.1) (hc 0 s2 (.refl hw)).zero fun hk => hc _ _ (ha (by simpa using hk))
               · have hv2 : s1'.cur.typ.hasValue = false := by rw [h1.typ]; simpa using hv
                 simp only [pArg, hv, hv2, if_false]
                 rcases gen_at E s1 b!"expected argument" with ⟨p, e⟩ | ⟨m, e, -⟩
                 · rw [e]; trivial
                 · rw [e]
                   refine rel_at (pos_at E s1 _) ?_
                   intro x hx
                   split at hx
                   · cases hx
                   · cases hx
                   · rename_i hq; cases hq)
      | _ => exact .ok h
    intro E' n' w got k s s' h
    cases n' with
    | zero => exact (key E n w got (.refl h.wf)).dead (by intro x hx; cases hx)
    | succ n' => exact key E' n' w got h

theorem pWith_rel {n n' k s s'} (h : Agree k s s') : Rel E.inp true s.toks k (pWith E n s) (pWith E' n' s') := by
  unfold pWith
  rw [h.typ]
  split
  · exact .ok h
  · rename_i hw
    refine rel_consume' h (not_not.mp hw) fun s1 k1 s1' h1 => (pWClause_rel E n E' n' _ _ h1).bind fun v s2 k2 s2' h2 => ?_
    dsimp only
    rw [isERule_agree h2]
    split
    · exact rel_pos
    · split
      · exact rel_gen
      · exact .ok h2

theorem pPhase_rel {k s s'} (h : Agree k s s') : Rel E.inp true s.toks k (pPhase s) (pPhase s') := by
  unfold pPhase
  rw [h.typ]
  split
  · rename_i hp
    obtain ⟨w, hw, -⟩ := phaseOf_ne hp
    exact rel_consume' h hw fun s1 k1 s1' h1 => .ok h1
  · exact .ok h

theorem rel_semi {α inp k s s'} {f f' : PSt → Except Fail (α × PSt)} (h : Agree k s s') (hs : s.cur.typ = .semicolon)
    (hf : ∀ s1 k1 s1', Agree k1 s1 s1' → Rel inp true s1.toks k1 (f s1) (f' s1')) :
    Rel inp true s.toks k (consume s >>= fun s => if s.cur.typ = .eol then consume s >>= f else f s)
      (consume s' >>= fun s => if s.cur.typ = .eol then consume s >>= f' else f' s) := by
  obtain ⟨s1, s1', e1, e2, e3, hw, ha⟩ := consume_agree h (by rw [hs]; simp) (by rw [hs]; simp)
  rw [e1, e2]
  simp only [ok_bind]
  by_cases hl : s1.cur.typ = .eol
  · rw [if_pos hl]
    obtain ⟨s2, -, g1, -, g3, gw, -⟩ := consume_agree (.refl hw) (by rw [hl]; simp) (by rw [hl]; simp)
    rw [g1]
    refine Rel.shift (d := [s.cur, s1.cur]) (ts1 := s2.toks) (by rw [e3, g3]; rfl) (.semi hs hl .nil) (hf s2 0 s2 (.refl gw)).zero fun hk => ?_
    simp only [List.length_cons, List.length_nil] at hk ⊢
    have h1 := ha (by omega)
    rw [if_pos (by rw [h1.typ]; exact hl)]
    obtain ⟨s3, s3', k1, k2, k3, kw, ka⟩ := consume_agree h1 (by rw [hl]; simp) (by rw [hl]; simp)
    rw [g1] at k1; cases k1
    rw [k2]
    have := ka (by omega)
    rw [Nat.sub_sub] at this
    exact hf _ _ _ this
  · rw [if_neg hl]
    refine Rel.shift (d := [s.cur]) e3 (.one (by rw [hs]; simp)) (hf s1 0 s1 (.refl hw)).zero fun hk => ?_
    have h1 := ha (by simpa using hk)
    rw [if_neg (by rw [h1.typ]; exact hl)]
    exact hf _ _ _ h1

theorem pRClause_rel (E : PEnv) (result : Action) (n : Nat) : ∀ (j : Nat) (E' : PEnv), E'.lib = E.lib → ∀ (n' j' : Nat) (cls : List RClause) {k s s'}, Agree k s s' →
    Rel E.inp true s.toks k (pRClause E result n j cls s) (pRClause E' result n' j' cls s') := by
  intro j
  induction j with
  | zero => intros; trivial
  | succ j ih =>
    have key : ∀ (E' : PEnv), E'.lib = E.lib → ∀ (n' j' : Nat) (cls : List RClause) {k s s'}, Agree k s s' →
        Rel E.inp true s.toks k (pRClause E result n (j + 1) cls s) (pRClause E' result n' (j' + 1) cls s') := by
      intro E' hE n' j' cls k s s' h
      simp only [pRClause]
      refine ((pExpr_rel E n).2.2 E' hE n' [] h).bind fun e s1 k1 s1' h1 => ?_
      refine (pWith_rel h1).bind fun w s2 k2 s2' h2 => ?_
      dsimp only
      rw [isERule_agree h2, isEol_agree h2]
      split
      · exact rel_gen
      · rename_i he
        cases e with
        | none => exact rel_line
        | some e =>
          dsimp only
          split
          · exact rel_line
          · split
            · exact .ok h2
            · rename_i hn
              have hs : s2.cur.typ = .semicolon := by
                simp only [isERule, isEol] at he hn
                simp at he hn
                tauto
              exact rel_semi h2 hs fun s3 k3 s3' h3 => ih E' hE _ _ _ h3
    intro E' hE n' j' cls k s s' h
    cases j' with
    | zero => exact (key E rfl n j cls (.refl h.wf)).dead (by intro x hx; cases hx)
    | succ j' => exact key E' hE n' j' cls h

/-- The end of a statement. -/
theorem rel_end {α inp k s s'} {v : α} (h : Agree k s s') (he : isEol s = true) :
    Rel inp false s.toks k (consume s >>= fun s => pure (v, s)) (consume s' >>= fun s => pure (v, s)) := by
  simp only [isEol, decide_eq_true_eq] at he
  rcases he with he | he
  · obtain ⟨s1, s1', e1, e2, e3, hw, ha⟩ := consume_agree h (by rw [he]; simp) (by rw [he]; simp)
    rw [e1, e2]
    refine ⟨[s.cur], e3, hw, fun hb => absurd hb (by simp), fun hk v' s' hr => ?_⟩
    cases hr
    exact ⟨rfl, ha (by simpa using hk)⟩
  · rw [consume_eof he, consume_eof (by rw [h.typ]; exact he)]
    exact .ok h

theorem pRClause_end {E : PEnv} {result n j cls s x s1} (hw : Wf s.toks) (h : pRClause E result n j cls s = .ok (x, s1)) : isEol s1 = true := by
  obtain ⟨-, he, -⟩ := pRClause_sound hw h
  exact he

theorem Rel.bindP {α β : Type} {inp b ts k} {x x' : Except Fail (α × PSt)} {f f' : α × PSt → Except Fail (β × PSt)} (P : PSt → Prop)
    (h : Rel inp true ts k x x') (hP : ∀ v s1, x = .ok (v, s1) → P s1)
    (hf : ∀ v s1 k1 s1', P s1 → Agree k1 s1 s1' → Rel inp b s1.toks k1 (f (v, s1)) (f' (v, s1'))) :
    Rel inp b ts k (x >>= f) (x' >>= f') := by
  match x with
  | .error (.panic _) => trivial
  | .error (.err m) =>
    obtain ⟨d, t, rest, h1, h2, h3, h4⟩ := h
    refine ⟨d, t, rest, h1, h2, h3, fun hl y hy => ?_⟩
    obtain ⟨a, ha, -⟩ := bind_ok.mp hy
    exact h4 hl a ha
  | .ok (v, s1) =>
    obtain ⟨d, h1, h2, h3, h4⟩ := h
    have hp := hP v s1 rfl
    have h0 : Rel inp b s1.toks 0 (f (v, s1)) (f (v, s1)) := (hf v s1 0 s1 hp (.refl h2)).zero
    refine Rel.shift h1 (h3 rfl) h0 fun hl => ?_
    show Rel inp b s1.toks _ (f (v, s1)) _
    match x', h4 with
    | .error _, _ => exact h0.dead (by intro x hx; cases hx)
    | .ok (v', s1'), h4 =>
      obtain ⟨rfl, ha⟩ := h4 hl v' s1' rfl
      exact hf _ _ _ _ hp ha

theorem pRule_rel (hE : E'.lib = E.lib) {n n' k s s'} (h : Agree k s s') : Rel E.inp false s.toks k (pRule E n s) (pRule E' n' s') := by
  unfold pRule
  dsimp only
  have h : Agree k { s with req := .any } { s' with req := .any } := ⟨rfl, h.wf, h.wf', h.cur, h.len, h.toks⟩
  show Rel E.inp false ({ s with req := .any } : PSt).toks k _ _
  rw [show s.cur = ({ s with req := .any } : PSt).cur from rfl, show s'.cur = ({ s' with req := .any } : PSt).cur from rfl]
  generalize ({ s with req := .any } : PSt) = s at h
  generalize ({ s' with req := .any } : PSt) = s' at h
  rw [h.typ]
  split
  · exact .ok h
  · refine (pPhase_rel h).bind fun dt s1 k1 s1' h1 => ?_
    dsimp only
    rw [h1.typ]
    split
    · exact rel_gen
    · rename_i hact
      obtain ⟨w, hw, -⟩ := actionOf_ne hact
      refine rel_consume' h1 hw fun s2 k2 s2' h2 => ?_
      refine Rel.bindP (fun s => isEol s = true) (pRClause_rel E _ n n E' hE n' n' [] h2) (fun v s3 h3 => pRClause_end h2.wf h3) fun cls s3 k3 s3' he h3 => ?_
      dsimp only
      rw [h3.req]
      split
      · exact rel_line
      · exact rel_end h3 he

theorem pInclude_rel {load : Str → Except Fail (List Rule)} {k s s'} (h : Agree k s s') (hT : s.cur.typ = .kw .include_) :
    Rel E.inp false s.toks k (pInclude E load s) (pInclude E' load s') := by
  unfold pInclude
  refine rel_consume' h hT fun s1 k1 s1' h1 => (pArg_rel h1).bind fun f s2 k2 s2' h2 => ?_
  dsimp only
  match load f with
  | .error (.panic p) => trivial
  | .error (.err m) => exact rel_line
  | .ok rules =>
    dsimp only
    rw [isEol_agree h2]
    split
    · exact rel_gen
    · rename_i he
      exact rel_end h2 (by simpa using he)

/-! ## Files -/

/-- Where an error is: after complete statements, inside the next one. -/
def ErrAt (E : PEnv) (load : Nat → Str → Except Fail (List Rule)) (i : Nat) (ts : List Item) (m : Str) (p : Nat) : Prop :=
  ∃ done rs j part t rest, ts = done ++ (part ++ t :: rest) ∧ (done ++ part).length = p ∧
    Lines E.lib (fun i f rs => load i f = .ok rs) i done rs j ∧ Within part ∧ At E.inp t m

theorem ErrAt.lt {E load i ts m p} (h : ErrAt E load i ts m p) : p < ts.length := by
  obtain ⟨d, rs, j, part, t, rest, rfl, rfl, -⟩ := h
  simp

theorem ErrAt.cons {E load i ts rs nl us m p} (g : Stmt E.lib (fun i f rs => load i f = .ok rs) i ts rs) (hnl : nl.typ = .eol)
    (h : ErrAt E load (i + 1) us m p) : ErrAt E load i (ts ++ nl :: us) m ((ts ++ [nl]).length + p) := by
  obtain ⟨d, qs, j, part, t, rest, rfl, rfl, h1, h2, h3⟩ := h
  exact ⟨ts ++ nl :: d, _, j, part, t, rest, by simp, by simp; omega, .cons g hnl h1, h2, h3⟩

theorem pFile_at_eof {E : PEnv} {load : Nat → Str → Except Fail (List Rule)} {n k i rules s x} (he : s.cur.typ = .eof) :
    pFile E load n k i rules s ≠ .error (.err x) := by
  cases k with
  | zero => simp [pFile]
  | succ k => simp [pFile, he, pRule]

/-- An error is at a place such that no text that begins with the same tokens, up to and including the one named, is accepted. -/
theorem pFile_rel (E : PEnv) (load : Nat → Str → Except Fail (List Rule)) (n : Nat) (m : Str) : ∀ (j : Nat) (i : Nat) (rules : List Rule) (s : PSt) (E' : PEnv),
    E'.lib = E.lib → ∀ (n' j' : Nat) (rules' : List Rule) (s' : PSt) (k : Nat), Agree k s s' →
    pFile E load n j i rules s = .error (.err m) →
    ∃ p, ErrAt E load i s.toks m p ∧ (p < k → ∀ x, pFile E' load n' j' i rules' s' ≠ .ok x) := by
  intro j
  induction j with
  | zero => intro i rules s E' hE n' j' rules' s' k h he; cases he
  | succ j ih =>
    have key : ∀ (i : Nat) (rules : List Rule) (s : PSt) (E' : PEnv),
        E'.lib = E.lib → ∀ (n' j' : Nat) (rules' : List Rule) (s' : PSt) (k : Nat), Agree k s s' →
        pFile E load n (j + 1) i rules s = .error (.err m) →
        ∃ p, ErrAt E load i s.toks m p ∧ (p < k → ∀ x, pFile E' load n' (j' + 1) i rules' s' ≠ .ok x) := by
      intro i rules s E' hE n' j' rules' s' k h he
      simp only [pFile] at he ⊢
      rw [h.typ]
      by_cases hi : s.cur.typ = .kw .include_
      · rw [if_pos hi] at he ⊢
        have hr := pInclude_rel (E := E) (E' := E') (load := load i) h hi
        cases hx : pInclude E (load i) s with
        | error f =>
          rw [hx] at he hr
          simp only [err_bind, Except.error.injEq] at he
          subst he
          obtain ⟨d, t, rest, h1, h2, h3, h4⟩ := hr
          refine ⟨d.length, ⟨[], [], i, d, t, rest, by simpa using h1, by simp, .nil, h3, h2⟩, fun hk x hx => ?_⟩
          obtain ⟨a, ha, -⟩ := bind_ok.mp hx
          exact h4 hk _ ha
        | ok q =>
          obtain ⟨rl, s1⟩ := q
          rw [hx] at he hr
          simp only [ok_bind] at he
          obtain ⟨v1, a, rest, q, ha, hl, se⟩ := pInclude_sound h.wf hi hx
          rcases se with ⟨nl, hnl, rfl⟩ | ⟨hee, -⟩
          · obtain ⟨d, e1, e2, -, e4⟩ := hr
            have hd : d.length = 3 := by
              have := congrArg List.length e1
              rw [q] at this
              simp at this; omega
            have g : Stmt E.lib (fun i f rs => load i f = .ok rs) i [s.cur, a] rl := .incl hi ha hl
            rw [q]
            match hy : pInclude E' (load i) s' with
            | .error f =>
              obtain ⟨p, p1, -⟩ := ih _ _ _ E rfl n j rules s1 0 (.refl v1) he
              refine ⟨_, p1.cons g hnl, fun _ x hx => ?_⟩
              cases hx
            | .ok (rl', s1') =>
              by_cases hk : d.length < k
              · obtain ⟨rfl, ha'⟩ := e4 hk _ _ hy
                obtain ⟨p, p1, p2⟩ := ih _ _ _ E' hE n' j' (rules' ++ rl') s1' _ ha' he
                refine ⟨_, p1.cons g hnl, fun hk x hx => p2 ?_ x hx⟩
                simp at hk; omega
              · obtain ⟨p, p1, -⟩ := ih _ _ _ E rfl n j rules s1 0 (.refl v1) he
                refine ⟨_, p1.cons g hnl, fun hk' => ?_⟩
                simp at hk'; omega
          · exact absurd he (pFile_at_eof hee)
      · rw [if_neg hi] at he ⊢
        have hr := pRule_rel hE (n := n) (n' := n') h
        cases hx : pRule E n s with
        | error f =>
          rw [hx] at he hr
          simp only [err_bind, Except.error.injEq] at he
          subst he
          obtain ⟨d, t, rest, h1, h2, h3, h4⟩ := hr
          refine ⟨d.length, ⟨[], [], i, d, t, rest, by simpa using h1, by simp, .nil, h3, h2⟩, fun hk x hx => ?_⟩
          obtain ⟨a, ha, -⟩ := bind_ok.mp hx
          exact h4 hk _ ha
        | ok q =>
          obtain ⟨r, s1⟩ := q
          rw [hx] at he hr
          simp only [ok_bind] at he
          obtain ⟨v1, g1⟩ := pRule_sound h.wf hx
          by_cases hee : s1.cur.typ = .eof
          · rw [if_pos hee] at he; cases he
          rw [if_neg hee] at he
          cases r with
          | none =>
            have : s1.cur = s.cur := by have := g1.2; unfold PSt.toks at this; exact (List.cons.inj this).1
            rw [this] at hee
            exact absurd g1.1 hee
          | some r =>
            obtain ⟨-, ts, rest, q, g, se⟩ := g1
            rcases se with ⟨nl, hnl, rfl⟩ | ⟨hee', -⟩
            · obtain ⟨d, e1, e2, -, e4⟩ := hr
              have hd : d.length = ts.length + 1 := by
                have := congrArg List.length e1
                rw [q] at this
                simp at this; omega
              have g : Stmt E.lib (fun i f rs => load i f = .ok rs) i ts [r] := .rule g
              rw [q]
              match hy : pRule E' n' s' with
              | .error f =>
                obtain ⟨p, p1, -⟩ := ih _ _ _ E rfl n j rules s1 0 (.refl v1) he
                refine ⟨_, p1.cons g hnl, fun _ x hx => ?_⟩
                cases hx
              | .ok (r', s1') =>
                by_cases hk : d.length < k
                · obtain ⟨rfl, ha'⟩ := e4 hk _ _ hy
                  obtain ⟨p, p1, p2⟩ := ih _ _ _ E' hE n' j' (rules' ++ [r]) s1' _ ha' he
                  refine ⟨_, p1.cons g hnl, fun hk x hx => p2 ?_ x ?_⟩
                  · simp at hk; omega
                  · simp only [ok_bind] at hx
                    rwa [if_neg (by rw [ha'.typ]; exact hee)] at hx
                · obtain ⟨p, p1, -⟩ := ih _ _ _ E rfl n j rules s1 0 (.refl v1) he
                  refine ⟨_, p1.cons g hnl, fun hk' => ?_⟩
                  simp at hk'; omega
            · exact absurd hee' hee
    intro i rules s E' hE n' j' rules' s' k h he
    cases j' with
    | zero =>
      obtain ⟨p, h1, -⟩ := key i rules s E rfl n j rules s 0 (.refl h.wf) he
      exact ⟨p, h1, fun _ x hx => by cases hx⟩
    | succ j' => exact key i rules s E' hE n' j' rules' s' k h he

end Sink
