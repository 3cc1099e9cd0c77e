import Verif.Lemmas.ParseRule

/-!
# Completeness of the parser functions with respect to the grammar
-/

namespace Sink

open Gram

/-- The parser state at the start of a token list. -/
def mkSt : List Item → Phase → PSt
  | [], q => ⟨Item.zero, [], q⟩
  | t :: r, q => ⟨t, r, q⟩

@[simp] theorem mkSt_cons (t r q) : mkSt (t :: r) q = ⟨t, r, q⟩ := rfl

theorem consume_mk {it : Item} (h1 : it.typ ≠ .eof) (h2 : it.typ ≠ .error) (l : List Item) (q : Phase) :
    consume ⟨it, l, q⟩ = .ok (mkSt l q) := by
  cases l <;> simp only [consume, mkSt]

theorem consume_mk' {it : Item} {T : Tok} (hT : it.typ = T) (l : List Item) (q : Phase) (h1 : T ≠ .eof := by simp)
    (h2 : T ≠ .error := by simp) : consume ⟨it, l, q⟩ = .ok (mkSt l q) :=
  consume_mk (hT ▸ h1) (hT ▸ h2) l q

@[simp] theorem ok_bind {ε α β : Type} (a : α) (f : α → Except ε β) : (Except.ok a >>= f) = f a := rfl
@[simp] theorem err_bind {ε α β : Type} (e : ε) (f : α → Except ε β) : (Except.error e >>= f) = .error e := rfl
@[simp] theorem pure_eq_ok {ε α : Type} (a : α) : (pure a : Except ε α) = .ok a := rfl

theorem pArg_mk {E : PEnv} {a : Item} (h : IsArg a) (l : List Item) (q : Phase) :
    pArg E ⟨a, l, q⟩ = .ok (a.val, mkSt l q) := by
  have hv : a.typ.hasValue = true := (hasValue_iff _).mpr h
  simp only [pArg, hv, if_true, consume_mk h.2.1 h.2.2, ok_bind, pure_eq_ok]

theorem pDomain_mk {E : PEnv} {a : Item} {d : Str} (h : IsDomain a d) (l : List Item) (q : Phase) :
    pDomain E ⟨a, l, q⟩ = .ok (d, mkSt l q) := by
  obtain ⟨ht, hm, hd⟩ := h
  have hi : (indexByte a.val c!".").isSome = true := indexByte_isSome.mpr hm
  obtain ⟨i, hi⟩ := Option.isSome_iff_exists.mp hi
  have hne : a.val ≠ [] := by rintro h; rw [h] at hm; simp at hm
  obtain ⟨c, hc⟩ : ∃ c, a.val.getLast? = some c := by
    cases h : a.val.getLast? with
    | none => exact absurd (List.getLast?_eq_none_iff.mp h) hne
    | some c => exact ⟨c, rfl⟩
  simp only [pDomain, ht, ne_eq, not_true_eq_false, if_false, hi, hc, consume_mk' ht, ok_bind, pure_eq_ok]
  rcases hd with ⟨hp, rfl⟩ | ⟨hp, rfl⟩
  · have := (getLast?_eq_dot hc).mp hp; simp [this]
  · have : c ≠ c!"." := fun hh => hp ((getLast?_eq_dot hc).mpr hh); simp [this]

theorem pIPArg_mk {E : PEnv} {a : Item} (h : IsIPArg E.lib a) (l : List Item) (q : Phase) :
    pIPArg E ⟨a, l, q⟩ = .ok (a.val, mkSt l q) := by
  rcases h with ht | ⟨ht, hv⟩
  · simp only [pIPArg, ht, consume_mk' ht, ok_bind, pure_eq_ok]
  · have : ¬ ((E.lib.parseCIDR a.val).isNone = true ∧ (E.lib.parseIP a.val).isNone = true) := by
      simp only [Option.isNone_iff_eq_none, Option.isSome_iff_ne_none] at *; tauto
    simp only [pIPArg, ht, if_neg this, consume_mk' ht, ok_bind, pure_eq_ok]

theorem optFor_of_bits {c : OptClass} {k : Kw} {o : Sink.Opts} (h : optBits c k = some o) :
    mapOf c k = o ∧ o ≠ oZero := by
  rw [mapOf_spec] at h
  split at h
  · cases h
  · rename_i hz; cases h; exact ⟨rfl, hz⟩

theorem pCommaOpts_complete {E : PEnv} {c : OptClass} {ts : List Item} {o : Sink.Opts} (g : Gram.Opts c ts o) :
    ∀ (n : Nat) (o0 : Sink.Opts) (f : Item) (r : List Item) (q : Phase), ts.length ≤ n → f.typ ≠ .comma →
      pCommaOpts E (mapOf c) n o0 (mkSt (ts ++ f :: r) q) = .ok (o0 ||| o, ⟨f, r, q⟩) := by
  induction g with
  | one ht hb =>
    intro n o0 f r q hn hf
    obtain ⟨m, rfl⟩ : ∃ m, n = m + 1 := ⟨n - 1, by simp at hn; omega⟩
    obtain ⟨hm, hz⟩ := optFor_of_bits hb
    simp [pCommaOpts, ht, optFor, hm, hz, consume_mk' ht, hf]
  | @more it k o1 cm ts os ht hb hc g ih =>
    intro n o0 f r q hn hf
    simp only [List.length_cons] at hn
    obtain ⟨m, rfl⟩ : ∃ m, n = m + 1 := ⟨n - 1, by omega⟩
    obtain ⟨hm, hz⟩ := optFor_of_bits hb
    have := ih m (o0 ||| o1) f r q (by omega) hf
    simp only [List.cons_append, mkSt_cons, pCommaOpts, ht, optFor, hm, hz, if_false, consume_mk' ht, ok_bind, hc, if_true,
      consume_mk' hc]
    rw [this, BitVec.or_assoc]

/-! ### Terms -/

theorem Gram.Term.start {L ts e} (h : Term L ts e) : ∃ t ts', ts = t :: ts' ∧ termStart t.typ = true := by
  cases h with
  | arg op ht _ => exact ⟨_, _, rfl, by rw [ht]; cases op <;> rfl⟩
  | ip ht _ => exact ⟨_, _, rfl, by rw [ht]; rfl⟩
  | dnsbl ht _ => exact ⟨_, _, rfl, by rw [ht]; rfl⟩
  | tlsOn ht _ => exact ⟨_, _, rfl, by rw [ht]; rfl⟩
  | tlsOff ht _ => exact ⟨_, _, rfl, by rw [ht]; rfl⟩
  | all ht => exact ⟨_, _, rfl, by rw [ht]; rfl⟩
  | has op ht _ => exact ⟨_, _, rfl, by rw [ht]; cases op <;> rfl⟩
  | dbl ht _ _ => exact ⟨_, _, rfl, by rw [ht]; rfl⟩
  | not_ ht _ => exact ⟨_, _, rfl, by rw [ht]; rfl⟩
  | paren ht _ _ => exact ⟨_, _, rfl, by rw [ht]; rfl⟩

theorem Gram.Orl.start {L ts e} (h : Orl L ts e) : ∃ t ts', ts = t :: ts' ∧ termStart t.typ = true := by
  cases h with
  | one h => exact h.start
  | or h _ _ => obtain ⟨t, ts', rfl, ht⟩ := h.start; exact ⟨t, _, rfl, ht⟩

theorem Gram.Andl.start {L ts es} (h : Andl L ts es) : ∃ t ts', ts = t :: ts' ∧ termStart t.typ = true := by
  cases h with
  | one h => exact h.start
  | more h _ => obtain ⟨t, ts', rfl, ht⟩ := h.start; exact ⟨t, _, rfl, ht⟩

theorem termStart_ne {t : Tok} (h : termStart t = true) : t ≠ .comma ∧ t ≠ .kw .or ∧ t ≠ .eof ∧ t ≠ .error ∧ t ≠ .eol ∧
    t ≠ .semicolon := by
  refine ⟨?_, ?_, ?_, ?_, ?_, ?_⟩ <;> rintro rfl <;> simp [termStart] at h

theorem pAtom_none {E : PEnv} {n : Nat} {s : PSt} (h : termStart s.cur.typ = false) : pAtom E n s = .ok (none, s) := by
  unfold pAtom
  split
  · rename_i k hk
    rw [hk] at h
    cases k <;> first | (simp [termStart] at h; done) | simp [minReq, bump_any]
  · rfl

theorem pTerm_none {E : PEnv} {n : Nat} {s : PSt} (h : termStart s.cur.typ = false) : pTerm E (n + 1) s = .ok (none, s) := by
  unfold pTerm
  split
  · rename_i hk; rw [hk] at h; simp [termStart] at h
  · rename_i hk; rw [hk] at h; simp [termStart] at h
  · exact pAtom_none h

theorem pOrl_none {E : PEnv} {n : Nat} {s : PSt} (h : termStart s.cur.typ = false) (h2 : s.cur.typ ≠ .kw .or) :
    pOrl E (n + 2) s = .ok (none, s) := by
  simp [pOrl, pTerm_none h, h2]

theorem pAndl_none {E : PEnv} {n : Nat} {acc : List Expr} {s : PSt} (h : termStart s.cur.typ = false)
    (h2 : s.cur.typ ≠ .kw .or) : pAndl E (n + 3) acc s = .ok (mkAnd acc, s) := by
  simp [pAndl, pOrl_none h h2]

theorem bump_mk (t r q p) : bump ⟨t, r, q⟩ p = ⟨t, r, later q p⟩ := by
  cases q <;> cases p <;> rfl

theorem parse_complete (E : PEnv) (n : Nat) :
    (∀ ts e f r q, Term E.lib ts e → 3 * ts.length + 1 ≤ n → f.typ ≠ .comma →
      pTerm E n (mkSt (ts ++ f :: r) q) = .ok (some e, ⟨f, r, later q (needs e)⟩)) ∧
    (∀ ts e f r q, Orl E.lib ts e → 3 * ts.length + 2 ≤ n → f.typ ≠ .comma → f.typ ≠ .kw .or →
      pOrl E n (mkSt (ts ++ f :: r) q) = .ok (some e, ⟨f, r, later q (needs e)⟩)) ∧
    (∀ ts es f r q acc, Andl E.lib ts es → 3 * ts.length + 3 ≤ n → f.typ ≠ .comma → f.typ ≠ .kw .or →
      termStart f.typ = false →
      pAndl E n acc (mkSt (ts ++ f :: r) q) = .ok (mkAnd (acc ++ es), ⟨f, r, later q (needsL es)⟩)) := by
  induction n with
  | zero => refine ⟨?_, ?_, ?_⟩ <;> intros <;> omega
  | succ n ih =>
    obtain ⟨ihT, ihO, ihA⟩ := ih
    refine ⟨?_, ?_, ?_⟩
    · intro ts e f r q g hn hf
      cases g with
      | arg op ht ha =>
        cases op <;>
        simp [pTerm, ht, pAtom, minReq, bump_mk, pArgTerm, consume_mk' ht, pArg_mk ha, needs, opNeeds]
      | ip ht ha => simp [pTerm, ht, pAtom, minReq, bump_any, consume_mk' ht, pIPArg_mk ha, needs, opNeeds, later_any]
      | dnsbl ht ha => simp [pTerm, ht, pAtom, minReq, bump_any, consume_mk' ht, pDomain_mk ha, needs, opNeeds, later_any]
      | tlsOn ht ha => simp [pTerm, ht, pAtom, minReq, bump_mk, consume_mk' ht, pOnOff, ha, consume_mk' ha, needs, opNeeds]
      | tlsOff ht ha => simp [pTerm, ht, pAtom, minReq, bump_mk, consume_mk' ht, pOnOff, ha, consume_mk' ha, needs, opNeeds]
      | all ht => simp [pTerm, ht, pAtom, minReq, bump_any, consume_mk' ht, needs, opNeeds, later_any]
      | has op ht g =>
        simp only [List.length_cons] at hn
        cases op
        · have := pCommaOpts_complete (E := E) g n oZero f r (later q .mfrom) (by omega) hf
          simp [pTerm, ht, pAtom, minReq, bump_mk, pOptTerm, consume_mk' ht, needs, opNeeds]
          change pCommaOpts E addrMap n oZero _ = _ at this
          rw [this]; simp [oZero]
        · have := pCommaOpts_complete (E := E) g n oZero f r (later q .rto) (by omega) hf
          simp [pTerm, ht, pAtom, minReq, bump_mk, pOptTerm, consume_mk' ht, needs, opNeeds]
          change pCommaOpts E addrMap n oZero _ = _ at this
          rw [this]; simp [oZero]
        · have := pCommaOpts_complete (E := E) g n oZero f r (later q .helo) (by omega) hf
          simp [pTerm, ht, pAtom, minReq, bump_mk, pOptTerm, consume_mk' ht, needs, opNeeds]
          change pCommaOpts E heloMap n oZero _ = _ at this
          rw [this]; simp [oZero]
        · have := pCommaOpts_complete (E := E) g n oZero f r q (by omega) hf
          simp [pTerm, ht, pAtom, minReq, bump_any, pOptTerm, consume_mk' ht, needs, opNeeds, later_any]
          change pCommaOpts E dnsMap n oZero _ = _ at this
          rw [this]; simp [oZero]
      | @dbl it ts o a d ht g hd =>
        simp only [List.length_cons, List.length_append, List.length_nil] at hn
        have hac : a.typ ≠ .comma := by rw [hd.1]; simp
        have := pCommaOpts_complete (E := E) g n oZero a (f :: r) q (by omega) hac
        change pCommaOpts E dblMap n oZero _ = _ at this
        simp only [List.cons_append, List.append_assoc, List.nil_append, mkSt_cons, pTerm, ht, pAtom, minReq, bump_any,
          consume_mk' ht, ok_bind, pDblArgs, this, pDomain_mk hd, pure_eq_ok]
        rw [show oZero ||| o = o by simp [oZero], bump_mk, dblPhase_eq g (d := d)]
        simp only [needs]
      | not_ ht g =>
        simp only [List.length_cons] at hn
        have := ihT _ _ f r q g (by omega) hf
        simp [pTerm, ht, pNot, consume_mk' ht, this, needs]
      | @paren lp ts es rp hl g hr =>
        simp only [List.length_cons, List.length_append, List.length_nil] at hn
        have := ihA _ _ rp (f :: r) q [] g (by omega) (by rw [hr]; simp) (by rw [hr]; simp) (by rw [hr]; rfl)
        simp only [List.cons_append, List.append_assoc, List.nil_append, mkSt_cons, pTerm, hl, pParen, consume_mk' hl, ok_bind,
          this, hr, ne_eq, not_true_eq_false, if_false]
        rw [mkAnd_eq (Andl.ne_nil g)]
        simp only [consume_mk' hr, ok_bind, mkSt_cons, pure_eq_ok, needs_conj]
    · intro ts e f r q g hn hf hf2
      cases g with
      | one g =>
        have := ihT _ _ f r q g (by omega) hf
        simp only [pOrl, this, ok_bind, ne_eq, hf2, not_false_eq_true, if_true, pure_eq_ok]
      | @or ts l o us r' g ho g2 =>
        simp only [List.length_cons, List.length_append] at hn
        have h1 := ihT _ _ o (us ++ f :: r) q g (by omega) (by rw [ho]; simp)
        have h2 := ihO _ _ f r (later q (needs l)) g2 (by omega) hf hf2
        simp only [List.append_assoc, List.cons_append, pOrl, h1, ok_bind, ho, ne_eq, not_true_eq_false, if_false,
          consume_mk' ho, h2, pure_eq_ok, later_assoc, needs]
    · intro ts es f r q acc g hn hf hf2 hf3
      cases g with
      | @one ts e g =>
        obtain ⟨t, ts', hts, -⟩ := g.start
        have hl : ts.length ≠ 0 := by rw [hts]; simp
        obtain ⟨m, rfl⟩ : ∃ m, n = m + 3 := ⟨n - 3, by omega⟩
        have h1 := ihO _ _ f r q g (by omega) hf hf2
        have h2 := pAndl_none (E := E) (n := m) (acc := acc ++ [e]) (s := ⟨f, r, later q (needs e)⟩) hf3 hf2
        rw [pAndl, h1]
        simp only [ok_bind, needsL, later_any]
        exact h2
      | @more ts e us es g g2 =>
        obtain ⟨t, ts', hts, -⟩ := g.start
        obtain ⟨u, us', hus, hu⟩ := g2.start
        simp only [List.length_append] at hn
        have hl : ts.length ≠ 0 := by rw [hts]; simp
        have hu' := termStart_ne hu
        have h1 := ihO _ _ u (us' ++ f :: r) q g (by omega) hu'.1 hu'.2.1
        have h2 := ihA _ _ f r (later q (needs e)) (acc ++ [e]) g2 (by omega) hf hf2 hf3
        subst hus
        simp only [List.append_assoc, List.cons_append] at h1 h2 ⊢
        simp only [pAndl, h1, ok_bind]
        rw [mkSt_cons] at h2
        rw [h2]
        simp [needsL, later_assoc]

/-! ### With clauses, rules, files -/

theorem pWClause_complete {E : PEnv} {w ts w'} (g : WTerms w ts w') :
    ∀ (n : Nat) (got : Bool) (f : Item) (r : List Item) (q : Phase), ts.length + 1 ≤ n →
      (f.typ = .semicolon ∨ f.typ = .eol ∨ f.typ = .eof) →
      pWClause E n w got (mkSt (ts ++ f :: r) q) = .ok ((w', got || !ts.isEmpty), ⟨f, r, q⟩) := by
  induction g with
  | nil =>
    intro n got f r q hn hf
    obtain ⟨m, rfl⟩ : ∃ m, n = m + 1 := ⟨n - 1, by omega⟩
    rcases hf with hf | hf | hf <;> simp [pWClause, hf]
  | message ht hr ha g ih =>
    intro n got f r q hn hf
    simp only [List.length_cons] at hn
    obtain ⟨m, rfl⟩ : ∃ m, n = m + 1 := ⟨n - 1, by omega⟩
    have := ih m true f r q (by omega) hf
    simp only [List.cons_append, mkSt_cons, pWClause, ht, if_neg (getD_nil.mpr hr), consume_mk' ht, ok_bind, pArg_mk ha, this]
    simp
  | note ht hr ha hnl g ih =>
    intro n got f r q hn hf
    simp only [List.length_cons] at hn
    obtain ⟨m, rfl⟩ : ∃ m, n = m + 1 := ⟨n - 1, by omega⟩
    have := ih m true f r q (by omega) hf
    have hnl' : ¬ (indexByte _ c!"\n").isSome = true := fun h => hnl (indexByte_isSome.mp h)
    simp only [List.cons_append, mkSt_cons, pWClause, ht, if_neg (getD_nil.mpr hr), consume_mk' ht, ok_bind, pArg_mk ha,
      if_neg hnl', this]
    simp
  | savedir ht hr ha g ih =>
    intro n got f r q hn hf
    simp only [List.length_cons] at hn
    obtain ⟨m, rfl⟩ : ∃ m, n = m + 1 := ⟨n - 1, by omega⟩
    have := ih m true f r q (by omega) hf
    simp only [List.cons_append, mkSt_cons, pWClause, ht, if_neg (getD_nil.mpr hr), consume_mk' ht, ok_bind, pArg_mk ha, this]
    simp
  | @tlsOpt w it a ts w' ht hr ha hv g ih =>
    intro n got f r q hn hf
    simp only [List.length_cons] at hn
    obtain ⟨m, rfl⟩ : ∃ m, n = m + 1 := ⟨n - 1, by omega⟩
    have := ih m true f r q (by omega) hf
    have hv' : ¬ (a.val ≠ b!"off" ∧ a.val ≠ b!"no-client") := by tauto
    have hr' : ¬ (w.tlsOpt.isSome = true) := by rw [hr]; simp
    simp only [List.cons_append, mkSt_cons, pWClause, ht, if_neg hr', consume_mk' ht, ok_bind, pArg_mk ha, if_neg hv', this]
    simp
  | @makeYakker w it ts w' ht hr g ih =>
    intro n got f r q hn hf
    simp only [List.length_cons] at hn
    obtain ⟨m, rfl⟩ : ∃ m, n = m + 1 := ⟨n - 1, by omega⟩
    have := ih m true f r q (by omega) hf
    have hr' : ¬ (w.makeYakker.isSome = true) := by rw [hr]; simp
    simp only [List.cons_append, mkSt_cons, pWClause, ht, if_neg hr', consume_mk' ht, ok_bind, this]
    simp

/-- The tokens that can follow a clause. -/
def ClauseEnd (f : Item) : Prop := f.typ = .semicolon ∨ f.typ = .eol ∨ f.typ = .eof

theorem ClauseEnd.facts {f : Item} (h : ClauseEnd f) : f.typ ≠ .comma ∧ f.typ ≠ .kw .or ∧ termStart f.typ = false ∧
    f.typ ≠ .kw .with_ ∧ ∀ r q, isERule ⟨f, r, q⟩ = true := by
  rcases h with h | h | h <;> simp [h, termStart, isERule, isEol]

/-- `pAndl` and `pWith` read a clause. -/
theorem clause_complete {E : PEnv} {ts : List Item} {c : RClause} (g : Clause E.lib ts c) {n : Nat} (hn : 3 * ts.length + 3 ≤ n)
    {f : Item} (hf : ClauseEnd f) (r : List Item) (q : Phase) :
    ∃ s1, pAndl E n [] (mkSt (ts ++ f :: r) q) = .ok (some c.expr, s1) ∧
      pWith E n s1 = .ok (c.withs, ⟨f, r, later q (needs c.expr)⟩) := by
  obtain ⟨hf1, hf2, hf3, hf4, hf5⟩ := hf.facts
  cases g with
  | @plain _ es g =>
    refine ⟨⟨f, r, later q (needs (conj es))⟩, ?_, ?_⟩
    · rw [(parse_complete E n).2.2 _ _ f r q [] g hn hf1 hf2 hf3, List.nil_append, mkAnd_eq g.ne_nil, needs_conj]
    · simp [pWith, hf4]
  | @withs ts es wi us w g hwi hus gw =>
    simp only [List.length_append, List.length_cons] at hn
    refine ⟨⟨wi, us ++ f :: r, later q (needs (conj es))⟩, ?_, ?_⟩
    · have := (parse_complete E n).2.2 _ _ wi (us ++ f :: r) q [] g (by omega) (by rw [hwi]; simp) (by rw [hwi]; simp)
        (by rw [hwi]; rfl)
      simp only [List.append_assoc, List.cons_append]
      rw [this, List.nil_append, mkAnd_eq g.ne_nil, needs_conj]
    · have := pWClause_complete (E := E) gw n false f r (later q (needs (conj es))) (by omega) hf
      have hne : (!us.isEmpty) = true := by cases us with | nil => exact absurd rfl hus | cons => rfl
      simp only [pWith, hwi, ne_eq, not_true_eq_false, if_false, consume_mk' hwi, ok_bind, this, hf5, hne]
      simp

theorem set_cond {act : Action} {w : Withs} (h : act = .noresult → w ≠ {}) : ¬ (act = .noresult ∧ w.isEmpty = true) := by
  rintro ⟨ha, hw⟩
  exact h ha (by simpa [Withs.isEmpty] using hw)

theorem Gram.Clause.start {L ts c} (h : Clause L ts c) : ∃ t ts', ts = t :: ts' ∧ termStart t.typ = true := by
  cases h with
  | plain h => exact h.start
  | withs h _ _ _ => obtain ⟨t, ts', rfl, ht⟩ := h.start; exact ⟨t, _, rfl, ht⟩

theorem Gram.Clauses.start {L act ts cs} (h : Clauses L act ts cs) : ∃ t ts', ts = t :: ts' ∧ termStart t.typ = true := by
  cases h with
  | one h _ => exact h.start
  | more h _ _ _ => obtain ⟨t, ts', rfl, ht⟩ := h.start; exact ⟨t, _, rfl, ht⟩
  | moreNl h _ _ _ _ => obtain ⟨t, ts', rfl, ht⟩ := h.start; exact ⟨t, _, rfl, ht⟩

theorem pRClause_complete {E : PEnv} {act : Action} {ts : List Item} {cs : List RClause} (g : Clauses E.lib act ts cs) {n : Nat} :
    ∀ (k : Nat) (cls : List RClause) (f : Item) (r : List Item) (q : Phase), 3 * ts.length + 3 ≤ n → ts.length + 1 ≤ k →
      (f.typ = .eol ∨ f.typ = .eof) →
      pRClause E act n k cls (mkSt (ts ++ f :: r) q) = .ok (cls ++ cs, ⟨f, r, later q (needsC cs)⟩) := by
  induction g with
  | @one ts c g hs =>
    intro k cls f r q hn hk hf
    obtain ⟨m, rfl⟩ : ∃ m, k = m + 1 := ⟨k - 1, by omega⟩
    have hce : ClauseEnd f := .inr hf
    obtain ⟨s1, h1, h2⟩ := clause_complete g hn hce r q
    have he := hce.facts.2.2.2.2
    have hl : isEol ⟨f, r, later q (needs c.expr)⟩ = true := by simp [isEol, hf]
    simp only [pRClause, h1, ok_bind, h2, he, Bool.not_true, Bool.false_eq_true, if_false, if_neg (set_cond hs), hl, if_true,
      pure_eq_ok, needsC, later_any]
  | @more ts c sc us cs g hs hsc g2 ih =>
    intro k cls f r q hn hk hf
    simp only [List.length_append, List.length_cons] at hn hk
    obtain ⟨m, rfl⟩ : ∃ m, k = m + 1 := ⟨k - 1, by omega⟩
    have hce : ClauseEnd sc := .inl hsc
    obtain ⟨s1, h1, h2⟩ := clause_complete g (by omega : 3 * ts.length + 3 ≤ n) hce (us ++ f :: r) q
    have he := hce.facts.2.2.2.2
    have hl : isEol ⟨sc, us ++ f :: r, later q (needs c.expr)⟩ = false := by simp [isEol, hsc]
    have := ih m (cls ++ [c]) f r (later q (needs c.expr)) (by omega) (by omega) hf
    obtain ⟨u, us', hus, hu⟩ := g2.start
    have hne := (termStart_ne hu).2.2.2.2.1
    subst hus
    simp only [List.append_assoc, List.cons_append, mkSt_cons] at h1 h2 hl this ⊢
    simp only [pRClause, h1, ok_bind, h2, he, Bool.not_true, Bool.false_eq_true, if_false, if_neg (set_cond hs), hl,
      consume_mk' hsc, mkSt_cons, if_neg hne, this, needsC, later_assoc]
    simp
  | @moreNl ts c sc nl us cs g hs hsc hnl g2 ih =>
    intro k cls f r q hn hk hf
    simp only [List.length_append, List.length_cons] at hn hk
    obtain ⟨m, rfl⟩ : ∃ m, k = m + 1 := ⟨k - 1, by omega⟩
    have hce : ClauseEnd sc := .inl hsc
    obtain ⟨s1, h1, h2⟩ := clause_complete g (by omega : 3 * ts.length + 3 ≤ n) hce (nl :: (us ++ f :: r)) q
    have he := hce.facts.2.2.2.2
    have hl : isEol ⟨sc, nl :: (us ++ f :: r), later q (needs c.expr)⟩ = false := by simp [isEol, hsc]
    have := ih m (cls ++ [c]) f r (later q (needs c.expr)) (by omega) (by omega) hf
    simp only [List.append_assoc, List.cons_append] at h1 h2 hl this ⊢
    simp only [pRClause, h1, ok_bind, h2, he, Bool.not_true, Bool.false_eq_true, if_false, if_neg (set_cond hs), hl,
      consume_mk' hsc, mkSt_cons, hnl, if_true, consume_mk' hnl, this, needsC, later_assoc]
    simp

/-- The state after a statement that ends with `f`. -/
def afterEnd (f : Item) (r : List Item) (q : Phase) : PSt := if f.typ = .eof then ⟨f, r, q⟩ else mkSt r q

theorem consume_end {f : Item} (hf : f.typ = .eol ∨ f.typ = .eof) (r q) : consume ⟨f, r, q⟩ = .ok (afterEnd f r q) := by
  rcases hf with hf | hf
  · simp [afterEnd, hf, consume_mk' hf]
  · simp [afterEnd, hf, consume]

theorem pRule_complete {E : PEnv} {ts : List Item} {ru : Rule} (g : RuleG E.lib ts ru) {n : Nat} (hn : 3 * ts.length + 3 ≤ n)
    {f : Item} (hf : f.typ = .eol ∨ f.typ = .eof) (r : List Item) (q : Phase) :
    pRule E n (mkSt (ts ++ f :: r) q) = .ok (some ru, afterEnd f r ru.requires) := by
  cases g with
  | @plain ai ak a ts cs hai haw g =>
    simp only [List.length_cons] at hn
    have := pRClause_complete g (n := n) n [] f r .any (by omega) (by omega) hf
    have h0 : phaseOf ai.typ = .any := by rw [hai]; cases haw <;> rfl
    have h1 : actionOf ai.typ = a := by rw [hai]; cases haw <;> rfl
    have h2 : a ≠ .error := by cases haw <;> simp
    have h3 : ai.typ ≠ .eof := by rw [hai]; simp
    simp only [List.cons_append, mkSt_cons, pRule, if_neg h3, pPhase, h0, ne_eq, not_true_eq_false, if_false, ok_bind, h1, h2,
      consume_mk' hai, this, List.nil_append, any_later, false_and, consume_end hf, pure_eq_ok]
  | @phased pi pk ph ai ak a ts cs hpi hpw hai haw g hle =>
    simp only [List.length_cons] at hn
    have := pRClause_complete g (n := n) n [] f r .any (by omega) (by omega) hf
    have h0 : phaseOf pi.typ = ph := by rw [hpi]; cases hpw <;> rfl
    have h0' : ph ≠ .any := by cases hpw <;> simp
    have h1 : actionOf ai.typ = a := by rw [hai]; cases haw <;> rfl
    have h2 : a ≠ .error := by cases haw <;> simp
    have h3 : pi.typ ≠ .eof := by rw [hpi]; simp
    have h4 : ¬ (ph < needsC cs) := later_le_iff.mpr hle
    simp only [List.cons_append, mkSt_cons, pRule, if_neg h3, pPhase, h0, ne_eq, h0', not_false_eq_true, if_true, ok_bind, h1, h2,
      consume_mk' hpi, consume_mk' hai, this, List.nil_append, any_later, h4, and_false, consume_end hf, pure_eq_ok, if_false]

theorem pInclude_complete {E : PEnv} {load : Str → Except Fail (List Rule)} {it a : Item} {rs : List Rule}
    (ht : it.typ = .kw .include_) (ha : IsArg a) (hl : load a.val = .ok rs) {f : Item} (hf : f.typ = .eol ∨ f.typ = .eof)
    (r : List Item) (q : Phase) : pInclude E load ⟨it, a :: f :: r, q⟩ = .ok (rs, afterEnd f r q) := by
  have he : isEol ⟨f, r, q⟩ = true := by simp [isEol, hf]
  simp only [pInclude, consume_mk' ht, mkSt_cons, ok_bind, pArg_mk ha, hl, he, Bool.not_true, Bool.false_eq_true, if_false,
    consume_end hf, pure_eq_ok]

theorem RuleG_head {L ts r} (g : RuleG L ts r) : ∃ t ts', ts = t :: ts' ∧ t.typ ≠ .kw .include_ ∧ t.typ ≠ .eof := by
  cases g with
  | plain h hw _ => exact ⟨_, _, rfl, by rw [h]; cases hw <;> simp, by rw [h]; simp⟩
  | phased h hw _ _ _ _ => exact ⟨_, _, rfl, by rw [h]; cases hw <;> simp, by rw [h]; simp⟩

theorem pFile_eof {E : PEnv} {load n k i rules q} {e : Item} (h : e.typ = .eof) :
    pFile E load n (k + 1) i rules ⟨e, [], q⟩ = .ok rules := by
  simp [pFile, h, pRule]

theorem stmt_complete {E : PEnv} {load : Nat → Str → Except Fail (List Rule)} {i : Nat} {ts : List Item} {rs : List Rule}
    (g : Stmt E.lib (fun i f rs => load i f = .ok rs) i ts rs) {n k : Nat} (hn : 3 * ts.length + 3 ≤ n) {f : Item}
    (hf : f.typ = .eol) (u : Item) (r : List Item) (q : Phase) (rules : List Rule) :
    ∃ q', pFile E load n (k + 1) i rules (mkSt (ts ++ f :: u :: r) q) =
      if u.typ = .eof ∧ (∀ t ∈ ts.head?, t.typ ≠ .kw .include_) then .ok (rules ++ rs)
      else pFile E load n k (i + 1) (rules ++ rs) ⟨u, r, q'⟩ := by
  cases g with
  | @rule _ ru gr =>
    have := pRule_complete gr hn (.inl hf) (u :: r) q
    obtain ⟨t, ts', rfl, ht, -⟩ := RuleG_head gr
    simp only [afterEnd, hf, reduceCtorEq, if_false, mkSt_cons, List.cons_append] at this ⊢
    refine ⟨ru.requires, ?_⟩
    rw [pFile, if_neg ht, this]
    simp [ht]
  | @incl it a _ ht ha hl =>
    have := pInclude_complete (E := E) (load := load i) ht ha hl (.inl hf) (u :: r) q
    simp only [afterEnd, hf, reduceCtorEq, if_false, mkSt_cons, List.cons_append, List.nil_append] at this ⊢
    refine ⟨q, ?_⟩
    rw [pFile, if_pos ht, this]
    simp [ht]

theorem File.head {L Incl i us qs} (g : File L Incl i us qs) : ∃ u r, us = u :: r ∧ (u.typ = .eof → qs = [] ∧ r = []) := by
  cases g with
  | eof h => exact ⟨_, _, rfl, fun _ => ⟨rfl, rfl⟩⟩
  | last g h =>
    cases g with
    | rule gr => obtain ⟨t, ts', rfl, -, ht⟩ := RuleG_head gr; exact ⟨t, _, rfl, fun h => absurd h ht⟩
    | incl ht _ _ => exact ⟨_, _, rfl, fun h => by rw [ht] at h; cases h⟩
  | line g h _ =>
    cases g with
    | rule gr => obtain ⟨t, ts', rfl, -, ht⟩ := RuleG_head gr; exact ⟨t, _, rfl, fun h => absurd h ht⟩
    | incl ht _ _ => exact ⟨_, _, rfl, fun h => by rw [ht] at h; cases h⟩

theorem pFile_complete {E : PEnv} {load : Nat → Str → Except Fail (List Rule)} {i : Nat} {ts : List Item} {rs : List Rule}
    (g : File E.lib (fun i f rs => load i f = .ok rs) i ts rs) (n : Nat) :
    ∀ (k : Nat) (rules : List Rule) (q : Phase), 3 * ts.length + 3 ≤ n → ts.length ≤ k →
      pFile E load n k i rules (mkSt ts q) = .ok (rules ++ rs) := by
  induction g with
  | eof h =>
    intro k rules q hn hk
    simp only [List.length_cons, List.length_nil] at hk
    obtain ⟨m, rfl⟩ : ∃ m, k = m + 1 := ⟨k - 1, by omega⟩
    rw [mkSt_cons, pFile_eof h]; simp
  | @last i ts rs e g h =>
    intro k rules q hn hk
    simp only [List.length_append, List.length_cons, List.length_nil] at hn hk
    cases g with
    | @rule _ ru gr =>
      obtain ⟨m, rfl⟩ : ∃ m, k = m + 1 := ⟨k - 1, by omega⟩
      have := pRule_complete gr (n := n) (by omega) (.inr h) [] q
      obtain ⟨t, ts', rfl, ht, -⟩ := RuleG_head gr
      simp only [afterEnd, h, if_true, mkSt_cons, List.cons_append] at this ⊢
      rw [pFile, if_neg ht, this]
      simp [h]
    | @incl it a _ ht ha hl =>
      simp only [List.length_cons, List.length_nil] at hk
      obtain ⟨m, rfl⟩ : ∃ m, k = m + 2 := ⟨k - 2, by omega⟩
      have := pInclude_complete (E := E) (load := load i) ht ha hl (.inr h) [] q
      simp only [afterEnd, h, if_true, mkSt_cons, List.cons_append, List.nil_append] at this ⊢
      rw [pFile, if_pos ht, this]
      simp only [ok_bind, pFile_eof h]
  | @line i ts rs nl us qs g h g2 ih =>
    intro k rules q hn hk
    simp only [List.length_append, List.length_cons] at hn hk
    obtain ⟨m, rfl⟩ : ∃ m, k = m + 1 := ⟨k - 1, by omega⟩
    obtain ⟨u, r, rfl, hu⟩ := File.head g2
    obtain ⟨q', he⟩ := stmt_complete g (n := n) (k := m) (by omega) h u r q rules
    rw [he]
    split
    · rename_i hc; rw [(hu hc.1).1]; simp
    · have := ih m (rules ++ rs) q' (by omega) (by omega)
      rw [mkSt_cons] at this
      rw [this]; simp

end Sink
