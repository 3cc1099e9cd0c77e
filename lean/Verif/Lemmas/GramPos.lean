import Verif.Lemmas.ParseSafe
import Verif.Spec.Lex

/-!
# The grammar looks at token types and values only; running the parser over leading statements
-/

namespace Sink

open Gram

/-- Equal types and values. -/
abbrev SameTv (ts ts' : List Item) : Prop := ts'.map Item.tv = ts.map Item.tv

theorem tv_eq {a b : Item} (h : a.tv = b.tv) : a.typ = b.typ ∧ a.val = b.val := by
  simpa [Item.tv] using h

theorem SameTv.cons_inv {t r ts'} (h : SameTv (t :: r) ts') : ∃ t' r', ts' = t' :: r' ∧ t'.typ = t.typ ∧ t'.val = t.val ∧ SameTv r r' := by
  obtain ⟨t', r', rfl, h1, h2⟩ := List.map_eq_cons_iff.mp h
  exact ⟨t', r', rfl, (tv_eq h1).1, (tv_eq h1).2, h2⟩

theorem SameTv.append_inv {a b ts'} (h : SameTv (a ++ b) ts') : ∃ a' b', ts' = a' ++ b' ∧ SameTv a a' ∧ SameTv b b' := by
  rw [SameTv, List.map_append] at h
  obtain ⟨a', b', rfl, h1, h2⟩ := List.map_eq_append_iff.mp h
  exact ⟨a', b', rfl, h1, h2⟩

theorem SameTv.nil_inv {ts'} (h : SameTv [] ts') : ts' = [] := by simpa [SameTv] using h

theorem Gram.IsArg.tv {a a' : Item} (ht : a'.typ = a.typ) (h : IsArg a) : IsArg a' := by unfold IsArg; rw [ht]; exact h
theorem Gram.IsIPArg.tv {L} {a a' : Item} (ht : a'.typ = a.typ) (hv : a'.val = a.val) (h : IsIPArg L a) : IsIPArg L a' := by
  unfold IsIPArg; rw [ht, hv]; exact h
theorem Gram.IsDomain.tv {a a' : Item} {d} (ht : a'.typ = a.typ) (hv : a'.val = a.val) (h : Gram.IsDomain a d) : Gram.IsDomain a' d := by
  unfold Gram.IsDomain; rw [ht, hv]; exact h

theorem Gram.Opts.tv {c ts o} (h : Opts c ts o) : ∀ {ts'}, SameTv ts ts' → Opts c ts' o := by
  induction h with
  | one h1 h2 =>
    intro ts' hs
    obtain ⟨t', r', rfl, ht, hv, hr⟩ := hs.cons_inv
    cases hr.nil_inv
    exact .one (ht ▸ h1) h2
  | more h1 h2 h3 _ ih =>
    intro ts' hs
    obtain ⟨t', r', rfl, ht, hv, hr⟩ := hs.cons_inv
    obtain ⟨u', r2, rfl, hu, -, hr⟩ := hr.cons_inv
    exact .more (ht ▸ h1) h2 (hu ▸ h3) (ih hr)

theorem gram_tv (L : Lib) :
    (∀ ts e, Term L ts e → ∀ ts', SameTv ts ts' → Term L ts' e) ∧
    (∀ ts e, Orl L ts e → ∀ ts', SameTv ts ts' → Orl L ts' e) ∧
    (∀ ts es, Andl L ts es → ∀ ts', SameTv ts ts' → Andl L ts' es) := by
  have key : ∀ n : Nat, (∀ ts e, Term L ts e → 3 * ts.length ≤ n → ∀ ts', SameTv ts ts' → Term L ts' e) ∧
    (∀ ts e, Orl L ts e → 3 * ts.length + 1 ≤ n → ∀ ts', SameTv ts ts' → Orl L ts' e) ∧
    (∀ ts es, Andl L ts es → 3 * ts.length + 2 ≤ n → ∀ ts', SameTv ts ts' → Andl L ts' es) := by
    intro n
    induction n with
    | zero =>
      refine ⟨?_, fun _ _ _ h => by omega, fun _ _ _ h => by omega⟩
      intro ts e h hl
      obtain ⟨t, ts', rfl, -⟩ := h.start
      simp at hl
    | succ n ih =>
      obtain ⟨ihT, ihO, ihA⟩ := ih
      refine ⟨?_, ?_, ?_⟩
      · intro ts e h hl ts' hs
        cases h with
        | arg ho hk ha =>
          obtain ⟨t', r', rfl, ht, hv, hr⟩ := hs.cons_inv
          obtain ⟨u', r2, rfl, hu, hv, hr⟩ := hr.cons_inv
          cases hr.nil_inv
          rw [← hv]; exact .arg ho (ht ▸ hk) (ha.tv hu)
        | ip hk ha =>
          obtain ⟨t', r', rfl, ht, hv, hr⟩ := hs.cons_inv
          obtain ⟨u', r2, rfl, hu, hv, hr⟩ := hr.cons_inv
          cases hr.nil_inv
          rw [← hv]; exact .ip (ht ▸ hk) (ha.tv hu hv)
        | dnsbl hk ha =>
          obtain ⟨t', r', rfl, ht, hv, hr⟩ := hs.cons_inv
          obtain ⟨u', r2, rfl, hu, hv, hr⟩ := hr.cons_inv
          cases hr.nil_inv
          exact .dnsbl (ht ▸ hk) (ha.tv hu hv)
        | tlsOn hk ha =>
          obtain ⟨t', r', rfl, ht, hv, hr⟩ := hs.cons_inv
          obtain ⟨u', r2, rfl, hu, hv, hr⟩ := hr.cons_inv
          cases hr.nil_inv
          exact .tlsOn (ht ▸ hk) (hu ▸ ha)
        | tlsOff hk ha =>
          obtain ⟨t', r', rfl, ht, hv, hr⟩ := hs.cons_inv
          obtain ⟨u', r2, rfl, hu, hv, hr⟩ := hr.cons_inv
          cases hr.nil_inv
          exact .tlsOff (ht ▸ hk) (hu ▸ ha)
        | all hk =>
          obtain ⟨t', r', rfl, ht, hv, hr⟩ := hs.cons_inv
          cases hr.nil_inv
          exact .all (ht ▸ hk)
        | has ho hk hos =>
          obtain ⟨t', r', rfl, ht, hv, hr⟩ := hs.cons_inv
          exact .has ho (ht ▸ hk) (hos.tv hr)
        | dbl hk hos hd =>
          obtain ⟨t', r', rfl, ht, hv, hr⟩ := hs.cons_inv
          obtain ⟨a', b', rfl, h1, h2⟩ := hr.append_inv
          obtain ⟨u', r2, rfl, hu, hv, hr⟩ := h2.cons_inv
          cases hr.nil_inv
          exact .dbl (ht ▸ hk) (hos.tv h1) (hd.tv hu hv)
        | not_ hk h =>
          obtain ⟨t', r', rfl, ht, hv, hr⟩ := hs.cons_inv
          exact .not_ (ht ▸ hk) (ihT _ _ h (by simp only [List.length_append, List.length_cons] at hl; omega) _ hr)
        | paren hk h hr' =>
          obtain ⟨t', r', rfl, ht, hv, hr⟩ := hs.cons_inv
          obtain ⟨a', b', rfl, h1, h2⟩ := hr.append_inv
          obtain ⟨u', r2, rfl, hu, hv, hr⟩ := h2.cons_inv
          cases hr.nil_inv
          exact .paren (ht ▸ hk) (ihA _ _ h (by simp only [List.length_append, List.length_cons] at hl; omega) _ h1) (hu ▸ hr')
      · intro ts e h hl ts' hs
        cases h with
        | one h => exact .one (ihT _ _ h (by omega) _ hs)
        | or h ho h2 =>
          obtain ⟨a', b', rfl, h1, hb⟩ := hs.append_inv
          obtain ⟨u', r2, rfl, hu, hv, hr⟩ := hb.cons_inv
          exact .or (ihT _ _ h (by simp only [List.length_append, List.length_cons] at hl; omega) _ h1) (hu ▸ ho) (ihO _ _ h2 (by simp only [List.length_append, List.length_cons] at hl; omega) _ hr)
      · intro ts e h hl ts' hs
        cases h with
        | one h => exact .one (ihO _ _ h (by omega) _ hs)
        | more h h2 =>
          obtain ⟨a', b', rfl, h1, hb⟩ := hs.append_inv
          exact .more (ihO _ _ h (by simp only [List.length_append] at hl; omega) _ h1) (ihA _ _ h2 (by obtain ⟨t, ts2, rfl, -⟩ := h.start; simp only [List.length_append, List.length_cons] at hl; omega) _ hb)
  exact ⟨fun ts e h => (key _).1 ts e h le_rfl, fun ts e h => (key _).2.1 ts e h le_rfl, fun ts e h => (key _).2.2 ts e h le_rfl⟩

theorem Gram.Andl.tv {L ts es} (h : Andl L ts es) {ts'} (hs : SameTv ts ts') : Andl L ts' es := (gram_tv L).2.2 _ _ h _ hs

theorem Gram.WTerms.tv {w ts w'} (h : WTerms w ts w') : ∀ {ts'}, SameTv ts ts' → WTerms w ts' w' := by
  induction h with
  | nil => intro ts' hs; cases hs.nil_inv; exact .nil
  | message h1 h2 h3 _ ih =>
    intro ts' hs
    obtain ⟨t', r', rfl, ht, hv, hr⟩ := hs.cons_inv
    obtain ⟨u', r2, rfl, hu, hv, hr⟩ := hr.cons_inv
    exact .message (ht ▸ h1) h2 (h3.tv hu) (hv ▸ ih hr)
  | note h1 h2 h3 h4 _ ih =>
    intro ts' hs
    obtain ⟨t', r', rfl, ht, hv, hr⟩ := hs.cons_inv
    obtain ⟨u', r2, rfl, hu, hv, hr⟩ := hr.cons_inv
    exact .note (ht ▸ h1) h2 (h3.tv hu) (hv ▸ h4) (hv ▸ ih hr)
  | savedir h1 h2 h3 _ ih =>
    intro ts' hs
    obtain ⟨t', r', rfl, ht, hv, hr⟩ := hs.cons_inv
    obtain ⟨u', r2, rfl, hu, hv, hr⟩ := hr.cons_inv
    exact .savedir (ht ▸ h1) h2 (h3.tv hu) (hv ▸ ih hr)
  | tlsOpt h1 h2 h3 h4 _ ih =>
    intro ts' hs
    obtain ⟨t', r', rfl, ht, hv, hr⟩ := hs.cons_inv
    obtain ⟨u', r2, rfl, hu, hv, hr⟩ := hr.cons_inv
    exact .tlsOpt (ht ▸ h1) h2 (h3.tv hu) (hv ▸ h4) (hv ▸ ih hr)
  | makeYakker h1 h2 _ ih =>
    intro ts' hs
    obtain ⟨t', r', rfl, ht, hv, hr⟩ := hs.cons_inv
    exact .makeYakker (ht ▸ h1) h2 (ih hr)

theorem Gram.Clause.tv {L ts c} (h : Clause L ts c) {ts'} (hs : SameTv ts ts') : Clause L ts' c := by
  cases h with
  | plain h => exact .plain (h.tv hs)
  | withs h h1 h2 h3 =>
    obtain ⟨a', b', rfl, ha, hb⟩ := hs.append_inv
    obtain ⟨u', r2, rfl, hu, hv, hr⟩ := hb.cons_inv
    refine .withs (h.tv ha) (hu ▸ h1) ?_ (h3.tv hr)
    rintro rfl; apply h2; simpa [SameTv, eq_comm] using hr

theorem Gram.Clauses.tv {L act ts cs} (h : Clauses L act ts cs) : ∀ {ts'}, SameTv ts ts' → Clauses L act ts' cs := by
  induction h with
  | one h h1 => intro ts' hs; exact .one (h.tv hs) h1
  | more h h1 h2 _ ih =>
    intro ts' hs
    obtain ⟨a', b', rfl, ha, hb⟩ := hs.append_inv
    obtain ⟨u', r2, rfl, hu, hv, hr⟩ := hb.cons_inv
    exact .more (h.tv ha) h1 (hu ▸ h2) (ih hr)
  | moreNl h h1 h2 h3 _ ih =>
    intro ts' hs
    obtain ⟨a', b', rfl, ha, hb⟩ := hs.append_inv
    obtain ⟨u', r2, rfl, hu, hv, hr⟩ := hb.cons_inv
    obtain ⟨u2, r2, rfl, hu2, hv, hr⟩ := hr.cons_inv
    exact .moreNl (h.tv ha) h1 (hu ▸ h2) (hu2 ▸ h3) (ih hr)

theorem Gram.RuleG.tv {L ts r} (h : RuleG L ts r) {ts'} (hs : SameTv ts ts') : RuleG L ts' r := by
  cases h with
  | plain h1 h2 h3 =>
    obtain ⟨u', r2, rfl, hu, hv, hr⟩ := hs.cons_inv
    exact .plain (hu ▸ h1) h2 (h3.tv hr)
  | phased h1 h2 h3 h4 h5 h6 =>
    obtain ⟨u', r2, rfl, hu, hv, hr⟩ := hs.cons_inv
    obtain ⟨u2, r2, rfl, hu2, hv, hr⟩ := hr.cons_inv
    exact .phased (hu ▸ h1) h2 (hu2 ▸ h3) h4 (h5.tv hr) h6

theorem Gram.Stmt.tv {L I i ts r} (h : Stmt L I i ts r) {ts'} (hs : SameTv ts ts') : Stmt L I i ts' r := by
  cases h with
  | rule h => exact .rule (h.tv hs)
  | incl h1 h2 h3 =>
    obtain ⟨t', r', rfl, ht, hv, hr⟩ := hs.cons_inv
    obtain ⟨u', r2, rfl, hu, hv, hr⟩ := hr.cons_inv
    cases hr.nil_inv
    exact .incl (ht ▸ h1) (h2.tv hu) (hv ▸ h3)

theorem Gram.File.tv {L I i ts r} (h : File L I i ts r) : ∀ {ts'}, SameTv ts ts' → File L I i ts' r := by
  induction h with
  | eof h =>
    intro ts' hs
    obtain ⟨t', r', rfl, ht, hv, hr⟩ := hs.cons_inv
    cases hr.nil_inv
    exact .eof (ht ▸ h)
  | last h h2 =>
    intro ts' hs
    obtain ⟨a', b', rfl, ha, hb⟩ := hs.append_inv
    obtain ⟨t', r', rfl, ht, hv, hr⟩ := hb.cons_inv
    cases hr.nil_inv
    exact .last (h.tv ha) (ht ▸ h2)
  | line h h2 _ ih =>
    intro ts' hs
    obtain ⟨a', b', rfl, ha, hb⟩ := hs.append_inv
    obtain ⟨t', r', rfl, ht, hv, hr⟩ := hb.cons_inv
    exact .line (h.tv ha) (ht ▸ h2) (ih hr)

/-! ### Leading statements -/

theorem Gram.Lines.nil_inv {L I i qs j} (h : Lines L I i [] qs j) : qs = [] ∧ i = j := by
  generalize hx : ([] : List Item) = us at h
  cases h with
  | nil => exact ⟨rfl, rfl⟩
  | cons => simp at hx

theorem Gram.Lines.head_ne {L I i v us qs j} (h : Lines L I i (v :: us) qs j) : v.typ ≠ .eof := by
  generalize hx : (v :: us) = ws at h
  cases h with
  | nil => simp at hx
  | cons g _ _ =>
    cases g with
    | rule gr =>
      obtain ⟨t, ts', rfl, -, ht⟩ := RuleG_head gr
      simp only [List.cons_append, List.cons.injEq] at hx; rw [hx.1]; exact ht
    | incl hk _ _ =>
      simp only [List.cons_append, List.cons.injEq] at hx; rw [hx.1, hk]; simp

/-- Running `pFile` over complete leading statements. -/
theorem pFile_lines {E : PEnv} {load : Nat → Str → Except Fail (List Rule)} {i j : Nat} {us : List Item} {r1 : List Rule}
    (h : Lines E.lib (fun i f rs => load i f = .ok rs) i us r1 j) (u : Item) (hu : u.typ ≠ .eof) (r : List Item) (n : Nat) :
    ∀ (k : Nat) (rules : List Rule) (q : Phase), 3 * (us.length + 1) + 3 ≤ n → us.length ≤ k →
      ∃ k' q', k ≤ k' + us.length ∧ pFile E load n k i rules (mkSt (us ++ u :: r) q) = pFile E load n k' j (rules ++ r1) ⟨u, r, q'⟩ := by
  induction h with
  | nil => intro k rules q _ _; exact ⟨k, q, by simp, by simp⟩
  | @cons i ts rs nl us qs j g hnl h ih =>
    intro k rules q hn hk
    simp only [List.length_append, List.length_cons] at hn hk
    obtain ⟨k, rfl⟩ : ∃ m, k = m + 1 := ⟨k - 1, by omega⟩
    cases us with
    | nil =>
      obtain ⟨rfl, rfl⟩ : qs = [] ∧ i + 1 = j := h.nil_inv
      obtain ⟨q', he⟩ := stmt_complete g (n := n) (k := k) (by omega) hnl u r q rules
      refine ⟨k, q', by simp, ?_⟩
      simp only [List.append_assoc, List.cons_append, List.nil_append, List.append_nil]
      rw [he, if_neg (by simp [hu])]
    | cons v us =>
      obtain ⟨q', he⟩ := stmt_complete g (n := n) (k := k) (by omega) hnl v (us ++ u :: r) q rules
      have hv : v.typ ≠ .eof := h.head_ne
      rw [if_neg (by simp [hv])] at he
      obtain ⟨k', q2, hk', he2⟩ := ih k (rules ++ rs) q' (by simp only [List.length_cons] at *; omega) (by simp only [List.length_cons] at *; omega)
      refine ⟨k', q2, by simp only [List.length_append, List.length_cons] at *; omega, ?_⟩
      simp only [List.append_assoc, List.cons_append, mkSt_cons] at he he2 ⊢
      rw [he, he2]

end Sink
