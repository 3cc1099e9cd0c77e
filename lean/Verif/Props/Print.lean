import Verif.Lemmas.PrintOpts
import Verif.Props.Parse

/-! # C09: printing a rule and parsing it gives the rule back -/

namespace Sink

open Gram (Term Orl Andl Clause Clauses RuleG Stmt File WTerms OptClass ArgOp OptOp IsArg IsIPArg IsDomain conj needsC PhaseWord ActionWord)

/-! ## What the parser can produce -/

/-- The expressions the parser can produce. -/
inductive Made (L : Lib) : Expr → Prop
  | arg {k mk a} : ArgOp k mk → Made L (mk a)
  | ip {a} : FileLike a ∨ ((L.parseIP a).isSome ∨ (L.parseCIDR a).isSome) → Made L (.matchN .ip a)
  | dnsbl {p} : Made L (.dnsbl (p ++ [c!"."]))
  | tls {b} : Made L (.tls b)
  | all : Made L .all
  | has {k ok c ts o} : OptOp k ok c → Gram.Opts c ts o → Made L (.optN ok o)
  | dbl {ts o p} : Gram.Opts .dbl ts o → Made L (.dbl o (p ++ [c!"."]))
  | notN {e} : Made L e → Made L (.notN e)
  | orN {l r} : Made L l → Made L r → Made L (.orN l r)
  | andL {es} : 2 ≤ es.length → (∀ e ∈ es, Made L e) → Made L (.andL es)

/-- File name tokens look like file names. -/
def LexedTok (it : Item) : Prop := it.typ = .filename → FileLike it.val

theorem isDomain_end {a : Item} {d : Str} (h : IsDomain a d) : ∃ p, d = p ++ [c!"."] := by
  rcases h.2.2 with ⟨⟨p, hp⟩, rfl⟩ | ⟨-, rfl⟩
  · exact ⟨p, hp⟩
  · exact ⟨_, rfl⟩

theorem gram_made (L : Lib) (n : Nat) :
    (∀ ts e, Term L ts e → (∀ t ∈ ts, LexedTok t) → 3 * ts.length ≤ n → Made L e) ∧
    (∀ ts e, Orl L ts e → (∀ t ∈ ts, LexedTok t) → 3 * ts.length + 1 ≤ n → Made L e) ∧
    (∀ ts es, Andl L ts es → (∀ t ∈ ts, LexedTok t) → 3 * ts.length + 2 ≤ n → ∀ e ∈ es, Made L e) := by
  induction n with
  | zero =>
    refine ⟨?_, fun _ _ _ _ h => by omega, fun _ _ _ _ h => by omega⟩
    intro ts e h _ hl
    obtain ⟨t, ts', rfl, -⟩ := h.start
    simp at hl
  | succ n ih =>
    obtain ⟨ihT, ihO, ihA⟩ := ih
    refine ⟨?_, ?_, ?_⟩
    · intro ts e h hx hl
      cases h with
      | arg ho _ _ => exact .arg ho
      | ip _ h =>
        refine .ip ?_
        rcases h with h | ⟨-, h⟩
        · exact .inl (hx _ (by simp) h)
        · exact .inr h
      | dnsbl _ h => obtain ⟨p, rfl⟩ := isDomain_end h; exact .dnsbl
      | tlsOn => exact .tls
      | tlsOff => exact .tls
      | all => exact .all
      | has h _ ho => exact .has h ho
      | dbl _ ho h => obtain ⟨p, rfl⟩ := isDomain_end h; exact .dbl ho
      | not_ _ h => exact .notN (ihT _ _ h (fun t ht => hx t (by simp [ht])) (by simp only [List.length_cons] at hl; omega))
      | @paren lp ts es rp _ h _ =>
        have hm := ihA _ _ h (fun t ht => hx t (by simp [ht]))
          (by simp only [List.length_cons, List.length_append] at hl; omega)
        have hne := h.ne_nil
        match es, hne, hm with
        | [], hne, _ => exact absurd rfl hne
        | [e], _, hm => exact hm e (by simp)
        | a :: b :: es, _, hm => exact .andL (by simp) hm
    · intro ts e h hx hl
      cases h with
      | one h => exact ihT _ _ h hx (by omega)
      | or h _ h2 =>
        simp only [List.length_cons, List.length_append] at hl
        exact .orN (ihT _ _ h (fun t ht => hx t (by simp [ht])) (by omega)) (ihO _ _ h2 (fun t ht => hx t (by simp [ht])) (by omega))
    · intro ts es h hx hl
      cases h with
      | one h =>
        intro e he
        simp only [List.mem_singleton] at he; subst he
        exact ihO _ _ h hx (by omega)
      | more h h2 =>
        obtain ⟨t, ts2, rfl, -⟩ := h.start
        simp only [List.length_cons, List.length_append] at hl
        intro e he
        rcases List.mem_cons.mp he with rfl | he
        · exact ihO _ _ h (fun t ht => hx t (List.mem_append_left _ ht)) (by simp only [List.length_cons]; omega)
        · exact ihA _ _ h2 (fun t ht => hx t (by simp [ht])) (by omega) e he

theorem andl_made {L : Lib} {ts es} (h : Andl L ts es) (hx : ∀ t ∈ ts, LexedTok t) : Made L (conj es) := by
  have hm := (gram_made L _).2.2 _ _ h hx le_rfl
  have hne := h.ne_nil
  match es, hne, hm with
  | [], hne, _ => exact absurd rfl hne
  | [e], _, hm => exact hm e (by simp)
  | a :: b :: es, _, hm => exact .andL (by simp) hm

theorem wterms_yak {w ts w'} (h : WTerms w ts w') (hy : w.makeYakker = none ∨ w.makeYakker = some []) :
    w'.makeYakker = none ∨ w'.makeYakker = some [] := by
  induction h with
  | nil => exact hy
  | message _ _ _ _ ih => exact ih hy
  | note _ _ _ _ _ ih => exact ih hy
  | savedir _ _ _ _ ih => exact ih hy
  | tlsOpt _ _ _ _ _ ih => exact ih hy
  | makeYakker _ _ _ ih => exact ih (.inr rfl)

theorem wterms_ne {w ts w'} (h : WTerms w ts w') (hw : ts ≠ [] ∨ w ≠ {}) : w' ≠ {} := by
  induction h with
  | nil => simpa using hw
  | _ => rename_i ih; refine ih (.inr ?_); intro h0; simp [Withs.mk.injEq] at h0

/-- The clauses the parser can produce. -/
structure MadeClause (L : Lib) (act : Action) (c : RClause) : Prop where
  expr : Made L c.expr
  note : ∀ n, c.withs.note = some n → c!"\n" ∉ n
  tls : ∀ o, c.withs.tlsOpt = some o → o = b!"off" ∨ o = b!"no-client"
  yak : c.withs.makeYakker = none ∨ c.withs.makeYakker = some []
  set : act = .noresult → c.withs ≠ {}

theorem clause_made {L : Lib} {ts c act} (h : Clause L ts c) (hx : ∀ t ∈ ts, LexedTok t) (hs : act = .noresult → c.withs ≠ {}) :
    MadeClause L act c := by
  have := clause_proper h
  cases h with
  | plain g => exact ⟨andl_made g hx, this.2.1, this.2.2, .inl rfl, hs⟩
  | withs g _ _ gw =>
    exact ⟨andl_made g (fun t ht => hx t (by simp [ht])), this.2.1, this.2.2, wterms_yak gw (.inl rfl), hs⟩

theorem clauses_made {L : Lib} {ts cs act} (h : Clauses L act ts cs) (hx : ∀ t ∈ ts, LexedTok t) :
    cs ≠ [] ∧ ∀ c ∈ cs, MadeClause L act c := by
  induction h with
  | one h hs => exact ⟨by simp, by simpa using clause_made h hx hs⟩
  | more h hs _ _ ih =>
    refine ⟨by simp, ?_⟩
    intro c hc
    rcases List.mem_cons.mp hc with rfl | hc
    · exact clause_made h (fun t ht => hx t (by simp [ht])) hs
    · exact (ih (fun t ht => hx t (by simp [ht]))).2 c hc
  | moreNl h hs _ _ _ ih =>
    refine ⟨by simp, ?_⟩
    intro c hc
    rcases List.mem_cons.mp hc with rfl | hc
    · exact clause_made h (fun t ht => hx t (by simp [ht])) hs
    · exact (ih (fun t ht => hx t (by simp [ht]))).2 c hc

/-- The rules the parser can produce. -/
structure MadeRule (L : Lib) (r : Rule) : Prop where
  ne : r.clauses ≠ []
  clauses : ∀ c ∈ r.clauses, MadeClause L r.result c
  result : r.result ≠ .error
  requires : r.requires = needsC r.clauses
  le : r.deferto = .any ∨ r.requires ≤ r.deferto

theorem rule_made {L : Lib} {ts r} (h : RuleG L ts r) (hx : ∀ t ∈ ts, LexedTok t) : MadeRule L r := by
  have hact : ∀ {k a}, ActionWord k a → a ≠ .error := by intro k a h; cases h <;> simp
  cases h with
  | plain _ ha hc =>
    have := clauses_made hc (fun t ht => hx t (by simp [ht]))
    exact ⟨this.1, this.2, hact ha, rfl, .inl rfl⟩
  | phased _ _ _ ha hc hle =>
    have := clauses_made hc (fun t ht => hx t (by simp [ht]))
    exact ⟨this.1, this.2, hact ha, rfl, .inr hle⟩

theorem hasPrefix_iff {s p : Str} : hasPrefix s p = true ↔ ∃ t, s = p ++ t := by
  induction p generalizing s with
  | nil => simp [hasPrefix]
  | cons a p ih =>
    cases s with
    | nil => simp [hasPrefix]
    | cons b s =>
      simp only [hasPrefix, List.isPrefixOf, Bool.and_eq_true, beq_iff_eq] at ih ⊢
      rw [ih]
      constructor
      · rintro ⟨rfl, t, rfl⟩; exact ⟨t, rfl⟩
      · rintro ⟨t, h⟩
        simp only [List.cons_append, List.cons.injEq] at h
        exact ⟨h.1.symm, t, h.2⟩

theorem lexFrom_lexed : ∀ f s its, LexGood f s → lexFrom f s = .ok its → ∀ it ∈ its, LexedTok it := by
  have step : ∀ f s o, LexGood f s → lexStep f s = .ok o → ∀ it ∈ o.items, LexedTok it := by
    intro f s o hg ho it hit hf
    cases f with
    | lineStart =>
      cases ho; simp only [lexLineStart] at hit
      split at hit
      · simp at hit
      · split_ifs at hit <;> simp at hit
    | lineRunning =>
      cases ho; simp only [lexLineRunning] at hit
      split at hit
      · simp at hit
      · split_ifs at hit <;> simp at hit
    | comment => cases ho; simp [lexComment] at hit
    | special =>
      cases ho
      simp only [lexSpecial] at hit
      split at hit
      · simp only [List.mem_singleton] at hit; subst hit; cases hf
      · rename_i c r hc
        have hsp : (special? c).getD .error ≠ .filename := by
          unfold special?
          split_ifs <;> simp
        split_ifs at hit
        · simp only [List.mem_singleton] at hit; subst hit; exact absurd hf hsp
        · simp only [List.mem_cons, List.not_mem_nil, or_false] at hit
          rcases hit with rfl | rfl
          · exact absurd hf hsp
          · cases hf
        · simp only [List.mem_singleton] at hit; subst hit; exact absurd hf hsp
    | quote =>
      obtain ⟨r, h1⟩ := hg
      cases ho
      simp only [lexQuote, h1] at hit
      split at hit <;> (simp only [List.mem_singleton] at hit; subst hit; cases hf)
    | word =>
      obtain ⟨c, r, h1, h2⟩ := hg
      simp only [lexStep, lexWord, h1, takeWhile_word h2] at ho
      split at ho
      · cases ho; simp only [List.mem_singleton] at hit; subst hit; cases hf
      · try dsimp only at ho
        split_ifs at ho with h3 h4 h5
        · cases ho; simp only [List.mem_singleton] at hit; subst hit
          rcases h3 with rfl | h3
          · exact .inl ⟨_, rfl⟩
          · exact .inr (.inl (hasPrefix_iff.mp h3))
        · cases ho; simp only [List.mem_singleton] at hit; subst hit; cases hf
        · cases ho; simp only [List.mem_singleton] at hit; subst hit
          exact .inr (.inr (hasPrefix_iff.mp h4))
        · cases ho; simp only [List.mem_singleton] at hit; subst hit; cases hf
  apply lexFrom_induct
  · intro f s o hg ho _; exact step f s o hg ho
  · intro f s o f' its hg ho _ _ _ ih it hit
    rcases List.mem_append.mp hit with hit | hit
    · exact step f s o hg ho it hit
    · exact ih it hit

theorem lex_lexed {input its} (h : lex input = .ok its) : ∀ it ∈ its, LexedTok it := by
  rw [lex_eq_lexFrom] at h
  exact lexFrom_lexed .lineStart ⟨input, 0⟩ _ trivial h

theorem rules_made {L : Lib} {I : Nat → Str → List Rule → Prop} {i ts rs} (h : File L I i ts rs) (hx : ∀ t ∈ ts, LexedTok t)
    (hI : ∀ i f qs, I i f qs → ∀ r ∈ qs, MadeRule L r) : ∀ r ∈ rs, MadeRule L r := by
  have hs : ∀ {i ts rs}, Stmt L I i ts rs → (∀ t ∈ ts, LexedTok t) → ∀ r ∈ rs, MadeRule L r := by
    intro i ts rs h hx r hr
    cases h with
    | rule g => simp only [List.mem_singleton] at hr; subst hr; exact rule_made g hx
    | incl _ _ h => exact hI _ _ _ h r hr
  induction h with
  | eof => simp
  | last h _ => exact hs h (fun t ht => hx t (by simp [ht]))
  | line h _ _ ih =>
    intro r hr
    rcases List.mem_append.mp hr with hr | hr
    · exact hs h (fun t ht => hx t (by simp [ht])) r hr
    · exact ih (fun t ht => hx t (by simp [ht])) r hr

theorem parse_made {L : Lib} {fs : Files} {d path input rs} (h : parse L fs d path input = .ok rs) : ∀ r ∈ rs, MadeRule L r := by
  have load : ∀ d path f rs, loadRules L fs d path f = .ok rs → ∀ r ∈ rs, MadeRule L r := by
    intro d
    induction d with
    | zero => intro path f rs h; cases h
    | succ d ih =>
      intro path f rs h
      unfold loadRules at h
      split at h
      · cases h
      · cases h
      · cases h
      · split at h
        · cases h
        · obtain ⟨toks, hl, hf⟩ := (C06_file_iff _ _ _ _).mp h
          exact rules_made hf (lex_lexed hl) (fun i f qs hq => ih _ _ _ hq)
  obtain ⟨toks, hl, hf⟩ := (C06_file_iff _ _ _ _).mp h
  exact rules_made hf (lex_lexed hl) (fun i f qs hq => load d _ _ _ hq)

/-! ## Tokens of printed expressions -/

mutual
/-- The tokens of a printed expression. -/
def Expr.toks : Expr → List (Tok × Str)
  | .andL ns => (.lparen, b!"(") :: (Expr.toksL ns ++ [(.rparen, b!")")])
  | .notN e => (.kw .not_, b!"not") :: e.toks
  | .orN l r => (.lparen, b!"(") :: (l.toks ++ (.kw .or, b!"or") :: r.toks ++ [(.rparen, b!")")])
  | .all => [(.kw .all, b!"all")]
  | .tls on => [(.kw .tls, b!"tls"), if on then (.kw .on_, b!"on") else (.kw .off, b!"off")]
  | .dnsbl d => [(.kw .dnsbl, b!"dnsbl"), (wordTok d, d)]
  | .matchN k a => [(wordTok k.str, k.str), (wordTok a, a)]
  | .source a => [(.kw .source, b!"source"), (wordTok a, a)]
  | .dbl s d => (.kw .dbl, b!"dbl") :: (optToks (sortStrs (optWords s)) ++ [(wordTok d, d)])
  | .optN k o => (wordTok k.str, k.str) :: optToks (sortStrs (optWords o))
/-- The tokens of printed members of a series. -/
def Expr.toksL : List Expr → List (Tok × Str)
  | [] => []
  | e :: l => e.toks ++ Expr.toksL l
end

theorem Bnd.blank (s : Str) : Bnd (b!" " ++ s) := .inr ⟨c!" ", s, rfl, by decide⟩
theorem Bnd.newline (s : Str) : Bnd (b!"\n" ++ s) := .inr ⟨c!"\n", s, rfl, by decide⟩
theorem Cut.blank (s : Str) : Cut (b!" " ++ s) := ⟨c!" ", s, rfl, by decide⟩

theorem Lx.kw {w : Str} {t : Tok} (h1 : PlainWord w) (h2 : wordTok w = t) : Lx w [(t, w)] := h2 ▸ Lx.word h1

/-- Two texts with a blank between them. -/
theorem Lx.two {s ts s' ts'} (h : Lx s ts) (h' : Lx s' ts') : Lx (s ++ b!" " ++ s') (ts ++ ts') := by
  rw [List.append_assoc]
  exact h.append h'.blank (.inr (Cut.blank _))

theorem Lx.strs : ∀ {ns : List Expr}, (∀ e ∈ ns, Lx e.str e.toks) → Lx (join b!" " (Expr.strs ns)) (Expr.toksL ns)
  | [], _ => Lx.nil
  | [e], h => by simpa [Expr.strs, Expr.toksL, join] using h e (by simp)
  | e :: e' :: ns, h => by
    have ih := Lx.strs (ns := e' :: ns) (fun v hv => h v (by simp [hv]))
    have := (h e (by simp)).two ih
    simpa [Expr.strs, Expr.toksL, join] using this

theorem mkind_plain (k : MKind) : PlainWord k.str := by cases k <;> decide +kernel
theorem okind_plain (k : OKind) : PlainWord k.str := by cases k <;> decide +kernel

theorem plainExprs_mem {es : List Expr} (h : PlainExprs es) : ∀ e ∈ es, PlainExpr e := by
  induction es with
  | nil => simp
  | cons a es ih =>
    rw [PlainExprs] at h
    intro e he
    rcases List.mem_cons.mp he with rfl | he
    · exact h.1
    · exact ih h.2 e he

theorem Lx.expr : (e : Expr) → PlainExpr e → Lx e.str e.toks
  | .andL ns, h => by
    rw [PlainExpr] at h
    have ih : ∀ e ∈ ns, Lx e.str e.toks := fun e he => Lx.expr e (plainExprs_mem h e he)
    have := (Lx.lparen.two (Lx.strs ih)).two Lx.rparen
    simpa [Expr.str, Expr.toks] using this
  | .notN e, h => by
    rw [PlainExpr] at h
    have := (Lx.kw (w := b!"not") (t := .kw .not_) (by decide +kernel) (by decide +kernel)).two (Lx.expr e h)
    simpa [Expr.str, Expr.toks] using this
  | .orN l r, h => by
    rw [PlainExpr] at h
    have hor := Lx.kw (w := b!"or") (t := .kw .or) (by decide +kernel) (by decide +kernel)
    have := (((Lx.lparen.two (Lx.expr l h.1)).two hor).two (Lx.expr r h.2)).two Lx.rparen
    simpa [Expr.str, Expr.toks] using this
  | .all, _ => by
    have := Lx.kw (w := b!"all") (t := .kw .all) (by decide +kernel) (by decide +kernel)
    simpa [Expr.str, Expr.toks] using this
  | .tls on, _ => by
    have h1 := Lx.kw (w := b!"tls") (t := .kw .tls) (by decide +kernel) (by decide +kernel)
    cases on
    · have := h1.two (Lx.kw (w := b!"off") (t := .kw .off) (by decide +kernel) (by decide +kernel))
      simpa [Expr.str, Expr.toks] using this
    · have := h1.two (Lx.kw (w := b!"on") (t := .kw .on_) (by decide +kernel) (by decide +kernel))
      simpa [Expr.str, Expr.toks] using this
  | .dnsbl d, h => by
    rw [PlainExpr] at h
    have := (Lx.kw (w := b!"dnsbl") (t := .kw .dnsbl) (by decide +kernel) (by decide +kernel)).two (Lx.word h.1)
    simpa [Expr.str, Expr.toks] using this
  | .matchN k a, h => by
    rw [PlainExpr] at h
    have := (Lx.word (mkind_plain k)).two (Lx.word h.1)
    simpa [Expr.str, Expr.toks] using this
  | .source a, h => by
    rw [PlainExpr] at h
    have := (Lx.kw (w := b!"source") (t := .kw .source) (by decide +kernel) (by decide +kernel)).two (Lx.word h)
    simpa [Expr.str, Expr.toks] using this
  | .dbl s d, h => by
    rw [PlainExpr] at h
    have := ((Lx.kw (w := b!"dbl") (t := .kw .dbl) (by decide +kernel) (by decide +kernel)).two (Lx.optStr s)).two (Lx.word h.1)
    simpa [Expr.str, Expr.toks] using this
  | .optN k o, _ => by
    have := (Lx.word (okind_plain k)).two (Lx.optStr o)
    simpa [Expr.str, Expr.toks] using this

/-! ## The tokens are in the grammar -/

theorem wordTok_isArg (a : Str) : IsArg (mkI (wordTok a, a)) := by
  unfold IsArg mkI wordTok
  dsimp only
  split
  · simp
  · split_ifs <;> simp

theorem keyword?_dot (p : Str) : keyword? (p ++ [c!"."]) = none := by
  have hk : ∀ x ∈ keywords, x.1.getLast? ≠ some c!"." := by decide +kernel
  unfold keyword?
  rw [List.lookup_eq_none_iff]
  intro x hx
  rw [bne_iff_ne]
  intro h
  apply hk x hx
  rw [← h]; simp

theorem wordTok_value {w : Str} (hk : keyword? w = none) (hf : ¬ FileLike w) : wordTok w = .value := by
  unfold wordTok
  rw [hk]
  dsimp only
  rw [if_neg]
  rintro (h | h | h)
  · apply hf; left
    cases w with
    | nil => simp at h
    | cons c w => simp only [List.head?_cons, Option.some.injEq] at h; subst h; exact ⟨w, rfl⟩
  · exact hf (.inr (.inl (hasPrefix_iff.mp h)))
  · exact hf (.inr (.inr (hasPrefix_iff.mp h)))

theorem wordTok_file {w : Str} (hk : keyword? w = none) (hf : FileLike w) : wordTok w = .filename := by
  unfold wordTok
  rw [hk]
  dsimp only
  rw [if_pos]
  rcases hf with ⟨t, rfl⟩ | h | h
  · left; rfl
  · exact .inr (.inl (hasPrefix_iff.mpr h))
  · exact .inr (.inr (hasPrefix_iff.mpr h))

theorem isDomain_mk {p : Str} (hf : ¬ FileLike (p ++ [c!"."])) :
    IsDomain (mkI (wordTok (p ++ [c!"."]), p ++ [c!"."])) (p ++ [c!"."]) := by
  refine ⟨wordTok_value (keyword?_dot p) hf, by simp [mkI], .inl ⟨⟨p, rfl⟩, rfl⟩⟩

theorem andl_of_terms {L : Lib} : ∀ {es : List Expr}, es ≠ [] → (∀ e ∈ es, Term L (e.toks.map mkI) e) →
    Andl L ((Expr.toksL es).map mkI) es
  | [], h, _ => absurd rfl h
  | [e], _, h => by simpa [Expr.toksL] using Andl.one (Orl.one (h e (by simp)))
  | e :: e' :: es, _, h => by
    have ih := andl_of_terms (es := e' :: es) (by simp) (fun v hv => h v (by simp [hv]))
    rw [Expr.toksL, List.map_append]
    exact .more (.one (h e (by simp))) ih

theorem term_printed {L : Lib} {e : Expr} (h : Made L e) : PlainExpr e → Term L (e.toks.map mkI) e := by
  induction h with
  | @arg k mk a h =>
    intro _
    have ha := wordTok_isArg a
    cases h with
    | from_ => exact .arg .from_ (by decide +kernel) ha
    | «to» => exact .arg .to (by decide +kernel) ha
    | helo => exact .arg .helo (by decide +kernel) ha
    | ehlo => exact .arg .helo (by decide +kernel) ha
    | host => exact .arg .host (by decide +kernel) ha
    | source => exact .arg .source rfl ha
  | @ip a h =>
    intro hp
    rw [PlainExpr] at hp
    refine .ip (by decide +kernel) ?_
    have hk := hp.2 rfl
    by_cases hf : FileLike a
    · exact .inl (wordTok_file hk hf)
    · exact .inr ⟨wordTok_value hk hf, h.resolve_left hf⟩
  | dnsbl =>
    intro hp
    rw [PlainExpr] at hp
    exact .dnsbl rfl (isDomain_mk hp.2)
  | @tls b =>
    intro _
    cases b
    · exact .tlsOff rfl rfl
    · exact .tlsOn rfl rfl
  | all => intro _; exact .all rfl
  | @has k ok c ts o ho h =>
    intro _
    have := opts_print h
    cases ho with
    | fromHas => exact .has .fromHas (by decide +kernel) this
    | toHas => exact .has .toHas (by decide +kernel) this
    | heloHas => exact .has .heloHas (by decide +kernel) this
    | dns => exact .has .dns (by decide +kernel) this
  | @dbl ts o p h =>
    intro hp
    rw [PlainExpr] at hp
    have := Term.dbl (L := L) (it := mkI (.kw .dbl, b!"dbl")) rfl (opts_print h) (isDomain_mk hp.2)
    simpa [Expr.toks] using this
  | notN _ ih =>
    intro hp
    rw [PlainExpr] at hp
    exact .not_ rfl (ih hp)
  | @orN l r _ _ ih1 ih2 =>
    intro hp
    rw [PlainExpr] at hp
    have := Term.paren (L := L) (lp := mkI (.lparen, b!"(")) (rp := mkI (.rparen, b!")")) rfl
      (Andl.one (Orl.or (o := mkI (.kw .or, b!"or")) (ih1 hp.1) rfl (Orl.one (ih2 hp.2)))) rfl
    simpa [Expr.toks, conj] using this
  | @andL es h2 _ ih =>
    intro hp
    rw [PlainExpr] at hp
    have hne : es ≠ [] := by rintro rfl; simp at h2
    have := Term.paren (L := L) (lp := mkI (.lparen, b!"(")) (rp := mkI (.rparen, b!")")) rfl
      (andl_of_terms hne (fun e he => ih e he (plainExprs_mem hp e he))) rfl
    have hc : conj es = .andL es := by
      match es, h2 with
      | a :: b :: es, _ => rfl
    rw [hc] at this
    simpa [Expr.toks] using this

/-! ## With options -/

/-- The tokens of one printed with option. -/
def withToks (t : Tok) (k : Str) : Option Str → List (Tok × Str)
  | none => []
  | some [] => [(t, k)]
  | some v => [(t, k), (.value, v)]

/-- The tokens of the printed with options. -/
def Withs.toks (w : Withs) : List (Tok × Str) :=
  withToks (.kw .makeYakker) b!"make-yakker" w.makeYakker ++ withToks (.kw .message) b!"message" w.message ++
    withToks (.kw .note) b!"note" w.note ++ withToks (.kw .savedir) b!"savedir" w.savedir ++
    withToks (.kw .tlsOpt) b!"tls-opt" w.tlsOpt

theorem withStr_cut (k : Str) (o : Option Str) : withStr k o = [] ∨ Cut (withStr k o) := by
  match o with
  | none => exact .inl rfl
  | some [] => exact .inr (Cut.blank k)
  | some (c :: v) => right; simp only [withStr, List.append_assoc]; exact Cut.blank _

theorem Lx.with_ {t : Tok} {k : Str} {o : Option Str} (h1 : PlainWord k) (h2 : wordTok k = t)
    (ho : ∀ v, o = some v → v = [] ∨ QuoteBody v v) : Lx (withStr k o) (withToks t k o) := by
  have hk := Lx.kw h1 h2
  match o, ho with
  | none, _ => exact Lx.nil
  | some [], _ => exact hk.blank
  | some (c :: v), ho =>
    have hq := (ho _ rfl).resolve_left (by simp)
    have := hk.blank.two (Lx.quoted hq)
    simpa [withStr, withToks] using this

theorem Cut.append {s t : Str} (h : Cut s) : Cut (s ++ t) := by
  obtain ⟨c, r, rfl, hc⟩ := h
  exact ⟨c, r ++ t, rfl, hc⟩

/-- With values that stand for themselves between quotes. -/
def QuotableWiths (w : Withs) : Prop :=
  ∀ o ∈ [w.makeYakker, w.message, w.note, w.savedir, w.tlsOpt], ∀ v, o = some v → v = [] ∨ QuoteBody v v

theorem Lx.withs {w : Withs} (h : QuotableWiths w) : Lx w.str w.toks := by
  have h1 := Lx.with_ (t := .kw .makeYakker) (k := b!"make-yakker") (by decide +kernel) (by decide +kernel) (h w.makeYakker (by simp))
  have h2 := Lx.with_ (t := .kw .message) (k := b!"message") (by decide +kernel) (by decide +kernel) (h w.message (by simp))
  have h3 := Lx.with_ (t := .kw .note) (k := b!"note") (by decide +kernel) (by decide +kernel) (h w.note (by simp))
  have h4 := Lx.with_ (t := .kw .savedir) (k := b!"savedir") (by decide +kernel) (by decide +kernel) (h w.savedir (by simp))
  have h5 := Lx.with_ (t := .kw .tlsOpt) (k := b!"tls-opt") (by decide +kernel) (by decide +kernel) (h w.tlsOpt (by simp))
  exact (((h1.append h2 (withStr_cut _ _)).append h3 (withStr_cut _ _)).append h4 (withStr_cut _ _)).append h5 (withStr_cut _ _)

theorem withs_str_cut (w : Withs) : w.str = [] ∨ Cut w.str := by
  have key : ∀ a b : Str, (a = [] ∨ Cut a) → (b = [] ∨ Cut b) → (a ++ b = [] ∨ Cut (a ++ b)) := by
    rintro a b (rfl | ha) hb
    · simpa using hb
    · exact .inr ha.append
  unfold Withs.str
  exact key _ _ (key _ _ (key _ _ (key _ _ (withStr_cut _ _) (withStr_cut _ _)) (withStr_cut _ _)) (withStr_cut _ _)) (withStr_cut _ _)

theorem withStr_nil {k : Str} {o : Option Str} (hk : k ≠ []) : withStr k o = [] ↔ o = none := by
  match o with
  | none => simp [withStr]
  | some [] => simp [withStr]
  | some (c :: v) => simp [withStr]

theorem withs_str_nil (w : Withs) : w.str = [] ↔ w = {} := by
  obtain ⟨m, n, s, t, y⟩ := w
  simp only [Withs.str, List.append_eq_nil_iff]
  rw [withStr_nil (by simp), withStr_nil (by simp), withStr_nil (by simp), withStr_nil (by simp), withStr_nil (by simp)]
  simp only [Withs.mk.injEq]
  tauto

theorem withs_toks_nil (w : Withs) : w.toks = [] ↔ w = {} := by
  have key : ∀ t k o, withToks t k o = [] ↔ o = none := by
    intro t k o
    match o with
    | none => simp [withToks]
    | some [] => simp [withToks]
    | some (c :: v) => simp [withToks]
  obtain ⟨m, n, s, t, y⟩ := w
  simp only [Withs.toks, List.append_eq_nil_iff, key, Withs.mk.injEq]
  tauto

theorem wterms_printed {w : Withs} (hm : PlainValue w.message) (hn : PlainValue w.note) (hs : PlainValue w.savedir)
    (hnl : ∀ n, w.note = some n → c!"\n" ∉ n) (ht : ∀ o, w.tlsOpt = some o → o = b!"off" ∨ o = b!"no-client")
    (hy : w.makeYakker = none ∨ w.makeYakker = some []) : WTerms {} (w.toks.map mkI) w := by
  obtain ⟨m, n, s, t, y⟩ := w
  dsimp only at hm hn hs hnl ht hy
  have harg : ∀ v, IsArg (mkI (.value, v)) := fun v => ⟨by simp [mkI], by simp [mkI], by simp [mkI]⟩
  have h5 : WTerms ⟨m, n, s, none, y⟩ ((withToks (.kw .tlsOpt) b!"tls-opt" t).map mkI) ⟨m, n, s, t, y⟩ := by
    match t, ht with
    | none, _ => exact .nil
    | some [], ht => exact absurd (ht _ rfl) (by simp)
    | some (c :: v), ht => exact .tlsOpt rfl rfl (harg _) (ht _ rfl) .nil
  have h4 : WTerms ⟨m, n, none, none, y⟩ ((withToks (.kw .savedir) b!"savedir" s).map mkI ++
      (withToks (.kw .tlsOpt) b!"tls-opt" t).map mkI) ⟨m, n, s, t, y⟩ := by
    match s, hs, h5 with
    | none, _, h5 => exact h5
    | some [], hs, _ => exact absurd rfl (hs _ rfl).1
    | some (c :: v), _, h5 => exact .savedir rfl (.inl rfl) (harg _) h5
  have h3 : WTerms ⟨m, none, none, none, y⟩ ((withToks (.kw .note) b!"note" n).map mkI ++ ((withToks (.kw .savedir) b!"savedir" s).map mkI ++
      (withToks (.kw .tlsOpt) b!"tls-opt" t).map mkI)) ⟨m, n, s, t, y⟩ := by
    match n, hn, hnl, h4 with
    | none, _, _, h4 => exact h4
    | some [], hn, _, _ => exact absurd rfl (hn _ rfl).1
    | some (c :: v), _, hnl, h4 => exact .note rfl (.inl rfl) (harg _) (hnl _ rfl) h4
  have h2 : WTerms ⟨none, none, none, none, y⟩ ((withToks (.kw .message) b!"message" m).map mkI ++
      ((withToks (.kw .note) b!"note" n).map mkI ++ ((withToks (.kw .savedir) b!"savedir" s).map mkI ++
      (withToks (.kw .tlsOpt) b!"tls-opt" t).map mkI))) ⟨m, n, s, t, y⟩ := by
    match m, hm, h3 with
    | none, _, h3 => exact h3
    | some [], hm, _ => exact absurd rfl (hm _ rfl).1
    | some (c :: v), _, h3 => exact .message rfl (.inl rfl) (harg _) h3
  have h1 : WTerms {} ((withToks (.kw .makeYakker) b!"make-yakker" y).map mkI ++ ((withToks (.kw .message) b!"message" m).map mkI ++
      ((withToks (.kw .note) b!"note" n).map mkI ++ ((withToks (.kw .savedir) b!"savedir" s).map mkI ++
      (withToks (.kw .tlsOpt) b!"tls-opt" t).map mkI)))) ⟨m, n, s, t, y⟩ := by
    rcases hy with rfl | rfl
    · exact h2
    · exact .makeYakker rfl rfl h2
  simpa [Withs.toks] using h1

/-! ## Clauses and rules -/

/-- The tokens of a printed clause. -/
def RClause.toks (c : RClause) : List (Tok × Str) :=
  c.expr.toks ++ (if c.withs.str = [] then [] else (.kw .with_, b!"with") :: c.withs.toks)

/-- The tokens of printed clauses. -/
def clausesToks : List RClause → List (Tok × Str)
  | [] => []
  | [c] => c.toks
  | c :: cs => c.toks ++ (.semicolon, b!";") :: clausesToks cs

theorem plain_quotable {c : RClause} {L act} (hm : MadeClause L act c) (hp : PlainClause c) : QuotableWiths c.withs := by
  intro o ho v hv
  simp only [List.mem_cons, List.not_mem_nil, or_false] at ho
  rcases ho with rfl | rfl | rfl | rfl | rfl
  · rcases hm.yak with h | h
    · rw [h] at hv; cases hv
    · rw [h] at hv; cases hv; exact .inl rfl
  · exact .inr (hp.2.1 v hv).2
  · exact .inr (hp.2.2.1 v hv).2
  · exact .inr (hp.2.2.2 v hv).2
  · right
    rcases hm.tls v hv with rfl | rfl
    · repeat (first | exact .nil | refine .plain (by decide) (by decide) ?_)
    · repeat (first | exact .nil | refine .plain (by decide) (by decide) ?_)

theorem Lx.clause {c : RClause} {L act} (hm : MadeClause L act c) (hp : PlainClause c) : Lx c.str c.toks := by
  unfold RClause.str RClause.toks
  have he := Lx.expr c.expr hp.1
  split_ifs with hw
  · simpa using he
  · have hk := Lx.kw (w := b!"with") (t := .kw .with_) (by decide +kernel) (by decide +kernel)
    have h1 := hk.blank.append (Lx.withs (plain_quotable hm hp)) (withs_str_cut _)
    exact he.append h1 (.inr (by rw [show b!" with" = b!" " ++ b!"with" by rfl, List.append_assoc]; exact Cut.blank _))

theorem Lx.clauses {L act} : ∀ {cs : List RClause}, (∀ c ∈ cs, MadeClause L act c) → (∀ c ∈ cs, PlainClause c) →
    Lx (join b!"; " (cs.map RClause.str)) (clausesToks cs)
  | [], _, _ => Lx.nil
  | [c], hm, hp => Lx.clause (hm c (by simp)) (hp c (by simp))
  | c :: c' :: cs, hm, hp => by
    have ih := Lx.clauses (cs := c' :: cs) (fun v hv => hm v (by simp [hv])) (fun v hv => hp v (by simp [hv]))
    have h1 := Lx.clause (hm c (by simp)) (hp c (by simp))
    have h2 := (h1.append Lx.semicolon (.inr ⟨c!";", [], rfl, by decide⟩)).two ih
    simpa [join, clausesToks] using h2

theorem clause_printed {L act} {c : RClause} (hm : MadeClause L act c) (hp : PlainClause c) : Clause L (c.toks.map mkI) c := by
  have ht := term_printed hm.expr hp.1
  obtain ⟨e, w⟩ := c
  unfold RClause.toks
  by_cases hw : w.str = []
  · have hw' := (withs_str_nil w).mp hw
    subst hw'
    simpa [hw, conj] using Clause.plain (Andl.one (Orl.one ht))
  · rw [if_neg hw, List.map_append, List.map_cons]
    have hne : w.toks ≠ [] := by rw [ne_eq, withs_toks_nil, ← withs_str_nil]; exact hw
    exact Clause.withs (Andl.one (Orl.one ht)) rfl (by simpa using hne)
      (wterms_printed hp.2.1 hp.2.2.1 hp.2.2.2 hm.note hm.tls hm.yak)

theorem clauses_printed {L act} : ∀ {cs : List RClause}, cs ≠ [] → (∀ c ∈ cs, MadeClause L act c) → (∀ c ∈ cs, PlainClause c) →
    Clauses L act ((clausesToks cs).map mkI) cs
  | [], h, _, _ => absurd rfl h
  | [c], _, hm, hp => .one (clause_printed (hm c (by simp)) (hp c (by simp))) (hm c (by simp)).set
  | c :: c' :: cs, _, hm, hp => by
    have ih := clauses_printed (cs := c' :: cs) (by simp) (fun v hv => hm v (by simp [hv])) (fun v hv => hp v (by simp [hv]))
    rw [clausesToks, List.map_append, List.map_cons]
    · exact .more (clause_printed (hm c (by simp)) (hp c (by simp))) (hm c (by simp)).set rfl ih
    · simp

/-- The tokens of a printed rule. -/
def Rule.toks (r : Rule) : List (Tok × Str) :=
  (if r.deferto ≠ .any then [(wordTok r.deferto.str, r.deferto.str)] else []) ++
    (wordTok r.result.str, r.result.str) :: clausesToks r.clauses

theorem rule_printed {L} {r : Rule} (hm : MadeRule L r) (hp : PlainRule r) : RuleG L (r.toks.map mkI) r := by
  have hc := clauses_printed hm.ne hm.clauses hp
  obtain ⟨cs, act, req, ph⟩ := r
  obtain ⟨h1, h2, h3, h4, h5⟩ := hm
  dsimp only at h1 h2 h3 h4 h5 hc
  subst h4
  have ha : ∃ ak, wordTok act.str = .kw ak ∧ ActionWord ak act := by
    cases act with
    | error => exact absurd rfl h3
    | noresult => exact ⟨_, by decide +kernel, .setWith⟩
    | accept => exact ⟨_, by decide +kernel, .accept⟩
    | stall => exact ⟨_, by decide +kernel, .stall⟩
    | reject => exact ⟨_, by decide +kernel, .reject⟩
  obtain ⟨ak, ha1, ha2⟩ := ha
  unfold Rule.toks
  dsimp only
  by_cases hph : ph = .any
  · subst hph
    exact .plain (ai := mkI (wordTok act.str, act.str)) ha1 ha2 hc
  · have hpw : ∃ pk, wordTok ph.str = .kw pk ∧ PhaseWord pk ph := by
      cases ph with
      | any => exact absurd rfl hph
      | connect => exact ⟨_, by decide +kernel, .connect⟩
      | helo => exact ⟨_, by decide +kernel, .helo⟩
      | mfrom => exact ⟨_, by decide +kernel, .from_⟩
      | rto => exact ⟨_, by decide +kernel, .to⟩
      | data => exact ⟨_, by decide +kernel, .data⟩
      | message => exact ⟨_, by decide +kernel, .message⟩
    obtain ⟨pk, hp1, hp2⟩ := hpw
    rw [if_pos hph]
    exact .phased (pi := mkI (wordTok ph.str, ph.str)) (ai := mkI (wordTok act.str, act.str)) hp1 hp2 ha1 ha2 hc (h5.resolve_left hph)

theorem action_plain (a : Action) : PlainWord a.str ∧ a.str.head? ≠ some c!"#" ∧ a.str.head? ≠ some c!"\\" := by
  cases a <;> decide +kernel
theorem phase_plain (a : Phase) : PlainWord a.str ∧ a.str.head? ≠ some c!"#" ∧ a.str.head? ≠ some c!"\\" := by
  cases a <;> decide +kernel

theorem rule_lex {L} {r : Rule} (hm : MadeRule L r) (hp : PlainRule r) {rest : Str} (hr : Bnd rest) :
    toksFrom .lineStart (r.str ++ rest) = (toksFrom .lineRunning rest).map (r.toks ++ ·) := by
  have hcs := Lx.clauses hm.clauses hp
  have ha := Lx.word (action_plain r.result).1
  unfold Rule.str Rule.toks
  dsimp only
  by_cases hph : r.deferto = .any
  · rw [if_neg (not_not.mpr hph), if_neg (not_not.mpr hph), List.append_assoc, List.append_assoc,
      toksFrom_lineStart_word (action_plain r.result).1 (action_plain r.result).2.1 (action_plain r.result).2.2
        (Bnd.blank _), toksFrom_blank, hcs rest hr, except_map_map]
    rfl
  · rw [if_pos hph, if_pos hph, List.append_assoc, List.append_assoc,
      toksFrom_lineStart_word (phase_plain r.deferto).1 (phase_plain r.deferto).2.1 (phase_plain r.deferto).2.2
        (Bnd.blank _), toksFrom_blank, (ha.two hcs) rest hr, except_map_map]
    rfl

/-! ## C09 -/

/-- **C09.** Every rule of a successful parse (included files too) whose arguments are plain words and whose with values
stand for themselves between quotes: its printed text parses, and yields exactly that rule again. -/
theorem C09_round_trip (L : Lib) {fs : Files} {d path input rs} (h : parse L fs d path input = .ok rs) {r : Rule} (hr : r ∈ rs)
    (hp : PlainRule r) (fs' : Files) (d' : Nat) (path' : List Nat) : parse L fs' d' path' r.str = .ok [r] := by
  have hm := parse_made h r hr
  have hl := rule_lex hm hp (rest := []) (.inl rfl)
  rw [List.append_nil, toksFrom_end, ← tokens_eq_toksFrom] at hl
  obtain ⟨pre, last, hx, -⟩ := C01_lex_total r.str
  simp only [tokens, hx, Except.map, Except.ok.injEq] at hl
  refine (C06_file_iff _ _ _ _).mpr ⟨_, hx, ?_⟩
  refine (File.last (e := mkI (.eof, [])) (Stmt.rule (rule_printed hm hp)) rfl).tv ?_
  rw [SameTv, hl, List.map_append, map_mkI_tv]
  rfl

theorem rules_lex {L} : ∀ {rs : List Rule}, (∀ r ∈ rs, MadeRule L r) → (∀ r ∈ rs, PlainRule r) →
    toksFrom .lineStart (rs.flatMap fun r => r.str ++ b!"\n") =
      .ok ((rs.flatMap fun r => r.toks ++ [(.eol, b!"\n")]) ++ [(.eof, [])])
  | [], _, _ => toksFrom_start_end
  | r :: rs, hm, hp => by
    have ih := rules_lex (rs := rs) (fun r hr => hm r (by simp [hr])) (fun r hr => hp r (by simp [hr]))
    rw [List.flatMap_cons, List.append_assoc, rule_lex (hm r (by simp)) (hp r (by simp)) (Bnd.newline _),
      toksFrom_newline, ih]
    simp [Except.map]

theorem rules_file {L I} : ∀ {rs : List Rule}, (∀ r ∈ rs, MadeRule L r) → (∀ r ∈ rs, PlainRule r) → ∀ i,
    File L I i (((rs.flatMap fun r => r.toks ++ [(Tok.eol, b!"\n")]) ++ [(Tok.eof, ([] : Str))]).map mkI) rs
  | [], _, _, i => .eof rfl
  | r :: rs, hm, hp, i => by
    have ih := rules_file (I := I) (rs := rs) (fun r hr => hm r (by simp [hr])) (fun r hr => hp r (by simp [hr])) (i + 1)
    have := File.line (nl := mkI (.eol, b!"\n")) (Stmt.rule (rule_printed (hm r (by simp)) (hp r (by simp)))) rfl ih
    simpa using this

/-- **C09.** The same for whole files: print all rules, one to a line, and the result parses to the same list. -/
theorem C09_file_round_trip (L : Lib) {fs : Files} {d path input rs} (h : parse L fs d path input = .ok rs)
    (hp : ∀ r ∈ rs, PlainRule r) (fs' : Files) (d' : Nat) (path' : List Nat) :
    parse L fs' d' path' (rs.flatMap fun r => r.str ++ b!"\n") = .ok rs := by
  have hm := parse_made h
  have hl := rules_lex hm hp
  rw [← tokens_eq_toksFrom] at hl
  obtain ⟨pre, last, hx, -⟩ := C01_lex_total (rs.flatMap fun r => r.str ++ b!"\n")
  simp only [tokens, hx, Except.map, Except.ok.injEq] at hl
  refine (C06_file_iff _ _ _ _).mpr ⟨_, hx, (rules_file hm hp 0).tv ?_⟩
  rw [SameTv, hl, map_mkI_tv]

/-- Values without quotes and backslashes are plain. -/
theorem quoteBody_self {v : Str} (h1 : c!"\"" ∉ v) (h2 : c!"\\" ∉ v) : QuoteBody v v := by
  induction v with
  | nil => exact .nil
  | cons c v ih =>
    simp only [List.mem_cons, not_or] at h1 h2
    exact .plain (Ne.symm h1.1) (Ne.symm h2.1) (ih h1.2 h2.2)

/-- The round trip does not hold for every rule: a quote in a message, an empty message, an argument with a blank in it
and a quoted blocklist name that looks like a file name are printed as text that does not parse or parses differently. -/
theorem C09_not_all : ∃ input r, parse demoLib (fun _ _ => .notExist []) 5 [] input = .ok [r] ∧
    parse demoLib (fun _ _ => .notExist []) 5 [] r.str ≠ .ok [r] :=
  ⟨b!"reject all with message \"a\\\"b\"", ⟨[⟨.all, { message := some b!"a\"b" }⟩], .reject, .any, .any⟩, by decide +kernel, by decide +kernel⟩

/-- Nested expressions, options that print as a group, every kind of argument, two clauses and with options. -/
example : (parse demoLib (fun _ _ => .notExist []) 5 []
    b!"@data stall (from-has garbage,noat,unqualified,route,quoted or helo-has bareip,properip) not (to a@b tls off) ; dbl from,host,helo \"x.y\" or ip 1.2.3.4 or host file:/tmp/x with make-yakker tls-opt off message \"a b\"").map
      (·.map Rule.str) =
    .ok [b!"@data stall ( ( from-has bad,quoted or helo-has ip ) not ( to a@b tls off ) ); ( dbl any x.y. or ( ip 1.2.3.4 or host file:/tmp/x ) ) with make-yakker message \"a b\" tls-opt \"off\""] := by
  decide +kernel
example : (parse demoLib (fun _ _ => .notExist []) 5 [] b!"accept all with message \"\"").map (·.map Rule.str) =
    .ok [b!"accept all with message"] := by decide +kernel
example : (parse demoLib (fun _ _ => .notExist []) 5 [] b!"accept all with message").isOk = false := by decide +kernel
example : (parse demoLib (fun _ _ => .notExist []) 5 [] b!"accept dnsbl \"/a.b\"").map (·.map Rule.str) = .ok [b!"accept dnsbl /a.b."] := by
  decide +kernel
example : (parse demoLib (fun _ _ => .notExist []) 5 [] b!"accept dnsbl /a.b.").isOk = false := by decide +kernel

end Sink
