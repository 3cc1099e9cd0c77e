import Verif.Lemmas.GramPos
import Verif.Props.Lex
import Verif.Spec.Demo

/-! # C05 – C08, C10: the parser -/

namespace Sink

open Gram

/-! ## Lexer output as parser input -/

theorem wf_of_lex {input : Str} {its : List Item} (h : lex input = .ok its) : Wf its := by
  obtain ⟨pre, last, h', h1, h2⟩ := C01_lex_total input
  rw [h] at h'; cases h'
  clear h
  induction pre with
  | nil => exact .last h1
  | cons t pre ih =>
    have := h2 t (by simp)
    exact .cons this.1 this.2 (ih fun it hi => h2 it (by simp [hi]))

theorem lex_st {input : Str} {its : List Item} (h : lex input = .ok its) (q : Phase) :
    (⟨its.headD Item.zero, its.tail, q⟩ : PSt) = mkSt its q ∧ (mkSt its q).toks = its := by
  have := (wf_of_lex h).ne_nil
  cases its with
  | nil => exact absurd rfl this
  | cons t r => exact ⟨rfl, rfl⟩

theorem pinv_of_lex {L : Lib} {input : Str} {its : List Item} (h : lex input = .ok its) : PInv ⟨input, L⟩ (mkSt its .any) := by
  refine ⟨?_, ?_⟩
  · rw [(lex_st h .any).2]; exact wf_of_lex h
  · rw [(lex_st h .any).2]; exact (C03_positions h).1

/-! ## C05 -/

theorem parseWith_no_panic {L : Lib} {load : Nat → Str → Except Fail (List Rule)} (hl : ∀ i f p, load i f ≠ .error (.panic p))
    (input : Str) : ∀ p, parseWith L load input ≠ .error (.panic p) := by
  intro p
  obtain ⟨pre, last, h, -⟩ := C01_lex_total input
  simp only [parseWith, h]
  rw [(lex_st h .any).1]
  have hlen : (mkSt (pre ++ [last]) .any).toks.length = (pre ++ [last]).length := by rw [(lex_st h .any).2]
  exact pFile_safe hl (pinv_of_lex h) (by rw [hlen]; omega) (by rw [hlen]) p

theorem loadRules_no_panic (L : Lib) (fs : Files) (d : Nat) : ∀ path f p, loadRules L fs d path f ≠ .error (.panic p) := by
  induction d with
  | zero => intro path f p h; cases h
  | succ d ih =>
    intro path f p h
    unfold loadRules at h
    split at h
    · cases h
    · cases h
    · cases h
    · split at h
      · cases h
      · exact parseWith_no_panic (fun i f p => ih (i :: path) f p) _ p h

/-- **C05.** Whatever the text, the file system and the number of free file descriptors, parsing returns rules or an
error: no panic, no endless loop (the loop bounds of the model, `Panic.fuel`, are never hit). -/
theorem C05_parse_total (L : Lib) (fs : Files) (d : Nat) (path : List Nat) (input : Str) :
    (∃ rs, parse L fs d path input = .ok rs) ∨ (∃ msg, parse L fs d path input = .error (.err msg)) := by
  match h : parse L fs d path input with
  | .ok rs => exact .inl ⟨rs, rfl⟩
  | .error (.err m) => exact .inr ⟨m, rfl⟩
  | .error (.panic p) => exact absurd h (parseWith_no_panic (fun i f p => loadRules_no_panic L fs d (i :: path) f p) input p)

/-- **C05.** The same for reading a rules file by name. -/
theorem C05_load_total (L : Lib) (fs : Files) (d : Nat) (path : List Nat) (f : Str) :
    (∃ rs, loadRules L fs d path f = .ok rs) ∨ (∃ msg, loadRules L fs d path f = .error (.err msg)) := by
  match h : loadRules L fs d path f with
  | .ok rs => exact .inl ⟨rs, rfl⟩
  | .error (.err m) => exact .inr ⟨m, rfl⟩
  | .error (.panic p) => exact absurd h (loadRules_no_panic L fs d path f p)

/-- Both outcomes occur, also deep inside parentheses. -/
example : parse demoLib (fun _ _ => .notExist []) 5 [] b!"reject ((((not not all))))" =
    .ok [⟨[⟨.notN (.notN .all), {}⟩], .reject, .any, .any⟩] := by decide +kernel
example : parse demoLib (fun _ _ => .notExist []) 5 [] b!"reject (((not \"" =
    .error (.err b!"at line 1 char 15: lexing error: unterminated quoted value") := by decide +kernel

/-! ## C06 -/

/-- Tokens after which an expression is over. -/
def EndsExpr (f : Item) : Prop :=
  f.typ = .kw .with_ ∨ f.typ = .semicolon ∨ f.typ = .eol ∨ f.typ = .eof ∨ f.typ = .rparen

theorem EndsExpr.facts {f : Item} (h : EndsExpr f) : f.typ ≠ .comma ∧ f.typ ≠ .kw .or ∧ termStart f.typ = false := by
  rcases h with h | h | h | h | h <;> simp [h, termStart]

theorem pAndl_ok_mono {E : PEnv} {n : Nat} {ts : List Item} {es : List Expr} {f : Item} {r : List Item} {q : Phase}
    (g : Andl E.lib ts es) (hn : 3 * ts.length + 3 ≤ n) (hf : EndsExpr f) :
    pAndl E n [] (mkSt (ts ++ f :: r) q) = .ok (some (conj es), ⟨f, r, later q (needs (conj es))⟩) := by
  obtain ⟨h1, h2, h3⟩ := hf.facts
  rw [(parse_complete E n).2.2 _ _ f r q [] g hn h1 h2 h3, List.nil_append, mkAnd_eq g.ne_nil, needs_conj]

/-- **C06.** The expression parser, started on tokens `ts` followed by a token that ends expressions, stops exactly there
with expression `e` if and only if the documented grammar derives `ts` with structure `e`. -/
theorem C06_expr_iff (E : PEnv) {ts : List Item} {f : Item} {r : List Item} {q : Phase} (hf : EndsExpr f)
    (hw : Wf (ts ++ f :: r)) (e : Expr) {n : Nat} (hn : 3 * ts.length + 3 ≤ n) :
    (∃ q', pAndl E n [] (mkSt (ts ++ f :: r) q) = .ok (some e, ⟨f, r, q'⟩)) ↔ ∃ es, Andl E.lib ts es ∧ e = conj es := by
  constructor
  · rintro ⟨q', h⟩
    have hm : (mkSt (ts ++ f :: r) q).toks = ts ++ f :: r := by cases ts <;> rfl
    obtain ⟨⟨-, es, us, hu, hg, he, -⟩, -⟩ := (parse_sound E n).2.2 _ _ _ _ (by rw [hm]; exact hw) h
    rw [hm] at hu
    have hu' : ts = us := List.append_cancel_right hu
    subst hu'
    rcases hg with ⟨rfl, rfl⟩ | hg
    · cases he
    · rw [List.nil_append, mkAnd_eq hg.ne_nil] at he
      exact ⟨es, hg, Option.some.inj he⟩
  · rintro ⟨es, g, rfl⟩
    exact ⟨_, pAndl_ok_mono g hn hf⟩

/-- **C06.** The grammar is unambiguous: no token sequence has two structures. -/
theorem C06_expr_unambiguous {L : Lib} {ts : List Item} {es es' : List Expr} (h : Andl L ts es) (h' : Andl L ts es') :
    conj es = conj es' := by
  have hf : EndsExpr ⟨.eof, [], 0⟩ := .inr (.inr (.inr (.inl rfl)))
  have h1 := pAndl_ok_mono (E := ⟨[], L⟩) (r := []) (q := .any) h (le_refl _) hf
  have h2 := pAndl_ok_mono (E := ⟨[], L⟩) (r := []) (q := .any) h' (le_refl _) hf
  rw [h1] at h2
  simp only [Except.ok.injEq, Prod.mk.injEq, Option.some.injEq] at h2
  exact h2.1

/-- **C06.** A text parses with rules `rs` if and only if its tokens are a file of the documented grammar with rules
`rs`. -/
theorem C06_file_iff (L : Lib) (load : Nat → Str → Except Fail (List Rule)) (input : Str) (rs : List Rule) :
    parseWith L load input = .ok rs ↔ ∃ toks, lex input = .ok toks ∧ File L (fun i f rs => load i f = .ok rs) 0 toks rs := by
  obtain ⟨pre, last, h, -⟩ := C01_lex_total input
  simp only [parseWith, h]
  rw [(lex_st h .any).1]
  constructor
  · intro hp
    obtain ⟨rs', rfl, hf⟩ := pFile_sound (by rw [(lex_st h .any).2]; exact wf_of_lex h) hp
    rw [(lex_st h .any).2] at hf
    exact ⟨_, rfl, hf⟩
  · rintro ⟨toks, ht, hf⟩
    cases ht
    have := pFile_complete (E := ⟨input, L⟩) hf (3 * (pre ++ [last]).length + 3) (3 * (pre ++ [last]).length + 3) [] .any (le_refl _) (by omega)
    simpa using this

/-- **C06.** Only types and values of tokens matter: texts with the same tokens have the same rules.  With C04, comments,
blank lines, indentation and continuations never change the rules. -/
theorem C06_tokens_determine_rules (L : Lib) (load : Nat → Str → Except Fail (List Rule)) {a b : Str} (h : tokens a = tokens b)
    (rs : List Rule) : parseWith L load a = .ok rs ↔ parseWith L load b = .ok rs := by
  have key : ∀ {a b : Str}, tokens a = tokens b → parseWith L load a = .ok rs → parseWith L load b = .ok rs := by
    intro a b h ha
    rw [C06_file_iff] at ha ⊢
    obtain ⟨toks, ht, hf⟩ := ha
    obtain ⟨pre, last, hb, -⟩ := C01_lex_total b
    simp only [tokens, ht, hb, Except.map, Except.ok.injEq] at h
    exact ⟨_, hb, hf.tv h.symm⟩
  exact ⟨key h, key h.symm⟩

/-- `or` binds tighter than juxtaposition, `not` tightest; parentheses group. -/
example : parse demoLib (fun _ _ => .notExist []) 5 [] b!"accept not tls on or helo a.b or all dns good,exists (from a@ to b@)\n" =
    .ok [⟨[⟨.andL [.orN (.notN (.tls true)) (.orN (.matchN .helo b!"a.b") .all), .optN .dns (oGood ||| oExists),
      .andL [.matchN .from_ b!"a@", .matchN .to b!"b@"]], {}⟩], .accept, .rto, .any⟩] := by decide +kernel

/-- Sequences outside the grammar are refused. -/
example : (parse demoLib (fun _ _ => .notExist []) 5 [] b!"accept or all\n").isOk = false := by decide +kernel
example : (parse demoLib (fun _ _ => .notExist []) 5 [] b!"accept all ) all\n").isOk = false := by decide +kernel
example : (parse demoLib (fun _ _ => .notExist []) 5 [] b!"accept dns good, all\n").isOk = false := by decide +kernel

/-! ## C07, C08 -/

/-- Where the rules of a parse come from: every rule was derived by the grammar from the text or an included file. -/
theorem rules_derived {L : Lib} {I : Nat → Str → List Rule → Prop} {i ts rs} (h : File L I i ts rs)
    {P : Rule → Prop} (hP : ∀ ts r, RuleG L ts r → P r) (hI : ∀ i f qs, I i f qs → ∀ r ∈ qs, P r) : ∀ r ∈ rs, P r := by
  have hs : ∀ {i ts rs}, Stmt L I i ts rs → ∀ r ∈ rs, P r := by
    intro i ts rs h r hr
    cases h with
    | rule g => simp only [List.mem_singleton] at hr; subst hr; exact hP _ _ g
    | incl _ _ h => exact hI _ _ _ h r hr
  induction h with
  | eof => simp
  | last h _ => exact hs h
  | line h _ _ ih =>
    intro r hr
    rcases List.mem_append.mp hr with hr | hr
    · exact hs h r hr
    · exact ih r hr

theorem loadRules_derived {L : Lib} {fs : Files} {P : Rule → Prop} (hP : ∀ ts r, RuleG L ts r → P r) (d : Nat) :
    ∀ path f rs, loadRules L fs d path f = .ok rs → ∀ r ∈ rs, P r := by
  induction d with
  | zero => intro path f rs h; cases h
  | succ d ih =>
    intro path f rs h
    unfold loadRules at h
    split at h
    · cases h
    · cases h
    · cases h
    · split at h
      · cases h
      · obtain ⟨toks, -, hf⟩ := (C06_file_iff _ _ _ _).mp h
        exact rules_derived hf hP (fun i f qs hq => ih _ _ _ hq)

theorem parse_derived {L : Lib} {fs : Files} {P : Rule → Prop} (hP : ∀ ts r, RuleG L ts r → P r) {d path input rs}
    (h : parse L fs d path input = .ok rs) : ∀ r ∈ rs, P r := by
  obtain ⟨toks, -, hf⟩ := (C06_file_iff _ _ _ _).mp h
  exact rules_derived hf hP (fun i f qs hq => loadRules_derived hP d _ _ _ hq)

/-- The operators of an expression. -/
inductive OpIn : Expr → Expr → Prop
  | self {e} : (∀ es, e ≠ .andL es) → (∀ a, e ≠ .notN a) → (∀ a b, e ≠ .orN a b) → OpIn e e
  | andL {o e es} : e ∈ es → OpIn o e → OpIn o (.andL es)
  | notN {o e} : OpIn o e → OpIn o (.notN e)
  | orL {o l r} : OpIn o l → OpIn o (.orN l r)
  | orR {o l r} : OpIn o r → OpIn o (.orN l r)

/-- `ph` is the latest of the phases that satisfy `Q` (`any`, before everything, if there is none). -/
def Latest (Q : Phase → Prop) (ph : Phase) : Prop := (Q ph ∨ ph = .any) ∧ ∀ p, Q p → p ≤ ph

theorem le_later_left (a b : Phase) : a ≤ later a b := by cases a <;> cases b <;> decide
theorem le_later_right (a b : Phase) : b ≤ later a b := by cases a <;> cases b <;> decide
theorem later_or (a b : Phase) : later a b = a ∨ later a b = b := by unfold later; split <;> simp
theorem Phase.le_trans' {a b c : Phase} (h : a ≤ b) (h' : b ≤ c) : a ≤ c := Nat.le_trans h h'
theorem Phase.any_le (a : Phase) : Phase.any ≤ a := Nat.zero_le _

theorem opNeeds_le (e : Expr) : opNeeds e ≤ .rto := by
  unfold opNeeds
  split <;> first | decide | (split_ifs <;> decide)

theorem needs_latest : (e : Expr) → (∀ o, OpIn o e → opNeeds o ≤ needs e) ∧ (needs e = .any ∨ ∃ o, OpIn o e ∧ opNeeds o = needs e)
  | .andL es => by
    have key : ∀ l : List Expr, (∀ e ∈ l, e ∈ es) → (∀ e ∈ l, (∀ o, OpIn o e → opNeeds o ≤ needs e) ∧ (needs e = .any ∨ ∃ o, OpIn o e ∧ opNeeds o = needs e)) →
        (∀ e ∈ l, needs e ≤ needsL l) ∧ (needsL l = .any ∨ ∃ e ∈ l, needs e = needsL l) := by
      intro l
      induction l with
      | nil => intro _ _; exact ⟨by simp, .inl rfl⟩
      | cons e l ih =>
        intro hl hq
        obtain ⟨i1, i2⟩ := ih (fun e he => hl e (by simp [he])) (fun e he => hq e (by simp [he]))
        refine ⟨?_, ?_⟩
        · intro x hx
          rcases List.mem_cons.mp hx with rfl | hx
          · exact le_later_left _ _
          · exact Phase.le_trans' (i1 x hx) (le_later_right _ _)
        · rcases later_or (needs e) (needsL l) with h | h
          · exact .inr ⟨e, by simp, by rw [needsL, h]⟩
          · rcases i2 with i2 | ⟨x, hx, he⟩
            · exact .inl (by rw [needsL, h, i2])
            · exact .inr ⟨x, by simp [hx], by rw [needsL, h, he]⟩
    have hq : ∀ e ∈ es, (∀ o, OpIn o e → opNeeds o ≤ needs e) ∧ (needs e = .any ∨ ∃ o, OpIn o e ∧ opNeeds o = needs e) :=
      fun e he => needs_latest e
    obtain ⟨k1, k2⟩ := key es (fun _ h => h) hq
    refine ⟨?_, ?_⟩
    · intro o ho
      cases ho with
      | self h => exact absurd rfl (h es)
      | andL he ho => exact Phase.le_trans' ((hq _ he).1 o ho) (by rw [needs]; exact k1 _ he)
    · rw [needs]
      rcases k2 with k2 | ⟨x, hx, he⟩
      · exact .inl k2
      · rcases (hq x hx).2 with h | ⟨o, ho, h⟩
        · left; rw [← he, h]
        · exact .inr ⟨o, .andL hx ho, by rw [h, he]⟩
  | .notN e => by
    obtain ⟨h1, h2⟩ := needs_latest e
    refine ⟨?_, ?_⟩
    · intro o ho
      cases ho with
      | self _ h => exact absurd rfl (h e)
      | notN ho => rw [needs]; exact h1 o ho
    · rw [needs]
      rcases h2 with h | ⟨o, ho, h⟩
      · exact .inl h
      · exact .inr ⟨o, .notN ho, h⟩
  | .orN l r => by
    obtain ⟨h1, h2⟩ := needs_latest l
    obtain ⟨g1, g2⟩ := needs_latest r
    refine ⟨?_, ?_⟩
    · intro o ho
      rw [needs]
      cases ho with
      | self _ _ h => exact absurd rfl (h l r)
      | orL ho => exact Phase.le_trans' (h1 o ho) (le_later_left _ _)
      | orR ho => exact Phase.le_trans' (g1 o ho) (le_later_right _ _)
    · rw [needs]
      rcases later_or (needs l) (needs r) with h | h <;> rw [h]
      · rcases h2 with h2 | ⟨o, ho, h2⟩
        · exact .inl h2
        · exact .inr ⟨o, .orL ho, h2⟩
      · rcases g2 with h2 | ⟨o, ho, h2⟩
        · exact .inl h2
        · exact .inr ⟨o, .orR ho, h2⟩
  | .all => ⟨fun o ho => by cases ho; simp [needs]; exact Phase.any_le _, .inl rfl⟩
  | .tls b => ⟨fun o ho => by cases ho; rw [needs]; exact Nat.le_refl _, .inr ⟨_, .self (by simp) (by simp) (by simp), rfl⟩⟩
  | .dnsbl d => ⟨fun o ho => by cases ho; rw [needs]; exact Nat.le_refl _, .inr ⟨_, .self (by simp) (by simp) (by simp), rfl⟩⟩
  | .matchN k a => ⟨fun o ho => by cases ho; rw [needs]; exact Nat.le_refl _, .inr ⟨_, .self (by simp) (by simp) (by simp), rfl⟩⟩
  | .source a => ⟨fun o ho => by cases ho; rw [needs]; exact Nat.le_refl _, .inr ⟨_, .self (by simp) (by simp) (by simp), rfl⟩⟩
  | .dbl s d => ⟨fun o ho => by cases ho; rw [needs]; exact Nat.le_refl _, .inr ⟨_, .self (by simp) (by simp) (by simp), rfl⟩⟩
  | .optN k o => ⟨fun o ho => by cases ho; rw [needs]; exact Nat.le_refl _, .inr ⟨_, .self (by simp) (by simp) (by simp), rfl⟩⟩

/-- The phases needed by the operators of a rule. -/
def RuleNeeds (r : Rule) (p : Phase) : Prop := ∃ c ∈ r.clauses, ∃ o, OpIn o c.expr ∧ opNeeds o = p

theorem needsC_latest (cs : List RClause) :
    Latest (fun p => ∃ c ∈ cs, ∃ o, OpIn o c.expr ∧ opNeeds o = p) (needsC cs) := by
  induction cs with
  | nil => exact ⟨.inr rfl, by simp⟩
  | cons c cs ih =>
    obtain ⟨i1, i2⟩ := ih
    obtain ⟨h1, h2⟩ := needs_latest c.expr
    refine ⟨?_, ?_⟩
    · rw [needsC]
      rcases later_or (needs c.expr) (needsC cs) with h | h <;> rw [h]
      · rcases h2 with h2 | ⟨o, ho, h2⟩
        · exact .inr h2
        · exact .inl ⟨c, by simp, o, ho, h2⟩
      · rcases i1 with ⟨x, hx, o, ho⟩ | i1
        · exact .inl ⟨x, by simp [hx], o, ho⟩
        · exact .inr i1
    · rintro p ⟨x, hx, o, ho, rfl⟩
      rw [needsC]
      rcases List.mem_cons.mp hx with rfl | hx
      · exact Phase.le_trans' (h1 o ho) (le_later_left _ _)
      · exact Phase.le_trans' (i2 _ ⟨x, hx, o, ho, rfl⟩) (le_later_right _ _)

/-- **C07.** Every rule of a successful parse (included files too) requires exactly the latest phase any of its match
operators needs, which is at most RCPT TO, and its explicit phase, if any, is not earlier than that. -/
theorem C07_requires (L : Lib) (fs : Files) {d path input rs} (h : parse L fs d path input = .ok rs) :
    ∀ r ∈ rs, Latest (RuleNeeds r) r.requires ∧ r.requires ≤ .rto ∧ (r.deferto = .any ∨ r.requires ≤ r.deferto) := by
  refine parse_derived (fs := fs)
    (P := fun r => Latest (RuleNeeds r) r.requires ∧ r.requires ≤ .rto ∧ (r.deferto = .any ∨ r.requires ≤ r.deferto)) ?_ h
  intro ts r g
  have hb : ∀ cs, needsC cs ≤ .rto := by
    intro cs
    rcases (needsC_latest cs).1 with ⟨c, hc, o, ho, h⟩ | h
    · rw [← h]; exact opNeeds_le o
    · rw [h]; decide
  cases g with
  | plain _ _ _ => exact ⟨needsC_latest _, hb _, .inl rfl⟩
  | phased _ _ _ _ _ hle => exact ⟨needsC_latest _, hb _, .inr hle⟩

example : (parse demoLib (fun _ _ => .notExist []) 5 [] b!"@data reject helo-has bogus ; not (to a@ or from b@)\n").map
    (·.map fun r => (r.requires, r.deferto)) = .ok [(.rto, .data)] := by decide +kernel

/-- **C07.** A rule with an explicit phase earlier than its operators need makes the whole parse fail, wherever it is in
the file. -/
theorem C07_too_early_fails (L : Lib) (load : Nat → Str → Except Fail (List Rule)) {input : Str}
    {us : List Item} {r1 : List Rule} {j : Nat} {pi ai : Item} {pk ak : Kw} {ph : Phase} {a : Action} {ts : List Item}
    {cs : List RClause} {f : Item} {vs : List Item}
    (hlex : lex input = .ok (us ++ pi :: ai :: ts ++ f :: vs))
    (hl : Lines L (fun i f rs => load i f = .ok rs) 0 us r1 j)
    (hpi : pi.typ = .kw pk) (hpk : PhaseWord pk ph) (hai : ai.typ = .kw ak) (hak : ActionWord ak a)
    (hc : Clauses L a ts cs) (hf : f.typ = .eol ∨ f.typ = .eof) (hlt : ph < needsC cs) :
    ∃ msg, parseWith L load input = .error (.err msg) := by
  simp only [parseWith, hlex]
  rw [(lex_st hlex .any).1]
  simp only [List.append_assoc, List.cons_append]
  have hpe : pi.typ ≠ .eof := by rw [hpi]; simp
  generalize hn : 3 * (us ++ pi :: ai :: (ts ++ f :: vs)).length + 3 = n
  simp only [List.length_append, List.length_cons] at hn
  obtain ⟨k', q', hk', he⟩ := pFile_lines (E := ⟨input, L⟩) hl pi hpe (ai :: (ts ++ f :: vs)) n n [] .any (by omega) (by omega)
  rw [he]
  obtain ⟨k', rfl⟩ : ∃ m, k' = m + 1 := ⟨k' - 1, by omega⟩
  have hcomp := pRClause_complete (E := ⟨input, L⟩) hc (n := n) n [] f vs .any (by omega) (by omega) hf
  have h0 : phaseOf pi.typ = ph := by rw [hpi]; cases hpk <;> rfl
  have h0' : ph ≠ .any := by cases hpk <;> simp
  have h1 : actionOf ai.typ = a := by rw [hai]; cases hak <;> rfl
  have h2 : a ≠ .error := by cases hak <;> simp
  have hni : pi.typ ≠ .kw .include_ := by rw [hpi]; cases hpk <;> simp
  have hpos : f.pos ≤ input.length := (C03_positions hlex).1 f (by simp)
  have hle : ∀ msg, ∃ m, lineError ⟨input, L⟩ ⟨f, vs, needsC cs⟩ msg = .err m := by
    intro msg
    obtain ⟨x, y, hxy⟩ := lineInfo_safe hpos
    simp only [lineError, hxy]
    exact ⟨_, rfl⟩
  obtain ⟨m, hm⟩ := hle
    b!"rule specifies a phase lower than its operations require so we cannot satisfy the phase requirement"
  refine ⟨m, ?_⟩
  simp only [pFile, if_neg hni, pRule, if_neg hpe, pPhase, h0, ne_eq, h0', not_false_eq_true, if_true, pure_eq_ok, ok_bind, h1, h2,
    consume_mk' hpi, consume_mk' hai, mkSt_cons, hcomp, List.nil_append, any_later, hlt, and_self, if_false]
  rw [hm]
  rfl

/-- The hypotheses can be met. -/
example : (parse demoLib (fun _ _ => .notExist []) 5 [] b!"accept all\n@helo reject from a@ ; to b@\naccept all\n") =
    .error (.err b!"at line 2: rule specifies a phase lower than its operations require so we cannot satisfy the phase requirement") := by
  decide +kernel

theorem Gram.WTerms.good {w ts w'} (h : WTerms w ts w') (hn : ∀ n, w.note = some n → c!"\n" ∉ n)
    (ht : ∀ o, w.tlsOpt = some o → o = b!"off" ∨ o = b!"no-client") :
    (∀ n, w'.note = some n → c!"\n" ∉ n) ∧ (∀ o, w'.tlsOpt = some o → o = b!"off" ∨ o = b!"no-client") := by
  induction h with
  | nil => exact ⟨hn, ht⟩
  | message _ _ _ _ ih => exact ih hn ht
  | note _ _ _ hnl _ ih => exact ih (fun n h => by cases h; exact hnl) ht
  | savedir _ _ _ _ ih => exact ih hn ht
  | tlsOpt _ _ _ hv _ ih => exact ih hn (fun n h => by cases h; exact hv)
  | makeYakker _ _ _ ih => exact ih hn ht

/-- An expression in which every series has at least two members. -/
inductive ProperExpr : Expr → Prop
  | op {e} : (∀ es, e ≠ .andL es) → (∀ a, e ≠ .notN a) → (∀ a b, e ≠ .orN a b) → ProperExpr e
  | andL {es} : 2 ≤ es.length → (∀ e ∈ es, ProperExpr e) → ProperExpr (.andL es)
  | notN {e} : ProperExpr e → ProperExpr (.notN e)
  | orN {l r} : ProperExpr l → ProperExpr r → ProperExpr (.orN l r)

theorem gram_proper (L : Lib) : (∀ n ts e, ts.length ≤ n → (Term L ts e → ProperExpr e) ∧ (Orl L ts e → ProperExpr e)) ∧
    (∀ n ts es, ts.length ≤ n → Andl L ts es → ∀ e ∈ es, ProperExpr e) := by
  have conjP : ∀ es : List Expr, es ≠ [] → (∀ e ∈ es, ProperExpr e) → ProperExpr (conj es) := by
    intro es hne h
    match es with
    | [] => exact absurd rfl hne
    | [e] => exact h e (by simp)
    | a :: b :: es => exact .andL (by simp) h
  have key : ∀ n : Nat, (∀ ts e, Term L ts e → 3 * ts.length ≤ n → ProperExpr e) ∧
      (∀ ts e, Orl L ts e → 3 * ts.length + 1 ≤ n → ProperExpr e) ∧
      (∀ ts es, Andl L ts es → 3 * ts.length + 2 ≤ n → ∀ e ∈ es, ProperExpr e) := by
    intro n
    induction n with
    | zero =>
      refine ⟨?_, fun _ _ _ h => by omega, fun _ _ _ h => by omega⟩
      intro ts e h hl
      obtain ⟨t, ts', rfl, -⟩ := h.start
      simp at hl
    | succ n ih =>
      obtain ⟨ihT, ihO, ihA⟩ := ih
      refine ⟨?_, ?_, ?_⟩
      · intro ts e h hl
        cases h with
        | arg ho _ _ => cases ho <;> exact .op (by simp) (by simp) (by simp)
        | ip => exact .op (by simp) (by simp) (by simp)
        | dnsbl => exact .op (by simp) (by simp) (by simp)
        | tlsOn => exact .op (by simp) (by simp) (by simp)
        | tlsOff => exact .op (by simp) (by simp) (by simp)
        | all => exact .op (by simp) (by simp) (by simp)
        | has => exact .op (by simp) (by simp) (by simp)
        | dbl => exact .op (by simp) (by simp) (by simp)
        | not_ _ h => exact .notN (ihT _ _ h (by simp only [List.length_cons] at hl; omega))
        | paren _ h _ =>
          exact conjP _ h.ne_nil (ihA _ _ h (by simp only [List.length_cons, List.length_append] at hl; omega))
      · intro ts e h hl
        cases h with
        | one h => exact ihT _ _ h (by omega)
        | or h _ h2 =>
          simp only [List.length_cons, List.length_append] at hl
          exact .orN (ihT _ _ h (by omega)) (ihO _ _ h2 (by omega))
      · intro ts es h hl
        cases h with
        | one h =>
          intro e he
          simp only [List.mem_singleton] at he; subst he
          exact ihO _ _ h (by omega)
        | more h h2 =>
          obtain ⟨t, ts2, rfl, -⟩ := h.start
          simp only [List.length_cons, List.length_append] at hl
          intro e he
          rcases List.mem_cons.mp he with rfl | he
          · exact ihO _ _ h (by simp only [List.length_cons]; omega)
          · exact ihA _ _ h2 (by omega) e he
  exact ⟨fun n ts e _ => ⟨fun h => (key _).1 ts e h le_rfl, fun h => (key _).2.1 ts e h le_rfl⟩,
    fun n ts es _ h => (key _).2.2 ts es h le_rfl⟩

theorem clause_proper {L : Lib} {ts c} (h : Clause L ts c) : ProperExpr c.expr ∧
    (∀ n, c.withs.note = some n → c!"\n" ∉ n) ∧ (∀ o, c.withs.tlsOpt = some o → o = b!"off" ∨ o = b!"no-client") := by
  have conjP : ∀ ts es, Andl L ts es → ProperExpr (conj es) := by
    intro ts es g
    have h := (gram_proper L).2 _ _ _ le_rfl g
    have hne := g.ne_nil
    match es with
    | [] => exact absurd rfl hne
    | [e] => exact h e (by simp)
    | a :: b :: es => exact .andL (by simp) h
  cases h with
  | plain g => exact ⟨conjP _ _ g, by simp, by simp⟩
  | withs g _ _ gw => exact ⟨conjP _ _ g, gw.good (by simp) (by simp)⟩

/-- **C08.** In every rule of a successful parse: there is at least one clause, every clause has a proper expression, a
`set-with` clause has a with option, notes have no newline and `tls-opt` is `off` or `no-client`. -/
theorem C08_rules_well_formed (L : Lib) (fs : Files) {d path input rs} (h : parse L fs d path input = .ok rs) :
    ∀ r ∈ rs, r.clauses ≠ [] ∧ r.result ≠ .error ∧ ∀ c ∈ r.clauses, ProperExpr c.expr ∧
      (r.result = .noresult → c.withs ≠ {}) ∧ (∀ n, c.withs.note = some n → c!"\n" ∉ n) ∧
      (∀ o, c.withs.tlsOpt = some o → o = b!"off" ∨ o = b!"no-client") := by
  refine parse_derived (fs := fs) (P := fun r => r.clauses ≠ [] ∧ r.result ≠ .error ∧ ∀ c ∈ r.clauses, ProperExpr c.expr ∧
      (r.result = .noresult → c.withs ≠ {}) ∧ (∀ n, c.withs.note = some n → c!"\n" ∉ n) ∧
      (∀ o, c.withs.tlsOpt = some o → o = b!"off" ∨ o = b!"no-client")) ?_ h
  intro ts r g
  have hcl : ∀ {a ts cs}, Clauses L a ts cs → cs ≠ [] ∧ ∀ c ∈ cs, ProperExpr c.expr ∧
      (a = .noresult → c.withs ≠ {}) ∧ (∀ n, c.withs.note = some n → c!"\n" ∉ n) ∧
      (∀ o, c.withs.tlsOpt = some o → o = b!"off" ∨ o = b!"no-client") := by
    intro a ts cs hc
    induction hc with
    | one h hs =>
      refine ⟨by simp, ?_⟩
      intro c hc; simp only [List.mem_singleton] at hc; subst hc
      have := clause_proper h
      exact ⟨this.1, hs, this.2⟩
    | more h hs _ _ ih =>
      refine ⟨by simp, ?_⟩
      intro c hc
      rcases List.mem_cons.mp hc with rfl | hc
      · have := clause_proper h
        exact ⟨this.1, hs, this.2⟩
      · exact ih.2 c hc
    | moreNl h hs _ _ _ ih =>
      refine ⟨by simp, ?_⟩
      intro c hc
      rcases List.mem_cons.mp hc with rfl | hc
      · have := clause_proper h
        exact ⟨this.1, hs, this.2⟩
      · exact ih.2 c hc
  have hact : ∀ {k a}, ActionWord k a → a ≠ .error := by intro k a h; cases h <;> simp
  cases g with
  | plain _ ha hc => exact ⟨(hcl hc).1, hact ha, (hcl hc).2⟩
  | phased _ _ _ ha hc _ => exact ⟨(hcl hc).1, hact ha, (hcl hc).2⟩

example : (parse demoLib (fun _ _ => .notExist []) 5 [] b!"set-with dns nodns with note \"no dns\" tls-opt off; all with savedir x\n").isOk = true := by
  decide +kernel
example : (parse demoLib (fun _ _ => .notExist []) 5 [] b!"set-with dns nodns with note x; all\n").isOk = false := by decide +kernel
example : (parse demoLib (fun _ _ => .notExist []) 5 [] b!"accept all with note \"a\nb\"\n").isOk = false := by decide +kernel
example : (parse demoLib (fun _ _ => .notExist []) 5 [] b!"accept all with tls-opt maybe\n").isOk = false := by decide +kernel

/-! ## C10 -/

/-- What the file system gives, as the specification sees it. -/
def readable (fs : Files) : List Nat → Str → Option Str := fun path f =>
  match fs path f with
  | .data b => some b
  | _ => none

/-- **C10.** Reading a rules file succeeds with rules `rs` iff `rs` are the rules that the file contributes when every
include statement is replaced by what the included file contributes, to any depth. -/
theorem C10_load_iff (L : Lib) (fs : Files) (d : Nat) : ∀ (path : List Nat) (f : Str) (rs : List Rule),
    loadRules L fs d path f = .ok rs ↔ Contributes L (readable fs) d path f rs := by
  induction d with
  | zero => intro path f rs; simp [loadRules, Contributes]
  | succ d ih =>
    intro path f rs
    rw [Contributes]
    simp only [← ih]
    rw [loadRules]
    cases hr : fs path f with
    | notExist m => simp [readable, hr]
    | openErr m => simp [readable, hr]
    | readErr m => simp [readable, hr]
    | data b =>
      have hb : readable fs path f = some b := by simp [readable, hr]
      simp only [hb, Option.some.injEq, exists_and_left, exists_eq_left']
      rw [← C06_file_iff]
      cases h : parseWith L (fun i f => loadRules L fs d (i :: path) f) b with
      | ok r => simp
      | error e => cases e <;> simp

theorem Wf.suffix {a b : List Item} (h : Wf (a ++ b)) (hb : b ≠ []) : Wf b := by
  induction a with
  | nil => exact h
  | cons t a ih =>
    rw [List.cons_append] at h
    generalize hx : a ++ b = r at h
    cases h with
    | last _ => simp only [List.append_eq_nil_iff] at hx; exact absurd hx.2 hb
    | cons _ _ h => exact ih (hx ▸ h)

/-- Complete leading statements can be split off. -/
theorem parse_after_lines (L : Lib) (load : Nat → Str → Except Fail (List Rule)) {input : Str}
    {us : List Item} {r1 : List Rule} {j : Nat} {u : Item} {ws : List Item}
    (hlex : lex input = .ok (us ++ u :: ws))
    (hl : Lines L (fun i f rs => load i f = .ok rs) 0 us r1 j) (hu : u.typ ≠ .eof) (rs : List Rule) :
    parseWith L load input = .ok rs ↔ ∃ rs', rs = r1 ++ rs' ∧ File L (fun i f rs => load i f = .ok rs) j (u :: ws) rs' := by
  simp only [parseWith, hlex]
  rw [(lex_st hlex .any).1]
  generalize hn : 3 * (us ++ u :: ws).length + 3 = n
  simp only [List.length_append, List.length_cons] at hn
  obtain ⟨k', q', hk', he⟩ := pFile_lines (E := ⟨input, L⟩) hl u hu ws n n [] .any (by omega) (by omega)
  rw [he]
  constructor
  · intro h
    exact pFile_sound (s := ⟨u, ws, q'⟩) ((wf_of_lex hlex).suffix (by simp)) h
  · rintro ⟨rs', rfl, g⟩
    have := pFile_complete (E := ⟨input, L⟩) g n k' ([] ++ r1) q' (by simp only [List.length_cons]; omega)
      (by simp only [List.length_cons]; omega)
    rw [mkSt_cons] at this
    simpa using this

/-- **C10.** An include statement after any complete statements: the parse succeeds iff the included file does and
nothing else follows the file name and the rest of the file is in order; the rules are those before, then the included
ones, then those after. -/
theorem C10_splice (L : Lib) (load : Nat → Str → Except Fail (List Rule)) {input : Str}
    {us : List Item} {r1 : List Rule} {j : Nat} {inc a : Item} {ws : List Item}
    (hlex : lex input = .ok (us ++ inc :: a :: ws))
    (hl : Lines L (fun i f rs => load i f = .ok rs) 0 us r1 j)
    (hinc : inc.typ = .kw .include_) (ha : IsArg a) (rs : List Rule) :
    parseWith L load input = .ok rs ↔
      ∃ r2 r3 f vs, load j a.val = .ok r2 ∧ ws = f :: vs ∧ rs = r1 ++ r2 ++ r3 ∧
        ((f.typ = .eol ∧ File L (fun i f rs => load i f = .ok rs) (j + 1) vs r3) ∨ (f.typ = .eof ∧ vs = [] ∧ r3 = [])) := by
  have h1 : inc.typ ≠ .eof := by rw [hinc]; simp
  rw [parse_after_lines L load hlex hl h1]
  have hwf : Wf (inc :: a :: ws) := (wf_of_lex hlex).suffix (by simp)
  have hwf2 : Wf ws := (hwf.cons_inv h1 (by rw [hinc]; simp)).cons_inv ha.2.1 ha.2.2
  constructor
  · rintro ⟨rs', rfl, g⟩
    generalize hx : inc :: a :: ws = toks at g
    cases g with
    | eof he =>
      simp only [List.cons.injEq] at hx
      exact absurd (hx.1 ▸ he) h1
    | last g he =>
      cases g with
      | rule gr =>
        obtain ⟨t, ts', rfl, ht, -⟩ := RuleG_head gr
        simp only [List.cons_append, List.cons.injEq] at hx
        exact absurd (hx.1 ▸ hinc) ht
      | incl h1 h2 h3 =>
        simp only [List.cons_append, List.nil_append, List.cons.injEq] at hx
        obtain ⟨rfl, rfl, rfl⟩ := hx
        exact ⟨_, [], _, [], h3, rfl, by simp, .inr ⟨he, rfl, rfl⟩⟩
    | line g he g2 =>
      cases g with
      | rule gr =>
        obtain ⟨t, ts', rfl, ht, -⟩ := RuleG_head gr
        simp only [List.cons_append, List.cons.injEq] at hx
        exact absurd (hx.1 ▸ hinc) ht
      | incl h1 h2 h3 =>
        simp only [List.cons_append, List.nil_append, List.cons.injEq] at hx
        obtain ⟨rfl, rfl, rfl⟩ := hx
        exact ⟨_, _, _, _, h3, rfl, by simp, .inl ⟨he, g2⟩⟩
  · rintro ⟨r2, r3, f, vs, hld, rfl, rfl, ⟨hf, g⟩ | ⟨hf, rfl, rfl⟩⟩
    · exact ⟨r2 ++ r3, by simp, File.line (ts := [inc, a]) (.incl hinc ha hld) hf g⟩
    · exact ⟨r2, by simp, File.last (ts := [inc, a]) (.incl hinc ha hld) hf⟩

/-- **C10.** If the included file cannot be read or parsed the whole parse fails. -/
theorem C10_bad_include_fails (L : Lib) (fs : Files) (d : Nat) (path : List Nat) {input : Str}
    {us : List Item} {r1 : List Rule} {j : Nat} {inc a : Item} {ws : List Item}
    (hlex : lex input = .ok (us ++ inc :: a :: ws))
    (hl : Lines L (fun i f rs => loadRules L fs d (i :: path) f = .ok rs) 0 us r1 j)
    (hinc : inc.typ = .kw .include_) (ha : IsArg a) (hbad : ∀ rs, loadRules L fs d (j :: path) a.val ≠ .ok rs) :
    ∃ msg, parse L fs d path input = .error (.err msg) := by
  rcases C05_parse_total L fs d path input with ⟨rs, h⟩ | h
  · obtain ⟨r2, r3, f, vs, h, -⟩ := (C10_splice L _ hlex hl hinc ha rs).mp h
    exact absurd h (hbad _)
  · exact h

/-- **C10.** If anything but the end of the line follows the file name the whole parse fails. -/
theorem C10_trailing_fails (L : Lib) (fs : Files) (d : Nat) (path : List Nat) {input : Str}
    {us : List Item} {r1 : List Rule} {j : Nat} {inc a t : Item} {ws : List Item}
    (hlex : lex input = .ok (us ++ inc :: a :: t :: ws))
    (hl : Lines L (fun i f rs => loadRules L fs d (i :: path) f = .ok rs) 0 us r1 j)
    (hinc : inc.typ = .kw .include_) (ha : IsArg a) (ht : t.typ ≠ .eol) (ht2 : t.typ ≠ .eof) :
    ∃ msg, parse L fs d path input = .error (.err msg) := by
  rcases C05_parse_total L fs d path input with ⟨rs, h⟩ | h
  · obtain ⟨r2, r3, f, vs, -, h2, -, h3⟩ := (C10_splice L _ hlex hl hinc ha rs).mp h
    cases h2
    rcases h3 with h3 | h3
    · exact absurd h3.1 ht
    · exact absurd h3.1 ht2
  · exact h

theorem Gram.File.mono {L} {I I' : Nat → Str → List Rule → Prop} (hI : ∀ i f rs, I i f rs → I' i f rs) {i ts rs}
    (h : File L I i ts rs) : File L I' i ts rs := by
  have hs : ∀ {i ts rs}, Stmt L I i ts rs → Stmt L I' i ts rs := by
    intro i ts rs h
    cases h with
    | rule g => exact .rule g
    | incl a b c => exact .incl a b (hI _ _ _ c)
  induction h with
  | eof h => exact .eof h
  | last h h2 => exact .last (hs h) h2
  | line h h2 _ ih => exact .line (hs h) h2 ih

theorem Gram.Lines.mono {L} {I I' : Nat → Str → List Rule → Prop} (hI : ∀ i f rs, I i f rs → I' i f rs) {i ts rs j}
    (h : Lines L I i ts rs j) : Lines L I' i ts rs j := by
  induction h with
  | nil => exact .nil
  | cons h h2 _ ih =>
    refine .cons ?_ h2 ih
    cases h with
    | rule g => exact .rule g
    | incl a b c => exact .incl a b (hI _ _ _ c)

/-- **C10.** More free file descriptors never change the rules of a file that could be loaded. -/
theorem C10_more_descriptors (L : Lib) (fs : Files) (d : Nat) : ∀ (path : List Nat) (f : Str) (rs : List Rule),
    loadRules L fs d path f = .ok rs → loadRules L fs (d + 1) path f = .ok rs := by
  simp only [C10_load_iff]
  induction d with
  | zero => intro path f rs h; exact h.elim
  | succ d ih =>
    intro path f rs h
    rw [Contributes] at h ⊢
    obtain ⟨b, toks, h1, h2, h3⟩ := h
    exact ⟨b, toks, h1, h2, h3.mono fun i g qs => ih _ _ _⟩

/-- **C10.** Files that include each other in a cycle are never loaded, however many descriptors are free: if every file
of the set `S` has, after some ordinary rules, an include of a file of `S`, no file of `S` loads. -/
theorem C10_cycle_fails (L : Lib) (fs : Files) (S : Str → Prop)
    (hS : ∀ f, S f → ∀ path, ∃ b us r1 j inc a ws, fs path f = .data b ∧ lex b = .ok (us ++ inc :: a :: ws) ∧
      Lines L (fun _ _ _ => False) 0 us r1 j ∧ inc.typ = .kw .include_ ∧ IsArg a ∧ S a.val) (d : Nat) :
    ∀ f, S f → ∀ path, ∃ msg, loadRules L fs d path f = .error (.err msg) := by
  induction d with
  | zero => intro f _ path; exact ⟨_, rfl⟩
  | succ d ih =>
    intro f hf path
    obtain ⟨b, us, r1, j, inc, a, ws, h1, h2, h3, h4, h5, h6⟩ := hS f hf path
    have h3' : Lines L (fun i f rs => loadRules L fs d (i :: path) f = .ok rs) 0 us r1 j := h3.mono fun _ _ _ h => h.elim
    obtain ⟨m, hm⟩ := C10_bad_include_fails L fs d path h2 h3' h4 h5 (by
      intro rs h
      obtain ⟨m, hm⟩ := ih a.val h6 (j :: path)
      rw [h] at hm; cases hm)
    rw [loadRules, h1]
    unfold parse at hm
    simp only [hm]
    exact ⟨_, rfl⟩

/-- Includes, nested, between other rules. -/
example : parse demoLib (fun _ f => if f = b!"a" then .data b!"include b\nstall all" else if f = b!"b" then .data b!"reject tls on\n"
      else .notExist b!"?") 5 [] b!"accept all\ninclude a\nset-with all with note x\n" =
    .ok [⟨[⟨.all, {}⟩], .accept, .any, .any⟩, ⟨[⟨.tls true, {}⟩], .reject, .mfrom, .any⟩, ⟨[⟨.all, {}⟩], .stall, .any, .any⟩,
      ⟨[⟨.all, { note := some b!"x" }⟩], .noresult, .any, .any⟩] := by decide +kernel

/-- A file that includes itself. -/
example : (loadRules demoLib (fun _ _ => .data b!"accept all\ninclude a\n") 4 [] b!"a").isOk = false := by decide +kernel

/-- The hypotheses of `C10_cycle_fails` hold for it. -/
example : ∀ d path, ∃ msg, loadRules demoLib (fun _ _ => .data b!"include a\n") d path b!"a" = .error (.err msg) := fun d path =>
  C10_cycle_fails demoLib _ (· = b!"a") (by
    intro f hf path
    exact ⟨b!"include a\n", [], [], 0, ⟨.kw .include_, b!"include", 0⟩, ⟨.value, b!"a", 8⟩, [⟨.eol, b!"\n", 9⟩, ⟨.eof, [], 10⟩],
      rfl, by decide +kernel, .nil, rfl, ⟨by simp, by simp, by simp⟩, rfl⟩) d _ rfl path

end Sink
