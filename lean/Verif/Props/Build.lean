import Verif.Model.Build
import Verif.Props.Print

/-! # C11: command line options compile to the documented rules -/

namespace Sink

open Gram (Term Orl Andl Clause Clauses RuleG Stmt File WTerms OptClass ArgOp OptOp IsArg IsIPArg IsDomain conj needsC PhaseWord ActionWord)

/-- The documented rules (doc.go:748-768), in their order.  Arguments: `-nostdrules` not given, `-M` given, and the file
names, if given. -/
def documentedRules (std m : Bool) (fromreject toaccept heloreject : Option Str) : List Rule :=
  (if std then
    [⟨[⟨.optN .fromHas (oBad ||| oRoute), {}⟩], .reject, .mfrom, .any⟩,
     ⟨[⟨.optN .toHas (oBad ||| oRoute), {}⟩], .reject, .rto, .any⟩,
     ⟨[⟨.optN .heloHas oNone, {}⟩], .reject, .helo, .any⟩] else []) ++
  (if m then [⟨[⟨.all, {}⟩], .reject, .any, .message⟩] else []) ++
  (fromreject.toList.map fun f => ⟨[⟨.matchN .from_ (b!"file:" ++ f), {}⟩], .reject, .mfrom, .any⟩) ++
  (toaccept.toList.map fun f => ⟨[⟨.notN (.matchN .to (b!"file:" ++ f)), {}⟩], .reject, .rto, .any⟩) ++
  (heloreject.toList.map fun f => ⟨[⟨.matchN .helo (b!"file:" ++ f), {}⟩], .reject, .helo, .mfrom⟩)

/-- A file name free of white space, commas, parentheses and semicolons. -/
def CleanName (f : Str) : Prop := ∀ c ∈ f, c ∉ b!" \t\n,();"

/-- The file name given with an option; an empty one counts as not given. -/
def given (f : Str) : Option Str := if f = [] then none else some f

/-- A line of text, its tokens (without the end of line) and its rule. -/
structure LineOf (L : Lib) (text : Str) (r : Rule) : Prop where
  ex : ∃ ts, RuleG L (ts.map mkI) r ∧
    ∀ rest, toksFrom .lineStart (text ++ (b!"\n" ++ rest)) = (toksFrom .lineStart rest).map (ts ++ [(.eol, b!"\n")] ++ ·)

theorem lineOf_mk {L : Lib} {w s : Str} {ts : List (Tok × Str)} {r : Rule} (hw : PlainWord w) (h1 : w.head? ≠ some c!"#")
    (h2 : w.head? ≠ some c!"\\") (hs : Lx s ts) (hg : RuleG L (((wordTok w, w) :: ts).map mkI) r) : LineOf L (w ++ b!" " ++ s) r := by
  refine ⟨⟨_, hg, ?_⟩⟩
  intro rest
  rw [List.append_assoc, List.append_assoc, toksFrom_lineStart_word hw h1 h2 (Bnd.blank _), toksFrom_blank, hs _ (Bnd.newline _),
    toksFrom_newline, except_map_map, except_map_map]
  simp

theorem cleanName_plain {f : Str} (h : CleanName f) (hne : f ≠ []) : PlainWord (b!"file:" ++ f) := by
  refine ⟨by simp, ?_, by simp, ?_, by simp⟩
  · intro c hc
    rcases List.mem_append.mp hc with hc | hc
    · exact (by decide : ∀ c ∈ b!"file:", isSpecialChar c = false) c hc
    · have := h c hc
      by_contra hx
      rw [Bool.not_eq_false, isSpecialChar_eq] at hx
      apply this
      simp only [List.mem_cons, List.not_mem_nil, or_false]
      tauto
  · intro h0
    apply hne
    exact List.append_cancel_left (h0.trans (List.append_nil _).symm)

theorem parse_lines {L : Lib} {load : Nat → Str → Except Fail (List Rule)} : ∀ (ls : List (Str × Rule)),
    (∀ l ∈ ls, LineOf L l.1 l.2) →
    ∀ i, ∃ ts, toksFrom .lineStart (ls.flatMap fun l => l.1 ++ b!"\n") = .ok ts ∧
      File L (fun i f rs => load i f = .ok rs) i (ts.map mkI) (ls.map (·.2))
  | [], _, i => ⟨_, toksFrom_start_end, .eof rfl⟩
  | l :: ls, h, i => by
    obtain ⟨ts, h1, h2⟩ := parse_lines (load := load) ls (fun x hx => h x (by simp [hx])) (i + 1)
    obtain ⟨us, hg, hl⟩ := (h l (by simp)).ex
    refine ⟨us ++ [(.eol, b!"\n")] ++ ts, ?_, ?_⟩
    · rw [List.flatMap_cons, List.append_assoc, hl, h1]; rfl
    · have := File.line (nl := mkI (.eol, b!"\n")) (Stmt.rule hg) rfl h2
      simpa using this

theorem parseWith_lines {L : Lib} {load : Nat → Str → Except Fail (List Rule)} (ls : List (Str × Rule))
    (h : ∀ l ∈ ls, LineOf L l.1 l.2) : parseWith L load (ls.flatMap fun l => l.1 ++ b!"\n") = .ok (ls.map (·.2)) := by
  obtain ⟨ts, h1, h2⟩ := parse_lines (load := load) ls h 0
  rw [← tokens_eq_toksFrom] at h1
  obtain ⟨pre, last, hx, -⟩ := C01_lex_total (ls.flatMap fun l => l.1 ++ b!"\n")
  simp only [tokens, hx, Except.map, Except.ok.injEq] at h1
  refine (C06_file_iff _ _ _ _).mpr ⟨_, hx, h2.tv ?_⟩
  rw [SameTv, h1, map_mkI_tv]

/-- The lines of the generated text with their rules. -/
def buildLines (o : BaseOpts) : List (Str × Rule) :=
  (if o.stdrules then
    [(b!"reject from-has bad,route", ⟨[⟨.optN .fromHas (oBad ||| oRoute), {}⟩], .reject, .mfrom, .any⟩),
     (b!"reject to-has bad,route", ⟨[⟨.optN .toHas (oBad ||| oRoute), {}⟩], .reject, .rto, .any⟩),
     (b!"reject helo-has none", ⟨[⟨.optN .heloHas oNone, {}⟩], .reject, .helo, .any⟩)] else []) ++
  (if o.failgotdata then [(b!"@message reject all", ⟨[⟨.all, {}⟩], .reject, .any, .message⟩)] else []) ++
  ((given o.fromreject).toList.map fun f => (b!"reject from file:" ++ f, ⟨[⟨.matchN .from_ (b!"file:" ++ f), {}⟩], .reject, .mfrom, .any⟩)) ++
  ((given o.toaccept).toList.map fun f => (b!"reject not to file:" ++ f, ⟨[⟨.notN (.matchN .to (b!"file:" ++ f)), {}⟩], .reject, .rto, .any⟩)) ++
  ((given o.heloreject).toList.map fun f => (b!"@from reject helo file:" ++ f, ⟨[⟨.matchN .helo (b!"file:" ++ f), {}⟩], .reject, .helo, .mfrom⟩))

theorem buildText_lines (o : BaseOpts) : buildText o = (buildLines o).flatMap fun l => l.1 ++ b!"\n" := by
  obtain ⟨s, m, f, t, h⟩ := o
  simp only [buildText, buildLines, given, List.flatMap_append]
  congr 1
  · congr 1
    · congr 1
      · congr 1
        · cases s <;> rfl
        · cases m <;> rfl
      · by_cases hf : f = [] <;> simp [hf]
    · by_cases hf : t = [] <;> simp [hf]
  · by_cases hf : h = [] <;> simp [hf]

theorem buildLines_rules (o : BaseOpts) : (buildLines o).map (·.2) =
    documentedRules o.stdrules o.failgotdata (given o.fromreject) (given o.toaccept) (given o.heloreject) := by
  obtain ⟨s, m, f, t, h⟩ := o
  simp only [buildLines, documentedRules, List.map_append, List.map_map]
  congr 1
  congr 1
  congr 1
  congr 1
  · cases s <;> rfl
  · cases m <;> rfl

theorem one_clause {L : Lib} {act ts e} (h : Term L ts e) (ha : act ≠ .noresult) : Clauses L act ts [⟨e, {}⟩] :=
  .one (.plain (.one (.one h))) (fun h => absurd h ha)

theorem clean_given {f g : Str} (h : CleanName f) (hg : g ∈ (given f).toList) : PlainWord (b!"file:" ++ g) := by
  unfold given at hg
  split_ifs at hg with h0
  · simp at hg
  · simp only [Option.toList_some, List.mem_singleton] at hg
    subst hg
    exact cleanName_plain h h0

theorem buildLines_ok (L : Lib) (o : BaseOpts) (hf : CleanName o.fromreject) (ht : CleanName o.toaccept) (hh : CleanName o.heloreject) :
    ∀ l ∈ buildLines o, LineOf L l.1 l.2 := by
  have hrej : PlainWord b!"reject" := by decide +kernel
  have kw : ∀ {w : Str} {t : Tok}, PlainWord w → wordTok w = t → Lx w [(t, w)] := fun h h' => Lx.kw h h'
  have hbr : Lx b!"bad,route" [(.kw .bad, b!"bad"), (.comma, b!","), (.kw .route, b!"route")] :=
    (kw (w := b!"bad") (t := .kw .bad) (by decide +kernel) (by decide +kernel)).append
      (Lx.comma (w := b!"route") (s := []) (by decide +kernel) (kw (w := b!"route") (t := .kw .route) (by decide +kernel) (by decide +kernel)))
      (.inr ⟨c!",", _, rfl, by decide⟩)
  have obr : Gram.Opts .addr ([(.kw .bad, b!"bad"), (.comma, b!","), (.kw .route, b!"route")].map mkI) (oBad ||| oRoute) :=
    .more (k := .bad) rfl rfl rfl (.one (k := .route) rfl rfl)
  intro l hl
  simp only [buildLines, List.mem_append, or_assoc] at hl
  rcases hl with hl | hl | hl | hl | hl
  · split_ifs at hl
    · simp only [List.mem_cons, List.not_mem_nil, or_false] at hl
      rcases hl with rfl | rfl | rfl
      · have hx := (kw (w := b!"from-has") (t := .kw .fromHas) (by decide +kernel) (by decide +kernel)).two hbr
        exact lineOf_mk (w := b!"reject") hrej (by decide) (by decide) hx
          (RuleG.plain (ak := .reject) (by decide +kernel) .reject (one_clause (.has (k := .fromHas) .fromHas rfl obr) (by simp)))
      · have hx := (kw (w := b!"to-has") (t := .kw .toHas) (by decide +kernel) (by decide +kernel)).two hbr
        exact lineOf_mk (w := b!"reject") hrej (by decide) (by decide) hx
          (RuleG.plain (ak := .reject) (by decide +kernel) .reject (one_clause (.has (k := .toHas) .toHas rfl obr) (by simp)))
      · have hx := (kw (w := b!"helo-has") (t := .kw .heloHas) (by decide +kernel) (by decide +kernel)).two
          (kw (w := b!"none") (t := .kw .none) (by decide +kernel) (by decide +kernel))
        exact lineOf_mk (w := b!"reject") hrej (by decide) (by decide) hx
          (RuleG.plain (ak := .reject) (by decide +kernel) .reject
            (one_clause (.has (k := .heloHas) .heloHas rfl (.one (k := .none) rfl rfl)) (by simp)))
    · simp at hl
  · split_ifs at hl
    · simp only [List.mem_singleton] at hl
      subst hl
      have hx := (kw (w := b!"reject") (t := .kw .reject) (by decide +kernel) (by decide +kernel)).two
        (kw (w := b!"all") (t := .kw .all) (by decide +kernel) (by decide +kernel))
      exact lineOf_mk (w := b!"@message") (by decide +kernel) (by decide) (by decide) hx
        (RuleG.phased (pk := .aMessage) (ak := .reject) (by decide +kernel) .message rfl .reject (one_clause (.all rfl) (by simp))
          (by decide))
    · simp at hl
  · obtain ⟨g, hg, rfl⟩ := List.mem_map.mp hl
    have hw := clean_given hf hg
    have hx := (kw (w := b!"from") (t := .kw .from_) (by decide +kernel) (by decide +kernel)).two (Lx.word hw)
    exact lineOf_mk (w := b!"reject") hrej (by decide) (by decide) hx
      (RuleG.plain (ak := .reject) (by decide +kernel) .reject
        (one_clause (.arg (a := mkI (wordTok (b!"file:" ++ g), b!"file:" ++ g)) .from_ rfl (wordTok_isArg _)) (by simp)))
  · obtain ⟨g, hg, rfl⟩ := List.mem_map.mp hl
    have hw := clean_given ht hg
    have hx := (kw (w := b!"not") (t := .kw .not_) (by decide +kernel) (by decide +kernel)).two
      ((kw (w := b!"to") (t := .kw .to) (by decide +kernel) (by decide +kernel)).two (Lx.word hw))
    exact lineOf_mk (w := b!"reject") hrej (by decide) (by decide) hx
      (RuleG.plain (ak := .reject) (by decide +kernel) .reject
        (one_clause (.not_ rfl (.arg (a := mkI (wordTok (b!"file:" ++ g), b!"file:" ++ g)) .to rfl (wordTok_isArg _))) (by simp)))
  · obtain ⟨g, hg, rfl⟩ := List.mem_map.mp hl
    have hw := clean_given hh hg
    have hx := (kw (w := b!"reject") (t := .kw .reject) (by decide +kernel) (by decide +kernel)).two
      ((kw (w := b!"helo") (t := .kw .helo) (by decide +kernel) (by decide +kernel)).two (Lx.word hw))
    exact lineOf_mk (w := b!"@from") (by decide +kernel) (by decide) (by decide) hx
      (RuleG.phased (pk := .aFrom) (ak := .reject) (by decide +kernel) .from_ rfl .reject
        (one_clause (.arg (a := mkI (wordTok (b!"file:" ++ g), b!"file:" ++ g)) .helo rfl (wordTok_isArg _)) (by simp))
        (show (2 : Nat) ≤ 3 by omega))

/-- **C11.** For every combination of the options and all clean file names, the rules made from the options are exactly
the documented ones, in the documented order; making them never fails. -/
theorem C11_base_rules (L : Lib) (fs : Files) (d : Nat) (o : BaseOpts) (hf : CleanName o.fromreject) (ht : CleanName o.toaccept)
    (hh : CleanName o.heloreject) :
    buildRules L fs d o =
      .ok (documentedRules o.stdrules o.failgotdata (given o.fromreject) (given o.toaccept) (given o.heloreject)) := by
  rw [buildRules, parse, buildText_lines, parseWith_lines _ (buildLines_ok L o hf ht hh), buildLines_rules]

/-- The tokens of leading lines, whatever follows. -/
theorem toks_lines {L : Lib} {Incl : Nat → Str → List Rule → Prop} : ∀ (ls : List (Str × Rule)), (∀ l ∈ ls, LineOf L l.1 l.2) →
    ∀ i, ∃ ts j, (∀ rest, toksFrom .lineStart ((ls.flatMap fun l => l.1 ++ b!"\n") ++ rest) = (toksFrom .lineStart rest).map (ts ++ ·)) ∧
      Gram.Lines L Incl i (ts.map mkI) (ls.map (·.2)) j
  | [], _, i => ⟨[], i, fun rest => by cases h : toksFrom .lineStart rest <;> simp [Except.map, h], .nil⟩
  | l :: ls, h, i => by
    obtain ⟨ts, j, h1, h2⟩ := toks_lines (Incl := Incl) ls (fun x hx => h x (by simp [hx])) (i + 1)
    obtain ⟨us, hg, hl⟩ := (h l (by simp)).ex
    refine ⟨us ++ [(.eol, b!"\n")] ++ ts, j, fun rest => ?_, ?_⟩
    · rw [List.flatMap_cons, List.append_assoc, List.append_assoc, hl, h1, except_map_map]
      simp
    · have := Gram.Lines.cons (nl := mkI (.eol, b!"\n")) (Stmt.rule hg) rfl h2
      simpa using this

theorem Gram.Lines.tv {L : Lib} {I : Nat → Str → List Rule → Prop} {i j : Nat} {ts : List Item} {rs : List Rule} (h : Gram.Lines L I i ts rs j) :
    ∀ {ts'}, SameTv ts ts' → Gram.Lines L I i ts' rs j := by
  induction h with
  | nil => intro ts' hs; cases hs.nil_inv; exact .nil
  | cons h h2 _ ih =>
    intro ts' hs
    obtain ⟨a', b', rfl, ha, hb⟩ := hs.append_inv
    obtain ⟨t', r', rfl, ht, hv, hr⟩ := hb.cons_inv
    exact .cons (h.tv ha) (ht ▸ h2) (ih hr)

theorem Gram.Lines.file {L : Lib} {I : Nat → Str → List Rule → Prop} {i j : Nat} {ts us : List Item} {rs qs : List Rule}
    (h : Gram.Lines L I i ts rs j) (hf : File L I j us qs) : File L I i (ts ++ us) (rs ++ qs) := by
  induction h with
  | nil => exact hf
  | cons h h2 _ ih =>
    have := File.line h h2 (ih hf)
    simpa using this

/-- Whatever the rest of a text is, the rules of its first lines are the first rules. -/
theorem parseWith_first {L : Lib} {load : Nat → Str → Except Fail (List Rule)} (ls : List (Str × Rule)) (h : ∀ l ∈ ls, LineOf L l.1 l.2)
    (rest : Str) {rs : List Rule} (hp : parseWith L load ((ls.flatMap fun l => l.1 ++ b!"\n") ++ rest) = .ok rs) :
    ∃ more, rs = ls.map (·.2) ++ more := by
  obtain ⟨ts, j, h1, h2⟩ := toks_lines (Incl := fun i f rs => load i f = .ok rs) ls h 0
  generalize hin : (ls.flatMap fun l => l.1 ++ b!"\n") ++ rest = input at hp
  obtain ⟨pre, last, hx, -⟩ := C01_lex_total input
  have h3 := h1 rest
  rw [hin, ← tokens_eq_toksFrom, tokens, hx] at h3
  obtain ⟨vs, hv⟩ : ∃ vs, toksFrom .lineStart rest = .ok vs := by
    rw [← tokens_eq_toksFrom, tokens]
    obtain ⟨p2, l2, hx2, -⟩ := C01_lex_total rest
    rw [hx2]
    exact ⟨_, rfl⟩
  have hvn : vs ≠ [] := by
    rw [← tokens_eq_toksFrom, tokens] at hv
    obtain ⟨p2, l2, hx2, -⟩ := C01_lex_total rest
    rw [hx2] at hv
    injection hv with hv
    rw [← hv]
    simp
  rw [hv] at h3
  simp only [Except.map, Except.ok.injEq] at h3
  obtain ⟨us, ws, hs, hu, hw⟩ := List.map_eq_append_iff.1 h3
  have hl : Gram.Lines L (fun i f rs => load i f = .ok rs) 0 us (ls.map (·.2)) j := h2.tv (by rw [SameTv, hu, map_mkI_tv])
  obtain ⟨u, r, rfl⟩ : ∃ u r, ws = u :: r := by
    cases ws with
    | nil => exact absurd hw.symm hvn
    | cons u r => exact ⟨u, r, rfl⟩
  have hwf := wf_of_lex hx
  rw [hs] at hwf
  by_cases hue : u.typ = .eof
  · have h4 := hwf.suffix (by simp)
    have hr : r = [] := by
      generalize hy : u :: r = l at h4
      cases h4 with
      | last _ => injection hy
      | cons h5 _ _ => injection hy with hy _; rw [← hy] at h5; exact absurd hue h5
    subst hr
    have h5 := hl.file (.eof hue)
    rw [← hs] at h5
    have h6 := (C06_file_iff L load input _).mpr ⟨_, hx, h5⟩
    rw [h6] at hp
    injection hp with hp
    exact ⟨[], by rw [← hp]⟩
  · simp only [parseWith, hx] at hp
    rw [(lex_st hx .any).1, hs] at hp
    obtain ⟨k', q', -, h4⟩ := pFile_lines (E := ⟨input, L⟩) hl u hue r (3 * (us ++ u :: r).length + 3) (3 * (us ++ u :: r).length + 3) [] .any
      (by simp only [List.length_append, List.length_cons]; omega) (by simp only [List.length_append, List.length_cons]; omega)
    rw [h4] at hp
    obtain ⟨more, h5, -⟩ := pFile_sound (s := ⟨u, r, q'⟩) (hwf.suffix (by simp)) hp
    exact ⟨more, by rw [h5]; simp⟩

/-- **C11.** Whatever the file names given with the options are, if the server starts at all then the standard rules come first, then the rule
of `-M`; strange names can only change what comes after them. -/
theorem C11_any_names {L : Lib} {fs : Files} {d : Nat} {o : BaseOpts} {rs : List Rule} (h : buildRules L fs d o = .ok rs) :
    ∃ more, rs = documentedRules o.stdrules o.failgotdata none none none ++ more := by
  let o' : BaseOpts := ⟨o.stdrules, o.failgotdata, [], [], []⟩
  have hn : CleanName [] := by intro c hc; cases hc
  have hb := buildLines_ok L o' hn hn hn
  obtain ⟨rest, hr⟩ : ∃ rest, buildText o = ((buildLines o').flatMap fun l => l.1 ++ b!"\n") ++ rest := by
    rw [← buildText_lines]
    obtain ⟨s, m, f, t, h⟩ := o
    simp only [buildText, o']
    simp only [ne_eq, not_true_eq_false, if_false, List.append_nil, List.append_assoc]
    exact ⟨_, rfl⟩
  rw [buildRules, parse, hr] at h
  obtain ⟨more, hm⟩ := parseWith_first _ hb rest h
  exact ⟨more, by rw [hm, buildLines_rules]; rfl⟩

/-- A strange name that makes rules of its own, behind those. -/
example : buildRules demoLib (fun _ _ => .notExist []) 5 ⟨false, true, b!"x\naccept all", [], []⟩ =
    .ok [⟨[⟨.all, {}⟩], .reject, .any, .message⟩, ⟨[⟨.matchN .from_ b!"file:x", {}⟩], .reject, .mfrom, .any⟩, ⟨[⟨.all, {}⟩], .accept, .any, .any⟩] := by
  decide +kernel

/-- **C11.** The rules used when the rules files cannot be loaded are the single rule `stall all`. -/
theorem C11_stall_rules (L : Lib) (fs : Files) (d : Nat) : stallRules L fs d = .ok [⟨[⟨.all, {}⟩], .stall, .any, .any⟩] := by
  have h1 := toksFrom_lineStart_word (w := b!"stall") (r := b!" all") (by decide +kernel) (by decide) (by decide) (Bnd.blank b!"all")
  have h2 : toksFrom .lineRunning b!" all" = .ok [(.kw .all, b!"all"), (.eof, [])] := by decide +kernel
  rw [h2, ← tokens_eq_toksFrom] at h1
  obtain ⟨pre, last, hx, -⟩ := C01_lex_total b!"stall all"
  simp only [tokens, show b!"stall" ++ b!" all" = b!"stall all" by rfl, hx, Except.map, Except.ok.injEq] at h1
  refine (C06_file_iff _ _ _ _).mpr ⟨_, hx, ?_⟩
  have g : RuleG L ([(.kw .stall, b!"stall"), (.kw .all, b!"all")].map mkI) ⟨[⟨.all, {}⟩], .stall, .any, .any⟩ :=
    RuleG.plain (ak := .stall) rfl .stall (one_clause (.all rfl) (by simp))
  refine (File.last (e := mkI (.eof, [])) (Stmt.rule g) rfl).tv ?_
  rw [SameTv, h1]
  decide +kernel

/-- Only `-toaccept` and `-heloreject`. -/
example : buildRules demoLib (fun _ _ => .notExist []) 5 ⟨false, false, [], b!"/etc/ok", b!"bad-helo"⟩ =
    .ok [⟨[⟨.notN (.matchN .to b!"file:/etc/ok"), {}⟩], .reject, .rto, .any⟩,
      ⟨[⟨.matchN .helo b!"file:bad-helo", {}⟩], .reject, .helo, .mfrom⟩] := by decide +kernel
/-- With a blank in the name the text can even mean something else. -/
example : buildRules demoLib (fun _ _ => .notExist []) 5 ⟨false, false, b!"x tls on", [], []⟩ =
    .ok [⟨[⟨.andL [.matchN .from_ b!"file:x", .tls true], {}⟩], .reject, .mfrom, .any⟩] := by decide +kernel
example : (buildRules demoLib (fun _ _ => .notExist []) 5 ⟨false, false, b!"x y", [], []⟩).isOk = false := by decide +kernel

end Sink
