import Verif.Props.Joined
import Verif.Props.Build

/-!
# C117: an include line is as the text of the file
-/

namespace Sink
open Spec Gram

/-- `w` writes the name `F` in a rules file: as one plain word not ended by a backslash, or between quotes. -/
def Spec.NamesFile (w F : Str) : Prop := (w = F ∧ PlainWord F ∧ F.getLast? ≠ some c!"\\") ∨ w = b!"\"" ++ F ++ b!"\"" ∧ QuoteBody F F

/-- The include line. -/
def Spec.includeLine (w : Str) : Str := b!"include " ++ w ++ b!"\n"

theorem names_lx {w F : Str} (h : NamesFile w F) : ∃ t, Lx w [(t, F)] ∧ t ≠ .eol ∧ t ≠ .eof ∧ t ≠ .error := by
  rcases h with ⟨rfl, h, -⟩ | ⟨rfl, h⟩
  · refine ⟨_, Lx.word h, ?_⟩
    unfold wordTok
    cases keyword? w with
    | some k => simp
    | none => dsimp only; split <;> simp
  · exact ⟨_, Lx.quoted h, by simp⟩

theorem include_lined {w F : Str} (h : NamesFile w F) : Lined (includeLine w) := by
  refine .inr ⟨b!"include " ++ w, rfl, ?_⟩
  intro hb
  rcases h with ⟨rfl, hw, h⟩ | ⟨rfl, hw⟩
  · rw [List.getLast?_append_of_ne_nil _ hw.1] at hb
    exact h hb
  · rw [List.getLast?_append_of_ne_nil _ (by simp), List.getLast?_append_of_ne_nil _ (by simp)] at hb
    simp at hb

/-- An include line by itself gives the rules of the file. -/
theorem parse_include {L : Lib} {load : Nat → Str → Except Fail (List Rule)} {w F : Str} {rs : List Rule} (h : NamesFile w F)
    (hl : load 0 F = .ok rs) : parseWith L load (includeLine w) = .ok rs := by
  obtain ⟨t, hx, ht⟩ := names_lx h
  have h1 : toksFrom .lineStart (includeLine w) = .ok [(.kw .include_, b!"include"), (t, F), (.eol, b!"\n"), (.eof, b!"")] := by
    have e : includeLine w = b!"include" ++ (b!" " ++ (w ++ (b!"\n" ++ []))) := by simp [includeLine]
    rw [e, toksFrom_lineStart_word (by decide +kernel) (by decide) (by decide) (Bnd.blank _), toksFrom_blank, hx _ (Bnd.newline _),
      toksFrom_newline, toksFrom_start_end]
    rfl
  have h2 : Gram.File L (fun i f rs => load i f = .ok rs) 0
      ([(.kw .include_, b!"include"), (t, F), (.eol, b!"\n"), (.eof, b!"")].map mkI) (rs ++ []) :=
    File.line (ts := [mkI (.kw .include_, b!"include"), mkI (t, F)]) (nl := mkI (.eol, b!"\n")) (us := [mkI (.eof, b!"")])
      (Stmt.incl rfl ht hl) rfl (.eof rfl)
  rw [List.append_nil] at h2
  rw [← tokens_eq_toksFrom] at h1
  obtain ⟨pre, last, hx, -⟩ := C01_lex_total (includeLine w)
  simp only [tokens, hx, Except.map, Except.ok.injEq] at h1
  refine (C06_file_iff _ _ _ _).mpr ⟨_, hx, h2.tv ?_⟩
  rw [SameTv, h1, map_mkI_tv]

/-- How the files that a text includes are loaded: `d` more files may be open. -/
def loadAt (L : Lib) (fs : Files) (d : Nat) : Nat → Str → Except Fail (List Rule) := fun _ f => loadRules L fs d [] f

theorem parse_at {L : Lib} {fs : Files} (hfs : ∀ p q f, fs p f = fs q f) (d : Nat) (p : List Nat) :
    (fun i f => loadRules L fs d (i :: p) f) = loadAt L fs d := by
  funext i f; exact loadRules_steady hfs d _ _ _

/-- The text of a file that loads gives the same rules with one more file open. -/
theorem text_loads {L : Lib} {fs : Files} (hfs : ∀ p q f, fs p f = fs q f) {d : Nat} {F t : Str} {rF : List Rule}
    (ht : fs [] F = .data t) (h : loadRules L fs d [] F = .ok rF) : parseWith L (loadAt L fs d) t = .ok rF := by
  have h1 := C10_more_descriptors L fs d [] F rF h
  rw [loadRules, ht] at h1
  dsimp only at h1
  rw [parse_at hfs] at h1
  split at h1
  · cases h1
  · exact h1

theorem inlined_of_ok {L : Lib} {fs : Files} (hfs : ∀ p q f, fs p f = fs q f) {d : Nat} {a b t w F : Str} {ra rF : List Rule}
    (hw : NamesFile w F) (ha : Lined a) (hpa : parseWith L (loadAt L fs d) a = .ok ra) (hF : fs [] F = .data t) (ht : Lined t)
    (hok : loadRules L fs d [] F = .ok rF) (rs : List Rule) :
    parseWith L (loadAt L fs d) (a ++ (includeLine w ++ b)) = .ok rs ↔ parseWith L (loadAt L fs d) (a ++ (t ++ b)) = .ok rs := by
  obtain ⟨j, hj⟩ := C113_joined ha hpa
  obtain ⟨k, hk⟩ := C113_joined (include_lined hw) (parse_include (L := L) (load := loadAt L fs d) hw hok)
  obtain ⟨m, hm⟩ := C113_joined ht (text_loads hfs hF hok)
  rw [hj, hj]
  refine exists_congr fun rb => and_congr_left fun _ => ?_
  exact (hk b rb).trans (hm b rb).symm

/-- **C117.** While files do not change: wherever a rules text with an include line is in order, the text with the lines of the
included file in place of the include line is in order too, and has the same rules in the same order.  The text before the include
line must be in order by itself, and that text and the included file must be made of complete lines. -/
theorem C117_inlined {L : Lib} {fs : Files} (hfs : ∀ p q f, fs p f = fs q f) {d : Nat} {path : List Nat} {a b t w F : Str} {ra rs : List Rule}
    (hw : NamesFile w F) (ha : Lined a) (hpa : parse L fs d path a = .ok ra) (hF : fs path F = .data t) (ht : Lined t)
    (h : parse L fs d path (a ++ (includeLine w ++ b)) = .ok rs) : parse L fs d path (a ++ (t ++ b)) = .ok rs := by
  unfold parse at hpa h ⊢
  rw [parse_at hfs] at hpa h ⊢
  rw [hfs path [] F] at hF
  cases hok : loadRules L fs d [] F with
  | ok rF => exact (inlined_of_ok hfs hw ha hpa hF ht hok rs).1 h
  | error e =>
    exfalso
    obtain ⟨j, hj⟩ := C113_joined ha hpa
    obtain ⟨rb, h1, -⟩ := (hj (includeLine w ++ b) rs).1 h
    obtain ⟨t, hx, htt⟩ := names_lx hw
    have e1 : includeLine w ++ b = b!"include" ++ (b!" " ++ (w ++ (b!"\n" ++ b))) := by simp [includeLine]
    obtain ⟨pre, last, hl, -⟩ := C01_lex_total (includeLine w ++ b)
    generalize pre ++ [last] = toks at hl
    have h3 : tokens (includeLine w ++ b) = .ok (toks.map Item.tv) := by simp [tokens, hl, Except.map]
    rw [tokens_eq_toksFrom, e1, toksFrom_lineStart_word (by decide +kernel) (by decide) (by decide) (Bnd.blank _), toksFrom_blank,
      hx _ (Bnd.newline _)] at h3
    cases h4 : toksFrom .lineRunning (b!"\n" ++ b) with
    | error e => rw [h4] at h3; cases h3
    | ok us =>
      rw [h4] at h3
      simp only [Except.map, Except.ok.injEq] at h3
      obtain ⟨inc, ws, rfl, hinc, h5⟩ := List.map_eq_cons_iff.1 h3.symm
      obtain ⟨arg, ws', rfl, harg, -⟩ := List.map_eq_cons_iff.1 h5
      have hinc' : inc.typ = .kw .include_ := congrArg Prod.fst hinc
      have harg1 : arg.typ = t := congrArg Prod.fst harg
      have harg2 : arg.val = F := congrArg Prod.snd harg
      obtain ⟨r2, -, -, -, h6, -⟩ := (C10_splice L _ (us := []) hl .nil hinc' (by rw [IsArg, harg1]; exact htt) rb).1 h1
      rw [harg2, loadAt, hok] at h6
      cases h6

/-- **C117.** And the other way, when the included file is in order and may be opened beside the other. -/
theorem C117_included {L : Lib} {fs : Files} (hfs : ∀ p q f, fs p f = fs q f) {d : Nat} {path : List Nat} {a b t w F : Str} {ra rF rs : List Rule}
    (hw : NamesFile w F) (ha : Lined a) (hpa : parse L fs d path a = .ok ra) (hF : fs path F = .data t) (ht : Lined t)
    (hok : Contributes L (readable fs) d path F rF) (h : parse L fs d path (a ++ (t ++ b)) = .ok rs) :
    parse L fs d path (a ++ (includeLine w ++ b)) = .ok rs := by
  have hok := (C10_load_iff _ _ _ _ _ _).2 hok
  unfold parse at hpa h ⊢
  rw [parse_at hfs] at hpa h ⊢
  rw [hfs path [] F] at hF
  rw [loadRules_steady hfs d path []] at hok
  exact (inlined_of_ok hfs hw ha hpa hF ht hok rs).2 h

theorem load_inlined {L : Lib} {fs : Files} (hfs : ∀ p q f, fs p f = fs q f) {d : Nat} {g h a b t w F : Str} {ra rF : List Rule}
    (hg : fs [] g = .data (a ++ (includeLine w ++ b))) (hh : fs [] h = .data (a ++ (t ++ b)))
    (hw : NamesFile w F) (ha : Lined a) (hpa : parse L fs d [] a = .ok ra) (hF : fs [] F = .data t) (ht : Lined t)
    (hok : loadRules L fs d [] F = .ok rF) (rs : List Rule) : loadRules L fs (d + 1) [] g = .ok rs ↔ loadRules L fs (d + 1) [] h = .ok rs := by
  unfold parse at hpa
  rw [parse_at hfs] at hpa
  have key : ∀ {f s : Str}, fs [] f = .data s → (loadRules L fs (d + 1) [] f = .ok rs ↔ parseWith L (loadAt L fs d) s = .ok rs) := by
    intro f s hf
    rw [loadRules, hf]
    dsimp only
    rw [parse_at hfs]
    split
    · rename_i m hm; rw [hm]; simp
    · rfl
  rw [key hg, key hh]
  exact inlined_of_ok hfs hw ha hpa hF ht hok rs

theorem accumAll_replaced {L : Lib} {fs : Files} (hfs : ∀ p q f, fs p f = fs q f) {d : Nat} {pre post : List Str} {g h : Str}
    {base rules : List Rule} (hn : g ≠ [] ∧ h ≠ []) (hgh : ∀ rs, loadRules L fs d [] g = .ok rs ↔ loadRules L fs d [] h = .ok rs) :
    accumAll L fs d 0 base (pre ++ g :: post) = .ok rules ↔ accumAll L fs d 0 base (pre ++ h :: post) = .ok rules := by
  rw [accumAll_append hfs, accumAll_append hfs]
  refine exists_congr fun rs => and_congr_right fun _ => ?_
  simp only [accumAll, accumRules, if_neg hn.1, if_neg hn.2, loadRules_steady hfs d [0] [] _]
  cases h1 : loadRules L fs d [] g with
  | ok r1 => rw [(hgh r1).1 h1]
  | error e =>
    cases h2 : loadRules L fs d [] h with
    | ok r2 => rw [(hgh r2).2 h2] at h1; cases h1
    | error e' => cases e <;> cases e' <;> simp

/-- **C117.** While files do not change: a rules file with an include line, and one with the lines of the included file in its place, make
no difference to any connection, when the included file is in order and may be opened beside the other. -/
theorem C117_files {cf : Conf} {E : Env} (hfs : ∀ p q f, E.fs p f = E.fs q f) {d : Nat} (hd : E.fds = d + 1) {pre post : List Str}
    {g h a b t w F : Str} {ra rF : List Rule} (hn : g ≠ [] ∧ h ≠ [])
    (hg : E.fs [] g = .data (a ++ (includeLine w ++ b))) (hh : E.fs [] h = .data (a ++ (t ++ b)))
    (hw : NamesFile w F) (ha : Lined a) (hpa : parse E.W.lib E.fs d [] a = .ok ra) (hF : E.fs [] F = .data t) (ht : Lined t)
    (hok : Contributes E.W.lib (readable E.fs) d [] F rF) (l : List Step) (s : Sess) :
    Life { cf with rulefiles := pre ++ g :: post } E l s ↔ Life { cf with rulefiles := pre ++ h :: post } E l s := by
  have hok := (C10_load_iff _ _ _ _ _ _).2 hok
  have key := load_inlined hfs hg hh hw ha hpa hF ht hok
  rw [← hd] at key
  exact ⟨life_same fun rules => accumAll_replaced hfs hn key, life_same fun rules => (accumAll_replaced hfs hn key).symm⟩

/-! ## Cases -/

/-- A file with an include line in the middle, the file it includes, which has an include line too, and the text put together. -/
def inA : Str := b!"stall helo x\n"
def inB : Str := b!"accept to d@e.f\n"
def inText : Str := b!"reject from a@b.c ;\n  helo y\ninclude /more\n# end\n"

def inFiles : Files := fun _ f =>
  if f = b!"/g" then .data (inA ++ (includeLine b!"\"/in here\"" ++ inB)) else if f = b!"/h" then .data (inA ++ (inText ++ inB))
  else if f = b!"/in here" then .data inText else if f = b!"/more" then .data b!"stall all with note m\n" else .notExist b!"no such file"

theorem inNames : NamesFile b!"\"/in here\"" b!"/in here" := .inr ⟨by decide, by
  repeat' (first | exact .nil | refine .plain (by decide) (by decide) ?_)⟩

def inRules : List Rule :=
  [⟨[⟨.matchN .from_ b!"a@b.c", {}⟩, ⟨.matchN .helo b!"y", {}⟩], .reject, .mfrom, .any⟩, ⟨[⟨.all, { note := some b!"m" }⟩], .stall, .any, .any⟩]

theorem inText_gives : loadRules demoLib inFiles 4 [] b!"/in here" = .ok inRules := by decide +kernel

/-- The two files are the same to every connection. -/
example (cf : Conf) (E : Env) (hfs : E.fs = inFiles) (hfd : E.fds = 5) (hL : E.W.lib = demoLib) (l : List Step) (s : Sess) :
    Life { cf with rulefiles := [b!"/more", b!"/g", b!"/more"] } E l s ↔ Life { cf with rulefiles := [b!"/more", b!"/h", b!"/more"] } E l s :=
  C117_files (d := 4) (pre := [b!"/more"]) (post := [b!"/more"]) (g := b!"/g") (h := b!"/h") (a := inA) (b := inB) (t := inText)
    (ra := [⟨[⟨.matchN .helo b!"x", {}⟩], .stall, .helo, .any⟩]) (rF := inRules)
    (by rw [hfs]; intros; rfl) hfd (by decide) (by rw [hfs]; rfl) (by rw [hfs]; rfl) inNames (.inr ⟨b!"stall helo x", by decide, by decide⟩)
    (by rw [hfs, hL]; decide +kernel) (by rw [hfs]; rfl) (.inr ⟨b!"reject from a@b.c ;\n  helo y\ninclude /more\n# end", by decide, by decide⟩)
    (by rw [hfs, hL]; exact (C10_load_iff _ _ _ _ _ _).1 inText_gives) l s

/-- The four rules of either, in order. -/
example : loadRules demoLib inFiles 5 [] b!"/g" = .ok (⟨[⟨.matchN .helo b!"x", {}⟩], .stall, .helo, .any⟩ :: inRules ++ [⟨[⟨.matchN .to b!"d@e.f", {}⟩], .accept, .rto, .any⟩]) ∧
    loadRules demoLib inFiles 5 [] b!"/h" = .ok (⟨[⟨.matchN .helo b!"x", {}⟩], .stall, .helo, .any⟩ :: inRules ++ [⟨[⟨.matchN .to b!"d@e.f", {}⟩], .accept, .rto, .any⟩]) := by decide +kernel

/-- **C117.** The conditions are needed.  An included file whose last line has no end would run on into what follows; the text
before may hold a quote not closed, so that the include line is no include line; and an include takes a file descriptor of its
own, so that putting the text in can make a file load that did not. -/
theorem C117_conditions_needed :
    (∃ fs : Files, (∀ p q f, fs p f = fs q f) ∧ ∃ d a b t w F ra rF rs, NamesFile w F ∧ Lined a ∧ parse demoLib fs d [] a = .ok ra ∧ fs [] F = .data t ∧
      loadRules demoLib fs d [] F = .ok rF ∧ parse demoLib fs d [] (a ++ (includeLine w ++ b)) = .ok rs ∧ ∀ rs', parse demoLib fs d [] (a ++ (t ++ b)) ≠ .ok rs') ∧
    (∃ fs : Files, (∀ p q f, fs p f = fs q f) ∧ ∃ d a b t w F rF rs rs', NamesFile w F ∧ Lined a ∧ fs [] F = .data t ∧ Lined t ∧
      loadRules demoLib fs d [] F = .ok rF ∧ parse demoLib fs d [] (a ++ (includeLine w ++ b)) = .ok rs ∧ parse demoLib fs d [] (a ++ (t ++ b)) = .ok rs' ∧ rs ≠ rs') ∧
    (∃ fs : Files, (∀ p q f, fs p f = fs q f) ∧ ∃ d a b t w F ra rs, NamesFile w F ∧ Lined a ∧ parse demoLib fs d [] a = .ok ra ∧ fs [] F = .data t ∧ Lined t ∧
      (∀ rs', parse demoLib fs d [] (a ++ (includeLine w ++ b)) ≠ .ok rs') ∧ parse demoLib fs d [] (a ++ (t ++ b)) = .ok rs) := by
  have ne : ∀ {fs : Files} {d : Nat} {a : Str}, (parse demoLib fs d [] a).isOk = false → ∀ rs, parse demoLib fs d [] a ≠ .ok rs := by
    intro fs d a h rs e; rw [e] at h; cases h
  have hN : NamesFile b!"/f" b!"/f" := .inl ⟨rfl, by decide +kernel, by decide⟩
  refine ⟨⟨fun _ f => if f = b!"/f" then .data b!"accept all" else .notExist [], fun _ _ _ => rfl, 3, [], b!"reject all\n", b!"accept all", b!"/f", b!"/f", [],
      [⟨[⟨.all, {}⟩], .accept, .any, .any⟩], [⟨[⟨.all, {}⟩], .accept, .any, .any⟩, ⟨[⟨.all, {}⟩], .reject, .any, .any⟩], hN, .inl rfl, by decide +kernel, rfl,
      by decide +kernel, by decide +kernel, ne (by decide +kernel)⟩,
    ⟨fun _ f => if f = b!"/f" then .data b!"accept all\n" else .notExist [], fun _ _ _ => rfl, 3, b!"reject from \"x\n", b!"\"\n", b!"accept all\n", b!"/f", b!"/f",
      [⟨[⟨.all, {}⟩], .accept, .any, .any⟩], [⟨[⟨.matchN .from_ b!"x\ninclude /f\n", {}⟩], .reject, .mfrom, .any⟩],
      [⟨[⟨.matchN .from_ b!"x\naccept all\n", {}⟩], .reject, .mfrom, .any⟩], hN, .inr ⟨b!"reject from \"x", by decide, by decide⟩, rfl,
      .inr ⟨b!"accept all", by decide, by decide⟩, by decide +kernel, by decide +kernel, by decide +kernel, by decide⟩,
    ⟨fun _ f => if f = b!"/f" then .data b!"include /k\n" else if f = b!"/k" then .data b!"accept all\n" else .notExist [], fun _ _ _ => rfl, 1, [], [],
      b!"include /k\n", b!"/f", b!"/f", [], [⟨[⟨.all, {}⟩], .accept, .any, .any⟩], hN, .inl rfl, by decide +kernel, rfl,
      .inr ⟨b!"include /k", by decide, by decide⟩, ne (by decide +kernel), by decide +kernel⟩⟩

end Sink
