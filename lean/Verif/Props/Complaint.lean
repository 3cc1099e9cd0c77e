import Verif.Lemmas.Complaint
import Verif.Props.ParsePlace

/-!
# C107: what the errors of rules files say is so
-/

namespace Sink

open Gram Spec

/-- **C107.** When a text is refused, the message gives the place of a word `t`, after complete statements and the first words `part` of the next one,
and says something about these words that is so (`Complaint`); or it is about a file that cannot be included, and gives its name and the reason. -/
theorem C107_complaint (L : Lib) (load : Nat → Str → Except Fail (List Rule)) {input m : Str} (h : parseWith L load input = .error (.err m)) :
    ∃ done rs j part t rest ln col, lex input = .ok (done ++ part ++ t :: rest) ∧ Lines L (fun i f rs => load i f = .ok rs) 0 done rs j ∧
      Place input t.pos ln col ∧
      ((∃ what, Complaint L part t true what ∧ m = b!"at line " ++ decDigits ln ++ b!" char " ++ decDigits col ++ b!": " ++ what) ∨
       (∃ what, Complaint L part t false what ∧ m = b!"at line " ++ decDigits ln ++ b!": " ++ what) ∨
       ∃ inc a why, part = [inc, a] ∧ inc.typ = .kw .include_ ∧ IsArg a ∧ load j a.val = .error (.err why) ∧
         m = b!"at line " ++ decDigits ln ++ b!": while including '" ++ a.val ++ b!"': " ++ why) := by
  obtain ⟨pre, last, hlex, -⟩ := C01_lex_total input
  generalize pre ++ [last] = its at hlex
  have hwf := wf_of_lex hlex
  have hst := lex_st hlex .any
  simp only [parseWith, hlex] at h
  rw [hst.1] at h
  obtain ⟨done, rs, j, ts, q, hl, hb⟩ := pFile_blame (E := ⟨input, L⟩) (by rw [hst.2]; exact hwf) h
  rw [hst.2] at q
  rcases hb with ⟨d, t, rest, ln, lp, chr, what, rfl, h1, h2, h3⟩ | ⟨inc, a, t, rest, ln, lp, why, rfl, h1, h2, h3, h4, h5⟩
  · refine ⟨done, rs, j, d, t, rest, ln, lp, by rw [hlex, q]; simp, hl, place_of_lineInfo h1, ?_⟩
    cases chr with
    | true => exact .inl ⟨what, by simpa using h2, by simpa [atLineChar] using h3⟩
    | false => exact .inr (.inl ⟨what, by simpa using h2, by simpa using h3⟩)
  · exact ⟨done, rs, j, [inc, a], t, rest, ln, lp, by rw [hlex, q]; simp, hl, place_of_lineInfo h4, .inr (.inr ⟨inc, a, why, rfl, h1, h2, h3, h5⟩)⟩

/-- **C107.** The manual's `reject from info@fbi.gov to joe@example.com or jim@example.org` is no rule: after `or` a match operation has to follow, and
an address is none.  A file with such a line, with whatever arguments, is refused, and the message names the word. -/
theorem C107_or (L : Lib) (load : Nat → Str → Except Fail (List Rule)) {input : Str} {done rest : List Item} {rs : List Rule} {j : Nat}
    {rj fr a tt b o c : Item} (hlex : lex input = .ok (done ++ rj :: fr :: a :: tt :: b :: o :: c :: rest))
    (hd : Lines L (fun i f rs => load i f = .ok rs) 0 done rs j) (hrj : rj.typ = .kw .reject) (hfr : fr.typ = .kw .from_) (ha : IsArg a)
    (hto : tt.typ = .kw .to) (hb : IsArg b) (ho : o.typ = .kw .or) (hc : c.typ = .value) :
    ∃ ln col, Place input c.pos ln col ∧ parseWith L load input =
      .error (.err (b!"at line " ++ decDigits ln ++ b!" char " ++ decDigits col ++ b!": expecting match operation, found '" ++ c.val ++ b!"'")) := by
  have hrj' : rj.typ ≠ .eof := by rw [hrj]; simp
  have hpos : c.pos ≤ input.length := (C03_positions hlex).1 c (by simp)
  obtain ⟨ln, col, hli⟩ := lineInfo_safe hpos
  refine ⟨ln, col, place_of_lineInfo hli, ?_⟩
  simp only [parseWith, hlex]
  rw [(lex_st hlex .any).1]
  generalize hn : 3 * (done ++ rj :: fr :: a :: tt :: b :: o :: c :: rest).length + 3 = n
  simp only [List.length_append, List.length_cons] at hn
  obtain ⟨k', q', hk', he⟩ := pFile_lines (E := ⟨input, L⟩) hd rj hrj' (fr :: a :: tt :: b :: o :: c :: rest) n n [] .any (by omega) (by omega)
  rw [he]
  obtain ⟨k', rfl⟩ : ∃ m, k' = m + 1 := ⟨k' - 1, by omega⟩
  obtain ⟨n, rfl⟩ : ∃ m, n = m + 16 := ⟨n - 16, by omega⟩
  have h1 : ∀ q, pOrl ⟨input, L⟩ (n + 15) ⟨fr, a :: tt :: b :: o :: c :: rest, q⟩ = .ok (some (.matchN .from_ a.val), ⟨tt, b :: o :: c :: rest, later q .mfrom⟩) :=
    fun q => (parse_complete ⟨input, L⟩ (n + 15)).2.1 [fr, a] _ tt _ q (.one (.arg .from_ hfr ha)) (by simp only [List.length_cons, List.length_nil]; omega) (by rw [hto]; simp) (by rw [hto]; simp)
  have h2 : ∀ q, pTerm ⟨input, L⟩ (n + 13) ⟨tt, b :: o :: c :: rest, q⟩ = .ok (some (.matchN .to b.val), ⟨o, c :: rest, later q .rto⟩) :=
    fun q => (parse_complete ⟨input, L⟩ (n + 13)).1 [tt, b] _ o _ q (.arg .to hto hb) (by simp only [List.length_cons, List.length_nil]; omega) (by rw [ho]; simp)
  have h3 : ∀ q, pOrl ⟨input, L⟩ (n + 13) ⟨c, rest, q⟩ = .ok (none, ⟨c, rest, q⟩) := fun q => pOrl_none (by simp only [hc]; rfl) (by simp only [hc]; simp)
  have h4 : ∀ q, pOrl ⟨input, L⟩ (n + 14) ⟨tt, b :: o :: c :: rest, q⟩ = .error (genError ⟨input, L⟩ ⟨c, rest, later q .rto⟩ b!"expecting match operation") := by
    intro q
    rw [pOrl]
    simp only [h2, ok_bind, ho, consume_mk' ho, mkSt_cons, h3, ne_eq, not_true, if_false]
    rw [if_neg]
    simp [isERule, isEol, hc]
  have h5 : ∀ q, pAndl ⟨input, L⟩ (n + 16) [] ⟨fr, a :: tt :: b :: o :: c :: rest, q⟩ =
      .error (genError ⟨input, L⟩ ⟨c, rest, later (later q .mfrom) .rto⟩ b!"expecting match operation") := by
    intro q
    rw [pAndl]
    simp only [h1, ok_bind]
    rw [pAndl]
    simp only [h4, err_bind]
  have h6 : ∀ q, pRClause ⟨input, L⟩ .reject (n + 16) (n + 16) [] ⟨fr, a :: tt :: b :: o :: c :: rest, q⟩ =
      .error (genError ⟨input, L⟩ ⟨c, rest, later (later q .mfrom) .rto⟩ b!"expecting match operation") := by
    intro q
    rw [pRClause]
    simp only [h5, err_bind]
  have h7 : ∀ q, genError ⟨input, L⟩ ⟨c, rest, q⟩ b!"expecting match operation" =
      .err (b!"at line " ++ decDigits ln ++ b!" char " ++ decDigits col ++ b!": expecting match operation, found '" ++ c.val ++ b!"'") := by
    intro q
    simp [genError, hli, hc, atLineChar]
  have h8 : pRule ⟨input, L⟩ (n + 16) ⟨rj, fr :: a :: tt :: b :: o :: c :: rest, q'⟩ =
      .error (genError ⟨input, L⟩ ⟨c, rest, later (later .any .mfrom) .rto⟩ b!"expecting match operation") := by
    simp [pRule, pPhase, hrj, phaseOf, actionOf, consume_mk' hrj, h6]
  rw [pFile, if_neg (by simp [hrj]), h8, h7]
  rfl

-- the manual's example, as the second line of a file
example : parseWith demoLib (fun _ _ => .ok []) b!"accept all\nreject from info@fbi.gov to joe@example.com or jim@example.org\n" =
    .error (.err b!"at line 2 char 48: expecting match operation, found 'jim@example.org'") := by decide +kernel

-- other errors that the manual speaks of
example : parseWith demoLib (fun _ _ => .ok []) b!"reject \"helo\" .local\n" =
    .error (.err b!"at line 1 char 8: expecting an operation or 'with', found 'helo'") := by decide +kernel
example : parseWith demoLib (fun _ _ => .ok []) b!"@from reject to joe@example.com" =
    .error (.err b!"at line 1: rule specifies a phase lower than its operations require so we cannot satisfy the phase requirement") := by decide +kernel
example : parseWith demoLib (fun _ _ => .ok []) b!"set-with all" = .error (.err b!"at line 1: 'set-with' rule with no with options") := by decide +kernel
example : parseWith demoLib (fun _ _ => .ok []) b!"set-with all with note \"a\nb\"" =
    .error (.err b!"at line 2 char 3: note contains embedded newline") := by decide +kernel

-- the second example for set-with has a full stop too many in the manual
example : parseWith demoLib (fun _ _ => .ok []) b!"set-with from @a.b with message \"Hi there\";\n\t all with message \"You are here\".\n" =
    .error (.err b!"at line 2 char 34: expecting a with clause, found '.'") := by decide +kernel

-- a text that is not even a sequence of words
example : parseWith demoLib (fun _ _ => .ok []) b!"reject helo \"a\n" =
    .error (.err b!"at line 1 char 13: lexing error: unterminated quoted value") := by decide +kernel

end Sink
