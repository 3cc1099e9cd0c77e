import Verif.Props.Match
import Verif.Props.Conncfg
import Verif.Spec.Demo
import Mathlib.Data.List.Induction

/-!
# C84: line ends of other systems, and white space around lines
-/

namespace Sink
namespace Spec

/-- The text with a carriage return before every newline. -/
def crlf : Str → Str
  | [] => []
  | c :: r => if c = c!"\n" then b!"\r\n" ++ crlf r else c :: crlf r

/-- The code points that are white space according to Unicode. -/
def whiteSpace : List Nat :=
  [0x9, 0xA, 0xB, 0xC, 0xD, 0x20, 0x85, 0xA0, 0x1680, 0x2000, 0x2001, 0x2002, 0x2003, 0x2004, 0x2005, 0x2006, 0x2007, 0x2008, 0x2009, 0x200A,
   0x2028, 0x2029, 0x202F, 0x205F, 0x3000]

/-- Lines that differ only by white space around them. -/
def SameLine (l m : Str) : Prop := ∃ t, Trimmed l t ∧ Trimmed m t

end Spec
open Spec

/-- The table of white space is that of Unicode, in UTF-8. -/
theorem space_table : spaceSeqs = whiteSpace.map fun n => String.utf8EncodeChar (Char.ofNat n) := by decide +kernel

theorem prefix_inside {q t : Str} {post : List Str} (hq : q ∈ spaceSeqs) (hp : ∀ q ∈ post, q ∈ spaceSeqs) (ht : t ≠ [])
    (h : q <+: t ++ post.flatten) : q <+: t := by
  have tab : ∀ q ∈ spaceSeqs, ∀ b ∈ q.tail, ∀ q' ∈ spaceSeqs, q'.head? ≠ some b := by decide +kernel
  rcases List.prefix_or_prefix_of_prefix h (List.prefix_append t post.flatten) with h1 | ⟨r, rfl⟩
  · exact h1
  · rw [List.prefix_append_right_inj] at h
    cases r with
    | nil => simp
    | cons b r =>
      exfalso
      obtain ⟨a, t, rfl⟩ := List.exists_cons_of_ne_nil ht
      have hb : post.flatten.head? = some b := by obtain ⟨x, hx⟩ := h; rw [← hx]; rfl
      cases post with
      | nil => cases hb
      | cons q' post =>
        have hq' := hp q' (by simp)
        refine tab _ hq b (by simp) q' hq' ?_
        obtain ⟨c, q', rfl⟩ := List.exists_cons_of_ne_nil (spaceSeqs_ne hq')
        simpa using hb

theorem left_unique {u u' : Str} (hu : spaceAt u = none) (hu' : spaceAt u' = none) : ∀ {pre pre' : List Str}, (∀ q ∈ pre, q ∈ spaceSeqs) →
    (∀ q ∈ pre', q ∈ spaceSeqs) → pre.flatten ++ u = pre'.flatten ++ u' → u = u' := by
  intro pre
  induction pre with
  | nil =>
    intro pre' _ h' h
    cases pre' with
    | nil => simpa using h
    | cons q pre' =>
      simp only [List.flatten_nil, List.nil_append, List.flatten_cons, List.append_assoc] at h
      rw [h, spaceAt_prefix (h' q (by simp))] at hu
      cases hu
  | cons q pre ih =>
    intro pre' h1 h' h
    cases pre' with
    | nil =>
      simp only [List.flatten_nil, List.nil_append, List.flatten_cons, List.append_assoc] at h
      rw [← h, spaceAt_prefix (h1 q (by simp))] at hu'
      cases hu'
    | cons q' pre' =>
      simp only [List.flatten_cons, List.append_assoc] at h
      have hl : q.length = q'.length := by
        have := congrArg spaceAt h
        rw [spaceAt_prefix (h1 q (by simp)), spaceAt_prefix (h' q' (by simp))] at this
        simpa using this
      exact ih (fun q hq => h1 q (by simp [hq])) (fun q hq => h' q (by simp [hq])) (List.append_inj h hl).2

theorem right_unique {t t' : Str} (ht : ∀ q ∈ spaceSeqs, ¬ q <:+ t) (ht' : ∀ q ∈ spaceSeqs, ¬ q <:+ t') {post post' : List Str}
    (hp : ∀ q ∈ post, q ∈ spaceSeqs) (hp' : ∀ q ∈ post', q ∈ spaceSeqs) (h : t ++ post.flatten = t' ++ post'.flatten) : t = t' := by
  have code : ∀ q ∈ spaceSeqs, ∀ q' ∈ spaceSeqs, q <:+ q' → q = q' := by decide +kernel
  induction post using List.reverseRecOn generalizing post' with
  | nil =>
    rcases List.eq_nil_or_concat post' with rfl | ⟨p, q, rfl⟩
    · simpa using h
    · exfalso
      refine ht q (hp' q (by simp)) ⟨t' ++ p.flatten, ?_⟩
      simpa using h.symm
  | append_singleton p q ih =>
    rcases List.eq_nil_or_concat post' with rfl | ⟨p', q', rfl⟩
    · exfalso
      refine ht' q (hp q (by simp)) ⟨t ++ p.flatten, ?_⟩
      simpa using h
    · simp only [List.concat_eq_append, List.flatten_append, List.flatten_cons, List.flatten_nil, List.append_nil, ← List.append_assoc] at h
      have hqq : q = q' := by
        rcases List.suffix_or_suffix_of_suffix (List.suffix_append (t ++ p.flatten) q) (h ▸ List.suffix_append (t' ++ p'.flatten) q') with h1 | h1
        · exact code _ (hp q (by simp)) _ (hp' q' (by simp)) h1
        · exact (code _ (hp' q' (by simp)) _ (hp q (by simp)) h1).symm
      subst hqq
      exact ih (fun q hq => hp q (by simp [hq])) (fun q hq => hp' q (by simp [hq])) (List.append_cancel_right h)

/-- What is left when the white space around a text is removed is determined. -/
theorem Spec.Trimmed.unique {s t t' : Str} (h : Trimmed s t) (h' : Trimmed s t') : t = t' := by
  have norm : ∀ {t : Str}, Trimmed s t → ∃ (pre : List Str) (u : Str) (post : List Str), (∀ q ∈ pre, q ∈ spaceSeqs) ∧ (∀ q ∈ post, q ∈ spaceSeqs) ∧
      s = pre.flatten ++ u ∧ spaceAt u = none ∧ u = t ++ post.flatten ∧ ∀ q ∈ spaceSeqs, ¬ q <:+ t := by
    rintro t ⟨pre, post, h1, h2, h3, h4, h5⟩
    by_cases ht : t = []
    · subst ht
      refine ⟨pre ++ post, [], [], ?_, by simp, by simpa using h3, by decide, rfl, h5⟩
      intro q hq
      rcases List.mem_append.mp hq with h | h
      · exact h1 q h
      · exact h2 q h
    · refine ⟨pre, _, post, h1, h2, by rw [h3, List.append_assoc], ?_, rfl, h5⟩
      rw [spaceAt_none_iff]
      exact fun q hq hp => h4 q hq (prefix_inside hq h2 ht hp)
  obtain ⟨pre, u, post, a1, a2, a3, a4, a5, a6⟩ := norm h
  obtain ⟨pre', u', post', b1, b2, b3, b4, b5, b6⟩ := norm h'
  have := left_unique a4 b4 a1 b1 (a3 ▸ b3)
  subst this
  exact right_unique a6 b6 a2 b2 (a5 ▸ b5)

theorem Spec.SameLine.trim {l m : Str} (h : SameLine l m) : trimSpace l = trimSpace m := by
  obtain ⟨t, h1, h2⟩ := h
  rw [(trimSpace_trimmed l).unique h1, (trimSpace_trimmed m).unique h2]

theorem Spec.Trimmed.more {l t q : Str} (h : Trimmed l t) (hq : q ∈ spaceSeqs) : Trimmed (l ++ q) t := by
  obtain ⟨pre, post, h1, h2, h3, h4, h5⟩ := h
  refine ⟨pre, post ++ [q], h1, ?_, by rw [h3]; simp, h4, h5⟩
  intro x hx
  rcases List.mem_append.mp hx with h | h
  · exact h2 x h
  · simp only [List.mem_singleton] at h; exact h ▸ hq

theorem Spec.SameLine.nl {l m : Str} (h : SameLine l m) : SameLine (l ++ b!"\n") (m ++ b!"\n") := by
  obtain ⟨t, h1, h2⟩ := h
  exact ⟨t, h1.more (by decide), h2.more (by decide)⟩

/-- C16: the lines determine the entries. -/
theorem C16_unique {L : Lib} {lines es es' : List Str} (h : Entries L lines es) (h' : Entries L lines es') : es = es' := by
  induction h generalizing es' with
  | nil => cases h'; rfl
  | skip ht hc _ ih =>
    cases h' with
    | skip _ _ h' => exact ih h'
    | keep ht' h1 h2 _ =>
      cases ht.unique ht'
      exact absurd hc (not_or.mpr ⟨h1, h2⟩)
  | keep ht h1 h2 _ ih =>
    cases h' with
    | skip ht' hc _ =>
      cases ht.unique ht'
      exact absurd hc (not_or.mpr ⟨h1, h2⟩)
    | keep ht' _ _ h' =>
      cases ht.unique ht'
      rw [ih h']

/-- **C84.** White space around the lines of a pattern file makes no difference, whichever it is and whether there is any. -/
theorem C84_pattern_file {L : Lib} {b b' : Str} {lines lines' : List Str} {rest rest' : Str} (h : Text b lines rest) (h' : Text b' lines' rest')
    (hs : List.Forall₂ SameLine lines lines') : readList L b = readList L b' := by
  unfold readList
  rw [h.readLines, h'.readLines]
  clear h h'
  induction hs with
  | nil => rfl
  | cons h _ ih =>
    simp only [List.map_cons, List.filterMap_cons, listLine, h.nl.trim]
    rw [ih]

/-- **C84.** Nor does it in a connection parameter file: the same settings, or the same complaint about the same line. -/
theorem C84_connection_file {P : PairOracle} {b b' : Str} {lines lines' : List Str} {rest rest' : Str} (h : Text b lines rest)
    (h' : Text b' lines' rest') (hs : List.Forall₂ SameLine lines lines') : loadConnFile P (.data b) = loadConnFile P (.data b') := by
  simp only [loadConnFile]
  rw [h.readLines, h'.readLines]
  clear h h'
  generalize 0 = n
  induction hs generalizing n with
  | nil => rfl
  | @cons l m _ _ h _ ih =>
    have : connLine P (n + 1) (l ++ b!"\n") = connLine P (n + 1) (m ++ b!"\n") := by simp only [connLine, h.nl.trim]
    simp only [List.map_cons, connLines, this, ih]

theorem crlf_text : ∀ {b : Str} {lines : List Str} {rest : Str}, Text b lines rest → Text (crlf b) (lines.map (· ++ b!"\r")) rest := by
  have clean : ∀ {l r : Str}, c!"\n" ∉ l → crlf (l ++ r) = l ++ crlf r := by
    intro l r h
    induction l with
    | nil => rfl
    | cons c l ih =>
      simp only [List.mem_cons, not_or] at h
      rw [List.cons_append, crlf, if_neg (Ne.symm h.1), ih h.2]; rfl
  rintro b lines rest ⟨rfl, h1, h2⟩
  refine ⟨?_, ?_, h2⟩
  · induction lines with
    | nil => have := clean (r := []) h2; simpa [crlf] using this
    | cons l ls ih =>
      simp only [List.map_cons, List.flatten_cons, List.append_assoc]
      rw [clean (h1 l (by simp)), List.cons_append, List.nil_append, crlf, if_pos rfl]
      simp only [List.cons_append, List.nil_append]
      rw [ih fun l hl => h1 l (by simp [hl])]
  · intro l hl
    simp only [List.mem_map] at hl
    obtain ⟨l, hl, rfl⟩ := hl
    simp [h1 l hl]

theorem same_cr (lines : List Str) : List.Forall₂ SameLine lines (lines.map (· ++ b!"\r")) := by
  induction lines with
  | nil => exact .nil
  | cons l ls ih => exact .cons ⟨_, trimSpace_trimmed l, (trimSpace_trimmed l).more (by decide)⟩ ih

/-- **C84.** Pattern files and connection parameter files may have the line ends of other systems. -/
theorem C84_crlf {L : Lib} {P : PairOracle} (b : Str) :
    readList L (crlf b) = readList L b ∧ loadConnFile P (.data (crlf b)) = loadConnFile P (.data b) := by
  obtain ⟨⟨lines, rest⟩, h, -⟩ := C16_lines_exist b
  exact ⟨(C84_pattern_file h (crlf_text h) (same_cr lines)).symm, (C84_connection_file h (crlf_text h) (same_cr lines)).symm⟩

/-- **C84.** Rules files may not (a finding): the carriage return becomes part of the last word of a line, so that a file is refused, or
(worse) accepted with rules that never match. -/
theorem C84_rules_differ :
    (∃ e, parse demoLib (fun _ _ => .notExist []) 5 [] (crlf b!"reject all\n") = .error (.err e)) ∧
    parse demoLib (fun _ _ => .notExist []) 5 [] (crlf b!"reject from a@b\n") = .ok [⟨[⟨.matchN .from_ b!"a@b\r", {}⟩], .reject, .mfrom, .any⟩] := by
  exact ⟨⟨_, rfl⟩, by decide +kernel⟩

/-- A list with spaces, tabs, line ends of another system, a no-break space and an ideographic space. -/
example : readList demoLib (b!" A@b \t\r\n" ++ [0xC2, 0xA0] ++ b!"c@" ++ [0xE3, 0x80, 0x80] ++ b!"\n#x\r\n\r\n") = [b!"a@b", b!"c@"] := by decide +kernel

/-- A vertical bar is no white space, nor is half of a space. -/
example : readList demoLib (b!"|a@b\n" ++ [0x80] ++ b!"c@\n") ≠ [b!"a@b", b!"c@"] := by decide +kernel

end Sink
