import Verif.Model.Lists
import Verif.Spec.Match
import Verif.Lemmas.Bytes

/-!
# Lemmas about pattern files and letter case
-/

namespace Sink
open Spec

/-! ## White space -/

theorem spaceSeqs_ne {q : Str} (h : q ∈ spaceSeqs) : q ≠ [] := by
  have : ∀ q ∈ spaceSeqs, q ≠ [] := by decide +kernel
  exact this q h

theorem spaceSeqs_nl {q : Str} (h : q ∈ spaceSeqs) (hl : q.getLast? = some c!"\n") : q = b!"\n" := by
  have : ∀ q ∈ spaceSeqs, q.getLast? = some c!"\n" → q = b!"\n" := by decide +kernel
  exact this q h hl

theorem spaceAt_some {s : Str} {k : Nat} (h : spaceAt s = some k) : ∃ q ∈ spaceSeqs, q <+: s ∧ k = q.length := by
  unfold spaceAt at h
  rw [Option.map_eq_some_iff] at h
  obtain ⟨q, hq, rfl⟩ := h
  exact ⟨q, List.mem_of_find?_eq_some hq, by simpa [hasPrefix] using List.find?_some hq, rfl⟩

theorem spaceAt_none {s : Str} (h : spaceAt s = none) : ∀ q ∈ spaceSeqs, ¬ q <+: s := by
  unfold spaceAt at h
  rw [Option.map_eq_none_iff, List.find?_eq_none] at h
  intro q hq; simpa [hasPrefix] using h q hq

theorem spaceAtEnd_some {s : Str} {k : Nat} (h : spaceAtEnd s = some k) : ∃ q ∈ spaceSeqs, q <:+ s ∧ k = q.length := by
  unfold spaceAtEnd at h
  rw [Option.map_eq_some_iff] at h
  obtain ⟨q, hq, rfl⟩ := h
  exact ⟨q, List.mem_of_find?_eq_some hq, by simpa using List.find?_some hq, rfl⟩

theorem spaceAtEnd_none {s : Str} (h : spaceAtEnd s = none) : ∀ q ∈ spaceSeqs, ¬ q <:+ s := by
  unfold spaceAtEnd at h
  rw [Option.map_eq_none_iff, List.find?_eq_none] at h
  intro q hq; simpa using h q hq

theorem trimLeftN_spec : ∀ (n : Nat) (s : Str), s.length ≤ n → ∃ pre : List Str, (∀ q ∈ pre, q ∈ spaceSeqs) ∧
    s = pre.flatten ++ trimLeftN n s ∧ ∀ q ∈ spaceSeqs, ¬ q <+: trimLeftN n s
  | 0, s, h => by
    have : s = [] := by simpa using h
    subst this
    refine ⟨[], by simp, by simp [trimLeftN], ?_⟩
    intro q hq; simp only [trimLeftN, List.prefix_nil]; exact spaceSeqs_ne hq
  | n + 1, s, h => by
    rw [trimLeftN]
    cases hs : spaceAt s with
    | none => exact ⟨[], by simp, by simp, spaceAt_none hs⟩
    | some k =>
      obtain ⟨q, hq, ⟨r, rfl⟩, rfl⟩ := spaceAt_some hs
      have hq1 : 0 < q.length := List.length_pos_iff.mpr (spaceSeqs_ne hq)
      simp only [List.drop_left]
      simp only [List.length_append] at h
      obtain ⟨pre, h1, h2, h3⟩ := trimLeftN_spec n r (by omega)
      refine ⟨q :: pre, by simp [hq]; exact h1, ?_, h3⟩
      conv_lhs => rw [h2]
      simp

theorem trimRightN_spec : ∀ (n : Nat) (s : Str), s.length ≤ n → ∃ post : List Str, (∀ q ∈ post, q ∈ spaceSeqs) ∧
    s = trimRightN n s ++ post.flatten ∧ ∀ q ∈ spaceSeqs, ¬ q <:+ trimRightN n s
  | 0, s, h => by
    have : s = [] := by simpa using h
    subst this
    refine ⟨[], by simp, by simp [trimRightN], ?_⟩
    intro q hq; simp only [trimRightN, List.suffix_nil]; exact spaceSeqs_ne hq
  | n + 1, s, h => by
    rw [trimRightN]
    cases hs : spaceAtEnd s with
    | none => exact ⟨[], by simp, by simp, spaceAtEnd_none hs⟩
    | some k =>
      obtain ⟨q, hq, ⟨r, rfl⟩, rfl⟩ := spaceAtEnd_some hs
      have hq1 : 0 < q.length := List.length_pos_iff.mpr (spaceSeqs_ne hq)
      simp only [List.length_append, Nat.add_sub_cancel, List.take_left]
      simp only [List.length_append] at h
      obtain ⟨post, h1, h2, h3⟩ := trimRightN_spec n r (by omega)
      refine ⟨post ++ [q], by simp; rintro x (hx | rfl); exacts [h1 x hx, hq], ?_, h3⟩
      conv_lhs => rw [h2]
      simp

theorem trimSpace_trimmed (s : Str) : Trimmed s (trimSpace s) := by
  unfold trimSpace
  obtain ⟨pre, h1, h2, h3⟩ := trimLeftN_spec s.length s (Nat.le_refl _)
  simp only
  generalize trimLeftN s.length s = t at *
  obtain ⟨post, g1, g2, g3⟩ := trimRightN_spec t.length t (Nat.le_refl _)
  generalize trimRightN t.length t = u at *
  refine ⟨pre, post, h1, g1, by rw [h2, g2]; simp, ?_, g3⟩
  intro q hq hp
  exact h3 q hq (by rw [g2]; exact hp.trans (List.prefix_append _ _))

/-- The newline ending a line is white space around it. -/
theorem Spec.Trimmed.line {l t : Str} (h : Trimmed (l ++ b!"\n") t) : Trimmed l t := by
  obtain ⟨pre, post, h1, h2, h3, h4, h5⟩ := h
  rcases List.eq_nil_or_concat post with rfl | ⟨post', q, rfl⟩
  · rcases List.eq_nil_or_concat t with rfl | ⟨t', x, rfl⟩
    · rcases List.eq_nil_or_concat pre with rfl | ⟨pre', q, rfl⟩
      · simp at h3
      · simp only [List.concat_eq_append, List.mem_append, List.mem_singleton] at h1
        have hq := h1 q (Or.inr rfl)
        simp only [List.concat_eq_append, List.flatten_append, List.flatten_cons, List.flatten_nil, List.append_nil] at h3
        have hq' : q.getLast? = some c!"\n" := by
          have := congrArg List.getLast? h3
          rw [List.getLast?_append_of_ne_nil _ (by simp), List.getLast?_append_of_ne_nil _ (spaceSeqs_ne hq)] at this
          rw [← this]; rfl
        rw [spaceSeqs_nl hq hq'] at h3
        refine ⟨pre', [], fun q hq => h1 q (Or.inl hq), by simp, ?_, h4, h5⟩
        simpa using List.append_cancel_right h3
    · exfalso
      simp only [List.concat_eq_append, List.flatten_nil, List.append_nil, ← List.append_assoc] at h3
      have hx : c!"\n" = x := (List.append_inj' h3 rfl).2 |> List.head_eq_of_cons_eq
      subst hx
      exact h5 b!"\n" (by decide) (by simp)
  · simp only [List.concat_eq_append, List.mem_append, List.mem_singleton] at h2
    have hq := h2 q (Or.inr rfl)
    simp only [List.concat_eq_append, List.flatten_append, List.flatten_cons, List.flatten_nil, List.append_nil] at h3
    rw [← List.append_assoc] at h3
    have hq' : q.getLast? = some c!"\n" := by
      have := congrArg List.getLast? h3
      rw [List.getLast?_append_of_ne_nil _ (by simp), List.getLast?_append_of_ne_nil _ (spaceSeqs_ne hq)] at this
      rw [← this]; rfl
    rw [spaceSeqs_nl hq hq'] at h3
    exact ⟨pre, post', h1, fun q hq => h2 q (Or.inl hq), List.append_cancel_right h3, h4, h5⟩

/-! ## Lines -/

theorem readLines_rest {r : Str} (h : c!"\n" ∉ r) : readLines r = ([], r) := by
  induction r with
  | nil => rfl
  | cons c r ih =>
    simp only [List.mem_cons, not_or] at h
    rw [readLines, ih h.2]
    simp [Ne.symm h.1]

theorem readLines_line {l b : Str} (h : c!"\n" ∉ l) :
    readLines (l ++ b!"\n" ++ b) = ((l ++ b!"\n") :: (readLines b).1, (readLines b).2) := by
  induction l with
  | nil => simp [readLines]
  | cons c l ih =>
    simp only [List.mem_cons, not_or] at h
    simp only [List.cons_append, readLines]
    rw [ih h.2]
    simp [Ne.symm h.1]

theorem Spec.Text.readLines {b : Str} {lines : List Str} {rest : Str} (h : Text b lines rest) :
    readLines b = (lines.map (· ++ b!"\n"), rest) := by
  obtain ⟨rfl, h1, h2⟩ := h
  induction lines with
  | nil => simpa using readLines_rest h2
  | cons l ls ih =>
    simp only [List.map_cons, List.flatten_cons]
    rw [List.append_assoc, readLines_line (h1 l (by simp)), ih (fun l hl => h1 l (by simp [hl]))]

theorem text_exists (b : Str) : ∃ lines rest, Text b lines rest := by
  induction b with
  | nil => exact ⟨[], [], by simp [Text]⟩
  | cons c b ih =>
    obtain ⟨lines, rest, h1, h2, h3⟩ := ih
    by_cases hc : c = c!"\n"
    · exact ⟨[] :: lines, rest, by simp [hc, h1], by simpa using h2, h3⟩
    · cases lines with
      | nil => exact ⟨[], c :: rest, by simp_all, by simp, by simp [h3, Ne.symm hc]⟩
      | cons l ls =>
        refine ⟨(c :: l) :: ls, rest, by simp [h1], ?_, h3⟩
        simp only [List.mem_cons, forall_eq_or_imp] at h2 ⊢
        exact ⟨by simp [h2.1, Ne.symm hc], h2.2⟩

theorem readList_entries (L : Lib) {b : Str} {lines : List Str} {rest : Str} (h : Text b lines rest) :
    Entries L lines (readList L b) := by
  unfold readList
  rw [h.readLines]
  simp only
  clear h
  induction lines with
  | nil => exact .nil
  | cons l ls ih =>
    have ht := (trimSpace_trimmed (l ++ b!"\n")).line
    simp only [List.map_cons, List.filterMap_cons, listLine]
    split
    · rename_i hc
      split at hc
      · rename_i h'; exact .skip ht h' ih
      · simp at hc
    · rename_i e hc
      split at hc
      · simp at hc
      · rename_i h'
        simp only [not_or] at h'
        simp only [Option.some.injEq] at hc
        subst hc
        exact .keep ht h'.1 h'.2 ih

theorem Spec.Entries.ne_nil {L : Lib} {ls es : List Str} (h : Entries L ls es) : ∀ e ∈ es, e ≠ [] := by
  induction h with
  | nil => simp
  | skip _ _ _ ih => exact ih
  | keep _ h _ _ ih =>
    simp only [List.mem_cons, forall_eq_or_imp]
    exact ⟨lower_ne L h, ih⟩

/-! ## Letter case -/

theorem uint8_forall {P : UInt8 → Prop} (h : ∀ n : Fin 256, P (UInt8.ofNat n)) (a : UInt8) : P a := by
  have := h ⟨a.toNat, a.toNat_lt⟩
  simpa using this

theorem lowerByte_upper (a : UInt8) : 65 ≤ a → a ≤ 90 → lowerByte (a + 32) = a + 32 ∧ lowerByte a = a + 32 := by
  revert a
  apply uint8_forall
  decide +kernel

theorem Spec.CaseEqB.lower {a b : Byte} (h : CaseEqB a b) : lowerByte a = lowerByte b := by
  rcases h with rfl | ⟨h1, h2, rfl⟩ | ⟨h1, h2, rfl⟩
  · rfl
  · have := lowerByte_upper a h1 h2; rw [this.1, this.2]
  · have := lowerByte_upper b h1 h2; rw [this.1, this.2]

/-- A byte that is no letter. -/
def Caseless (x : Byte) : Prop := ¬ (65 ≤ x ∧ x ≤ 90) ∧ ¬ (97 ≤ x ∧ x ≤ 122)

instance (x : Byte) : Decidable (Caseless x) := inferInstanceAs (Decidable (_ ∧ _))

theorem upper_add (a : UInt8) : 65 ≤ a → a ≤ 90 → 97 ≤ a + 32 ∧ a + 32 ≤ 122 := by
  revert a
  apply uint8_forall
  decide +kernel

theorem Spec.CaseEqB.caseless {a b x : Byte} (h : CaseEqB a b) (hx : Caseless x) : a = x ↔ b = x := by
  rcases h with rfl | ⟨h1, h2, rfl⟩ | ⟨h1, h2, rfl⟩
  · rfl
  · have := upper_add a h1 h2
    constructor
    · rintro rfl; exact absurd ⟨h1, h2⟩ hx.1
    · rintro rfl; exact absurd this hx.2
  · have := upper_add b h1 h2
    constructor
    · rintro rfl; exact absurd this hx.2
    · rintro rfl; exact absurd ⟨h1, h2⟩ hx.1

theorem ascii_iff {s : Str} : isASCII s = true ↔ Ascii s := by simp [isASCII, Ascii]

theorem Spec.CaseEq.ascii {s t : Str} (h : CaseEq s t) (hs : Ascii s) : Ascii t := by
  unfold CaseEq at h
  induction h with
  | nil => exact hs
  | cons hab _ ih =>
    simp only [Ascii, List.mem_cons, forall_eq_or_imp] at hs ⊢
    refine ⟨?_, ih hs.2⟩
    rcases hab with rfl | ⟨h1, h2, rfl⟩ | ⟨h1, h2, rfl⟩
    · exact hs.1
    · exact UInt8.lt_of_le_of_lt (upper_add _ h1 h2).2 (by decide)
    · exact UInt8.lt_of_le_of_lt h2 (by decide)

theorem Spec.CaseEq.lower (L : Lib) {s t : Str} (h : CaseEq s t) (hs : Ascii s) : L.lower s = L.lower t := by
  have ht := h.ascii hs
  simp only [Lib.lower, toLower, if_pos (ascii_iff.mpr hs), if_pos (ascii_iff.mpr ht)]
  clear hs ht
  unfold CaseEq at h
  induction h with
  | nil => rfl
  | cons hab _ ih => simp [hab.lower, ih]

theorem Spec.CaseEq.prefix {s t q : Str} (h : CaseEq s t) (hq : ∀ x ∈ q, Caseless x) : q <+: s ↔ q <+: t := by
  induction q generalizing s t with
  | nil => simp
  | cons x q ih =>
    simp only [List.mem_cons, forall_eq_or_imp] at hq
    unfold CaseEq at h
    cases h with
    | nil => rfl
    | cons hab h =>
      simp only [List.cons_prefix_cons]
      rw [ih h hq.2, eq_comm, hab.caseless hq.1, eq_comm]

theorem Spec.CaseEq.reverse {s t : Str} (h : CaseEq s t) : CaseEq s.reverse t.reverse := List.rel_reverse h

theorem Spec.CaseEq.suffix {s t q : Str} (h : CaseEq s t) (hq : ∀ x ∈ q, Caseless x) : q <:+ s ↔ q <:+ t := by
  rw [← List.reverse_prefix, ← List.reverse_prefix (l₂ := t)]
  exact h.reverse.prefix (by simpa using hq)

theorem spaceSeqs_caseless {q : Str} (h : q ∈ spaceSeqs) : ∀ x ∈ q, Caseless x := by
  have : ∀ q ∈ spaceSeqs, ∀ x ∈ q, Caseless x := by decide +kernel
  exact this q h

theorem find?_congr {α : Type} {p q : α → Bool} {l : List α} (h : ∀ a ∈ l, p a = q a) : l.find? p = l.find? q := by
  induction l with
  | nil => rfl
  | cons a l ih =>
    simp only [List.mem_cons, forall_eq_or_imp] at h
    simp only [List.find?_cons, h.1, ih h.2]

theorem Spec.CaseEq.spaceAt {s t : Str} (h : CaseEq s t) : spaceAt s = spaceAt t := by
  unfold Sink.spaceAt
  rw [find?_congr]
  intro q hq
  have := h.prefix (spaceSeqs_caseless hq)
  simp only [hasPrefix]
  rw [Bool.eq_iff_iff]
  simpa using this

theorem Spec.CaseEq.spaceAtEnd {s t : Str} (h : CaseEq s t) : spaceAtEnd s = spaceAtEnd t := by
  unfold Sink.spaceAtEnd
  rw [find?_congr]
  intro q hq
  have := h.suffix (spaceSeqs_caseless hq)
  rw [Bool.eq_iff_iff]
  simpa using this

theorem Spec.CaseEq.length {s t : Str} (h : CaseEq s t) : s.length = t.length := List.Forall₂.length_eq h

theorem Spec.CaseEq.trimLeftN {s t : Str} (h : CaseEq s t) (n : Nat) : CaseEq (trimLeftN n s) (trimLeftN n t) := by
  induction n generalizing s t with
  | zero => exact h
  | succ n ih =>
    rw [Sink.trimLeftN, Sink.trimLeftN, h.spaceAt]
    split
    · exact ih (List.forall₂_drop _ h)
    · exact h

theorem Spec.CaseEq.trimRightN {s t : Str} (h : CaseEq s t) (n : Nat) : CaseEq (trimRightN n s) (trimRightN n t) := by
  induction n generalizing s t with
  | zero => exact h
  | succ n ih =>
    rw [Sink.trimRightN, Sink.trimRightN, h.spaceAtEnd, h.length]
    split
    · exact ih (List.forall₂_take _ h)
    · exact h

theorem Spec.CaseEq.trimSpace {s t : Str} (h : CaseEq s t) : CaseEq (trimSpace s) (trimSpace t) := by
  unfold Sink.trimSpace
  simp only
  rw [h.length]
  have := h.trimLeftN t.length
  rw [this.length]
  exact this.trimRightN _

theorem Spec.Trimmed.subset {s t : Str} (h : Trimmed s t) : ∀ x ∈ t, x ∈ s := by
  obtain ⟨_, _, _, _, rfl, _⟩ := h
  intro x hx; simp [hx]

theorem Spec.CaseEq.listLine (L : Lib) {s t : Str} (h : CaseEq s t) (hs : Ascii s) : listLine L s = listLine L t := by
  unfold Sink.listLine
  have ht := h.trimSpace
  have ha : Ascii (Sink.trimSpace s) := fun x hx => hs x ((trimSpace_trimmed s).subset x hx)
  simp only
  rw [ht.lower L ha]
  have : ((Sink.trimSpace s = [] ∨ (Sink.trimSpace s).head? = some c!"#") ↔
      (Sink.trimSpace t = [] ∨ (Sink.trimSpace t).head? = some c!"#")) := by
    generalize Sink.trimSpace s = s at *
    generalize Sink.trimSpace t = t at *
    unfold CaseEq at ht
    cases ht with
    | nil => rfl
    | cons hab _ => simp [hab.caseless (x := c!"#") (by decide)]
  simp only [this]

theorem Spec.CaseEq.readLines {s t : Str} (h : CaseEq s t) :
    List.Forall₂ CaseEq (readLines s).1 (readLines t).1 := by
  unfold CaseEq at h
  suffices List.Forall₂ CaseEq (Sink.readLines s).1 (Sink.readLines t).1 ∧
      CaseEq (Sink.readLines s).2 (Sink.readLines t).2 from this.1
  induction h with
  | nil => exact ⟨.nil, .nil⟩
  | @cons a b s t hab _ ih =>
    rw [Sink.readLines, Sink.readLines]
    simp only
    have hnl : a = c!"\n" ↔ b = c!"\n" := hab.caseless (by decide)
    obtain ⟨i1, i2⟩ := ih
    by_cases hb : b = c!"\n"
    · rw [if_pos (hnl.mpr hb), if_pos hb]
      exact ⟨.cons (.cons hab .nil) i1, i2⟩
    · rw [if_neg (mt hnl.mp hb), if_neg hb]
      generalize (Sink.readLines s).1 = l1 at *
      generalize (Sink.readLines t).1 = l2 at *
      cases i1 with
      | nil => exact ⟨.nil, .cons hab i2⟩
      | cons h1 h2 => exact ⟨.cons (.cons hab h1) h2, i2⟩

theorem readLines_mem {b l : Str} (h : l ∈ (readLines b).1) : ∀ x ∈ l, x ∈ b := by
  obtain ⟨lines, rest, ht⟩ := text_exists b
  rw [ht.readLines] at h
  rw [ht.1]
  intro x hx
  simp only [List.mem_append, List.mem_flatten]
  exact Or.inl ⟨l, h, hx⟩

theorem Spec.CaseEq.readList (L : Lib) {s t : Str} (h : CaseEq s t) (hs : Ascii s) : readList L s = readList L t := by
  unfold Sink.readList
  have h1 := h.readLines
  have h2 : ∀ l ∈ (Sink.readLines s).1, Ascii l := fun l hl x hx => hs x (readLines_mem hl x hx)
  generalize (Sink.readLines s).1 = l1 at *
  generalize (Sink.readLines t).1 = l2 at *
  induction h1 with
  | nil => rfl
  | cons hab _ ih =>
    simp only [List.mem_cons, forall_eq_or_imp] at h2
    simp only [List.filterMap_cons, hab.listLine L h2.1, ih h2.2]

end Sink
