import Verif.Model.Net
import Verif.Lemmas.Tac

/-!
# Lemmas about byte strings
-/

namespace Sink

theorem indexByte_none {s : Str} {c : Byte} : indexByte s c = none ↔ c ∉ s := by
  simp only [indexByte, List.findIdx?_eq_none_iff]
  constructor
  · intro h hm; simpa using h c hm
  · intro h x hx; simp only [beq_eq_false_iff_ne]; rintro rfl; exact h hx

/-- The first occurrence splits the string. -/
theorem indexByte_some {s : Str} {c : Byte} {i : Nat} :
    indexByte s c = some i ↔ ∃ l r, s = l ++ c :: r ∧ c ∉ l ∧ l.length = i := by
  induction s generalizing i with
  | nil => simp [indexByte]
  | cons a s ih =>
    simp only [indexByte, List.findIdx?_cons]
    by_cases hac : a = c
    · subst hac
      simp only [beq_self_eq_true, if_true, Option.some.injEq]
      constructor
      · rintro rfl; exact ⟨[], s, rfl, by simp, rfl⟩
      · rintro ⟨l, r, h, hl, rfl⟩
        cases l with
        | nil => rfl
        | cons b l => simp at h; obtain ⟨rfl, _⟩ := h; simp at hl
    · have : (a == c) = false := by simpa using hac
      rw [this]
      simp only [Bool.false_eq_true, if_false, Option.map_eq_some_iff]
      constructor
      · rintro ⟨j, hj, rfl⟩
        obtain ⟨l, r, rfl, hl, rfl⟩ := ih.mp hj
        exact ⟨a :: l, r, rfl, by simp [hl, Ne.symm hac], rfl⟩
      · rintro ⟨l, r, h, hl, rfl⟩
        cases l with
        | nil => simp at h; exact absurd h.1 hac
        | cons b l =>
          simp at h
          obtain ⟨rfl, rfl⟩ := h
          simp at hl
          exact ⟨l.length, ih.mpr ⟨l, r, rfl, hl.2, rfl⟩, by simp⟩

theorem lower_nil (L : Lib) : L.lower [] = [] := by simp [Lib.lower, toLower, isASCII]

theorem lower_ne (L : Lib) {s : Str} (h : s ≠ []) : L.lower s ≠ [] := by
  simp only [Lib.lower, toLower]
  split
  · simpa using h
  · exact L.lowerU_ne s h

theorem lower_eq_nil (L : Lib) {s : Str} : L.lower s = [] ↔ s = [] :=
  ⟨fun h => by_contra fun hs => lower_ne L hs h, fun h => h ▸ lower_nil L⟩

/-- The split at the first occurrence is unique. -/
theorem split_unique {c : Byte} {l l' r r' : Str} (h : l ++ c :: r = l' ++ c :: r') (hl : c ∉ l) (hl' : c ∉ l') :
    l = l' ∧ r = r' := by
  induction l generalizing l' with
  | nil =>
    cases l' with
    | nil => simpa using h
    | cons b l' => simp at h; obtain ⟨rfl, _⟩ := h; simp at hl'
  | cons a l ih =>
    cases l' with
    | nil => simp at h; obtain ⟨rfl, _⟩ := h; simp at hl
    | cons b l' =>
      simp at h hl hl'
      obtain ⟨rfl, h⟩ := h
      obtain ⟨rfl, rfl⟩ := ih h hl.2 hl'.2
      simp

end Sink
