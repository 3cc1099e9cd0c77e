import Verif.Spec.IpText

namespace Sink
open Spec

/-- The digits at the start. -/
def lead (s : Str) : Str := s.takeWhile fun c => decide (48 ≤ c ∧ c ≤ 57)

def numFrom (n : Nat) (w : Str) : Nat := w.foldl (fun n c => n * 10 + (c.toNat - 48)) n

theorem le_numFrom (n : Nat) (w : Str) : n ≤ numFrom n w := by
  induction w generalizing n with
  | nil => exact Nat.le_refl _
  | cons c w ih => exact Nat.le_trans (by omega) (ih (n * 10 + (c.toNat - 48)))

theorem dtoiLoop_true {n i m k : Nat} {s : Str} (h : dtoiLoop n i s = (m, k, true)) : m = numFrom n (lead s) ∧ k = i + (lead s).length := by
  induction s generalizing n i with
  | nil => simp [dtoiLoop] at h; simp [lead, numFrom, h]
  | cons c s ih =>
    rw [dtoiLoop] at h
    by_cases hc : 48 ≤ c ∧ c ≤ 57
    · rw [if_pos hc] at h
      simp only at h
      split at h
      · simp at h
      · obtain ⟨h1, h2⟩ := ih h
        have : lead (c :: s) = c :: lead s := by rw [lead, List.takeWhile_cons_of_pos (by simpa using hc)]; rfl
        rw [this]
        exact ⟨h1, by rw [h2, List.length_cons]; omega⟩
    · rw [if_neg hc] at h
      have : lead (c :: s) = [] := by rw [lead, List.takeWhile_cons_of_neg (by simpa using hc)]
      rw [this]
      simp only [Prod.mk.injEq, and_true] at h
      exact ⟨h.1.symm, h.2.symm⟩

theorem dtoiLoop_small {n i : Nat} {s : Str} (h : numFrom n (lead s) < 0xFFFFFF) :
    dtoiLoop n i s = (numFrom n (lead s), i + (lead s).length, true) := by
  induction s generalizing n i with
  | nil => rfl
  | cons c s ih =>
    rw [dtoiLoop]
    by_cases hc : 48 ≤ c ∧ c ≤ 57
    · have : lead (c :: s) = c :: lead s := by rw [lead, List.takeWhile_cons_of_pos (by simpa using hc)]; rfl
      rw [this] at h ⊢
      have h' : numFrom (n * 10 + (c.toNat - 48)) (lead s) < 0xFFFFFF := h
      rw [if_pos hc]
      simp only
      rw [if_neg (by have := le_numFrom (n * 10 + (c.toNat - 48)) (lead s); omega), ih h', List.length_cons]
      refine Prod.ext rfl (Prod.ext ?_ rfl)
      show i + 1 + _ = i + (_ + 1)
      omega
    · have : lead (c :: s) = [] := by rw [lead, List.takeWhile_cons_of_neg (by simpa using hc)]
      rw [if_neg hc, this]
      rfl

theorem dtoi_true {n k : Nat} {s : Str} (h : dtoi s = (n, k, true)) :
    n = numeral (lead s) ∧ k = (lead s).length ∧ lead s ≠ [] := by
  unfold dtoi at h
  obtain ⟨m, j, ok, he⟩ : ∃ m j ok, dtoiLoop 0 0 s = (m, j, ok) := ⟨_, _, _, rfl⟩
  rw [he] at h
  cases ok
  · simp at h
  · obtain ⟨h1, h2⟩ := dtoiLoop_true he
    simp only [if_true] at h
    split at h
    · simp at h
    · simp only [Prod.mk.injEq, and_true] at h
      refine ⟨by rw [← h.1, h1]; rfl, by rw [← h.2, h2]; simp, fun e => ?_⟩
      rw [e] at h2
      simp at h2
      contradiction

theorem dtoi_small {s : Str} (h : numeral (lead s) < 0xFFFFFF) (hne : lead s ≠ []) : dtoi s = (numeral (lead s), (lead s).length, true) := by
  unfold dtoi
  rw [dtoiLoop_small (n := 0) h]
  have : (lead s).length ≠ 0 := fun e => hne (List.length_eq_zero_iff.1 e)
  simp [this, numFrom, numeral]

/-- The next byte is not a digit. -/
def NoDigit (r : Str) : Prop := ∀ c, r.head? = some c → ¬ (48 ≤ c ∧ c ≤ 57)

theorem lead_append {w r : Str} (hw : ∀ c ∈ w, 48 ≤ c ∧ c ≤ 57) (hr : NoDigit r) : lead (w ++ r) = w := by
  induction w with
  | nil =>
    cases r with
    | nil => rfl
    | cons c r => rw [List.nil_append, lead, List.takeWhile_cons_of_neg (by simpa using hr c rfl)]
  | cons c w ih =>
    rw [List.cons_append, lead, List.takeWhile_cons_of_pos (by simpa using hw c (by simp))]
    exact congrArg _ (ih fun d hd => hw d (by simp [hd]))

theorem lead_digits (s : Str) : ∀ c ∈ lead s, 48 ≤ c ∧ c ≤ 57 := by
  induction s with
  | nil => simp [lead]
  | cons d s ih =>
    intro c hc
    by_cases hd : 48 ≤ d ∧ d ≤ 57
    · rw [lead, List.takeWhile_cons_of_pos (by simpa using hd)] at hc
      rcases List.mem_cons.1 hc with rfl | hc
      · exact hd
      · exact ih c hc
    · rw [lead, List.takeWhile_cons_of_neg (by simpa using hd)] at hc
      simp at hc

theorem lead_drop (s : Str) : s = lead s ++ s.drop (lead s).length ∧ NoDigit (s.drop (lead s).length) := by
  induction s with
  | nil => exact ⟨rfl, by simp [NoDigit, lead]⟩
  | cons c s ih =>
    by_cases hc : 48 ≤ c ∧ c ≤ 57
    · have : lead (c :: s) = c :: lead s := by rw [lead, List.takeWhile_cons_of_pos (by simpa using hc)]; rfl
      rw [this]
      exact ⟨by simpa using ih.1, by simpa using ih.2⟩
    · have : lead (c :: s) = [] := by rw [lead, List.takeWhile_cons_of_neg (by simpa using hc)]
      rw [this]
      refine ⟨rfl, fun d hd => ?_⟩
      simp at hd
      exact hd ▸ hc

theorem parseOctet_iff {strict : Bool} {s r : Str} {n : Nat} :
    parseOctet strict s = some (n, r) ↔ ∃ w, s = w ++ r ∧ Octet strict w n ∧ NoDigit r := by
  constructor
  · intro h
    unfold parseOctet at h
    obtain ⟨m, k, ok, he⟩ : ∃ m k ok, dtoi s = (m, k, ok) := ⟨_, _, _, rfl⟩
    rw [he] at h
    simp only at h
    split at h
    · simp at h
    · rename_i h1
      rw [not_or] at h1
      obtain rfl : ok = true := by simpa using h1.1
      obtain ⟨h2, h3, h4⟩ := dtoi_true he
      split at h
      · simp at h
      · rename_i h5
        cases h
        refine ⟨lead s, h3 ▸ (lead_drop s).1, ⟨⟨h4, lead_digits s⟩, h2.symm, by omega, fun hs h0 => ?_⟩, h3 ▸ (lead_drop s).2⟩
        have hk : ¬ k > 1 := fun hk => h5 ⟨hs, hk, by
          rw [(lead_drop s).1, List.head?_append]; simp [h0]⟩
        cases hl : lead s with
        | nil => exact absurd hl h4
        | cons c t =>
          rw [hl] at h0 h3
          simp at h0 h3
          obtain rfl : t = [] := List.length_eq_zero_iff.1 (by omega)
          rw [h0]
  · rintro ⟨w, rfl, ⟨⟨hne, hd⟩, hn, hlt, h0⟩, hr⟩
    have hl : lead (w ++ r) = w := lead_append hd hr
    unfold parseOctet
    rw [dtoi_small (by rw [hl]; omega) (by rw [hl]; exact hne), hl, hn]
    simp only
    rw [if_neg (by simp; omega), if_neg]
    · simp
    · rintro ⟨hs, hk, hh⟩
      have := h0 hs (by
        cases w with
        | nil => exact absurd rfl hne
        | cons c t => simpa using hh)
      rw [this] at hk
      simp at hk

theorem dotOctet_iff {strict : Bool} {s r : Str} {n : Nat} :
    dotOctet strict s = some (n, r) ↔ ∃ w, s = b!"." ++ w ++ r ∧ Octet strict w n ∧ NoDigit r := by
  cases s with
  | nil => simp [dotOctet]
  | cons c s =>
    simp only [dotOctet]
    split
    · rename_i h
      constructor
      · intro h; cases h
      · rintro ⟨w, he, -⟩
        simp at he
        exact absurd he.1 h
    · rename_i h
      rw [ne_eq, not_not] at h
      subst h
      rw [parseOctet_iff]
      simp

theorem noDigit_nil : NoDigit [] := by simp [NoDigit]

theorem noDigit_dot (s : Str) : NoDigit (c!"." :: s) := by
  intro c hc
  simp at hc
  subst hc
  decide

theorem parseIPv4_iff {strict : Bool} {s : Str} {x : BitVec 32} :
    parseIPv4 strict s = some x ↔ ∃ a b c d, Dotted strict s a b c d ∧ x = ipv4 a b c d := by
  constructor
  · intro h
    unfold parseIPv4 at h
    repeat' split at h
    all_goals try contradiction
    rename_i h1 _ _ _ h2 _ _ _ h3 _ _ _ h4 h5
    cases h
    rw [ne_eq, not_not] at h5
    subst h5
    obtain ⟨w1, rfl, o1, -⟩ := parseOctet_iff.1 h1
    obtain ⟨w2, rfl, o2, -⟩ := dotOctet_iff.1 h2
    obtain ⟨w3, rfl, o3, -⟩ := dotOctet_iff.1 h3
    obtain ⟨w4, rfl, o4, -⟩ := dotOctet_iff.1 h4
    exact ⟨_, _, _, _, ⟨w1, w2, w3, w4, by simp, o1, o2, o3, o4⟩, rfl⟩
  · rintro ⟨a, b, c, d, ⟨w1, w2, w3, w4, rfl, o1, o2, o3, o4⟩, rfl⟩
    have e1 : parseOctet strict (w1 ++ b!"." ++ w2 ++ b!"." ++ w3 ++ b!"." ++ w4) = some (a, b!"." ++ w2 ++ b!"." ++ w3 ++ b!"." ++ w4) :=
      parseOctet_iff.2 ⟨w1, by simp, o1, noDigit_dot _⟩
    have e2 : dotOctet strict (b!"." ++ w2 ++ b!"." ++ w3 ++ b!"." ++ w4) = some (b, b!"." ++ w3 ++ b!"." ++ w4) :=
      dotOctet_iff.2 ⟨w2, by simp, o2, noDigit_dot _⟩
    have e3 : dotOctet strict (b!"." ++ w3 ++ b!"." ++ w4) = some (c, b!"." ++ w4) :=
      dotOctet_iff.2 ⟨w3, by simp, o3, noDigit_dot _⟩
    have e4 : dotOctet strict (b!"." ++ w4) = some (d, []) :=
      dotOctet_iff.2 ⟨w4, by simp, o4, noDigit_nil⟩
    unfold parseIPv4
    rw [if_neg (by simp), e1]
    simp only [e2, e3, e4]
    simp

end Sink
