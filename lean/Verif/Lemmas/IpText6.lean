import Verif.Spec.IpText6
import Verif.Lemmas.IpText

namespace Sink
open Spec

/-- Is it a hexadecimal digit. -/
def isHex (c : Byte) : Bool := decide ((48 ≤ c ∧ c ≤ 57) ∨ (97 ≤ c ∧ c ≤ 102) ∨ (65 ≤ c ∧ c ≤ 70))

theorem hexVal_eq (c : Byte) : hexVal c = if isHex c then some (hexOf c) else none := by
  have : ∀ n : Fin 256, hexVal (UInt8.ofNat n) = if isHex (UInt8.ofNat n) then some (hexOf (UInt8.ofNat n)) else none := by decide +kernel
  have h := this ⟨c.toNat, c.toNat_lt⟩
  simpa using h

/-- The hexadecimal digits at the start. -/
def xlead (s : Str) : Str := s.takeWhile isHex

def hexFrom (n : Nat) (w : Str) : Nat := w.foldl (fun n c => n * 16 + hexOf c) n

theorem le_hexFrom (n : Nat) (w : Str) : n ≤ hexFrom n w := by
  induction w generalizing n with
  | nil => exact Nat.le_refl _
  | cons c w ih => exact Nat.le_trans (by omega) (ih (n * 16 + hexOf c))

theorem xtoiLoop_true {n i m k : Nat} {s : Str} (h : xtoiLoop n i s = (m, k, true)) : m = hexFrom n (xlead s) ∧ k = i + (xlead s).length := by
  induction s generalizing n i with
  | nil => simp [xtoiLoop] at h; simp [xlead, hexFrom, h]
  | cons c s ih =>
    rw [xtoiLoop, hexVal_eq] at h
    cases hc : isHex c
    · simp only [hc, Bool.false_eq_true, if_false] at h
      have : xlead (c :: s) = [] := by rw [xlead, List.takeWhile_cons_of_neg (by simp [hc])]
      rw [this]
      simp only [Prod.mk.injEq, and_true] at h
      exact ⟨h.1.symm, h.2.symm⟩
    · simp only [hc, if_true] at h
      split at h
      · simp at h
      · obtain ⟨h1, h2⟩ := ih h
        have : xlead (c :: s) = c :: xlead s := by rw [xlead, List.takeWhile_cons_of_pos hc]; rfl
        rw [this]
        exact ⟨h1, by rw [h2, List.length_cons]; omega⟩

theorem xtoiLoop_small {n i : Nat} {s : Str} (h : hexFrom n (xlead s) < 0xFFFFFF) :
    xtoiLoop n i s = (hexFrom n (xlead s), i + (xlead s).length, true) := by
  induction s generalizing n i with
  | nil => rfl
  | cons c s ih =>
    rw [xtoiLoop, hexVal_eq]
    cases hc : isHex c
    · have : xlead (c :: s) = [] := by rw [xlead, List.takeWhile_cons_of_neg (by simp [hc])]
      rw [this]
      rfl
    · have : xlead (c :: s) = c :: xlead s := by rw [xlead, List.takeWhile_cons_of_pos hc]; rfl
      rw [this] at h ⊢
      have h' : hexFrom (n * 16 + hexOf c) (xlead s) < 0xFFFFFF := h
      simp only [if_true]
      rw [if_neg (by have := le_hexFrom (n * 16 + hexOf c) (xlead s); omega), ih h', List.length_cons]
      refine Prod.ext rfl (Prod.ext ?_ rfl)
      show i + 1 + _ = i + (_ + 1)
      omega

theorem xtoi_true {n k : Nat} {s : Str} (h : xtoi s = (n, k, true)) : n = hexNumeral (xlead s) ∧ k = (xlead s).length ∧ xlead s ≠ [] := by
  unfold xtoi at h
  obtain ⟨m, j, ok, he⟩ : ∃ m j ok, xtoiLoop 0 0 s = (m, j, ok) := ⟨_, _, _, rfl⟩
  rw [he] at h
  cases ok
  · simp at h
  · obtain ⟨h1, h2⟩ := xtoiLoop_true he
    simp only [if_true] at h
    split at h
    · simp at h
    · simp only [Prod.mk.injEq, and_true] at h
      refine ⟨by rw [← h.1, h1]; rfl, by rw [← h.2, h2]; simp, fun e => ?_⟩
      rw [e] at h2
      simp at h2
      contradiction

theorem xtoi_small {s : Str} (h : hexNumeral (xlead s) < 0xFFFFFF) (hne : xlead s ≠ []) : xtoi s = (hexNumeral (xlead s), (xlead s).length, true) := by
  unfold xtoi
  rw [xtoiLoop_small (n := 0) h]
  have : (xlead s).length ≠ 0 := fun e => hne (List.length_eq_zero_iff.1 e)
  simp [this, hexFrom, hexNumeral]

/-- The next byte is not a hexadecimal digit. -/
def NoHex (r : Str) : Prop := ∀ c, r.head? = some c → isHex c = false

theorem xlead_append {w r : Str} (hw : ∀ c ∈ w, isHex c = true) (hr : NoHex r) : xlead (w ++ r) = w := by
  induction w with
  | nil =>
    cases r with
    | nil => rfl
    | cons c r => rw [List.nil_append, xlead, List.takeWhile_cons_of_neg (by simp [hr c rfl])]
  | cons c w ih =>
    rw [List.cons_append, xlead, List.takeWhile_cons_of_pos (hw c (by simp))]
    exact congrArg _ (ih fun d hd => hw d (by simp [hd]))

theorem xlead_hex (s : Str) : ∀ c ∈ xlead s, isHex c = true := by
  induction s with
  | nil => simp [xlead]
  | cons d s ih =>
    intro c hc
    cases hd : isHex d
    · rw [xlead, List.takeWhile_cons_of_neg (by simp [hd])] at hc
      simp at hc
    · rw [xlead, List.takeWhile_cons_of_pos hd] at hc
      rcases List.mem_cons.1 hc with rfl | hc
      · exact hd
      · exact ih c hc

theorem xlead_drop (s : Str) : s = xlead s ++ s.drop (xlead s).length ∧ NoHex (s.drop (xlead s).length) := by
  induction s with
  | nil => exact ⟨rfl, by simp [NoHex, xlead]⟩
  | cons c s ih =>
    cases hc : isHex c
    · have : xlead (c :: s) = [] := by rw [xlead, List.takeWhile_cons_of_neg (by simp [hc])]
      rw [this]
      refine ⟨rfl, fun d hd => ?_⟩
      simp at hd
      exact hd ▸ hc
    · have : xlead (c :: s) = c :: xlead s := by rw [xlead, List.takeWhile_cons_of_pos hc]; rfl
      rw [this]
      exact ⟨by simpa using ih.1, by simpa using ih.2⟩

theorem hexDigits_iff {w : Str} : HexDigits w ↔ w ≠ [] ∧ ∀ c ∈ w, isHex c = true := by
  unfold HexDigits isHex
  simp only [decide_eq_true_eq]

theorem noHex_nil : NoHex [] := by simp [NoHex]
theorem noHex_colon (s : Str) : NoHex (c!":" :: s) := by
  intro c hc
  simp at hc
  subst hc
  decide
theorem noHex_dot (s : Str) : NoHex (c!"." :: s) := by
  intro c hc
  simp at hc
  subst hc
  decide

/-- What the loop reads first. -/
theorem xtoi_group {four : Bool} {s : Str} {n c : Nat} {ok : Bool} (h : xtoi s = (n, c, ok)) (hg : ¬ (ok = false ∨ n > 0xFFFF ∨ (four = true ∧ c > 4))) :
    ∃ w, s = w ++ s.drop c ∧ Group four w n ∧ NoHex (s.drop c) := by
  rw [not_or, not_or] at hg
  obtain rfl : ok = true := by simpa using hg.1
  obtain ⟨h1, h2, h3⟩ := xtoi_true h
  refine ⟨xlead s, h2 ▸ (xlead_drop s).1, ⟨hexDigits_iff.2 ⟨h3, xlead_hex s⟩, h1.symm, by omega, fun hf => ?_⟩, h2 ▸ (xlead_drop s).2⟩
  have : ¬ c > 4 := fun h => hg.2.2 ⟨hf, h⟩
  omega

theorem group_xtoi {four : Bool} {w r : Str} {n : Nat} (h : Group four w n) (hr : NoHex r) :
    xtoi (w ++ r) = (n, w.length, true) ∧ ¬ ((true : Bool) = false ∨ n > 0xFFFF ∨ (four = true ∧ w.length > 4)) ∧ (w ++ r).drop w.length = r := by
  obtain ⟨h1, h2, h3, h4⟩ := h
  obtain ⟨h5, h6⟩ := hexDigits_iff.1 h1
  have hl : xlead (w ++ r) = w := xlead_append h6 hr
  refine ⟨?_, ?_, by simp⟩
  · rw [xtoi_small (by rw [hl]; omega) (by rw [hl]; exact h5), hl, h2]
  · rintro (h | h | h)
    · cases h
    · omega
    · have := h4 h.1; omega

theorem digit_hex {c : Byte} (h : 48 ≤ c ∧ c ≤ 57) : isHex c = true ∧ hexOf c = c.toNat - 48 ∧ c.toNat - 48 < 10 := by
  have h2 := UInt8.le_iff_toNat_le.1 h.2
  have h1 := UInt8.le_iff_toNat_le.1 h.1
  refine ⟨decide_eq_true (.inl h), if_pos h.2, ?_⟩
  simp at h1 h2
  omega

/-- Few decimal digits, read as hexadecimal ones. -/
theorem hex_of_dec {v : Str} (h : ∀ c ∈ v, 48 ≤ c ∧ c ≤ 57) (k : Nat) (hk : numeral v.reverse < 10 ^ k) : hexNumeral v.reverse < 16 ^ k := by
  induction v generalizing k with
  | nil => exact Nat.pow_pos (by omega)
  | cons c w ih =>
    obtain ⟨-, h2, h3⟩ := digit_hex (h c (by simp))
    have e1 : numeral (c :: w).reverse = numeral w.reverse * 10 + (c.toNat - 48) := by simp [numeral]
    have e2 : hexNumeral (c :: w).reverse = hexNumeral w.reverse * 16 + hexOf c := by simp [hexNumeral]
    have ih := ih fun d hd => h d (by simp [hd])
    rw [e1] at hk
    rw [e2, h2]
    cases k with
    | zero =>
      have := ih 0 (by omega)
      omega
    | succ k =>
      have hp : 10 ^ (k + 1) = 10 ^ k * 10 := Nat.pow_succ ..
      have := ih k (by omega)
      have hp : 16 ^ (k + 1) = 16 ^ k * 16 := Nat.pow_succ ..
      omega

theorem four_digits {c0 c1 c2 c3 : Byte} {w : Str} (h : 1 ≤ c0.toNat - 48) : 1000 ≤ numeral (c0 :: c1 :: c2 :: c3 :: w) := by
  have := le_numFrom ((((0 * 10 + (c0.toNat - 48)) * 10 + (c1.toNat - 48)) * 10 + (c2.toNat - 48)) * 10 + (c3.toNat - 48)) w
  have e : numeral (c0 :: c1 :: c2 :: c3 :: w) = numFrom ((((0 * 10 + (c0.toNat - 48)) * 10 + (c1.toNat - 48)) * 10 + (c2.toNat - 48)) * 10 + (c3.toNat - 48)) w := rfl
  rw [e]
  generalize numFrom _ w = z at *
  omega

theorem octet_short {w : Str} {n : Nat} (h : Octet true w n) : w.length ≤ 4 := by
  obtain ⟨⟨h1, h2⟩, h3, h4, h5⟩ := h
  match w with
  | [] => simp
  | [_] => simp
  | [_, _] => simp
  | [_, _, _] => simp
  | c0 :: c1 :: c2 :: c3 :: w' =>
    exfalso
    have hne : c0 ≠ c!"0" := fun e => by
      rw [e] at h5
      have := h5 rfl rfl
      simp at this
    have h1' : 1 ≤ c0.toNat - 48 := by
      have := UInt8.le_iff_toNat_le.1 (h2 c0 (by simp)).1
      have hn : c0.toNat ≠ 48 := fun e => hne (UInt8.toNat_inj.1 e)
      simp at this
      omega
    have := four_digits (c1 := c1) (c2 := c2) (c3 := c3) (w := w') h1'
    omega

/-- The first number of an IPv4 address read as a group. -/
theorem quad_xtoi {strict four : Bool} (hv : four = true → strict = true) {s : Str} {a b c d : Nat} (h : Dotted strict s a b c d) :
    ∃ n k, xtoi s = (n, k, true) ∧ ¬ ((true : Bool) = false ∨ n > 0xFFFF ∨ (four = true ∧ k > 4)) ∧ (s.drop k).head? = some c!"." := by
  obtain ⟨w, x, y, z, rfl, ho, -⟩ := h
  have hx : hexNumeral w < 16 ^ 3 := by
    have := hex_of_dec (v := w.reverse) (fun c hc => ho.1.2 c (List.mem_reverse.1 hc)) 3
    rw [List.reverse_reverse] at this
    exact this (by have := ho.2.1; have := ho.2.2.1; omega)
  have hg : Group four w (hexNumeral w) := by
    refine ⟨hexDigits_iff.2 ⟨ho.1.1, fun c hc => (digit_hex (ho.1.2 c hc)).1⟩, rfl, by omega, fun hf => ?_⟩
    obtain rfl := hv hf
    exact octet_short ho
  simp only [List.append_assoc]
  obtain ⟨k1, k2, k3⟩ := group_xtoi hg (noHex_dot (x ++ (b!"." ++ (y ++ (b!"." ++ z)))))
  exact ⟨_, _, k1, k2, by rw [show b!"." ++ (x ++ (b!"." ++ (y ++ (b!"." ++ z)))) = c!"." :: (x ++ (b!"." ++ (y ++ (b!"." ++ z)))) from rfl, k3]; rfl⟩

theorem quadGroups_ipv4 {a b c d : Nat} (ha : a < 256) (hb : b < 256) (hc : c < 256) (hd : d < 256) : quadGroups (ipv4 a b c d) = [a * 256 + b, c * 256 + d] := by
  have : (ipv4 a b c d).toNat = ((a * 256 + b) * 256 + c) * 256 + d := by
    rw [ipv4, BitVec.toNat_ofNat, Nat.mod_eq_of_lt (by omega)]
  unfold quadGroups
  rw [this]
  refine List.cons_eq_cons.2 ⟨by omega, List.cons_eq_cons.2 ⟨by omega, rfl⟩⟩

/-! ## One round of the loop -/

section
variable {strict four : Bool} {room : Nat} {gs : List Nat} {ell : Option Nat}

theorem loop_end {w : Str} {n : Nat} (h : Group four w n) : v6Loop strict four (room + 1) gs ell w = some (gs ++ [n], ell, []) := by
  obtain ⟨h1, h2, h3⟩ := group_xtoi (r := []) h noHex_nil
  rw [List.append_nil] at h1 h3
  unfold v6Loop
  simp only [h1, h3]
  rw [if_neg h2, if_neg (by simp), if_pos trivial]

theorem loop_colon {w s : Str} {n : Nat} (h : Group four w n) (hs : s ≠ []) (hc : s.head? ≠ some c!":") :
    v6Loop strict four (room + 1) gs ell (w ++ b!":" ++ s) = v6Loop strict four room (gs ++ [n]) ell s := by
  obtain ⟨h1, h2, h3⟩ := group_xtoi h (noHex_colon s)
  have e : w ++ b!":" ++ s = w ++ c!":" :: s := by simp
  have hl : s.length ≠ 0 := fun e => hs (List.length_eq_zero_iff.1 e)
  rw [e]
  conv => lhs; unfold v6Loop
  simp only [h1, h3]
  rw [if_neg h2, if_neg (by simp), if_neg (by simp), if_neg (by simp [hl]), List.drop_one, List.tail_cons, if_neg hc]

theorem loop_double {w r : Str} {n : Nat} (h : Group four w n) :
    v6Loop strict four (room + 1) gs none (w ++ b!"::" ++ r) =
      if r = [] then some (gs ++ [n], some (gs.length + 1), []) else v6Loop strict four room (gs ++ [n]) (some (gs.length + 1)) r := by
  obtain ⟨h1, h2, h3⟩ := group_xtoi h (noHex_colon (c!":" :: r))
  have e : w ++ b!"::" ++ r = w ++ c!":" :: c!":" :: r := by simp
  rw [e]
  conv => lhs; unfold v6Loop
  simp only [h1, h3]
  rw [if_neg h2, if_neg (by simp), if_neg (by simp), if_neg (by simp), List.drop_one, List.tail_cons, if_pos (by simp), if_neg (by simp)]
  simp

theorem loop_quad (hv : four = true → strict = true) {s : Str} {a b c d : Nat} (h : Dotted strict s a b c d) (h6 : ell = none → gs.length = 6)
    (hl : gs.length + 2 ≤ 8) : v6Loop strict four (room + 1) gs ell s = some (gs ++ [a * 256 + b, c * 256 + d], ell, []) := by
  obtain ⟨n, k, h1, h2, h3⟩ := quad_xtoi hv h
  unfold v6Loop
  simp only [h1]
  rw [if_neg h2, if_pos h3, if_neg (fun hx => hx.2 (h6 hx.1)), if_neg (by omega), parseIPv4_iff.2 ⟨a, b, c, d, h, rfl⟩]
  obtain ⟨w, x, y, z, -, g1, g2, g3, g4⟩ := h
  simp only [quadGroups_ipv4 g1.2.2.1 g2.2.2.1 g3.2.2.1 g4.2.2.1]

/-- What a round can be. -/
theorem loop_round {s : Str} {x : List Nat × Option Nat × Str} (h : v6Loop strict four (room + 1) gs ell s = some x) :
    (∃ n, Group four s n ∧ x = (gs ++ [n], ell, [])) ∨
    (∃ a b c d, Dotted strict s a b c d ∧ (ell = none → gs.length = 6) ∧ gs.length + 2 ≤ 8 ∧ x = (gs ++ [a * 256 + b, c * 256 + d], ell, [])) ∨
    (∃ w n r, s = w ++ b!":" ++ r ∧ Group four w n ∧ r ≠ [] ∧ r.head? ≠ some c!":" ∧ v6Loop strict four room (gs ++ [n]) ell r = some x) ∨
    ∃ w n r, s = w ++ b!"::" ++ r ∧ Group four w n ∧ ell = none ∧
      (r = [] ∧ x = (gs ++ [n], some (gs.length + 1), []) ∨ r ≠ [] ∧ v6Loop strict four room (gs ++ [n]) (some (gs.length + 1)) r = some x) := by
  unfold v6Loop at h
  obtain ⟨n, k, ok, he⟩ : ∃ n k ok, xtoi s = (n, k, ok) := ⟨_, _, _, rfl⟩
  simp only [he] at h
  split at h
  · cases h
  · rename_i hg
    obtain ⟨w, hw, hgr, hno⟩ := xtoi_group he hg
    split at h
    · split at h
      · cases h
      · rename_i h6
        split at h
        · cases h
        · rename_i h8
          split at h
          · cases h
          · rename_i y hy
            obtain ⟨a, b, c, d, hd, rfl⟩ := parseIPv4_iff.1 hy
            have hd' := hd
            obtain ⟨w', x', y', z, -, g1, g2, g3, g4⟩ := hd'
            rw [quadGroups_ipv4 g1.2.2.1 g2.2.2.1 g3.2.2.1 g4.2.2.1] at h
            cases h
            exact .inr (.inl ⟨a, b, c, d, hd, fun hn => by_contra fun hx => h6 ⟨hn, hx⟩, by omega, rfl⟩)
    · split at h
      · rename_i hnil
        rw [hnil, List.append_nil] at hw
        cases h
        exact .inl ⟨n, hw ▸ hgr, rfl⟩
      · split at h
        · cases h
        · rename_i hc
          rw [not_or, not_not] at hc
          obtain ⟨t, ht⟩ : ∃ t, s.drop k = c!":" :: t := by
            cases hd : s.drop k with
            | nil => rw [hd] at hc; simp at hc
            | cons y t => rw [hd] at hc; simp at hc; exact ⟨t, by rw [hc.1]⟩
          have htne : t ≠ [] := fun e => by rw [ht, e] at hc; simp at hc
          rw [ht] at h hw
          simp only [List.drop_one, List.tail_cons] at h
          split at h
          · rename_i h2
            obtain ⟨r, rfl⟩ : ∃ r, t = c!":" :: r := by
              cases t with
              | nil => exact absurd rfl htne
              | cons y t => simp at h2; exact ⟨t, by rw [h2]⟩
            split at h
            · cases h
            · rename_i hell
              rw [not_not] at hell
              subst hell
              simp only [List.tail_cons, List.length_append, List.length_singleton] at h
              refine .inr (.inr (.inr ⟨w, n, r, by rw [hw]; simp, hgr, rfl, ?_⟩))
              split at h
              · rename_i hr
                cases h
                exact .inl ⟨hr, rfl⟩
              · rename_i hr
                exact .inr ⟨hr, h⟩
          · rename_i h2
            exact .inr (.inr (.inl ⟨w, n, t, by rw [hw]; simp, hgr, htne, h2, h⟩))

theorem ending_head {s : Str} {b : List Nat} (h : Ending strict four s b) : ∃ x t, s = x :: t ∧ isHex x = true := by
  cases h with
  | one h =>
    obtain ⟨h1, h2⟩ := hexDigits_iff.1 h.1
    obtain ⟨x, t, rfl⟩ := List.exists_cons_of_ne_nil h1
    exact ⟨x, t, rfl, h2 x (by simp)⟩
  | quad h =>
    obtain ⟨w, x, y, z, rfl, h1, -⟩ := h
    obtain ⟨x, t, rfl⟩ := List.exists_cons_of_ne_nil h1.1.1
    exact ⟨x, _, rfl, (digit_hex (h1.1.2 x (by simp))).1⟩
  | more h _ =>
    obtain ⟨h1, h2⟩ := hexDigits_iff.1 h.1
    obtain ⟨x, t, rfl⟩ := List.exists_cons_of_ne_nil h1
    exact ⟨x, _, rfl, h2 x (by simp)⟩

theorem ending_start {s : Str} {b : List Nat} (h : Ending strict four s b) : s ≠ [] ∧ s.head? ≠ some c!":" := by
  obtain ⟨x, t, rfl, hx⟩ := ending_head h
  refine ⟨by simp, fun e => ?_⟩
  injection e with e
  subst e
  cases hx

theorem ending_length {s : Str} {b : List Nat} (h : Ending strict four s b) : 1 ≤ b.length := by
  cases h <;> simp

theorem groups_ending {s : Str} {b : List Nat} (h : Groups four s b) : Ending strict four s b := by
  induction h with
  | one h => exact .one h
  | more h _ ih => exact .more h ih

end

section
variable {strict four : Bool}

/-- After the `::`. -/
theorem loop_after (hv : four = true → strict = true) : ∀ (room : Nat) (gs : List Nat) (e : Nat) (s : Str) (gs' : List Nat) (ell' : Option Nat),
    gs.length + room = 8 → s ≠ [] →
    (v6Loop strict four room gs (some e) s = some (gs', ell', []) ↔ ell' = some e ∧ ∃ b, Ending strict four s b ∧ gs' = gs ++ b ∧ b.length ≤ room)
  | 0, gs, e, s, gs', ell', hl, hs => by
    unfold v6Loop
    constructor
    · intro h
      injection h with h
      injection h with _ h
      injection h with _ h
      exact absurd h hs
    · rintro ⟨-, b, h, -, hb⟩
      have := ending_length h
      omega
  | room + 1, gs, e, s, gs', ell', hl, hs => by
    constructor
    · intro h
      rcases loop_round h with ⟨n, h1, h2⟩ | ⟨a, b, c, d, h1, -, h2, h3⟩ | ⟨w, n, r, rfl, h1, h2, h3, h4⟩ | ⟨w, n, r, -, -, h, -⟩
      · simp only [Prod.mk.injEq, and_true] at h2
        exact ⟨h2.2, [n], .one h1, h2.1, by simp⟩
      · simp only [Prod.mk.injEq, and_true] at h3
        exact ⟨h3.2, _, .quad h1, h3.1, by simp; omega⟩
      · obtain ⟨g1, b, g2, g3, g4⟩ := (loop_after hv room (gs ++ [n]) e r gs' ell' (by simp; omega) h2).1 h4
        exact ⟨g1, n :: b, .more h1 g2, by rw [g3]; simp, by simp; omega⟩
      · cases h
    · rintro ⟨rfl, b, h, rfl, hb⟩
      cases h with
      | one h => exact loop_end h
      | quad h => exact loop_quad hv h (fun h => by cases h) (by simp at hb; omega)
      | @more w n s b h h' =>
        obtain ⟨k1, k2⟩ := ending_start h'
        rw [loop_colon h k1 k2]
        exact (loop_after hv room (gs ++ [n]) e s _ _ (by simp; omega) k1).2 ⟨rfl, b, h', by simp, by simp at hb; omega⟩

/-- Without a `::`. -/
theorem loop_without (hv : four = true → strict = true) : ∀ (room : Nat) (gs : List Nat) (s : Str) (gs' : List Nat),
    gs.length + room = 8 → s ≠ [] →
    (v6Loop strict four room gs none s = some (gs', none, []) ∧ gs'.length = 8 ↔ ∃ b, Ending strict four s b ∧ gs' = gs ++ b ∧ b.length = room)
  | 0, gs, s, gs', hl, hs => by
    unfold v6Loop
    constructor
    · rintro ⟨h, -⟩
      injection h with h
      injection h with _ h
      injection h with _ h
      exact absurd h hs
    · rintro ⟨b, h, -, hb⟩
      have := ending_length h
      omega
  | room + 1, gs, s, gs', hl, hs => by
    constructor
    · rintro ⟨h, h8⟩
      rcases loop_round h with ⟨n, h1, h2⟩ | ⟨a, b, c, d, h1, -, h2, h3⟩ | ⟨w, n, r, rfl, h1, h2, h3, h4⟩ | ⟨w, n, r, rfl, -, -, ⟨-, h⟩ | ⟨h1, h⟩⟩
      · simp only [Prod.mk.injEq, and_true] at h2
        rw [h2] at h8
        exact ⟨[n], .one h1, h2, by simp at h8 ⊢; omega⟩
      · simp only [Prod.mk.injEq, and_true] at h3
        rw [h3] at h8
        exact ⟨_, .quad h1, h3, by simp at h8 ⊢; omega⟩
      · obtain ⟨b, g2, g3, g4⟩ := (loop_without hv room (gs ++ [n]) r gs' (by simp; omega) h2).1 ⟨h4, h8⟩
        exact ⟨n :: b, .more h1 g2, by rw [g3]; simp, by simp; omega⟩
      · simp at h
      · have := (loop_after hv room (gs ++ [n]) _ r gs' none (by simp; omega) h1).1 h
        cases this.1
    · rintro ⟨b, h, rfl, hb⟩
      refine ⟨?_, by simp; omega⟩
      cases h with
      | one h => exact loop_end h
      | quad h => exact loop_quad hv h (fun _ => by simp at hb; omega) (by simp at hb; omega)
      | @more w n s b h h' =>
        obtain ⟨k1, k2⟩ := ending_start h'
        rw [loop_colon h k1 k2]
        exact ((loop_without hv room (gs ++ [n]) s _ (by simp; omega) k1).2 ⟨b, h', by simp, by simp at hb; omega⟩).1

/-- With a `::` to come. -/
theorem loop_with (hv : four = true → strict = true) : ∀ (room : Nat) (gs : List Nat) (s : Str) (gs' : List Nat) (e : Nat),
    gs.length + room = 8 → s ≠ [] →
    (v6Loop strict four room gs none s = some (gs', some e, []) ↔ ∃ l r a b, s = l ++ b!"::" ++ r ∧ Groups four l a ∧
      (r = [] ∧ b = [] ∨ Ending strict four r b) ∧ gs' = gs ++ a ++ b ∧ a.length + b.length ≤ room ∧ e = gs.length + a.length)
  | 0, gs, s, gs', e, hl, hs => by
    unfold v6Loop
    constructor
    · intro h
      injection h with h
      injection h with _ h
      injection h with _ h
      exact absurd h hs
    · rintro ⟨l, r, a, b, -, h, -, -, hb, -⟩
      have := ending_length (groups_ending (strict := strict) h)
      omega
  | room + 1, gs, s, gs', e, hl, hs => by
    constructor
    · intro h
      rcases loop_round h with ⟨n, h1, h2⟩ | ⟨a, b, c, d, h1, -, h2, h3⟩ | ⟨w, n, r, rfl, h1, h2, h3, h4⟩ | ⟨w, n, r, rfl, h0, -, ⟨h1, h⟩ | ⟨h1, h⟩⟩
      · simp at h2
      · simp at h3
      · obtain ⟨l', r', a, b, rfl, g2, g3, g4, g5, g6⟩ := (loop_with hv room (gs ++ [n]) r gs' e (by simp; omega) h2).1 h4
        exact ⟨w ++ b!":" ++ l', r', n :: a, b, by simp, .more h1 g2, g3, by rw [g4]; simp, by simp; omega, by rw [g6]; simp; omega⟩
      · simp only [Prod.mk.injEq, and_true, Option.some.injEq] at h
        exact ⟨w, r, [n], [], rfl, .one h0, .inl ⟨h1, rfl⟩, by rw [h.1]; simp, by simp, by rw [h.2]; simp⟩
      · obtain ⟨k1, b, k2, k3, k4⟩ := (loop_after hv room (gs ++ [n]) _ r gs' _ (by simp; omega) h1).1 h
        injection k1 with k1
        exact ⟨w, r, [n], b, rfl, .one h0, .inr k2, k3, by simp; omega, by rw [k1]; simp⟩
    · rintro ⟨l, r, a, b, rfl, h, hr, rfl, hb, rfl⟩
      cases h with
      | @one _ n h =>
        rw [loop_double h]
        rcases hr with ⟨rfl, rfl⟩ | hr
        · simp
        · rw [if_neg (ending_start hr).1]
          exact (loop_after hv room (gs ++ [n]) _ r _ _ (by simp; omega) (ending_start hr).1).2 ⟨by simp, b, hr, rfl, by simp at hb; omega⟩
      | @more w n l a h h' =>
        obtain ⟨x, t, rfl, hx⟩ := ending_head (groups_ending (strict := strict) h')
        have e : w ++ b!":" ++ (x :: t) ++ b!"::" ++ r = w ++ b!":" ++ ((x :: t) ++ b!"::" ++ r) := by simp
        rw [e, loop_colon h (by simp) (by intro hc; injection hc with hc; subst hc; cases hx)]
        exact (loop_with hv room (gs ++ [n]) _ _ _ (by simp; omega) (by simp)).2 ⟨_, r, a, b, rfl, h', hr, by simp, by simp at hb; omega, by simp; omega⟩

theorem loop_length : ∀ (room : Nat) (gs : List Nat) (ell : Option Nat) (s : Str) (x : List Nat × Option Nat × Str),
    gs.length + room = 8 → v6Loop strict four room gs ell s = some x → x.1.length ≤ 8
  | 0, gs, ell, s, x, hl, h => by
    unfold v6Loop at h
    injection h with h
    subst h
    show gs.length ≤ 8
    omega
  | room + 1, gs, ell, s, x, hl, h => by
    rcases loop_round h with ⟨n, -, rfl⟩ | ⟨a, b, c, d, -, -, h2, rfl⟩ | ⟨w, n, r, -, -, -, -, h4⟩ | ⟨w, n, r, -, -, -, ⟨-, rfl⟩ | ⟨-, h⟩⟩
    · simp; omega
    · simp; omega
    · exact loop_length room (gs ++ [n]) _ _ _ (by simp; omega) h4
    · simp; omega
    · exact loop_length room (gs ++ [n]) _ _ _ (by simp; omega) h

theorem fill_some {x : List Nat × Option Nat × Str} {gs : List Nat} (h : v6Fill x = some gs) :
    (∃ gs' e, x = (gs', some e, []) ∧ gs'.length < 8 ∧ gs = gs'.take e ++ List.replicate (8 - gs'.length) 0 ++ gs'.drop e) ∨
    x = (gs, none, []) ∧ 8 ≤ gs.length := by
  obtain ⟨g, ell, rest⟩ := x
  unfold v6Fill at h
  simp only at h
  split at h
  · cases h
  · rename_i hr
    rw [not_not] at hr
    subst hr
    split at h
    · rename_i hl
      split at h
      · cases h
      · cases h
        exact .inl ⟨g, _, rfl, hl, rfl⟩
    · rename_i hl
      split at h
      · cases h
      · rename_i he
        rw [not_not] at he
        cases h
        exact .inr ⟨by rw [he], by omega⟩

theorem fill_gap {a b : List Nat} (h : a.length + b.length < 8) :
    v6Fill (a ++ b, some a.length, []) = some (a ++ List.replicate (8 - (a.length + b.length)) 0 ++ b) := by
  unfold v6Fill
  dsimp only
  rw [if_neg (by simp), if_pos (by simpa using h)]
  simp

theorem fill_full {gs : List Nat} (h : gs.length = 8) : v6Fill (gs, none, []) = some gs := by
  unfold v6Fill
  dsimp only
  rw [if_neg (by simp), if_neg (by omega), if_neg (by simp)]

theorem groups_start {l : Str} {a : List Nat} (h : Groups four l a) : ∃ x t, l = x :: t ∧ x ≠ c!":" := by
  obtain ⟨x, t, rfl, hx⟩ := ending_head (groups_ending (strict := true) h)
  exact ⟨x, t, rfl, fun e => by subst e; cases hx⟩

/-- The parser takes exactly the texts of addresses. -/
theorem parseIPv6_iff (hv : four = true → strict = true) {s : Str} {gs : List Nat} : parseIPv6 strict four s = some gs ↔ V6Text strict four s gs := by
  unfold parseIPv6
  by_cases hd : s.take 2 = b!"::"
  · rw [if_pos hd]
    obtain ⟨t, rfl⟩ : ∃ t, s = b!"::" ++ t := ⟨s.drop 2, by rw [← hd, List.take_append_drop]⟩
    have hdr : (b!"::" ++ t).drop 2 = t := rfl
    rw [hdr]
    have hV : V6Text strict four (b!"::" ++ t) gs ↔ ∃ b, (t = [] ∧ b = [] ∨ Ending strict four t b) ∧ b.length < 8 ∧ gs = List.replicate (8 - b.length) 0 ++ b := by
      constructor
      · rintro (⟨h, -⟩ | ⟨l, r, a, b, h1, h2, h3, h4, rfl⟩)
        · exact absurd rfl (ending_start h).2
        · rcases h2 with ⟨rfl, rfl⟩ | h2
          · have : t = r := by simpa using h1
            subst this
            exact ⟨b, h3, by simpa using h4, by simp⟩
          · obtain ⟨x, u, rfl, hx⟩ := groups_start h2
            exact absurd (List.cons.inj h1).1.symm hx
      · rintro ⟨b, h1, h2, rfl⟩
        exact .inr ⟨[], t, [], b, rfl, .inl ⟨rfl, rfl⟩, h1, by simpa using h2, by simp⟩
    rw [hV]
    by_cases ht : t = []
    · subst ht
      rw [if_pos rfl]
      constructor
      · intro h
        injection h with h
        exact ⟨[], .inl ⟨rfl, rfl⟩, by simp, by rw [← h]; simp⟩
      · rintro ⟨b, ⟨-, rfl⟩ | h, h2, rfl⟩
        · rfl
        · exact absurd rfl (ending_start h).1
    · rw [if_neg ht]
      rw [Option.bind_eq_some_iff]
      constructor
      · rintro ⟨x, h1, h2⟩
        rcases fill_some h2 with ⟨g, e, rfl, h3, rfl⟩ | ⟨rfl, -⟩
        · obtain ⟨k1, b, k2, k3, k4⟩ := (loop_after hv 8 [] 0 t _ _ rfl ht).1 h1
          injection k1 with k1
          subst k1
          rw [List.nil_append] at k3
          subst k3
          exact ⟨g, .inr k2, h3, by simp⟩
        · obtain ⟨k1, -⟩ := (loop_after hv 8 [] 0 t _ _ rfl ht).1 h1
          cases k1
      · rintro ⟨b, ⟨h, -⟩ | h, h2, rfl⟩
        · exact absurd h ht
        · refine ⟨_, (loop_after hv 8 [] 0 t b (some 0) rfl ht).2 ⟨rfl, b, h, rfl, by omega⟩, ?_⟩
          have := fill_gap (a := []) (b := b) (by simpa using h2)
          simpa using this
  · rw [if_neg hd, Option.bind_eq_some_iff]
    by_cases hs : s = []
    · subst hs
      constructor
      · rintro ⟨x, h1, -⟩
        have : v6Loop strict four 8 [] none [] = none := by unfold v6Loop; simp [xtoi, xtoiLoop]
        rw [this] at h1
        cases h1
      · rintro (⟨h, -⟩ | ⟨l, r, a, b, h1, -⟩)
        · exact absurd rfl (ending_start h).1
        · simp at h1
    · constructor
      · rintro ⟨x, h1, h2⟩
        rcases fill_some h2 with ⟨g, e, rfl, h3, rfl⟩ | ⟨rfl, h3⟩
        · obtain ⟨l, r, a, b, rfl, k2, k3, k4, k5, k6⟩ := (loop_with hv 8 [] s _ e rfl hs).1 h1
          rw [List.nil_append] at k4
          simp only [List.length_nil, Nat.zero_add] at k6
          subst k4 k6
          exact .inr ⟨l, r, a, b, rfl, .inr k2, k3, by simpa using h3, by simp⟩
        · have := loop_length 8 [] none s _ rfl h1
          obtain ⟨b, k1, k2, k3⟩ := (loop_without hv 8 [] s gs rfl hs).1 ⟨h1, by simp only at this; omega⟩
          rw [List.nil_append] at k2
          subst k2
          exact .inl ⟨k1, k3⟩
      · rintro (⟨h, h8⟩ | ⟨l, r, a, b, rfl, h2, h3, h4, rfl⟩)
        · exact ⟨_, ((loop_without hv 8 [] s gs rfl hs).2 ⟨gs, h, rfl, h8⟩).1, fill_full h8⟩
        · rcases h2 with ⟨rfl, rfl⟩ | h2
          · exact absurd rfl hd
          · exact ⟨_, (loop_with hv 8 [] _ (a ++ b) a.length rfl hs).2 ⟨l, r, a, b, rfl, h2, h3, by simp, by omega, by simp⟩, fill_gap h4⟩

end

end Sink
