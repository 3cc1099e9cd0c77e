import Verif.Model.Session

/-!
# Decimal numbers are written as usual

The models of `%d` against Lean's own decimal notation.
-/

namespace Sink

theorem decDigitsN_eq : ∀ (k n : Nat), n < k → decDigitsN k n = (Nat.toDigits 10 n).map fun c => c.toNat.toUInt8 := by
  have tab : ∀ n < 10, [48 + UInt8.ofNat n] = [n.digitChar].map (fun c => c.toNat.toUInt8) := by decide
  intro k
  induction k with
  | zero => intro n h; omega
  | succ k ih =>
    intro n h
    rw [decDigitsN]
    split
    · rename_i hn
      rw [Nat.toDigits_of_lt_base hn]
      exact tab n hn
    · rw [Nat.toDigits_of_base_le (by omega) (by omega), List.map_append, ih (n / 10) (by omega), tab (n % 10) (by omega)]

/-- `%d` of a natural number. -/
theorem decDigits_toString (n : Nat) : decDigits n = (toString n).toList.map fun c => c.toNat.toUInt8 := by
  rw [decDigits, decDigitsN_eq _ _ (by omega), Nat.toString_eq_ofList_toDigits, String.toList_ofList]

/-- `%d` of an integer. -/
theorem decInt_toString (n : Int) : decInt n = (toString n).toList.map fun c => c.toNat.toUInt8 := by
  cases n with
  | ofNat m =>
    rw [decInt, if_neg (by simp)]
    exact decDigits_toString m
  | negSucc m =>
    rw [decInt, if_pos (Int.negSucc_lt_zero m)]
    have : toString (Int.negSucc m) = "-" ++ toString (m + 1) := rfl
    rw [this, String.toList_append, List.map_append, ← decDigits_toString]
    rfl

end Sink
