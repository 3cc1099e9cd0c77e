import Verif.Spec.IpText6

/-!
# The one text of an IPv6 address that programs should write (RFC 5952)
-/

namespace Sink.Spec

/-- A group in small letters, without leading zeros. -/
def PlainHex (w : Str) (n : Nat) : Prop :=
  w ≠ [] ∧ (∀ c ∈ w, (48 ≤ c ∧ c ≤ 57) ∨ (97 ≤ c ∧ c ≤ 102)) ∧ hexNumeral w = n ∧ (w.head? = some c!"0" → w = b!"0")

/-- Such groups with colons between them. -/
inductive PlainGroups : Str → List Nat → Prop
  | none : PlainGroups [] []
  | one {w n} : PlainHex w n → PlainGroups w [n]
  | more {w n s gs} : PlainHex w n → gs ≠ [] → PlainGroups s gs → PlainGroups (w ++ b!":" ++ s) (n :: gs)

/-- There are `n` zero groups from place `i` on. -/
def ZerosAt (gs : List Nat) (i n : Nat) : Prop := ∀ j, i ≤ j → j < i + n → gs[j]? = some 0

/-- The text: `::` stands for the longest run of two or more zero groups, the first one if there are several. -/
def Canonical (s : Str) (gs : List Nat) : Prop :=
  (PlainGroups s gs ∧ ∀ i, ¬ ZerosAt gs i 2) ∨
  ∃ i n l r, 2 ≤ n ∧ ZerosAt gs i n ∧ (∀ j m, ZerosAt gs j m → m ≤ n) ∧ (∀ j, ZerosAt gs j n → i ≤ j) ∧
    s = l ++ b!"::" ++ r ∧ PlainGroups l (gs.take i) ∧ PlainGroups r (gs.drop (i + n))

end Sink.Spec
