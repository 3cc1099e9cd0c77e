import Verif.Model.IpText6
import Verif.Spec.IpText

/-!
# IPv6 addresses and blocks as people write them
-/

namespace Sink.Spec

/-- A string of hexadecimal digits, of either case. -/
def HexDigits (w : Str) : Prop := w ≠ [] ∧ ∀ c ∈ w, (48 ≤ c ∧ c ≤ 57) ∨ (97 ≤ c ∧ c ≤ 102) ∨ (65 ≤ c ∧ c ≤ 70)

/-- What a digit stands for. -/
def hexOf (c : Byte) : Nat := if c ≤ 57 then c.toNat - 48 else if c ≤ 70 then c.toNat - 55 else c.toNat - 87

/-- The number it stands for. -/
def hexNumeral (w : Str) : Nat := w.foldl (fun n c => n * 16 + hexOf c) 0

/-- One group of an address; newer versions of Go refuse more than four digits. -/
def Group (four : Bool) (w : Str) (n : Nat) : Prop := HexDigits w ∧ hexNumeral w = n ∧ n < 65536 ∧ (four = true → w.length ≤ 4)

/-- Groups with colons between them. -/
inductive Groups (four : Bool) : Str → List Nat → Prop
  | one {w n} : Group four w n → Groups four w [n]
  | more {w n s gs} : Group four w n → Groups four s gs → Groups four (w ++ b!":" ++ s) (n :: gs)

/-- Groups with colons between them, where the last two may be written as an IPv4 address. -/
inductive Ending (strict four : Bool) : Str → List Nat → Prop
  | one {w n} : Group four w n → Ending strict four w [n]
  | quad {s a b c d} : Dotted strict s a b c d → Ending strict four s [a * 256 + b, c * 256 + d]
  | more {w n s gs} : Group four w n → Ending strict four s gs → Ending strict four (w ++ b!":" ++ s) (n :: gs)

/-- The text of an address: eight groups, or fewer with `::` for the missing ones, which are zero. -/
def V6Text (strict four : Bool) (s : Str) (gs : List Nat) : Prop :=
  (Ending strict four s gs ∧ gs.length = 8) ∨
  ∃ l r a b, s = l ++ b!"::" ++ r ∧ (l = [] ∧ a = [] ∨ Groups four l a) ∧ (r = [] ∧ b = [] ∨ Ending strict four r b) ∧
    a.length + b.length < 8 ∧ gs = a ++ List.replicate (8 - (a.length + b.length)) 0 ++ b

/-- The text of a block. -/
def V6Block (strict four : Bool) (s : Str) (gs : List Nat) (n : Nat) : Prop :=
  ∃ t m, s = t ++ b!"/" ++ m ∧ V6Text strict four t gs ∧ Digits m ∧ numeral m = n ∧ n ≤ 128

/-- Eight groups as a number. -/
def hextets : List Nat → Nat
  | [] => 0
  | g :: gs => g * 65536 ^ gs.length + hextets gs

/-- The number of an IPv4 address among the IPv6 addresses (`::ffff:a.b.c.d`). -/
def mapped (y : Nat) : Nat := 0xFFFF * 2 ^ 32 + y

/-- Every address as a number of 128 bits. -/
def ipNum : IP → Nat
  | .v4 y => mapped y.toNat
  | .v6 x => x.toNat

/-- An IPv4 address is not also taken for an IPv6 one. -/
def ProperIP : IP → Prop
  | .v4 _ => True
  | .v6 x => ∀ y < 2 ^ 32, x.toNat ≠ mapped y

/-- What a pattern denotes: an address, and how many of its first bits count. -/
inductive Denotes (strict four : Bool) (s : Str) : Nat → Nat → Prop
  | quad {a b c d} : Dotted strict s a b c d → Denotes strict four s (mapped (addrNum a b c d)) 128
  | quads {a b c d n} : Netblock strict s a b c d n → Denotes strict four s (mapped (addrNum a b c d)) (96 + n)
  | addr {gs} : V6Text strict four s gs → Denotes strict four s (hextets gs) 128
  | block {gs n} : V6Block strict four s gs n → Denotes strict four s (hextets gs) n

/-- The pattern covers the address.  A block of IPv6 addresses has IPv4 addresses only if it has nothing else. -/
def CoversIP (strict four : Bool) (pat : Str) (ip : IP) : Prop :=
  ∃ z n, Denotes strict four pat z n ∧ z / 2 ^ (128 - n) = ipNum ip / 2 ^ (128 - n) ∧ ∀ y, ip = .v4 y → 96 ≤ n

end Sink.Spec
