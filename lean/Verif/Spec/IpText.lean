import Verif.Model.IpText
import Verif.Spec.Match

/-!
# IPv4 addresses and blocks as people write them
-/

namespace Sink.Spec

/-- A string of decimal digits. -/
def Digits (w : Str) : Prop := w ≠ [] ∧ ∀ c ∈ w, 48 ≤ c ∧ c ≤ 57

/-- The number it stands for. -/
def numeral (w : Str) : Nat := w.foldl (fun n c => n * 10 + (c.toNat - 48)) 0

/-- One of the four numbers of an address; newer versions of Go refuse leading zeros. -/
def Octet (strict : Bool) (w : Str) (n : Nat) : Prop :=
  Digits w ∧ numeral w = n ∧ n < 256 ∧ (strict = true → w.head? = some c!"0" → w = b!"0")

/-- The text `a.b.c.d`. -/
def Dotted (strict : Bool) (s : Str) (a b c d : Nat) : Prop :=
  ∃ w x y z, s = w ++ b!"." ++ x ++ b!"." ++ y ++ b!"." ++ z ∧
    Octet strict w a ∧ Octet strict x b ∧ Octet strict y c ∧ Octet strict z d

/-- The text `a.b.c.d/n`. -/
def Netblock (strict : Bool) (s : Str) (a b c d n : Nat) : Prop :=
  ∃ t m, s = t ++ b!"/" ++ m ∧ Dotted strict t a b c d ∧ Digits m ∧ numeral m = n ∧ n ≤ 32

/-- The address as a number. -/
def addrNum (a b c d : Nat) : Nat := a * 2 ^ 24 + b * 2 ^ 16 + c * 2 ^ 8 + d

end Sink.Spec
