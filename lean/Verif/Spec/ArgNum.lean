import Mathlib.Data.Nat.Digits.Defs
import Verif.Model.Flags

/-!
# Numbers and durations on a command line (the documentation of package strconv, `ParseInt` with base 0, and of `time.ParseDuration`)
-/

namespace Sink.Spec

/-- The digits 0 to f, in both cases. -/
def DigitIs (c : UInt8) (d : Nat) : Prop := b!"0123456789abcdef"[d]? = some c ∨ b!"0123456789ABCDEF"[d]? = some c

/-- What a number can begin with, and the base that this means. -/
def prefixes : List (Str × Nat) :=
  [(b!"0", 8), (b!"0b", 2), (b!"0B", 2), (b!"0o", 8), (b!"0O", 8), (b!"0x", 16), (b!"0X", 16)]

/-- The text is a number written with these digits, the highest first; underscores do not count. -/
def Written (base : Nat) (body : Str) (n : Nat) : Prop :=
  ∃ ds : List Nat, List.Forall₂ DigitIs (body.filter (· != c!"_")) ds ∧ (∀ d ∈ ds, d < base) ∧ n = Nat.ofDigits base ds.reverse

/-- A whole number without a sign: with a prefix or, if it does not begin with a zero, decimal.  Underscores may only be between digits, or
between the prefix and a digit. -/
def Whole (t : Str) (n : Nat) : Prop :=
  ((∃ pre base body, (pre, base) ∈ prefixes ∧ t = pre ++ body ∧ (body = [] → pre = b!"0") ∧ Written base body n) ∨
    (t ≠ [] ∧ t.head? ≠ some c!"0" ∧ Written 10 t n)) ∧
  t.head? ≠ some c!"_" ∧ ¬ b!"__" <:+: t ∧ t.getLast? ≠ some c!"_"

/-- The number is kept in 64 bits, with a sign. -/
def Signed (sign : Str) (n : Nat) (z : Int) : Prop :=
  ((sign = [] ∨ sign = b!"+") ∧ z = n ∧ n < 2 ^ 63) ∨ (sign = b!"-" ∧ z = -n ∧ n ≤ 2 ^ 63)

/-- What -dncount can be given, and what it means. -/
def Count (s : Str) (z : Int) : Prop := ∃ sign t n, s = sign ++ t ∧ Whole t n ∧ Signed sign n z

/-- The units of time, in nanoseconds.  The sign of micro can be either of two characters. -/
def units : List (Str × Nat) :=
  [(b!"h", 60 * 60 * 1000000000), (b!"m", 60 * 1000000000), (b!"s", 1000000000), (b!"ms", 1000000), (b!"us", 1000),
    (0xc2 :: 0xb5 :: b!"s", 1000), (0xce :: 0xbc :: b!"s", 1000), (b!"ns", 1)]

/-- Decimal digits and the number they write. -/
def Decimal (s : Str) (n : Nat) : Prop :=
  (∀ c ∈ s, c ∈ b!"0123456789") ∧ n = Nat.ofDigits 10 (s.map fun c => c.toNat - 48).reverse

/-- A number of units, perhaps with digits after a point. -/
def Piece (frac : Str → Nat → Nat) (p : Str) (ns : Nat) : Prop :=
  ∃ ds u k n, (u, k) ∈ units ∧ Decimal ds n ∧
    ((ds ≠ [] ∧ p = ds ++ u ∧ ns = n * k) ∨ (ds ≠ [] ∧ p = ds ++ b!"." ++ u ∧ ns = n * k) ∨
      ∃ fs m, fs ≠ [] ∧ Decimal fs m ∧ p = ds ++ b!"." ++ fs ++ u ∧ ns = n * k + frac fs k)

/-- What -dndur can be given, without the sign: pieces that add up. -/
def Lasts (frac : Str → Nat → Nat) (t : Str) (n : Nat) : Prop :=
  ∃ ps : List (Str × Nat), ps ≠ [] ∧ t = (ps.map (·.1)).flatten ∧ (∀ p ∈ ps, Piece frac p.1 p.2) ∧ n = (ps.map (·.2)).sum

/-- What -dndur can be given, and what it means in nanoseconds. -/
def Duration (frac : Str → Nat → Nat) (s : Str) (z : Int) : Prop :=
  ∃ sign t, s = sign ++ t ∧ ((t = b!"0" ∧ sign ∈ [b!"", b!"+", b!"-"] ∧ z = 0) ∨ ∃ n, Lasts frac t n ∧ Signed sign n z)

end Sink.Spec
