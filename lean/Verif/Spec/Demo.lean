import Verif.Model.Net

/-!
# A concrete library for examples

IPv4 dotted quads and CIDRs only.  Used in `example`s to show that hypotheses can be met; no theorem depends on it.
-/

namespace Sink

/-- A decimal number below `lim`. -/
def demoNum (lim : Nat) (s : Str) : Option Nat :=
  if s.isEmpty ∨ s.length > 3 then none
  else (s.foldl (fun acc c => acc.bind fun n => if 48 ≤ c ∧ c ≤ 57 then some (10 * n + (c.toNat - 48)) else none) (some 0)).bind
    fun n => if n < lim then some n else none

/-- Dotted quads. -/
def demoIP (s : Str) : Option IP :=
  match (splitOn c!"." s).map (demoNum 256) with
  | [some a, some b, some c, some d] => some (.v4 (BitVec.ofNat 32 (((a * 256 + b) * 256 + c) * 256 + d)))
  | _ => none

/-- Dotted quad slash length. -/
def demoCIDR (s : Str) : Option IPNet :=
  match splitOn c!"/" s with
  | [a, n] => match demoIP a, demoNum 33 n with
    | some (.v4 b), some n => some (.v4 (b &&& cidrMask 32 n) n)
    | _, _ => none
  | _ => none

def demoLib : Lib := ⟨demoIP, demoCIDR, id, fun _ h => h⟩

example : demoLib.parseIP b!"10.0.0.255" = some (.v4 0x0a0000ff#32) := by decide +kernel
example : demoLib.parseIP b!"10.0.0.256" = none := by decide +kernel
example : demoLib.parseCIDR b!"10.1.2.3/8" = some (.v4 0x0a000000#32 8) := by decide +kernel

end Sink
