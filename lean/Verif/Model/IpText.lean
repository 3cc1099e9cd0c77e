import Verif.Model.Net

/-!
# IP addresses as text (Go's package net)

The code calls `net.ParseIP` and `net.ParseCIDR` (rules.go:202-209, 377-386, rparse.go:191, rdns.go:30, conncfg.go:34-47,
mxresolve.go:67-71).  Elsewhere in the model these are arbitrary functions (`Lib`).  Here is what they do with IPv4 addresses,
written from memory of package net (its source was not at hand); `goLib` is a `Lib` with these functions.

Go 1.17 began to refuse leading zeros in addresses (`strict`).  IPv6 addresses stay arbitrary, except that the text of one
has a colon.
-/

namespace Sink

/-- The loop of `dtoi`: the number, the number of digits, and whether it is below `big` = 0xFFFFFF. -/
def dtoiLoop (n i : Nat) : Str → Nat × Nat × Bool
  | [] => (n, i, true)
  | c :: s =>
    if 48 ≤ c ∧ c ≤ 57 then
      let n := n * 10 + (c.toNat - 48)
      if n ≥ 0xFFFFFF then (0xFFFFFF, i, false) else dtoiLoop n (i + 1) s
    else (n, i, true)

/-- `dtoi`. -/
def dtoi (s : Str) : Nat × Nat × Bool :=
  let (n, i, ok) := dtoiLoop 0 0 s
  if ok then (if i = 0 then (0, 0, false) else (n, i, true)) else (n, i, false)

/-- One number of `parseIPv4`, without the dot before it. -/
def parseOctet (strict : Bool) (s : Str) : Option (Nat × Str) :=
  let (n, c, ok) := dtoi s
  if ok = false ∨ n > 0xFF then none
  else if strict = true ∧ c > 1 ∧ s.head? = some c!"0" then none
  else some (n, s.drop c)

/-- One number of `parseIPv4`, with the dot before it. -/
def dotOctet (strict : Bool) : Str → Option (Nat × Str)
  | [] => none
  | c :: s => if c ≠ c!"." then none else parseOctet strict s

/-- `net.IPv4`. -/
def ipv4 (a b c d : Nat) : BitVec 32 := BitVec.ofNat 32 (((a * 256 + b) * 256 + c) * 256 + d)

/-- `parseIPv4`. -/
def parseIPv4 (strict : Bool) (s : Str) : Option (BitVec 32) :=
  if s = [] then none
  else match parseOctet strict s with
    | none => none
    | some (a, s) => match dotOctet strict s with
      | none => none
      | some (b, s) => match dotOctet strict s with
        | none => none
        | some (c, s) => match dotOctet strict s with
          | none => none
          | some (d, s) => if s ≠ [] then none else some (ipv4 a b c d)

/-- `net.ParseIP`: the first dot or colon says which kind of address it is. -/
def goParseIP (strict : Bool) (v6 : Str → Option IP) (s : Str) : Option IP :=
  match s.find? (fun c => c = c!"." ∨ c = c!":") with
  | none => none
  | some c => if c = c!"." then (parseIPv4 strict s).map .v4 else v6 s

/-- `net.ParseCIDR`. -/
def goParseCIDR (strict : Bool) (cidr6 : Str → Option IPNet) (s : Str) : Option IPNet :=
  match s.findIdx? (· == c!"/") with
  | none => none
  | some i => match parseIPv4 strict (s.take i) with
    | some ip =>
      let mask := s.drop (i + 1)
      let (n, k, ok) := dtoi mask
      if ok = false ∨ k ≠ mask.length ∨ n > 32 then none else some (.v4 (ip &&& cidrMask 32 n) n)
    | none => if c!":" ∈ s.take i then cidr6 s else none

/-- The library with these functions. -/
def goLib (strict : Bool) (v6 : Str → Option IP) (cidr6 : Str → Option IPNet) (lowerU : Str → Str)
    (h : ∀ s, s ≠ [] → lowerU s ≠ []) : Lib :=
  ⟨goParseIP strict v6, goParseCIDR strict cidr6, lowerU, h⟩

end Sink
