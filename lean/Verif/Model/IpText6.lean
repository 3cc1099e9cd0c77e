import Verif.Model.IpText
import Verif.Model.HostPort

/-!
# IPv6 addresses as text (Go's package net)

As `Model/IpText.lean`, from memory of package net (`xtoi`, `parseIPv6`, `ParseCIDR`, `IP.String`), for the places where the code calls
`net.ParseIP` and `net.ParseCIDR` (rules.go:202-209, 377-386, rparse.go:191, rdns.go:30, conncfg.go:34-47).  The address is a list of eight groups of 16 bits
where Go has sixteen bytes.

Newer versions of Go (`four`, package net/netip) refuse groups of more than four digits; older ones allow more leading zeros.
-/

namespace Sink

/-- The value of a hexadecimal digit. -/
def hexVal (c : Byte) : Option Nat :=
  if 48 ≤ c ∧ c ≤ 57 then some (c.toNat - 48)
  else if 97 ≤ c ∧ c ≤ 102 then some (c.toNat - 97 + 10)
  else if 65 ≤ c ∧ c ≤ 70 then some (c.toNat - 65 + 10)
  else none

/-- The loop of `xtoi`. -/
def xtoiLoop (n i : Nat) : Str → Nat × Nat × Bool
  | [] => (n, i, true)
  | c :: s => match hexVal c with
    | some v =>
      let n := n * 16 + v
      if n ≥ 0xFFFFFF then (0, i, false) else xtoiLoop n (i + 1) s
    | none => (n, i, true)

/-- `xtoi`. -/
def xtoi (s : Str) : Nat × Nat × Bool :=
  let (n, i, ok) := xtoiLoop 0 0 s
  if ok then (if i = 0 then (0, 0, false) else (n, i, true)) else (n, i, false)

/-- The two groups of an IPv4 address. -/
def quadGroups (x : BitVec 32) : List Nat := [x.toNat / 65536, x.toNat % 65536]

/-- The loop of `parseIPv6`: room for so many groups, the groups so far, the place of the `::`, the rest of the text.  An error is `none`. -/
def v6Loop (strict four : Bool) : Nat → List Nat → Option Nat → Str → Option (List Nat × Option Nat × Str)
  | 0, gs, ell, s => some (gs, ell, s)
  | room + 1, gs, ell, s =>
    let (n, c, ok) := xtoi s
    if ok = false ∨ n > 0xFFFF ∨ (four = true ∧ c > 4) then none
    else if (s.drop c).head? = some c!"." then
      if ell = none ∧ gs.length ≠ 6 then none
      else if gs.length + 2 > 8 then none
      else match parseIPv4 strict s with
        | none => none
        | some x => some (gs ++ quadGroups x, ell, [])
    else
      let gs := gs ++ [n]
      let s := s.drop c
      if s = [] then some (gs, ell, [])
      else if s.head? ≠ some c!":" ∨ s.length = 1 then none
      else
        let s := s.drop 1
        if s.head? = some c!":" then
          if ell ≠ none then none
          else
            let s := s.drop 1
            if s = [] then some (gs, some gs.length, []) else v6Loop strict four room gs (some gs.length) s
        else v6Loop strict four room gs ell s

/-- The end of `parseIPv6`: the `::` is filled with zeros, at least one. -/
def v6Fill : List Nat × Option Nat × Str → Option (List Nat)
  | (gs, ell, rest) =>
    if rest ≠ [] then none
    else if gs.length < 8 then
      match ell with
      | none => none
      | some e => some (gs.take e ++ List.replicate (8 - gs.length) 0 ++ gs.drop e)
    else if ell ≠ none then none
    else some gs

/-- `parseIPv6`: the eight groups. -/
def parseIPv6 (strict four : Bool) (s : Str) : Option (List Nat) :=
  if s.take 2 = b!"::" then
    if s.drop 2 = [] then some (List.replicate 8 0)
    else (v6Loop strict four 8 [] (some 0) (s.drop 2)).bind v6Fill
  else (v6Loop strict four 8 [] none s).bind v6Fill

/-- The address as a number. -/
def groupNum (gs : List Nat) : Nat := gs.foldl (fun n g => n * 65536 + g) 0

/-- `To4`: addresses `::ffff:a.b.c.d` are the IPv4 ones. -/
def toIP (x : BitVec 128) : IP := if x.toNat / 2 ^ 32 = 0xFFFF then .v4 (BitVec.ofNat 32 x.toNat) else .v6 x

/-- `net.ParseIP` of a text with a colon before any dot. -/
def goV6 (strict four : Bool) (s : Str) : Option IP := (parseIPv6 strict four s).map fun gs => toIP (BitVec.ofNat 128 (groupNum gs))

/-- The network of `ParseCIDR` for an IPv6 address, as `networkNumberAndMask` takes it: a block of addresses `::ffff:a.b.c.d` is one of IPv4
addresses. -/
def toNet (x : BitVec 128) (n : Nat) : IPNet :=
  let base := x &&& cidrMask 128 n
  match toIP base with
  | .v4 a => .v4 a (n - 96)
  | .v6 a => .v6 a n

/-- `net.ParseCIDR` for IPv6. -/
def goCidr6 (strict four : Bool) (s : Str) : Option IPNet :=
  match s.findIdx? (· == c!"/") with
  | none => none
  | some i => match parseIPv6 strict four (s.take i) with
    | none => none
    | some gs =>
      let mask := s.drop (i + 1)
      let (n, k, ok) := dtoi mask
      if ok = false ∨ k ≠ mask.length ∨ n > 128 then none else some (toNet (BitVec.ofNat 128 (groupNum gs)) n)

/-- The library with both kinds of addresses. -/
def netLib (strict four : Bool) (lowerU : Str → Str) (h : ∀ s, s ≠ [] → lowerU s ≠ []) : Lib :=
  goLib strict (goV6 strict four) (goCidr6 strict four) lowerU h

/-- A hexadecimal digit. -/
def v6Digit (n : Nat) : Byte := if n < 10 then 48 + UInt8.ofNat n else 87 + UInt8.ofNat n

/-- `appendHex`, with fuel. -/
def hexTextN : Nat → Nat → Str
  | 0, _ => []
  | k + 1, n => if n < 16 then [v6Digit n] else hexTextN k (n / 16) ++ [v6Digit (n % 16)]

/-- `appendHex`. -/
def hexText (n : Nat) : Str := hexTextN (n + 1) n

/-- The number of zero groups at the start. -/
def zeroRun (gs : List Nat) : Nat := (gs.takeWhile (· == 0)).length

/-- The first longest run of zero groups, from place `i` on: where it begins and its length; `(e, n)` is the best so far. -/
def longestRun : Nat → Nat → Nat × Nat → List Nat → Nat × Nat
  | 0, _, b, _ => b
  | _ + 1, _, b, [] => b
  | k + 1, i, b, g :: gs =>
    let n := zeroRun (g :: gs)
    if n > b.2 then longestRun k (i + n + 1) (i, n) ((g :: gs).drop (n + 1)) else longestRun k (i + 1) b gs

/-- Groups with colons between them. -/
def colons : List Nat → Str
  | [] => []
  | [g] => hexText g
  | g :: gs => hexText g ++ b!":" ++ colons gs

/-- `IP.String` for IPv6: the first longest run of at least two zero groups is written `::`. -/
def ipv6Text (gs : List Nat) : Str :=
  let r := longestRun 8 0 (0, 0) gs
  if r.2 < 2 then colons gs
  else colons (gs.take r.1) ++ b!"::" ++ colons (gs.drop (r.1 + r.2))

/-- The eight groups of an address. -/
def groupsOf (x : Nat) : List Nat :=
  [x / 2 ^ 112, x / 2 ^ 96 % 65536, x / 2 ^ 80 % 65536, x / 2 ^ 64 % 65536, x / 2 ^ 48 % 65536, x / 2 ^ 32 % 65536, x / 2 ^ 16 % 65536, x % 65536]

/-- `IP.String`. -/
def ipText : IP → Str
  | .v4 y => ipv4Text (y.toNat / 2 ^ 24) (y.toNat / 2 ^ 16 % 256) (y.toNat / 2 ^ 8 % 256) (y.toNat % 256)
  | .v6 x => ipv6Text (groupsOf x.toNat)

end Sink
