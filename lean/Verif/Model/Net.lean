import Verif.Model.Bytes

/-!
# IP addresses and the library functions kept abstract

`net.IP` values are modelled up to `IP.Equal`/`To4`: an IPv4-mapped IPv6 address is the IPv4 address.  Text parsing is the
Go library's and stays an oracle (`Lib`).
-/

namespace Sink

/-- `net.IP` after `To4` normalisation (package net, not in the repo; used in rules.go:377-386, mxresolve.go:77-100). -/
inductive IP
  | v4 (a : BitVec 32)
  | v6 (a : BitVec 128)
  deriving DecidableEq, Repr

/-- `*net.IPNet`: base address and prefix length, with the family `networkNumberAndMask` uses. -/
inductive IPNet
  | v4 (base : BitVec 32) (ones : Nat)
  | v6 (base : BitVec 128) (ones : Nat)
  deriving DecidableEq, Repr

/-- `net.CIDRMask(ones, w)`. -/
def cidrMask (w ones : Nat) : BitVec w := BitVec.allOnes w <<< (w - ones)

/-- `(*net.IPNet).Contains`: same family and equal masked bytes. -/
def IPNet.contains : IPNet → IP → Bool
  | .v4 b n, .v4 a => (b &&& cidrMask 32 n) == (a &&& cidrMask 32 n)
  | .v6 b n, .v6 a => (b &&& cidrMask 128 n) == (a &&& cidrMask 128 n)
  | _, _ => false

/-- Pure library functions that are not modelled but arbitrary parameters:
`net.ParseIP` (`none` is nil), `net.ParseCIDR` (`none` is an error), `strings.ToLower` on strings with non-ASCII bytes. -/
structure Lib where
  parseIP : Str → Option IP
  parseCIDR : Str → Option IPNet
  lowerU : Str → Str
  /-- Go maps each rune to one rune, so a non-empty string stays non-empty. -/
  lowerU_ne : ∀ s, s ≠ [] → lowerU s ≠ []

/-- `strings.ToLower`. -/
def Lib.lower (L : Lib) (s : Str) : Str := toLower L.lowerU s

end Sink
