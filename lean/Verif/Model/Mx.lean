import Verif.Model.World

/-!
# Mail domain validity (mxresolve.go) and verified reverse DNS (rdns.go)
-/

namespace Sink

/-- `dnsResult`, mxresolve.go:18-26. -/
inductive DnsRes
  | undef | bad | tempfail | good
  deriving DecidableEq, Repr

/-- The integer value of a `dnsResult`. -/
def DnsRes.num : DnsRes → Nat
  | .undef => 0 | .bad => 1 | .tempfail => 2 | .good => 3

/-- `isTemporary`, mxresolve.go:56-63; `serverrstr` is at mxresolve.go:50. -/
def isTemporary (e : DnsErr) : Bool :=
  if e.isDNSError then e.temporary || e.err == b!"server misbehaving" else false

/-- `net.IP.IsUnspecified`. -/
def IP.isUnspecified : IP → Bool
  | .v4 a => a == 0#32
  | .v6 a => a == 0#128
/-- `net.IP.IsLoopback`. -/
def IP.isLoopback : IP → Bool
  | .v4 a => a >>> 24 == 127#32
  | .v6 a => a == 1#128
/-- `net.IP.IsMulticast`. -/
def IP.isMulticast : IP → Bool
  | .v4 a => (a >>> 24) &&& 0xf0#32 == 0xe0#32
  | .v6 a => a >>> 120 == 0xff#128
/-- `net.IP.IsLinkLocalUnicast`. -/
def IP.isLinkLocalUnicast : IP → Bool
  | .v4 a => a >>> 16 == 0xa9fe#32
  | .v6 a => a >>> 120 == 0xfe#128 && (a >>> 112) &&& 0xc0#128 == 0x80#128
/-- `net.IP.IsGlobalUnicast`. -/
def IP.isGlobalUnicast (i : IP) : Bool :=
  i != .v4 0xffffffff#32 && !i.isUnspecified && !i.isLoopback && !i.isMulticast && !i.isLinkLocalUnicast

/-- mxresolve.go:67-71. -/
def net10 : IPNet := .v4 0x0a000000#32 8
def net172 : IPNet := .v4 0xac100000#32 12
def net192 : IPNet := .v4 0xc0a80000#32 16
def ipv6private : IPNet := .v6 0xfc000000000000000000000000000000#128 7
def ipv6siteloc : IPNet := .v6 0xfec00000000000000000000000000000#128 10

/-- The loop of `checkIP`, mxresolve.go:90-99. -/
def checkAddrs (W : World) (domain : Str) : List IP → DnsRes × Option Str
  | [] => (.good, none)
  | i :: is =>
    if !i.isGlobalUnicast then
      (.bad, some (b!"host " ++ domain ++ b!" IP " ++ W.ipStr i ++ b!" not global unicast"))
    else if net10.contains i || net172.contains i || net192.contains i || ipv6private.contains i || ipv6siteloc.contains i then
      (.bad, some (b!"host " ++ domain ++ b!" IP " ++ W.ipStr i ++ b!" is in bad address space"))
    else checkAddrs W domain is

/-- `checkIP`, mxresolve.go:77-100. -/
def checkIP (W : World) (domain : Str) (t : Trace) : (DnsRes × Option Str) × Trace :=
  let t' := .lookupIP domain :: t
  match W.lookupIP t.length domain with
  | .error e => if isTemporary e then ((.tempfail, some e.text), t') else ((.bad, some e.text), t')
  | .ok [] => ((.bad, some (domain ++ b!": no IPs")), t')
  | .ok addrs => (checkAddrs W domain addrs, t')

/-- The loop over the MX entries, mxresolve.go:134-165. -/
def mxLoop (W : World) (domain : Str) : List MX → DnsRes × Option Str → Trace → (DnsRes × Option Str) × Trace
  | [], best, t => (best, t)
  | m :: ms, best, t =>
    if m.host = b!"." ∧ m.pref = 0 then ((.bad, some (domain ++ b!": RFC 7505 null MX")), t)
    else if W.lib.lower m.host = b!"." ∨ W.lib.lower m.host = b!"localhost." then
      ((.bad, some (b!"rejecting bogus MX " ++ decDigits m.pref ++ b!" " ++ m.host)), t)
    else
      let (v, t) := checkIP W m.host t
      mxLoop W domain ms (if v.1.num > best.1.num then v else best) t

/-- `ValidDomain`, mxresolve.go:116-166. -/
def validDomain (W : World) (domain : Str) (t : Trace) : (DnsRes × Option Str) × Trace :=
  let t' := .lookupMX (domain ++ b!".") :: t
  match W.lookupMX t.length (domain ++ b!".") with
  | .error e =>
    if isTemporary e then ((.tempfail, some (b!"MX tempfail: " ++ e.text)), t')
    else checkIP W (domain ++ b!".") t'
  | .ok mxs => mxLoop W domain mxs (.undef, none) t'

/-- `rDNSResults`, rdns.go:11-15. -/
structure RDNS where
  verified : List Str := []
  nofwd : List Str := []
  inconsist : List Str := []
  deriving DecidableEq, Repr

/-- The loop of `LookupAddrVerified`, rdns.go:31-48.  `addr.Equal(nil)` is false for every address. -/
def rdnsLoop (W : World) (eip : Option IP) : List Str → RDNS → Trace → RDNS × Trace
  | [], r, t => (r, t)
  | name :: names, r, t =>
    let t' := .lookupIP name :: t
    match W.lookupIP t.length name with
    | .error _ => rdnsLoop W eip names { r with nofwd := r.nofwd ++ [name] } t'
    | .ok addrs =>
      if addrs.any (fun a => some a == eip) then
        rdnsLoop W eip names { r with verified := r.verified ++ [name] } t'
      else rdnsLoop W eip names { r with inconsist := r.inconsist ++ [name] } t'

/-- `LookupAddrVerified`, rdns.go:20-50; the error result is ignored by its only caller (sinksmtp.go:1024). -/
def lookupAddrVerified (W : World) (ip : Str) (t : Trace) : RDNS × Trace :=
  if ip = [] then ({}, t)
  else
    let t' := .lookupAddr ip :: t
    match W.lookupAddr t.length ip with
    | .error _ => ({}, t')
    | .ok names => rdnsLoop W (W.lib.parseIP ip) (sortStrs names) {} t'

end Sink
