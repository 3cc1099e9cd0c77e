import Verif.Model.World
import Verif.Spec.Match

/-!
# Deliverability of mail domains and reverse DNS, as documented (mxresolve.go:73-115, rdns.go:11-19)
-/

namespace Sink.Spec

/-- Address blocks to which no mail can be delivered: unspecified, limited broadcast, loopback, multicast, link-local,
and private space. -/
def nonPublicNets : List IPNet := [
  .v4 0x00000000#32 32, .v4 0xffffffff#32 32, .v4 0x7f000000#32 8, .v4 0xe0000000#32 4, .v4 0xa9fe0000#32 16,
  .v4 0x0a000000#32 8, .v4 0xac100000#32 12, .v4 0xc0a80000#32 16,
  .v6 0#128 128, .v6 1#128 128, .v6 0xff000000000000000000000000000000#128 8,
  .v6 0xfe800000000000000000000000000000#128 10, .v6 0xfc000000000000000000000000000000#128 7,
  .v6 0xfec00000000000000000000000000000#128 10]

def Public (ip : IP) : Prop := ∀ net ∈ nonPublicNets, ¬ InBlock net ip

/-- A temporary DNS error. -/
def Temporary (e : DnsErr) : Prop := e.isDNSError = true ∧ (e.temporary = true ∨ e.err = b!"server misbehaving")

/-- The host has addresses and all are public. -/
def Deliverable (W : World) (host : Str) : Prop :=
  ∃ ips, W.lookupIP 0 host = .ok ips ∧ ips ≠ [] ∧ ∀ ip ∈ ips, Public ip

/-- Looking up the host fails temporarily. -/
def HostUnknown (W : World) (host : Str) : Prop := ∃ e, W.lookupIP 0 host = .error e ∧ Temporary e

/-- An MX entry by which a domain says it takes no mail. -/
def Bogus (L : Lib) (m : MX) : Prop := m.host = b!"." ∨ L.lower m.host = b!"." ∨ L.lower m.host = b!"localhost."

/-- The domain takes mail. -/
def DomainValid (W : World) (d : Str) : Prop :=
  (∃ mxs, W.lookupMX 0 (d ++ b!".") = .ok mxs ∧ (∀ m ∈ mxs, ¬ Bogus W.lib m) ∧ ∃ m ∈ mxs, Deliverable W m.host) ∨
  (∃ e, W.lookupMX 0 (d ++ b!".") = .error e ∧ ¬ Temporary e ∧ Deliverable W (d ++ b!"."))

/-- Whether the domain takes mail cannot be determined now. -/
def DomainUnknown (W : World) (d : Str) : Prop :=
  (∃ e, W.lookupMX 0 (d ++ b!".") = .error e ∧ Temporary e) ∨
  (∃ mxs, W.lookupMX 0 (d ++ b!".") = .ok mxs ∧ (∀ m ∈ mxs, ¬ Bogus W.lib m) ∧
    (∀ m ∈ mxs, ¬ Deliverable W m.host) ∧ ∃ m ∈ mxs, HostUnknown W m.host) ∨
  (∃ e, W.lookupMX 0 (d ++ b!".") = .error e ∧ ¬ Temporary e ∧ HostUnknown W (d ++ b!"."))

/-- The MX lookup answers, without a single entry (the code assumes this does not happen, mxresolve.go:132-133). -/
def NoMX (W : World) (d : Str) : Prop := W.lookupMX 0 (d ++ b!".") = .ok []

/-- The domain does not take mail. -/
def DomainBad (W : World) (d : Str) : Prop := ¬ DomainValid W d ∧ ¬ DomainUnknown W d ∧ ¬ NoMX W d

/-- The forward lookup of a reverse DNS name contains the client address. -/
def FwdOK (W : World) (ip name : Str) : Prop := ∃ as, W.lookupIP 0 name = .ok as ∧ ∃ a ∈ as, W.lib.parseIP ip = some a
/-- The forward lookup fails. -/
def FwdFails (W : World) (name : Str) : Prop := ∃ e, W.lookupIP 0 name = .error e
/-- The forward lookup answers without the client address. -/
def FwdOther (W : World) (ip name : Str) : Prop :=
  ∃ as, W.lookupIP 0 name = .ok as ∧ ∀ a ∈ as, W.lib.parseIP ip ≠ some a

end Sink.Spec
