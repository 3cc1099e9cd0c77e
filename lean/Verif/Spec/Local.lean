import Verif.Spec.Conncfg
import Verif.Spec.IpText6
import Verif.Spec.HostPort

/-!
# What LOCAL says in a connection parameter file (doc.go, CONNECTION PARAMETERS)
-/

namespace Sink.Spec

/-- The text is an address. -/
def AddrText (strict four : Bool) (s : Str) : Prop := (∃ a b c d, Dotted strict s a b c d) ∨ ∃ gs, V6Text strict four s gs

/-- The text is this address, in any spelling. -/
def NamesIP (strict four : Bool) (s : Str) (ip : IP) : Prop :=
  (∃ a b c d, Dotted strict s a b c d ∧ ipNum ip = mapped (addrNum a b c d)) ∨ ∃ gs, V6Text strict four s gs ∧ ipNum ip = hextets gs

/-- The text is this address and this port, in any spelling: brackets go around addresses with colons and may go around others. -/
def WritesPort (strict four : Bool) (s : Str) (ip : IP) (port : Nat) : Prop :=
  ∃ h p, HostPort s h p ∧ NamesIP strict four h ip ∧ Digits p ∧ numeral p = port

/-- LOCAL speaks of connections to `port` of `ip`: it is `*`, or the address and the port as Go writes them, or the address or a block with it
in any spelling. -/
def SpeaksOf (strict four : Bool) (pat : Str) (ip : IP) (port : Nat) : Prop :=
  pat = b!"*" ∨ pat = tcpText (ipText ip) [] port ∨ CoversIP strict four pat ip

/-- The name and the certificates of a connection, if `M` says of what LOCAL the line must be. -/
inductive SettingsBy (cf : Conf) (E : Env) (M : Str → Prop) : Str → List TlsCert → Prop
  | none {n t} : cf.connfile = [] → OwnName cf E n t → SettingsBy cf E M n cf.certs
  | broken {n t} : cf.connfile ≠ [] → OwnName cf E n t → (¬ ∃ ds, GoodFile E.pairs (E.W.files t cf.connfile) ds) → SettingsBy cf E M n cf.certs
  | silent {n t ds} : cf.connfile ≠ [] → OwnName cf E n t → GoodFile E.pairs (E.W.files t cf.connfile) ds → (∀ d ∈ ds, ¬ M d.local_) →
      SettingsBy cf E M n cf.certs
  | line {n t l d r} : cf.connfile ≠ [] → OwnName cf E n t → GoodFile E.pairs (E.W.files t cf.connfile) (l ++ d :: r) → M d.local_ →
      (∀ x ∈ l, ¬ M x.local_) → SettingsBy cf E M (if d.myname = [] then n else d.myname) d.certs

end Sink.Spec
