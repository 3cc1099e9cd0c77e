import Verif.Model.Session
import Verif.Spec.Match

/-!
# What a connection parameter file says (doc.go, CONNECTION PARAMETERS)
-/

namespace Sink.Spec

/-- The words of a line: separated by white space, without white space themselves. -/
inductive Words : Str → List Str → Prop
  | nil : Words [] []
  | space {q s ws} : q ∈ spaceSeqs → Words s ws → Words (q ++ s) ws
  | word {w s ws} : w ≠ [] → (∀ q ∈ spaceSeqs, ¬ q <:+: w) → (s = [] ∨ ∃ q ∈ spaceSeqs, q <+: s) → Words s ws → Words (w ++ s) (w :: ws)

/-- `key=value`. -/
def Gives (s key v : Str) : Prop := s = key ++ b!"=" ++ v

/-- A setting there is. -/
def Known (s : Str) : Prop := ∃ v, Gives s b!"hostname" v ∨ Gives s b!"cert" v ∨ Gives s b!"key" v

/-- The value of a key: the last one given, or empty. -/
def Value (settings : List Str) (key v : Str) : Prop :=
  (∃ l s r, settings = l ++ s :: r ∧ Gives s key v ∧ ∀ x ∈ r, ∀ v', ¬ Gives x key v') ∨
  (v = [] ∧ ∀ x ∈ settings, ∀ v', ¬ Gives x key v')

/-- A list written with commas. -/
def Commas (s : Str) (l : List Str) : Prop := l ≠ [] ∧ s = join b!"," l ∧ ∀ x ∈ l, c!"," ∉ x

/-- The certificates for a list of certificate files and a list of key files: none without either; otherwise the two lists
have the same length and every pair can be loaded. -/
def Certs (P : PairOracle) (cert key : Str) (certs : List TlsCert) : Prop :=
  (cert = [] ∧ key = [] ∧ certs = []) ∨
  (cert ≠ [] ∧ key ≠ [] ∧ Commas cert (certs.map TlsCert.cert) ∧ Commas key (certs.map TlsCert.key) ∧ ∀ x ∈ certs, P x.cert x.key = none)

/-- A line that says nothing: blank, or a comment. -/
def Silent (l : Str) : Prop := Words l [] ∨ ∃ w ws, Words l (w :: ws) ∧ w.head? = some c!"#"

/-- A line with settings. -/
def Says (P : PairOracle) (l : Str) (d : PerDest) : Prop :=
  ∃ settings cert key, Words l (d.local_ :: settings) ∧ d.local_.head? ≠ some c!"#" ∧ settings.length ≤ 3 ∧
    (∀ s ∈ settings, Known s) ∧ Value settings b!"hostname" d.myname ∧ Value settings b!"cert" cert ∧ Value settings b!"key" key ∧
    Certs P cert key d.certs

/-- What a file of these lines says, in order. -/
inductive ConnFile (P : PairOracle) : List Str → List PerDest → Prop
  | nil : ConnFile P [] []
  | silent {l ls ds} : Silent l → ConnFile P ls ds → ConnFile P (l :: ls) ds
  | says {l d ls ds} : Says P l d → ConnFile P ls ds → ConnFile P (l :: ls) (d :: ds)

/-- The connection to local address `laddr` (`IP:PORT`), with local IP `ip`, is one `LOCAL` speaks of. -/
def Covers (L : Lib) (laddr : Str) (ip : IP) (d : PerDest) : Prop :=
  d.local_ = b!"*" ∨ d.local_ = laddr ∨ IpMatch L ip d.local_

/-- The first that does. -/
def First (L : Lib) (laddr : Str) (ip : IP) (ds : List PerDest) (d : PerDest) : Prop :=
  ∃ l r, ds = l ++ d :: r ∧ Covers L laddr ip d ∧ ∀ x ∈ l, ¬ Covers L laddr ip x

/-- A host name as DNS gives it, without its final dot. -/
def Undotted (n m : Str) : Prop := n = m ++ b!"." ∨ (n = m ∧ ¬ ∃ x, n = x ++ b!".")

/-- What the server calls itself where no file says so: `-helo`, or the first name of the local address, or the local address.  The
number is the time (of the connection's clock) after that. -/
inductive OwnName (cf : Conf) (E : Env) : Str → Nat → Prop
  | option : cf.srvname ≠ [] → OwnName cf E cf.srvname 0
  | name {n r m} : cf.srvname = [] → E.W.lookupAddr 0 E.lip = .ok (n :: r) → Undotted n m → OwnName cf E m 1
  | addr : cf.srvname = [] → (∀ n r, E.W.lookupAddr 0 E.lip ≠ .ok (n :: r)) → OwnName cf E E.laddr 1

/-- A connection parameter file that can be read and says `ds`. -/
def GoodFile (P : PairOracle) (f : FileRead) (ds : List PerDest) : Prop :=
  ∃ b lines rest, f = .data b ∧ Text b lines rest ∧ ConnFile P lines ds

/-- The name and the certificates for a connection to the local address with IP `ip`. -/
inductive Settings (cf : Conf) (E : Env) (ip : IP) : Str → List TlsCert → Prop
  | none {n t} : cf.connfile = [] → OwnName cf E n t → Settings cf E ip n cf.certs
  | broken {n t} : cf.connfile ≠ [] → OwnName cf E n t → (¬ ∃ ds, GoodFile E.pairs (E.W.files t cf.connfile) ds) →
      Settings cf E ip n cf.certs
  | silent {n t ds} : cf.connfile ≠ [] → OwnName cf E n t → GoodFile E.pairs (E.W.files t cf.connfile) ds →
      (∀ d ∈ ds, ¬ Covers E.W.lib E.laddr ip d) → Settings cf E ip n cf.certs
  | line {n t ds d} : cf.connfile ≠ [] → OwnName cf E n t → GoodFile E.pairs (E.W.files t cf.connfile) ds →
      First E.W.lib E.laddr ip ds d → Settings cf E ip (if d.myname = [] then n else d.myname) d.certs

end Sink.Spec
