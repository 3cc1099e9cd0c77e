import Verif.Model.Eval
import Verif.Spec.Match
import Verif.Spec.Mx

/-!
# What rules mean in a world that does not change (doc.go)

A declarative semantics of match expressions, clauses, rules and phases.  It mentions no caches, no evaluation order
except where the manual does (a rule that consults an empty pattern file is skipped), and no context mutation.
-/

namespace Sink.Spec

/-- What the client has said so far. -/
structure Mail where
  isHelo : Bool
  heloname : Str
  from_ : Str
  rcptto : Str

/-! ## Pattern arguments -/

/-- The file an argument names, if it names one. -/
def argFile (a : Str) : Option Str :=
  if b!"/" <+: a ∨ b!"./" <+: a then some a else if b!"file:" <+: a then some (a.drop 5) else none

/-- The entries of a file (see C16 for what they are); a file that cannot be read has none. -/
def fileEntries (W : World) (f : Str) : List Str :=
  if f = [] then [] else match W.files 0 f with
    | .data b => readList W.lib b
    | _ => []

/-- The patterns an argument stands for. -/
def patterns (W : World) (a : Str) : List Str :=
  match argFile a with
  | some f => fileEntries W f
  | none => [W.lib.lower a]

/-! ## Attributes -/

/-- The attribute words of `helo-has`, `dns`, `from-has` and `to-has`. -/
inductive Attr
  | helo | ehlo | none | bogus | nodots | bareip | properip | myip | remip | otherip
  | nodns | inconsist | nofwd | good | exists_
  | unqualified | route | quoted | noat | garbage | resolves | baddom | unknown
  deriving DecidableEq, Repr

def Attr.all : List Attr := [.helo, .ehlo, .none, .bogus, .nodots, .bareip, .properip, .myip, .remip, .otherip,
  .nodns, .inconsist, .nofwd, .good, .exists_, .unqualified, .route, .quoted, .noat, .garbage, .resolves, .baddom, .unknown]

/-- The bit standing for a word in an option set. -/
def Attr.bit : Attr → Opts
  | .helo => oHelo | .ehlo => oEhlo | .none => oNone | .bogus => oBogus | .nodots => oNodots | .bareip => oBareip
  | .properip => oProperip | .myip => oMyip | .remip => oRemip | .otherip => oOtherip
  | .nodns => oNodns | .inconsist => oInconsist | .nofwd => oNofwd | .good => oGood | .exists_ => oExists
  | .unqualified => oUnqualified | .route => oRoute | .quoted => oQuoted | .noat => oNoat | .garbage => oGarbage
  | .resolves => oDomainValid | .baddom => oDomainInvalid | .unknown => oDomainTempfail

/-- The name is an address in brackets. -/
def Bracketed (L : Lib) (hn t : Str) : Prop := hn = b!"[" ++ t ++ b!"]" ∧ t ≠ [] ∧ (L.parseIP t).isSome = true

/-- The address text in a HELO name: inside the brackets, or the name itself, or nothing. -/
def HeloIP (L : Lib) (hn t : Str) : Prop :=
  Bracketed L hn t ∨ ((∀ u, ¬ Bracketed L hn u) ∧ (L.parseIP hn).isSome = true ∧ t = hn) ∨
    ((∀ u, ¬ Bracketed L hn u) ∧ (L.parseIP hn).isSome = false ∧ t = [])

/-- Attributes of the HELO name. -/
def HeloAttr (L : Lib) (tr : TransR) (m : Mail) : Attr → Prop
  | .helo => m.isHelo = true
  | .ehlo => m.isHelo = false
  | .none => m.heloname = []
  | .bogus => m.heloname = b!"."
  | .nodots => m.heloname = b!"." ∨ (c!"." ∉ m.heloname ∧ c!":" ∉ m.heloname)
  | .bareip => m.heloname ≠ [] ∧ m.heloname ≠ b!"." ∧ (L.parseIP m.heloname).isSome = true
  | .properip => ∃ t, Bracketed L m.heloname t
  | .remip => m.heloname ≠ [] ∧ m.heloname ≠ b!"." ∧ HeloIP L m.heloname tr.rip
  | .myip => m.heloname ≠ [] ∧ m.heloname ≠ b!"." ∧ HeloIP L m.heloname tr.lip ∧ ¬ HeloIP L m.heloname tr.rip
  | .otherip => m.heloname ≠ [] ∧ m.heloname ≠ b!"." ∧ ∃ t, t ≠ [] ∧ HeloIP L m.heloname t ∧ t ≠ tr.lip ∧ t ≠ tr.rip
  | _ => False

/-- Attributes of the reverse DNS names. -/
def DnsAttr (tr : TransR) : Attr → Prop
  | .nodns => tr.rdns.verified = []
  | .exists_ => tr.rdns.verified ≠ []
  | .nofwd => tr.rdns.nofwd ≠ []
  | .inconsist => tr.rdns.inconsist ≠ []
  | .good => tr.rdns.verified ≠ [] ∧ tr.rdns.nofwd = [] ∧ tr.rdns.inconsist = []
  | _ => False

def IsNoat (a : Str) : Prop := a ≠ [] ∧ c!"@" ∉ a
def IsRoute (a : Str) : Prop := ∃ r, a = c!"@" :: r ∧ c!"@" ∈ r
def IsUnqualified (a : Str) : Prop := ∃ l d, a = l ++ c!"@" :: d ∧ c!"@" ∉ l ∧ c!"." ∉ d
def IsQuoted (a : Str) : Prop := c!"\"" ∈ a.dropLast
def IsGarbage (a : Str) : Prop :=
  (∃ r, a = c!"@" :: r ∧ c!"@" ∉ r) ∨ (∃ l, a = l ++ b!"@" ∧ c!"@" ∉ l) ∨ a.head? = some c!"<" ∨
    (∃ c, a.getLast? = some c ∧ c ∈ b!">\"].") ∨ b!".." <:+: a ∨ b!"@@" <:+: a

/-- The domain of an address that is none of the malformed kinds. -/
def HasDomain (a d : Str) : Prop :=
  (∃ l, a = l ++ c!"@" :: d ∧ c!"@" ∉ l) ∧ ¬ IsUnqualified a ∧ ¬ IsGarbage a ∧ ¬ IsRoute a

/-- Attributes of an address. -/
def AddrAttr (W : World) (a : Str) : Attr → Prop
  | .noat => IsNoat a
  | .route => IsRoute a
  | .unqualified => IsUnqualified a
  | .quoted => IsQuoted a
  | .garbage => IsGarbage a
  | .resolves => ∃ d, HasDomain a d ∧ DomainValid W d
  | .baddom => ∃ d, HasDomain a d ∧ DomainBad W d
  | .unknown => ∃ d, HasDomain a d ∧ DomainUnknown W d
  | _ => False

def HasAttr (W : World) (tr : TransR) (m : Mail) : OKind → Attr → Prop
  | .dns => DnsAttr tr
  | .heloHas => HeloAttr W.lib tr m
  | .fromHas => AddrAttr W m.from_
  | .toHas => AddrAttr W m.rcptto

/-! ## Match operators -/

/-- The client text matches an `ip` pattern.  (The second case is a flaw of the code, see C14.) -/
def IpTextMatch (L : Lib) (n p : Str) : Prop :=
  (∃ ip, L.parseIP n = some ip ∧ IpMatch L ip p) ∨ (L.parseIP n = none ∧ L.parseIP p = none)

/-- What each operator compares with its patterns. -/
def subjects (tr : TransR) (m : Mail) : MKind → List Str
  | .helo => [m.heloname]
  | .host => tr.rdns.verified
  | .from_ => [m.from_]
  | .to => [m.rcptto]
  | .ip => [tr.rip]
  | .sourceFrom => [m.from_]

/-- How it compares. -/
def PatMatch (L : Lib) : MKind → Str → Str → Prop
  | .helo, n, p | .host, n, p => HostMatch (L.lower n) p
  | .from_, n, p | .to, n, p => AddrMatch (L.lower n) p
  | .ip, n, p => IpTextMatch L n p
  | .sourceFrom, n, p => AddrMatch (L.lower n) (b!"@" ++ p)

/-- Some subject matches some pattern. -/
def MatchHolds (W : World) (tr : TransR) (m : Mail) (k : MKind) (arg : Str) : Prop :=
  ∃ p ∈ patterns W arg, ∃ n ∈ subjects tr m k, PatMatch W.lib k n p

/-- A name is listed: it has an address. -/
def Listed (W : World) (n : Str) : Prop := ∃ ips, W.lookupIP 0 n = .ok ips ∧ ips ≠ []

/-- The client's IPv4 address, reversed, is listed in the blocklist. -/
def DnsblHolds (W : World) (tr : TransR) (d : Str) : Prop :=
  ∃ s0 s1 s2 s3, tr.rip = s0 ++ b!"." ++ s1 ++ b!"." ++ s2 ++ b!"." ++ s3 ∧
    (∀ s ∈ [s0, s1, s2, s3], c!"." ∉ s) ∧ Listed W (s3 ++ b!"." ++ s2 ++ b!"." ++ s1 ++ b!"." ++ s0 ++ b!"." ++ d)

/-- The names a `dbl` looks at, by source. -/
inductive DblName (W : World) (tr : TransR) (m : Mail) (src : Opts) : Str → Prop
  | helo : src &&& (oEhlo ||| oHelo) ≠ 0 → m.heloname ≠ [] → DblName W tr m src m.heloname
  | host {s} : src &&& oHost = oHost → s ∈ tr.rdns.verified ++ tr.rdns.nofwd ++ tr.rdns.inconsist →
      DblName W tr m src s.dropLast
  | from_ {d} : src &&& oFrom = oFrom → HasDomain m.from_ d → ¬ NoMX W d → DblName W tr m src d

def DblHolds (W : World) (tr : TransR) (m : Mail) (src : Opts) (d : Str) : Prop :=
  ∃ n, DblName W tr m src n ∧ Listed W (n ++ b!"." ++ d)

/-! ## Expressions -/

mutual
/-- The expression is true. -/
def Holds (W : World) (tr : TransR) (m : Mail) : Expr → Prop
  | .andL ns => HoldsAll W tr m ns
  | .notN e => ¬ Holds W tr m e
  | .orN l r => Holds W tr m l ∨ Holds W tr m r
  | .all => True
  | .tls on => tr.tlson = on
  | .dnsbl d => DnsblHolds W tr d
  | .matchN k a => MatchHolds W tr m k a
  | .source a => MatchHolds W tr m .host a ∨ MatchHolds W tr m .helo a ∨ MatchHolds W tr m .sourceFrom a
  | .dbl s d => DblHolds W tr m s d
  | .optN k o => ∃ a : Attr, HasAttr W tr m k a ∧ o &&& a.bit ≠ 0
/-- All of them are true. -/
def HoldsAll (W : World) (tr : TransR) (m : Mail) : List Expr → Prop
  | [] => True
  | e :: es => Holds W tr m e ∧ HoldsAll W tr m es
end

mutual
/-- Working from left to right, no further than needed, an empty pattern file is consulted. -/
def Misses (W : World) (tr : TransR) (m : Mail) : Expr → Prop
  | .andL ns => MissesAll W tr m ns
  | .notN e => Misses W tr m e
  | .orN l r => Misses W tr m l ∨ (¬ Holds W tr m l ∧ Misses W tr m r)
  | .matchN _ a => patterns W a = []
  | .source a => patterns W a = []
  | .all | .tls _ | .dnsbl _ | .dbl _ _ | .optN _ _ => False
def MissesAll (W : World) (tr : TransR) (m : Mail) : List Expr → Prop
  | [] => False
  | e :: es => Misses W tr m e ∨ (Holds W tr m e ∧ MissesAll W tr m es)
end

/-! ## Rules -/

/-- What running a rule comes to. -/
inductive Outcome
  | hit (w : Withs)
  | no
  | miss
  deriving DecidableEq, Repr

/-- Clauses are tried in turn. -/
inductive ClausesTo (W : World) (tr : TransR) (m : Mail) : List RClause → Outcome → Prop
  | nil : ClausesTo W tr m [] .no
  | miss {c cs} : Misses W tr m c.expr → ClausesTo W tr m (c :: cs) .miss
  | hit {c cs} : ¬ Misses W tr m c.expr → Holds W tr m c.expr → ClausesTo W tr m (c :: cs) (.hit c.withs)
  | next {c cs o} : ¬ Misses W tr m c.expr → ¬ Holds W tr m c.expr → ClausesTo W tr m cs o → ClausesTo W tr m (c :: cs) o

/-- Recipients are tried in turn. -/
inductive RcptsTo (W : World) (tr : TransR) (m : Mail) (r : Rule) : List Str → Outcome → Prop
  | nil : RcptsTo W tr m r [] .no
  | stop {a as o} : ClausesTo W tr { m with rcptto := a } r.clauses o → o ≠ .no → RcptsTo W tr m r (a :: as) o
  | next {a as o} : ClausesTo W tr { m with rcptto := a } r.clauses .no → RcptsTo W tr m r as o → RcptsTo W tr m r (a :: as) o

/-- A rule takes part in a phase: its data is known, and an explicit phase is this one. -/
def Eligible (ph : Phase) (r : Rule) : Prop := r.requires ≤ ph ∧ (r.deferto = .any ∨ r.deferto = ph)

/-- Running a rule in a phase: after RCPT TO a rule about recipients is run for each accepted one. -/
def RuleTo (W : World) (tr : TransR) (m : Mail) (ph : Phase) (r : Rule) (o : Outcome) : Prop :=
  if ph > .rto ∧ r.requires ≥ .rto then RcptsTo W tr m r tr.rcptto o else ClausesTo W tr m r.clauses o

/-- What the client has said, including the command being decided on. -/
def Mail.said (ph : Phase) (e : Evt) (m : Mail) : Mail :=
  match ph with
  | .helo => { m with isHelo := e.isHelo, heloname := e.arg }
  | .mfrom => { m with from_ := e.arg }
  | .rto => { m with rcptto := e.arg }
  | .data | .message => { m with rcptto := [] }
  | .any | .connect => m

/-- The rule has a matching clause (of the with options `w`) in this phase. -/
def Hits (W : World) (tr : TransR) (m : Mail) (ph : Phase) (r : Rule) (w : Withs) : Prop :=
  Eligible ph r ∧ RuleTo W tr m ph r (.hit w)

/-- The rule decides: it is not a set-with. -/
def Decides (r : Rule) : Prop := r.result ≠ .noresult ∧ r.result ≠ .error

/-- The keys of with options. -/
inductive WKey
  | message | note | savedir | tlsOpt | makeYakker
  deriving DecidableEq, Repr

def WKey.of (w : Withs) : WKey → Option Str
  | .message => w.message
  | .note => w.note
  | .savedir => w.savedir
  | .tlsOpt => w.tlsOpt
  | .makeYakker => w.makeYakker

/-- The value of a with option after these rules: that of the last one which matches with a clause giving one. -/
def LastGiven (W : World) (tr : TransR) (m : Mail) (ph : Phase) (k : WKey) (rs : List Rule) (v : Option Str) : Prop :=
  (∃ pre r post w x, rs = pre ++ r :: post ∧ Hits W tr m ph r w ∧ k.of w = some x ∧ v = some x ∧
    ∀ q ∈ post, ∀ w', Hits W tr m ph q w' → k.of w' = none) ∨
  (v = none ∧ ∀ q ∈ rs, ∀ w', Hits W tr m ph q w' → k.of w' = none)

/-- The contexts a connection with these rules can get into. -/
inductive Reached (W : World) (rules : List Rule) : Ctx → Prop
  | new (t : Trace) : Reached W rules (newContext rules t)
  | step {c tr ph e a c'} : Reached W rules c → Decide W tr ph e c = .ok (a, c') → Reached W rules c'

end Sink.Spec
