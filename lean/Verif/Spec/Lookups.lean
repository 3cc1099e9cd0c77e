import Verif.Spec.Sem

/-!
# What rules ask of the outside world

Which files are read and which DNS queries are made for an expression, by reading it.
-/

namespace Sink.Spec

/-- A query made to find out whether a domain takes mail: its mail servers, its address, the address of a mail server. -/
inductive MailQuery (W : World) (d : Str) : Ev → Prop
  | servers : MailQuery W d (.lookupMX (d ++ b!"."))
  | address : MailQuery W d (.lookupIP (d ++ b!"."))
  | server {n : Nat} {mxs : List MX} {m : MX} : W.lookupMX n (d ++ b!".") = .ok mxs → m ∈ mxs → MailQuery W d (.lookupIP m.host)

/-- Opening a file, or a complaint about it. -/
inductive FileUse (f : Str) : Ev → Prop
  | read : FileUse f (.openFile f)
  | cannot {m : Str} : FileUse f (.warn (b!"error opening " ++ f ++ b!": " ++ m ++ b!"\n"))
  | broken {m : Str} : FileUse f (.warn (b!"Problem loading addr list " ++ f ++ b!": " ++ m ++ b!"\n"))

/-- The client's address in four parts, reversed. -/
def Reversed (rip r : Str) : Prop :=
  ∃ s0 s1 s2 s3, rip = s0 ++ b!"." ++ s1 ++ b!"." ++ s2 ++ b!"." ++ s3 ∧ (∀ s ∈ [s0, s1, s2, s3], c!"." ∉ s) ∧
    r = s3 ++ b!"." ++ s2 ++ b!"." ++ s1 ++ b!"." ++ s0

/-- The names of the sources of a `dbl`. -/
inductive SourceName (tr : TransR) (m : Mail) (src : Opts) : Str → Prop
  | helo : src &&& (oEhlo ||| oHelo) ≠ 0 → m.heloname ≠ [] → SourceName tr m src m.heloname
  | host {s} : src &&& oHost = oHost → s ∈ tr.rdns.verified ++ tr.rdns.nofwd ++ tr.rdns.inconsist → SourceName tr m src s.dropLast
  | from_ {d} : src &&& oFrom = oFrom → HasDomain m.from_ d → SourceName tr m src d

/-- The expression may ask this. -/
inductive Asks (W : World) (tr : TransR) (m : Mail) : Expr → Ev → Prop
  | and {es e ev} : e ∈ es → Asks W tr m e ev → Asks W tr m (.andL es) ev
  | not {e ev} : Asks W tr m e ev → Asks W tr m (.notN e) ev
  | left {l r ev} : Asks W tr m l ev → Asks W tr m (.orN l r) ev
  | right {l r ev} : Asks W tr m r ev → Asks W tr m (.orN l r) ev
  | patterns {k a f ev} : argFile a = some f → FileUse f ev → Asks W tr m (.matchN k a) ev
  | source {a f ev} : argFile a = some f → FileUse f ev → Asks W tr m (.source a) ev
  | dnsbl {d r} : Reversed tr.rip r → Asks W tr m (.dnsbl d) (.lookupIP (r ++ b!"." ++ d))
  | dbl {s d n} : SourceName tr m s n → Asks W tr m (.dbl s d) (.lookupIP (n ++ b!"." ++ d))
  | dblFrom {s d x ev} : s &&& oFrom = oFrom → HasDomain m.from_ x → MailQuery W x ev → Asks W tr m (.dbl s d) ev
  | dblOrder {s d} : Asks W tr m (.dbl s d) .mapIter
  | sender {o d ev} : HasDomain m.from_ d → MailQuery W d ev → Asks W tr m (.optN .fromHas o) ev
  | recipient {o d ev} : HasDomain m.rcptto d → MailQuery W d ev → Asks W tr m (.optN .toHas o) ev

/-- The rule may ask this in a phase: it takes part, and one of its clauses may, for the recipient of the command or, later, for one of the
accepted recipients. -/
def RuleAsks (W : World) (tr : TransR) (m : Mail) (ph : Phase) (r : Rule) (ev : Ev) : Prop :=
  Eligible ph r ∧ ∃ cl ∈ r.clauses, Asks W tr m cl.expr ev ∨ (ph > .rto ∧ ∃ a ∈ tr.rcptto, Asks W tr { m with rcptto := a } cl.expr ev)

end Sink.Spec
