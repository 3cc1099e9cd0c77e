import Verif.Model.Mx
import Verif.Model.Match
import Verif.Model.Lists

/-!
# Rule evaluation (rules.go, rnodes.go)

Go mutates a `Context`; here each function returns the new one.  Map lookups by pointer or slice (`!= nil`) become
`Option`.
-/

namespace Sink

/-- The fields of `smtpTransaction` that rule evaluation reads (sinksmtp.go:395-433; rules.go:25-27). -/
structure TransR where
  rip : Str
  lip : Str
  rdns : RDNS
  rcptto : List Str
  tlson : Bool
  deriving DecidableEq, Repr

/-- `Context`, rules.go:24-77, without `trans` (passed separately, it is read-only).  `trace` is a ghost: the external
calls made so far. -/
structure Ctx where
  isHelo : Bool := false
  heloname : Str := []
  from_ : Str := []
  rcptto : Str := []
  ruleset : List Rule := []
  withprops : Withs := {}
  defresult : Action := .error
  defdnsblhit : List Str := []
  defprops : Withs := {}
  files : Str → Option (List Str) := fun _ => none
  dnsbl : Str → Option Bool := fun _ => none
  dnsblhit : List Str := []
  domvalid : Str → Option (DnsRes × Option Str) := fun _ => none
  domerr : Option Str := none
  rulemiss : Bool := false
  trace : Trace := []

/-- `newContext`, rules.go:123-129; `t` is what happened before. -/
def newContext (rules : List Rule) (t : Trace) : Ctx := { ruleset := rules, trace := t }

/-- Map assignment. -/
def upd {α : Type} (f : Str → Option α) (k : Str) (v : α) : Str → Option α := fun x => if x = k then some v else f x

/-- `getDnsblRes`, rules.go:81-95. -/
def getDnsblRes (W : World) (hn : Str) (c : Ctx) : Bool × Ctx :=
  match c.dnsbl hn with
  | some r => (r, c)
  | none =>
    let c' := { c with trace := .lookupIP hn :: c.trace }
    match W.lookupIP c.trace.length hn with
    | .error _ => (false, c')
    | .ok ips =>
      let res := ips.length > 0
      (res, { c' with dnsbl := upd c.dnsbl hn res })

/-- `addDnsblHit`, rules.go:99-106. -/
def addDnsblHit (domain : Str) (c : Ctx) : Ctx :=
  if c.dnsblhit.any (· == domain) then c else { c with dnsblhit := c.dnsblhit ++ [domain] }

/-- `Context.validDomain`, rules.go:110-121 (`domvalid` is never nil, rules.go:127). -/
def Ctx.validDomain (W : World) (domain : Str) (c : Ctx) : (DnsRes × Option Str) × Ctx :=
  match c.domvalid domain with
  | some r => (r, c)
  | none =>
    let r := Sink.validDomain W domain c.trace
    (r.1, { c with domvalid := upd c.domvalid domain r.1, trace := r.2 })

/-- Where `getMatchList` takes its patterns from, rules.go:133-141: a file name, or a literal pattern. -/
def matchFile (a : Str) : Except Panic (Option Str) :=
  match a with
  | [] => .error .index
  | c :: _ =>
    if c = c!"/" ∨ hasPrefix a b!"./" then .ok (some a)
    else if hasPrefix a b!"file:" then .ok (some (a.drop 5))
    else .ok none

/-- `getMatchList`, rules.go:132-153. -/
def getMatchList (W : World) (a : Str) (c : Ctx) : Except Panic (List Str × Ctx) :=
  match matchFile a with
  | .error p => .error p
  | .ok none => .ok ([W.lib.lower a], c)
  | .ok (some fname) =>
    match c.files fname with
    | some l => .ok (l, c)
    | none =>
      let r := loadList W fname c.trace
      .ok (r.1, { c with files := upd c.files fname r.1, trace := r.2 })

/-- `dnsGetter`, rules.go:157-178. -/
def dnsGetter (tr : TransR) : Opts :=
  let o := if tr.rdns.verified.length = 0 then oNodns else oExists
  let o := if tr.rdns.nofwd.length > 0 then o ||| oNofwd else o
  let o := if tr.rdns.inconsist.length > 0 then o ||| oInconsist else o
  if o = oExists then o ||| oGood else o

/-- `hn[1:len(hn)-1]` when the name is long enough and in brackets, rules.go:207-208. -/
def bracketed (hn : Str) : Option Str :=
  if hn.length > 2 ∧ hn.head? = some c!"[" ∧ hn.getLast? = some c!"]" then some (hn.drop 1).dropLast else none

/-- `heloGetter`, rules.go:180-223. -/
def heloGetter (L : Lib) (tr : TransR) (c : Ctx) : Opts :=
  let o := if c.isHelo then oHelo else oEhlo
  let hn := c.heloname
  if hn = [] then o ||| oNone ||| oNodots
  else if hn = b!"." then o ||| oBogus ||| oNodots
  else
    let o := if indexByte hn c!"." = none ∧ indexByte hn c!":" = none then o ||| oNodots else o
    let (o, hip) := if (L.parseIP hn).isSome then (o ||| oBareip, hn) else (o, [])
    let (o, hip) := match bracketed hn with
      | some t => if (L.parseIP t).isSome then (o ||| oProperip, t) else (o, hip)
      | none => (o, hip)
    if hip = tr.rip then o ||| oRemip
    else if hip = tr.lip then o ||| oMyip
    else if hip ≠ [] then o ||| oOtherip
    else o

/-- The `%s` of a possibly nil error. -/
def errText : Option Str → Str
  | some s => s
  | none => b!"%!s(<nil>)"

/-- The part of `getAddrOpts` before the domain check, rules.go:231-265, for a non-empty address. -/
def addrShape (a : Str) : Opts :=
  let o : Opts := match indexByte a c!"@" with
    | none => oNoat
    | some idx =>
      let o := if idx = 0 then (if indexByte (a.drop 1) c!"@" = none then oGarbage else oRoute) else 0
      if indexByte (a.drop (idx + 1)) c!"." = none then o ||| oUnqualified else o
  let lp := a.length - 1
  let o := if a.head? = some c!"<" ∨ a.getLast? = some c!">" ∨ a.getLast? = some c!"\"" ∨ a.getLast? = some c!"]" ∨
      a.getLast? = some c!"." ∨ indexByte a c!"@" = some lp then o ||| oGarbage else o
  let o := if contains a b!".." ∨ contains a b!"@@" then o ||| oGarbage else o
  match indexByte a c!"\"" with
  | some idx3 => if idx3 ≠ lp then o ||| oQuoted else o
  | none => o

/-- `getAddrOpts`, rules.go:227-282. -/
def getAddrOpts (W : World) (a : Str) (c : Ctx) : Opts × Ctx :=
  if a = [] then (0, c)
  else
    let o := addrShape a
    if o &&& (oNoat ||| oUnqualified ||| oGarbage ||| oRoute) = 0 then
      let dom := match indexByte a c!"@" with
        | some idx => a.drop (idx + 1)
        | none => a
      let r := c.validDomain W dom
      let e := some (b!"domain " ++ dom ++ b!": " ++ errText r.1.2)
      match r.1.1 with
      | .good => (o ||| oDomainValid, r.2)
      | .bad => (o ||| oDomainInvalid, { r.2 with domerr := e })
      | .tempfail => (o ||| oDomainTempfail, { r.2 with domerr := e })
      | .undef => (o, r.2)
    else (o, c)

/-- The inner loop of `MatchN.Eval`, rnodes.go:343-347. -/
def matchNames (m : Str → Str → Except Panic Bool) (p : Str) : List Str → Except Panic Bool
  | [] => .ok false
  | e :: es => do if ← m e p then return true else matchNames m p es

/-- The outer loop of `MatchN.Eval`, rnodes.go:342-349. -/
def matchPats (m : Str → Str → Except Panic Bool) (names : List Str) : List Str → Except Panic Bool
  | [] => .ok false
  | p :: ps => do if ← matchNames m p names then return true else matchPats m names ps

/-- `MatchN.matcher`, rnodes.go:352-390, 423-428. -/
def MKind.matcher (L : Lib) : MKind → Str → Str → Except Panic Bool
  | .helo | .host => matchHost L
  | .from_ | .to => matchAddress L
  | .ip => fun r p => .ok (matchIp L r p)
  | .sourceFrom => matchFromHost L

/-- `MatchN.getter`, rnodes.go:352-390, 423-428. -/
def MKind.names (tr : TransR) (c : Ctx) : MKind → List Str
  | .helo => [c.heloname]
  | .host => tr.rdns.verified
  | .from_ => [c.from_]
  | .to => [c.rcptto]
  | .ip => [tr.rip]
  | .sourceFrom => [c.from_]

/-- `MatchN.Eval`, rnodes.go:335-350. -/
def evalMatch (W : World) (tr : TransR) (k : MKind) (arg : Str) (c : Ctx) : Except Panic (Bool × Ctx) := do
  let (plist, c) ← getMatchList W arg c
  if plist.length = 0 then return (false, { c with rulemiss := true })
  let r ← matchPats (k.matcher W.lib) (k.names tr c) plist
  return (r, c)

/-- `matchSource.Eval`, rnodes.go:403-405, with the nodes of rnodes.go:414-430. -/
def evalSource (W : World) (tr : TransR) (arg : Str) (c : Ctx) : Except Panic (Bool × Ctx) := do
  let (r, c) ← evalMatch W tr .host arg c
  if r then return (true, c)
  let (r, c) ← evalMatch W tr .helo arg c
  if r then return (true, c)
  evalMatch W tr .sourceFrom arg c

/-- `DNSblN.Eval`, rnodes.go:298-314. -/
def evalDnsbl (W : World) (tr : TransR) (domain : Str) (c : Ctx) : Bool × Ctx :=
  if tr.rip = [] then (false, c)
  else match splitOn c!"." tr.rip with
    | [s0, s1, s2, s3] =>
      let r := getDnsblRes W (s3 ++ b!"." ++ s2 ++ b!"." ++ s1 ++ b!"." ++ s0 ++ b!"." ++ domain) c
      if r.1 then (true, addDnsblHit domain r.2) else (false, r.2)
    | _ => (false, c)

/-- Map insertion as a set: the keys, each once. -/
def addKey (k : Str) (l : List Str) : List Str := if k ∈ l then l else l ++ [k]

/-- Adding reverse DNS names without their last byte, rnodes.go:455-463. -/
def dblHosts : List Str → List Str → Except Panic (List Str)
  | [], chk => .ok chk
  | s :: ss, chk => if s = [] then .error .index else dblHosts ss (addKey s.dropLast chk)

/-- The lookups of `DblNode.Eval`, rnodes.go:484-491. -/
def dblLookups (W : World) (domain : Str) : List Str → Bool → Ctx → Bool × Ctx
  | [], ret, c => (ret, c)
  | s :: ss, ret, c =>
    let r := getDnsblRes W (s ++ b!"." ++ domain) c
    if r.1 then dblLookups W domain ss true (addDnsblHit domain r.2) else dblLookups W domain ss ret r.2

/-- The sender domain for a dbl lookup, rnodes.go:465-471. -/
def dblFrom (W : World) (src : Opts) (chk : List Str) (c : Ctx) : List Str × Ctx :=
  if src &&& oFrom = oFrom ∧ c.from_ ≠ [] then
    let r := getAddrOpts W c.from_ c
    if r.1 &&& (oDomainValid ||| oDomainInvalid ||| oDomainTempfail) ≠ 0 then
      match indexByte c.from_ c!"@" with
      | some idx => (addKey (c.from_.drop (idx + 1)) chk, r.2)
      | none => (addKey c.from_ chk, r.2)
    else (chk, r.2)
  else (chk, c)

/-- The HELO name and the reverse DNS names for a dbl lookup, rnodes.go:449-464. -/
def dblNames (tr : TransR) (src : Opts) (c : Ctx) : Except Panic (List Str) :=
  let chk := if src &&& (oEhlo ||| oHelo) ≠ 0 ∧ c.heloname ≠ [] then [c.heloname] else []
  if src &&& oHost = oHost then dblHosts (tr.rdns.verified ++ tr.rdns.nofwd ++ tr.rdns.inconsist) chk
  else .ok chk

/-- `DblNode.Eval`, rnodes.go:446-493. -/
def evalDbl (W : World) (tr : TransR) (src : Opts) (domain : Str) (c : Ctx) : Except Panic (Bool × Ctx) := do
  let chk ← dblNames tr src c
  let (chk, c) := dblFrom W src chk c
  if chk.length = 0 then return (false, c)
  return dblLookups W domain (W.mapOrder c.trace.length chk) false { c with trace := .mapIter :: c.trace }

/-- `OptionN.getter`, rnodes.go:568-588. -/
def OKind.get (W : World) (tr : TransR) (c : Ctx) : OKind → Opts × Ctx
  | .dns => (dnsGetter tr, c)
  | .heloHas => (heloGetter W.lib tr c, c)
  | .fromHas => getAddrOpts W c.from_ c
  | .toHas => getAddrOpts W c.rcptto c

/-- `OptionN.Eval`, rnodes.go:510-513. -/
def evalOpt (W : World) (tr : TransR) (k : OKind) (opts : Opts) (c : Ctx) : Bool × Ctx :=
  let r := k.get W tr c
  (decide (opts &&& r.1 ≠ 0), r.2)

mutual
/-- `Eval`, rnodes.go:213-221, 235-237, 250-256, 269-271, 285-287 and the terminal nodes above. -/
def eval (W : World) (tr : TransR) : Expr → Ctx → Except Panic (Bool × Ctx)
  | .andL ns, c => evalAnd W tr ns c
  | .notN e, c => do
    let (r, c) ← eval W tr e c
    return (!r, c)
  | .orN l r, c => do
    let (v, c) ← eval W tr l c
    if v then return (true, c)
    eval W tr r c
  | .all, c => .ok (true, c)
  | .tls on, c => .ok (on == tr.tlson, c)
  | .dnsbl d, c => .ok (evalDnsbl W tr d c)
  | .matchN k a, c => evalMatch W tr k a c
  | .source a, c => evalSource W tr a c
  | .dbl s d, c => evalDbl W tr s d c
  | .optN k o, c => .ok (evalOpt W tr k o c)
/-- The loop of `AndL.Eval`, rnodes.go:214-220. -/
def evalAnd (W : World) (tr : TransR) : List Expr → Ctx → Except Panic (Bool × Ctx)
  | [], c => .ok (true, c)
  | e :: es, c => do
    let (r, c) ← eval W tr e c
    if r then evalAnd W tr es c else return (false, c)
end

/-- Merging the with options of a clause, rnodes.go:149-151. -/
def Withs.merge (base new : Withs) : Withs where
  message := new.message <|> base.message
  note := new.note <|> base.note
  savedir := new.savedir <|> base.savedir
  tlsOpt := new.tlsOpt <|> base.tlsOpt
  makeYakker := new.makeYakker <|> base.makeYakker

/-- The loop of `Rule.check`, rnodes.go:139-154. -/
def checkClauses (W : World) (tr : TransR) : List RClause → Ctx → Except Panic (Bool × Ctx)
  | [], c => .ok (false, c)
  | rc :: rcs, c => do
    let (res, c) ← eval W tr rc.expr c
    if c.rulemiss then return (false, c)
    if !res then checkClauses W tr rcs c
    else return (true, { c with withprops := c.withprops.merge rc.withs })

/-- `Rule.check`, rnodes.go:137-155. -/
def Rule.check (W : World) (tr : TransR) (r : Rule) (c : Ctx) : Except Panic (Bool × Ctx) :=
  checkClauses W tr r.clauses { c with rulemiss := false }

/-- `ruleForEachRcpt`, rules.go:395-409. -/
def ruleForEachRcpt (W : World) (tr : TransR) (r : Rule) : List Str → Ctx → Except Panic (Bool × Ctx)
  | [], c => .ok (false, c)
  | rcpt :: rs, c => do
    let (res, c) ← r.check W tr { c with rcptto := rcpt }
    if res then return (true, c)
    if c.rulemiss then return (false, c)
    ruleForEachRcpt W tr r rs c

/-- The three reasons to skip a rule in a phase, rules.go:463-485. -/
def skipRule (ph : Phase) (r : Rule) : Bool :=
  r.requires > ph || r.deferto > ph || (r.deferto ≠ .any && r.deferto < ph)

/-- Running one rule, rules.go:497-505. -/
def runRule (W : World) (tr : TransR) (ph : Phase) (r : Rule) (c : Ctx) : Except Panic (Bool × Ctx) :=
  let c := { c with rulemiss := false }
  if ph > .rto ∧ r.requires ≥ .rto then ruleForEachRcpt W tr r tr.rcptto c else r.check W tr c

/-- The rule loop of `Decide`, rules.go:461-519. -/
def ruleLoop (W : World) (tr : TransR) (ph : Phase) : List Rule → Ctx → Except Panic (Action × Ctx)
  | [], c => .ok (.noresult, c)
  | r :: rs, c =>
    if skipRule ph r then ruleLoop W tr ph rs c
    else do
      let (res, c) ← runRule W tr ph r c
      if c.rulemiss then ruleLoop W tr ph rs c
      else if res ∧ r.result ≥ .accept then return (r.result, c)
      else ruleLoop W tr ph rs c

/-- The two fields of `smtpd.EventInfo` that `Decide` reads: is the command HELO, and its argument. -/
structure Evt where
  isHelo : Bool := false
  arg : Str := []
  deriving DecidableEq, Repr

/-- The beginning of `Decide`, rules.go:420-434. -/
def shadow (ph : Phase) (evt : Evt) (c : Ctx) : Ctx :=
  match ph with
  | .helo => { c with isHelo := evt.isHelo, heloname := evt.arg, defresult := .error }
  | .mfrom => { c with from_ := evt.arg, defresult := .error }
  | .rto => { c with rcptto := evt.arg }
  | .data | .message => { c with rcptto := [] }
  | .any | .connect => c

/-- `Decide`, rules.go:415-536. -/
def Decide (W : World) (tr : TransR) (ph : Phase) (evt : Evt) (c : Ctx) : Except Panic (Action × Ctx) := do
  let c := shadow ph evt c
  let c := { c with dnsblhit := [], withprops := {}, domerr := none }
  if c.defresult ≥ .accept then
    return (c.defresult, { c with dnsblhit := c.defdnsblhit, withprops := c.defprops })
  let (ret, c) ← ruleLoop W tr ph c.ruleset c
  if ph = .mfrom ∧ c.from_ = [] ∧ ret > .accept then
    return (.accept, { c with defresult := ret, defprops := c.withprops, defdnsblhit := c.dnsblhit, withprops := {} })
  return (ret, c)

end Sink
