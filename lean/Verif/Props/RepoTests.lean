import Verif.Model.Eval
import Verif.Model.IpText
import Verif.Spec.DemoWorld

/-!
# The tests of the repository, run on the model

The repository has tests in Go (`rlex_test.go`, `rparse_test.go`, `rules_test.go`, `sinksmtp_test.go`).  They say what the author expects of the code.
Here they are put to the model: each `example` is one of them.  These are tests and not proofs of properties; they guard against misreadings of the code,
but they are no independent check, since they had been read before the model was written.  The context of `setupContext` sets fields that `newContext` does not, as in Go.  Left out are `mxresolve_test.go`, which asks the real DNS, and `TestNoLexerGoroutine`, which is C55.
-/

namespace Sink.RepoTests

open Sink

/-- The lines of a raw string. -/
def text (ls : List Str) : Str := (ls.intersperse b!"\n").flatten

/-! ## rlex_test.go -/

/-- `aLex`, rlex_test.go:19-34. -/
def aLex : Str := text [
  b!"",
  b!"# this is a comment",
  b!"accept from a@b.com helo .barney",
  b!"",
  b!"@message reject to cks@jon.snow",
  b!"@helo reject helo /a/file host file:something",
  b!"reject helo somename (from info@fbi.gov or fred@barney) not to i@addr",
  b!"reject helo-has helo,ehlo,none,nodots,bareip,bogus tls on tls off",
  b!"@from reject dns nodns,inconsistent,noforward address route,quoted,noat",
  b!"reject helo-has \\",
  b!"\tehlo,none dnsbl fred.jim",
  b!"reject ip 192.168.0.0/24 ip 127.0.0.2",
  b!"",
  b!"reject from bad with message from-bad tls-opt off make-yakker",
  b!"reject ehlo \"fred jim\"",
  b!"reject dbl host,helo,ehlo,from,any fred.jim",
  b!""]

/-- `TestLexing`, rlex_test.go:36-58: lexing ends with EOF. -/
example : (lex aLex).toOption.bind (fun l => l.getLast?.map Item.typ) = some .eof := by decide +kernel

/-- `itm`, rlex_test.go:77-79: a keyword. -/
def itm (s : Str) : Tok × Str := ((keyword? s).elim .error .kw, s)
/-- `itv`, rlex_test.go:82-84: a value. -/
def itv (s : Str) : Tok × Str := (.value, s)
def tEOF : Tok × Str := (.eof, [])
def tComma : Tok × Str := (.comma, b!",")
def tLB : Tok × Str := (.lparen, b!"(")
def tRB : Tok × Str := (.rparen, b!")")
def tEOL : Tok × Str := (.eol, b!"\n")
def tSemic : Tok × Str := (.semicolon, b!";")

/-- `collect` and `equal`, rlex_test.go:146-170: the tokens without their places. -/
def collect (s : Str) : Option (List (Tok × Str)) := (lex s).toOption.map fun l => l.map fun i => (i.typ, i.val)

/-- `lexTests`, rlex_test.go:86-142: input and tokens. -/
def lexTests : List (Str × List (Tok × Str)) := [
  -- empty
  (b!"    ", [tEOF]),
  -- blank lines
  (b!"\n\n\n\n# a comment\n   # more comment\n# run out", [tEOF]),
  -- non-keywords
  (b!"fred@barney /a/file", [(.value, b!"fred@barney"), (.filename, b!"/a/file"), tEOF]),
  -- file:something
  (b!"file:something", [(.filename, b!"file:something"), tEOF]),
  -- file: error
  (b!"file:", [(.error, b!"'file:' with no filename")]),
  -- random \
  (b!"\\aback", [itv b!"\\aback", tEOF]),
  -- tls
  (b!"tls on tls off\n", [itm b!"tls", itm b!"on", itm b!"tls", itm b!"off", tEOL, tEOF]),
  -- comma ops
  (b!"dns nodns,noforward,ehlo", [itm b!"dns", itm b!"nodns", tComma, itm b!"noforward", tComma, itm b!"ehlo", tEOF]),
  -- comma bad
  (b!", nodns", [tComma, (.error, b!"comma followed by whitespace, EOL, or EOF")]),
  -- embedded comment
  (b!"stall from @\n # a comment\nreject to @a", [itm b!"stall", itm b!"from", itv b!"@", tEOL, itm b!"reject", itm b!"to", itv b!"@a", tEOF]),
  -- line continuation
  (b!" \\\n stall from @ \\\n  to a@b", [itm b!"stall", itm b!"from", itv b!"@", itm b!"to", itv b!"a@b", tEOF]),
  -- blank continuation in a middle line
  (b!"stall from \\\n   \\\n @", [itm b!"stall", itm b!"from", itv b!"@", tEOF]),
  -- middle of line backslash
  (b!"stall from \\ to a@b", [itm b!"stall", itm b!"from", itv b!"\\", itm b!"to", itv b!"a@b", tEOF]),
  -- proper quote
  (b!"\"fred jim\" from", [itv b!"fred jim", itm b!"from", tEOF]),
  -- proper quote with escape
  (b!"\"fred\\\"bob\"", [itv b!"fred\"bob", tEOF]),
  -- quote with escaped backslash
  (b!"\"fred\\\\bob\"", [itv b!"fred\\bob", tEOF]),
  -- quote with non-escaping backslash
  (b!"\"fred\\bob\"", [itv b!"fred\\bob", tEOF]),
  -- quote defeats comma
  (b!"\", \"", [itv b!", ", tEOF]),
  -- quote spans lines
  (b!"\"fred\njim\n  bob\"", [itv b!"fred\njim\n  bob", tEOF]),
  -- unterminated quote
  (b!"\"fred jim", [(.error, b!"unterminated quoted value")]),
  -- quote escaping terminator
  (b!"\"fred\\\"", [(.error, b!"unterminated quoted value")]),
  -- thing;
  (b!"thing;", [itv b!"thing", tSemic, tEOF]),
  -- ( ... )
  (b!"(from @ )", [tLB, itm b!"from", itv b!"@", tRB, tEOF])]

/-- `TestLex`, rlex_test.go:172-179. -/
example : ∀ t ∈ lexTests, collect t.1 = some t.2 := by decide +kernel
example : lexTests.length = 23 := by decide

/-- `TestKeywordCover`, rlex_test.go:192-206: no two keywords have the same item, and every item has a keyword. -/
example : (keywords.map Prod.snd).Nodup := by decide +kernel
example (k : Kw) : k ∈ keywords.map Prod.snd := by cases k <;> decide +kernel

/-- `TestAllKeywords`, rlex_test.go:215-247. -/
example : ∀ k ∈ keywords, collect k.1 = some [(.kw k.2, k.1), tEOF] := by decide +kernel
example : ∀ c ∈ b!"();", (special? c).isSome = true ∧ collect [c] = (special? c).map fun t => [(t, [c]), tEOF] := by decide +kernel

/-! ## sinksmtp_test.go -/

/-- The library: IPv4 addresses as in Go 1.17 and later, and the one IPv6 address of the tests. -/
def lib : Lib := goLib true (fun s => if s = b!"1::" then some (.v6 (1#128 <<< 112)) else none) (fun _ => none) id fun _ h => h

/-- `basiclist`, sinksmtp_test.go:41-49. -/
def basiclist : Str := text [
  b!"# This is a comment",
  b!"INFO@FBI.GOV",
  b!"root@",
  b!"",
  b!"@example.com",
  b!"postmaster@Example.Org",
  b!"@.barney.net",
  b!"# t",
  b!""]

/-- `TestLoader`, sinksmtp_test.go:20-39. -/
example : (∀ p ∈ [b!"info@fbi.gov", b!"root@", b!"@example.com", b!"postmaster@example.org", b!"@.barney.net"], p ∈ readList lib basiclist) ∧ [] ∉ readList lib basiclist ∧
    b!"# t" ∉ readList lib basiclist := by decide +kernel

/-! ## rparse_test.go -/

/-- `aParse`, rparse_test.go:20-63. -/
def aParse : Str := text [
  b!"",
  b!"accept from a@b",
  b!"@data reject to b@c or to fred or from a@b helo barney",
  b!"stall from a@b not to d@e or (helo barney to charlie host fred)",
  b!"reject helo somename from info@fbi.gov not to interesting@addr",
  b!"reject helo-has none,nodots,helo from-has bad,quoted dns nodns",
  b!"@message reject to-has garbage,route",
  b!"accept dns good",
  b!"reject dns noforward,inconsistent",
  b!"accept ip 127.0.0.0/24 ip 127.0.0.10",
  b!"reject ip 85.90.187.32/27 or host .edmpoint.com or ehlo .edmpoint.com",
  b!"reject dnsbl sbl.spamhaus.org with message \"listed in the SBL\" \\",
  b!"\t\tsavedir jim note barney",
  b!"set-with all with note \"I am here\" make-yakker",
  b!"@connect set-with ip 100.100.100.100 with tls-opt off",
  b!"@connect set-with ip 100.200.200.100 with tls-opt no-client",
  b!"reject source fred.com",
  b!"",
  b!"# oh boy",
  b!"set-with ip 127.0.0.1 with note a; all with note b;",
  b!"\tall with message \"c\"",
  b!"",
  b!"# test all options for comma-separated things.",
  b!"accept dns good or dns noforward,inconsistent,nodns or dns exists",
  b!"accept tls on or tls off",
  b!"accept from-has unqualified,route,quoted,noat,garbage,bad,resolves",
  b!"accept to-has unqualified,route,quoted,noat,garbage,bad,baddom,unknown",
  b!"accept helo-has helo,ehlo,none,nodots,bareip,properip,ip,myip,remip,otherip,bogus",
  b!"",
  b!"reject dbl host,ehlo fred.jim",
  b!"reject dbl helo,from fred.jim",
  b!"reject dbl any fred.jim",
  b!"reject dbl host fred.jim",
  b!"",
  b!"# we assume /dev/null is always present, because we're Unix-biased like that.",
  b!"include /dev/null",
  b!""]

/-- `allSuccess`, rparse_test.go. -/
def allSuccess : Str := text [
  b!"",
  b!"accept all",
  b!"accept from jim@jones.com to joe@example.com not dns nodns",
  b!"accept from JIM@JONES.com",
  b!"accept to joe@ from @.com",
  b!"accept dns inconsistent dns noforward",
  b!"accept helo-has ehlo tls on",
  b!"accept not helo-has nodots from @.net or dns nodns or to @.com",
  b!"accept helo-has nodots or (from @jones.com to @example.com)",
  b!"accept from jim@jones.com to info@fbi.gov or to joe@example.com",
  b!"accept not (from jim@ to @logan)",
  b!"accept all or to jim@example.com",
  b!"accept not from-has noat",
  b!"accept not to-has quoted",
  b!"# these are both false because of the synthetic test environment",
  b!"accept not from-has resolves",
  b!"accept from-has baddom",
  b!"# dns is not good because there are inconsistent and noforward stuff",
  b!"accept not dns good",
  b!"accept helo .ben",
  b!"accept not helo-has bareip",
  b!"accept host .b.c",
  b!"accept host .f",
  b!"# IP tests",
  b!"accept ip 192.168.10.3 ip 192.168.10.0/24 ip /ips",
  b!"# Go 1.17 no longer accepts IPs with leading 0s: ip 192.168.010.003",
  b!"accept not ip 127.0.0.10",
  b!"# source tests",
  b!"accept source .f",
  b!"accept source .ben",
  b!"accept source jones.com",
  b!"accept source /a/file2",
  b!"accept not source example.com",
  b!"# dbl tests",
  b!"accept dbl from dbl2.domi",
  b!"accept dbl host dbl.domi",
  b!"accept dbl helo dbl2.domi",
  b!"accept dbl any dbl2.domi",
  b!"accept dbl any dbl.domi",
  b!"accept not dbl from dbl.domi",
  b!""]

/-- `/dev/null`. -/
def files : Files := fun _ f => if f = b!"/dev/null" then .data [] else .notExist b!"no such file"

/-- `Parse`. -/
def rulesOf (s : Str) : Option (List Rule) := (parse lib files 10 [] s).toOption

/-- Printed and read again, a rule is printed the same way. -/
def roundTrip (r : Rule) : Bool :=
  match rulesOf r.str with
  | some [r'] => r'.str == r.str
  | _ => false

/-- `TestParse`, rparse_test.go:65-88. -/
example : ((rulesOf (aParse ++ allSuccess)).map fun l => (l.length != 0, l.all roundTrip)) = some (true, true) := by decide +kernel

/-- `aList`, rparse_test.go. -/
def aList : Str := text [
  b!"# This is a comment",
  b!"INFO@FBI.GOV",
  b!"root@",
  b!"",
  b!"@example.com",
  b!"postmaster@Example.Org",
  b!"@.barney.net",
  b!"# t",
  b!""]

/-- `aSource`, rparse_test.go. -/
def aSource : Str := text [
  b!"# This will become /a/file2",
  b!".jones.com",
  b!""]

/-- `ipList`, rparse_test.go. -/
def ipList : Str := text [
  b!"",
  b!"127.0.0.0/8",
  b!"# this should not generate an error even thought it would in the",
  b!"# the actual rules.",
  b!"not-valid",
  b!"192.168.10.0/24",
  b!""]

/-- The transaction of `setupContext`. -/
def trans : TransR where
  rip := b!"192.168.10.3"
  lip := b!"127.0.0.1"
  rdns := ⟨[b!"a.b.c.", b!"d.e.f."], [b!"g."], [b!"h.i."]⟩
  rcptto := []
  tlson := true

/-- `setupContext`, rparse_test.go:119-176.  `domvalid` is nil there, and so every domain is a bad one (rules.go:111-113). -/
def ctx : Ctx where
  heloname := b!"joebob.ben"
  from_ := b!"jim@jones.com"
  rcptto := b!"joe@example.com"
  files := tbl none [(b!"/a/file", some (readList lib aList)), (b!"/ips", some (readList lib ipList)), (b!"/empty", some []),
    (b!"/a/file2", some (readList lib aSource))]
  dnsbl := tbl none [(b!"3.10.168.192.nosuch.domain.", some true), (b!"3.10.168.192.notthere.domi.", some false),
    (b!"h.i.dbl.domi.", some true), (b!"jones.com.dbl2.domi.", some true), (b!"joebob.ben.dbl2.domi.", some true),
    (b!"jones.com.dbl.domi.", some false)]
  domvalid := fun _ => some (.bad, some b!"no domain map")

/-- The world answers nothing. -/
def world : World := { demoWorld with lib := lib, files := fun _ _ => .notExist b!"no such file", lookupIP := fun _ _ => .error (demoErr false) }

/-- Whether each of the rules matches, in turn, and without being passed over. -/
def allMatch : List Rule → Ctx → Bool
  | [], _ => true
  | r :: l, c =>
    match r.check world trans { c with rulemiss := false } with
    | .ok (true, c') => !c'.rulemiss && allMatch l c'
    | _ => false

/-- `TestSuccess`, rparse_test.go. -/
example : (rulesOf allSuccess).map (fun l => (l.length, allMatch l ctx)) = some (33, true) := by decide +kernel

/-- Whether the first rule of the text matches. -/
def matches? (s : Str) (c : Ctx) : Option Bool :=
  match rulesOf s with
  | some (r :: _) => ((r.check world trans c).toOption).map Prod.fst
  | _ => none

/-- `TestFileAddrMatching`. -/
example : ∀ a ∈ [b!"INFO@FBI.GOV", b!"root@fred.com", b!"random@example.com", b!"postmaster@example.org", b!"root@example.com", b!"joe@fred.barney.net", b!"james@barney.net"],
    matches? b!"accept from /a/file" { ctx with from_ := a } = some true := by decide +kernel
example : ∀ a ∈ [b!"fred@fbi.gov", b!"postmaster@example.net", b!"fred@random.org", b!"nosuch@james.net", b!"nosuch@barney.org"],
    matches? b!"accept from /a/file" { ctx with from_ := a } = some false := by decide +kernel

/-- What a rule leaves behind. -/
def afterRule (s : Str) (c : Ctx) : Option (Bool × Ctx) :=
  match rulesOf s with
  | some (r :: _) => (r.check world trans c).toOption
  | _ => none

/-- `TestEmptyFile`. -/
example : (afterRule b!"accept from file:/empty" ctx).map (fun x => x.2.rulemiss) = some true := by decide +kernel

/-- `heloTests`. -/
def heloTests : List (Str × Str) := [
  (b!"127.0.0.1", b!"helo-has bareip helo-has myip"),
  (b!"127.0.0.1", b!"not helo-has properip"),
  (b!"[127.0.0.1]", b!"helo-has properip helo-has myip"),
  (b!"[127.0.0.1]", b!"not helo-has bareip"),
  (b!"[192.168.10.3]", b!"helo-has remip"),
  (b!"[192.168.10.3]", b!"not helo-has myip"),
  (b!"[200.200.200.200]", b!"helo-has otherip"),
  (b!"127.10.100.10", b!"helo-has otherip"),
  (b!"[192.168.10.]", b!"not helo-has ip"),
  (b!"[]", b!"not helo-has ip"),
  (b!"192.168.10.", b!"not helo-has ip"),
  (b!"", b!"helo-has none"),
  (b!"", b!"helo-has nodots"),
  (b!"fred", b!"helo-has nodots"),
  (b!"fred.jim", b!"helo-has ehlo not helo-has nodots"),
  (b!".", b!"helo-has bogus"),
  (b!".", b!"helo-has nodots")]

/-- `TestHeloHas`. -/
example : ∀ t ∈ heloTests, matches? (b!"accept " ++ t.2) { ctx with heloname := t.1 } = some true := by decide +kernel
example : matches? b!"accept helo-has helo" { ctx with isHelo := true, heloname := b!"fred.jim" } = some true := by decide +kernel

/-- `notParse`, line by line. -/
def notParse : List Str := [
  b!"helo",
  b!"accept dns fred,barney",
  b!"accept dns nodns, good",
  b!"accept fred",
  b!"accept host jones or",
  b!"accept (host jones or)",
  b!"accept host jones or barney",
  b!"accept source",
  b!"accept",
  b!"accept not",
  b!"accept not fred",
  b!"accept not dns fred",
  b!"accept host",
  b!"accept ( host james",
  b!"accept ( )",
  b!"accept ip abcdef",
  b!"accept ip ip",
  b!"accept tls fred",
  b!"accept or host fred",
  b!"accept host fred or dns fred",
  b!"accept dnsbl file:/a/somewhere",
  b!"accept dnsbl host",
  b!"accept dnsbl has-no-dots",
  b!"accept all with",
  b!"accept all with message",
  b!"accept all with message fred message",
  b!"accept all with message fred message barney",
  b!"accept all with note fred note barney",
  b!"accept all with savedir fred savedir barney",
  b!"accept with message fred",
  b!"set-with all",
  b!"set-with all with note a;",
  b!"set-with all with ;",
  b!"set-with all with note a; all",
  b!"set-with all with tls-opt yes",
  b!"set-with all with tls-opt",
  b!"set-with all with tls-opt no-client tls-opt off",
  b!"set-with all with make-yakker make-yakker",
  b!"set-with all with helo .com",
  b!"@from accept to @fbi.gov",
  b!"accept dbl",
  b!"accept dbl ehlo",
  b!"accept dbl ehlo, som.dom",
  b!"accept dbl nodns som.dom",
  b!"accept dbl from has-no-dots"]

/-- `TestNotParse`: every one is an error, and none a crash. -/
def refusedText (s : Str) : Bool :=
  match parse lib files 10 [] s with
  | .error (.err _) => true
  | _ => false
example : ∀ s ∈ notParse ++ [b!"\naccept all with note \"embedded newline\n\tis here\"", b!"accept not\n accept all"], refusedText s = true := by decide +kernel

/-- `TestDnsblHit`. -/
example : (afterRule b!"accept dnsbl nosuch.domain" ctx).map (fun x => (x.1, x.2.dnsblhit)) = some (true, [b!"nosuch.domain."]) := by decide +kernel
example : (afterRule b!"accept dnsbl notthere.domi" ctx).map (fun x => (x.1, x.2.dnsblhit)) = some (false, []) := by decide +kernel
example : (afterRule b!"accept dbl from dbl2.domi" ctx).map (fun x => (x.1, x.2.dnsblhit.length)) = some (true, 1) := by decide +kernel
example : (afterRule b!"accept dbl from dbl.domi" ctx).map (fun x => (x.1, x.2.dnsblhit)) = some (false, []) := by decide +kernel

/-- `aWiths`. -/
def aWiths : Str := text [
  b!"set-with all with message fred note joe",
  b!"accept all with savedir bob note jim tls-opt off",
  b!""]

/-- The options set by rules that all match. -/
def withsOf : List Rule → Ctx → Option Withs
  | [], c => some c.withprops
  | r :: l, c =>
    match r.check world trans c with
    | .ok (true, c') => withsOf l c'
    | _ => none

/-- `TestWithSetting`. -/
example : (rulesOf aWiths).bind (fun l => withsOf l ctx) =
    some { message := some b!"fred", savedir := some b!"bob", note := some b!"jim", tlsOpt := some b!"off" } := by decide +kernel

/-! ## rules_test.go -/

/-- `TestAddrMatches`. -/
example : ∀ t ∈ ([(b!"abc@def", b!"abc@def"), (b!"", b!"<>"), (b!"abc@def", b!"abc@"), (b!"abc@def", b!"@def"), (b!"abc", b!"abc@"), (b!"abc@def.ghi", b!"@.ghi"), (b!"abc@def.ghi", b!"@.def.ghi"), (b!"anything@anything", b!"@"), (b!"ABC@DEF", b!"abc@"), (b!"ABC@DEF", b!"@def")] : List (Str × Str)), (matchAddress lib t.1 t.2).toOption = some true := by decide +kernel
example : ∀ t ∈ ([(b!"abc@def", b!"not"), (b!"abc@def", b!"@ghi"), (b!"abc@def", b!"def@"), (b!"anything", b!"<>"), (b!"noat", b!"@"), (b!"abc@zamdef.ghi", b!"@.def.ghi"), (b!"", b!"@"), (b!"@route", b!"@"), (b!"broken@", b!"@")] : List (Str × Str)), (matchAddress lib t.1 t.2).toOption = some false := by decide +kernel

/-- `TestHostMatches`. -/
example : ∀ t ∈ ([(b!"abc", b!"abc"), (b!"abc", b!".abc"), (b!"abc.def", b!".def"), (b!"abc.def.ghi", b!".ghi"), (b!".", b!".")] : List (Str × Str)), (matchHost lib t.1 t.2).toOption = some true := by decide +kernel
example : ∀ t ∈ ([(b!"abc", b!"not"), (b!"abc", b!".not"), (b!"prefabc", b!".abc"), (b!".", b!"not"), (b!".", b!".not")] : List (Str × Str)), (matchHost lib t.1 t.2).toOption = some false := by decide +kernel

/-- `TestAddrOpts`. -/
example : ∀ t ∈ ([(b!"", oZero), (b!"noat", oNoat), (b!"\"fred\"@jones", oQuoted ||| oUnqualified), (b!"jim@jones", oUnqualified), (b!"@jones:user@jim.bob", oRoute), (b!"@j:user@jim", oRoute ||| oUnqualified), (b!"@garbage", oGarbage ||| oUnqualified), (b!"garbage@", oGarbage ||| oUnqualified), (b!"<job@jim.bob", oGarbage), (b!"joe..@jim.bob", oGarbage), (b!"joe@@jim.bob", oGarbage), (b!"joe@jim.bob\"", oGarbage), (b!"joe@jim.bob>", oGarbage), (b!"\"joe..bob\"@jim.bob", oQuoted ||| oGarbage)] : List (Str × Opts)),
    (getAddrOpts world t.1 ctx).1 = t.2 := by decide +kernel

/-- `TestHostOpts`. -/
example : ∀ t ∈ ([(b!"", oNone ||| oNodots), (b!"abc.def", oZero), (b!"abcdef", oNodots), (b!".", oBogus ||| oNodots), (b!"127.0.0.1", oBareip ||| oMyip), (b!"[127.0.0.1]", oProperip ||| oMyip), (b!"[127.100.100.100]", oProperip ||| oOtherip), (b!"[192.168.10.3]", oProperip ||| oRemip), (b!"1::", oBareip ||| oOtherip)] : List (Str × Opts)),
    heloGetter lib trans { ctx with heloname := t.1 } = t.2 ||| oEhlo := by decide +kernel

/-- `TestDnsOpts`. -/
example : ∀ t ∈ ([(true, false, false, oGood ||| oExists), (false, true, false, oNofwd ||| oNodns), (false, false, true, oInconsist ||| oNodns), (false, false, false, oNodns), (true, true, true, oExists ||| oNofwd ||| oInconsist), (false, true, true, oNodns ||| oNofwd ||| oInconsist)] : List (Bool × Bool × Bool × Opts)),
    dnsGetter { trans with rdns := ⟨if t.1 then [b!"a.c"] else [], if t.2.1 then [b!"a.c"] else [], if t.2.2.1 then [b!"a.c"] else []⟩ } = t.2.2.2 := by
  decide +kernel

end Sink.RepoTests
