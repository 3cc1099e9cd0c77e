import Verif.Model.Expr
import Verif.Model.Net

/-!
# The rules parser (rparse.go)

The lexer goroutine and channel are replaced by the list of items it sends (`lex`); see `Model/Pipe.lean` for the
goroutine itself.  `curtok` is `cur`, the items not yet received are `rest`, and `currule.requires` is `req`.
-/

namespace Sink

/-- A parser function fails with a Go `error` (its text) or a panic. -/
inductive Fail
  | err (msg : Str)
  | panic (p : Panic)
  deriving DecidableEq, Repr

/-- The parts of `parser` (rparse.go:53-57) that expression parsing touches. -/
structure PSt where
  cur : Item
  rest : List Item
  req : Phase
  deriving DecidableEq, Repr

/-- What stays fixed during a parse: the input (`p.l.input`, for error positions), and the net library. -/
structure PEnv where
  inp : Str
  lib : Lib

/-- The result type of parser functions: a value and the new state, or a failure. -/
scoped notation:max "PRes " α:max => Except Fail (α × PSt)

/-- `consume`, rparse.go:60-72.  Receiving from the closed channel yields the zero item. -/
def consume (s : PSt) : Except Fail PSt :=
  match s.cur.typ with
  | .eof => .ok s
  | .error => .error (.panic .consumeError)
  | _ => match s.rest with
    | [] => .ok { s with cur := Item.zero }
    | t :: r => .ok { s with cur := t, rest := r }

/-- `isEol`, rparse.go:75-77. -/
def isEol (s : PSt) : Bool := s.cur.typ = .eol ∨ s.cur.typ = .eof

/-- `isERule`, rparse.go:80-82. -/
def isERule (s : PSt) : Bool := isEol s ∨ s.cur.typ = .semicolon

/-- "at line %d char %d: " -/
def atLineChar (ln lp : Nat) : Str := b!"at line " ++ decDigits ln ++ b!" char " ++ decDigits lp ++ b!": "

/-- `genError`, rparse.go:87-106. -/
def genError (E : PEnv) (s : PSt) (msg : Str) : Fail :=
  match lineInfo E.inp s.cur.pos with
  | .error p => .panic p
  | .ok (ln, lp) =>
    match s.cur.typ with
    | .error => .err (atLineChar ln lp ++ b!"lexing error: " ++ s.cur.val)
    | .eof => .err (atLineChar ln lp ++ msg ++ b!", found unexpected end of file")
    | .eol => .err (atLineChar ln lp ++ msg ++ b!", found unexpected end of line")
    | _ => .err (atLineChar ln lp ++ msg ++ b!", found '" ++ s.cur.val ++ b!"'")

/-- `lineError`, rparse.go:107-111. -/
def lineError (E : PEnv) (s : PSt) (msg : Str) : Fail :=
  match lineInfo E.inp s.cur.pos with
  | .error p => .panic p
  | .ok (ln, _) => .err (b!"at line " ++ decDigits ln ++ b!": " ++ msg)

/-- `posError`, rparse.go:112-116. -/
def posError (E : PEnv) (s : PSt) (msg : Str) : Fail :=
  match lineInfo E.inp s.cur.pos with
  | .error p => .panic p
  | .ok (ln, lp) => .err (atLineChar ln lp ++ msg)

/-- `pArg`, rparse.go:151-158. -/
def pArg (E : PEnv) (s : PSt) : PRes Str :=
  if s.cur.typ.hasValue then do
    let s' ← consume s
    return (s.cur.val, s')
  else .error (genError E s b!"expected argument")

/-- `pDomain`, rparse.go:163-177.  `arg[len(arg)-1]` cannot be out of range: `arg` contains a dot. -/
def pDomain (E : PEnv) (s : PSt) : PRes Str :=
  if s.cur.typ ≠ .value then .error (genError E s b!"expected dnsbl domain")
  else
    let arg := s.cur.val
    match indexByte arg c!"." with
    | none => .error (posError E s b!"theoretical dnsbl domain contains no '.'")
    | some _ =>
      match arg.getLast? with
      | none => .error (.panic .index)
      | some c => do
        let s' ← consume s
        return (if c ≠ c!"." then arg ++ b!"." else arg, s')

/-- `pIPArg`, rparse.go:183-200. -/
def pIPArg (E : PEnv) (s : PSt) : PRes Str :=
  match s.cur.typ with
  | .filename => do
    let s' ← consume s
    return (s.cur.val, s')
  | .value =>
    if (E.lib.parseCIDR s.cur.val).isNone ∧ (E.lib.parseIP s.cur.val).isNone then
      .error (genError E s b!"argument is not a valid IP address or CIDR")
    else do
      let s' ← consume s
      return (s.cur.val, s')
  | _ => .error (genError E s b!"expected IP address, CIDR, or filename")

/-- `pOnOff`, rparse.go:203-214. -/
def pOnOff (E : PEnv) (s : PSt) : PRes Bool :=
  match s.cur.typ with
  | .kw .on_ => do
    let s' ← consume s
    return (true, s')
  | .kw .off => do
    let s' ← consume s
    return (false, s')
  | _ => .error (posError E s b!"expected on or off")

/-- `minReq`, rparse.go:231-243; `pAny` where the map has no entry. -/
def minReq : Kw → Phase
  | .from_ => .mfrom | .helo => .helo | .ehlo => .helo | .to => .rto
  | .fromHas => .mfrom | .toHas => .rto | .heloHas => .helo
  | .source => .mfrom
  | .tls => .mfrom
  | _ => .any

/-- `heloMap`, rparse.go:247-252. -/
def heloMap : Kw → Opts
  | .helo => oHelo | .ehlo => oEhlo | .none => oNone | .nodots => oNodots
  | .bareip => oBareip | .properip => oProperip | .myip => oMyip
  | .remip => oRemip | .otherip => oOtherip | .ip => oIp
  | .bogus => oBogus
  | _ => oZero

/-- `dnsMap`, rparse.go:253-256. -/
def dnsMap : Kw → Opts
  | .nodns => oNodns | .inconsistent => oInconsist | .noforward => oNofwd
  | .good => oGood | .exists => oExists
  | _ => oZero

/-- `addrMap`, rparse.go:257-262. -/
def addrMap : Kw → Opts
  | .unqualified => oUnqualified | .route => oRoute | .quoted => oQuoted
  | .noat => oNoat | .garbage => oGarbage | .bad => oBad
  | .domainValid => oDomainValid | .domainInvalid => oDomainInvalid
  | .domainTempfail => oDomainTempfail
  | _ => oZero

/-- `dblMap`, rparse.go:268-271. -/
def dblMap : Kw → Opts
  | .host => oHost | .ehlo => oEhlo | .helo => oEhlo | .from_ => oFrom
  | .any_ => oAny
  | _ => oZero

/-- `m[ct]` for an item type that need not be a keyword. -/
def optFor (m : Kw → Opts) : Tok → Opts
  | .kw k => m k
  | _ => oZero

/-- `pCommaOpts`, rparse.go:286-301; fuel bounds the loop. -/
def pCommaOpts (E : PEnv) (m : Kw → Opts) : Nat → Opts → PSt → PRes Opts
  | 0, _, _ => .error (.panic .fuel)
  | n + 1, opt, s =>
    if optFor m s.cur.typ = oZero then .error (genError E s b!"expected valid option")
    else do
      let opt := opt ||| optFor m s.cur.typ
      let s ← consume s
      if s.cur.typ = .comma then
        let s ← consume s
        pCommaOpts E m n opt s
      else return (opt, s)

/-- `pDblArgs`, rparse.go:218-225. -/
def pDblArgs (E : PEnv) (n : Nat) (s : PSt) : PRes (Opts × Str) := do
  let (opt, s) ← pCommaOpts E dblMap n oZero s
  let (arg, s) ← pDomain E s
  return ((opt, arg), s)

/-- `p.currule.requires = max(p.currule.requires, ph)`, rparse.go:315-317, 402-404. -/
def bump (s : PSt) (ph : Phase) : PSt := if ph ≠ .any ∧ ph > s.req then { s with req := ph } else s

/-- The phase a dbl node needs, rparse.go:393-401. -/
def dblPhase (opts : Opts) : Phase :=
  if opts &&& oFrom = oFrom then .mfrom
  else if opts &&& oEhlo = oEhlo then .helo
  else .any

/-- `from`, `to`, `helo`, `ehlo`, `host`, `source`: consume the keyword and take an argument, rparse.go:329-331, 365-374. -/
def pArgTerm (E : PEnv) (mk : Str → Expr) (s : PSt) : PRes (Option Expr) := do
  let s ← consume s
  let (a, s) ← pArg E s
  return (some (mk a), s)

/-- `from-has` etc.: consume the keyword and take options, rparse.go:345-347, 379-386. -/
def pOptTerm (E : PEnv) (n : Nat) (m : Kw → Opts) (k : OKind) (s : PSt) : PRes (Option Expr) := do
  let s ← consume s
  let (o, s) ← pCommaOpts E m n oZero s
  return (some (.optN k o), s)

/-- `pTerm` after the `not` and `(` cases, rparse.go:314-411.  The two switches on `ct` are merged: in the Go code the
second one is only reached with the `ct` of the first. -/
def pAtom (E : PEnv) (n : Nat) (s : PSt) : PRes (Option Expr) :=
  match s.cur.typ with
  | .kw k =>
    let s := bump s (minReq k)
    match k with
    | .from_ => pArgTerm E (.matchN .from_) s
    | .to => pArgTerm E (.matchN .to) s
    | .helo => pArgTerm E (.matchN .helo) s
    | .ehlo => pArgTerm E (.matchN .helo) s
    | .host => pArgTerm E (.matchN .host) s
    | .source => pArgTerm E .source s
    | .ip => do
      let s ← consume s
      let (a, s) ← pIPArg E s
      return (some (.matchN .ip a), s)
    | .dnsbl => do
      let s ← consume s
      let (a, s) ← pDomain E s
      return (some (.dnsbl a), s)
    | .tls => do
      let s ← consume s
      let (b, s) ← pOnOff E s
      return (some (.tls b), s)
    | .all => do
      let s ← consume s
      return (some .all, s)
    | .fromHas => pOptTerm E n addrMap .fromHas s
    | .toHas => pOptTerm E n addrMap .toHas s
    | .dns => pOptTerm E n dnsMap .dns s
    | .heloHas => pOptTerm E n heloMap .heloHas s
    | .dbl => do
      let s ← consume s
      let ((o, a), s) ← pDblArgs E n s
      return (some (.dbl o a), bump s (dblPhase o))
    | _ => .ok (none, s)
  | _ => .ok (none, s)

/-- `pNot`, rparse.go:119-130, given `pTerm`. -/
def pNot (E : PEnv) (term : PSt → PRes (Option Expr)) (s : PSt) : PRes (Option Expr) := do
  let s ← consume s
  let (e, s) ← term s
  match e with
  | none => .error (genError E s b!"expected something to NOT")
  | some e => return (some (.notN e), s)

/-- `pParen`, rparse.go:133-147, given `pAndl`. -/
def pParen (E : PEnv) (andl : PSt → PRes (Option Expr)) (s : PSt) : PRes (Option Expr) := do
  let s ← consume s
  let (e, s) ← andl s
  if s.cur.typ ≠ .rparen then .error (genError E s b!"expecting closing ')'")
  else match e with
    | none => .error (posError E s b!"empty parenthesized expression")
    | some e => do
      let s ← consume s
      return (some e, s)

/-- The end of `pAndl`, rparse.go:464-474. -/
def mkAnd : List Expr → Option Expr
  | [] => none
  | [e] => some e
  | es => some (.andL es)

mutual
/-- `pTerm`, rparse.go:305-411. -/
def pTerm (E : PEnv) : Nat → PSt → PRes (Option Expr)
  | 0, _ => .error (.panic .fuel)
  | n + 1, s =>
    match s.cur.typ with
    | .kw .not_ => pNot E (pTerm E n) s
    | .lparen => pParen E (fun s => pAndl E n [] s) s
    | _ => pAtom E n s
/-- `pOrl`, rparse.go:414-444. -/
def pOrl (E : PEnv) : Nat → PSt → PRes (Option Expr)
  | 0, _ => .error (.panic .fuel)
  | n + 1, s => do
    let (l, s) ← pTerm E n s
    if s.cur.typ ≠ .kw .or then return (l, s)
    else match l with
      | none => .error (posError E s b!"empty left side of an or")
      | some l => do
        let s ← consume s
        let (r, s) ← pOrl E n s
        match r with
        | none =>
          if isERule s ∨ s.cur.typ = .rparen then .error (posError E s b!"empty right side of an OR")
          else .error (genError E s b!"expecting match operation")
        | some r => return (some (.orN l r), s)
/-- `pAndl`, rparse.go:448-475, with the nodes collected so far. -/
def pAndl (E : PEnv) : Nat → List Expr → PSt → PRes (Option Expr)
  | 0, _, _ => .error (.panic .fuel)
  | n + 1, acc, s => do
    let (e, s) ← pOrl E n s
    match e with
    | none => return (mkAnd acc, s)
    | some e => pAndl E n (acc ++ [e]) s
end

/-- `pWClause`, rparse.go:480-525.  `cv`, the text of the keyword token, is the keyword's name, so the map `withs` is the
record `Withs`.  The Boolean is `gotone`. -/
def pWClause (E : PEnv) : Nat → Withs → Bool → PSt → PRes (Withs × Bool)
  | 0, _, _, _ => .error (.panic .fuel)
  | n + 1, w, got, s =>
    let repeated := posError E s (b!"repeated '" ++ s.cur.val ++ b!"' option in with clause")
    match s.cur.typ with
    | .kw .message =>
      if w.message.getD [] ≠ [] then .error repeated
      else do
        let s ← consume s
        let (a, s) ← pArg E s
        pWClause E n { w with message := some a } true s
    | .kw .note =>
      if w.note.getD [] ≠ [] then .error repeated
      else do
        let s ← consume s
        let (a, s) ← pArg E s
        if (indexByte a c!"\n").isSome then .error (posError E s b!"note contains embedded newline")
        else pWClause E n { w with note := some a } true s
    | .kw .savedir =>
      if w.savedir.getD [] ≠ [] then .error repeated
      else do
        let s ← consume s
        let (a, s) ← pArg E s
        pWClause E n { w with savedir := some a } true s
    | .kw .tlsOpt =>
      if w.tlsOpt.isSome then .error repeated
      else do
        let s ← consume s
        -- when `pArg` fails its `arg` is "", and the illegal-option error is the one reported (rparse.go:505-508)
        match pArg E s with
        | .error (.panic p) => .error (.panic p)
        | .error (.err _) => .error (posError E s b!"illegal tls-opt option '' in with clause")
        | .ok (a, s) =>
          if a ≠ b!"off" ∧ a ≠ b!"no-client" then
            .error (posError E s (b!"illegal tls-opt option '" ++ a ++ b!"' in with clause"))
          else pWClause E n { w with tlsOpt := some a } true s
    | .kw .makeYakker =>
      if w.makeYakker.isSome then .error repeated
      else do
        let s ← consume s
        pWClause E n { w with makeYakker := some [] } true s
    | _ => return ((w, got), s)

/-- `pWith`, rparse.go:528-544, on a clause without with options. -/
def pWith (E : PEnv) (n : Nat) (s : PSt) : PRes Withs :=
  if s.cur.typ ≠ .kw .with_ then .ok ({}, s)
  else do
    let s ← consume s
    let ((w, good), s) ← pWClause E n {} false s
    if isERule s ∧ !good then .error (posError E s b!"empty with clause")
    else if !isERule s then .error (genError E s b!"expecting a with clause")
    else return (w, s)

/-- `phases`, rparse.go:547-551. -/
def phaseOf : Tok → Phase
  | .kw .aConnect => .connect
  | .kw .aHelo => .helo | .kw .aFrom => .mfrom | .kw .aTo => .rto | .kw .aData => .data
  | .kw .aMessage => .message
  | _ => .any

/-- `pPhase`, rparse.go:553-559: the explicit phase, if any. -/
def pPhase (s : PSt) : PRes Phase :=
  if phaseOf s.cur.typ ≠ .any then do
    let s' ← consume s
    return (phaseOf s.cur.typ, s')
  else .ok (.any, s)

/-- `pRClause`, rparse.go:563-605; `result` is `currule.result`, `cls` are the clauses so far. -/
def pRClause (E : PEnv) (result : Action) (n : Nat) : Nat → List RClause → PSt → PRes (List RClause)
  | 0, _, _ => .error (.panic .fuel)
  | k + 1, cls, s => do
    let (e, s) ← pAndl E n [] s
    let (w, s) ← pWith E n s
    if !isERule s then .error (genError E s b!"expecting an operation or 'with'")
    else match e with
      | none => .error (lineError E s b!"rule needs at least one operation, perhaps 'all'")
      | some e =>
        if result = .noresult ∧ w.isEmpty then .error (lineError E s b!"'set-with' rule with no with options")
        else if isEol s then return (cls ++ [⟨e, w⟩], s)
        else do
          let s ← consume s
          if s.cur.typ = .eol then
            let s ← consume s
            pRClause E result n k (cls ++ [⟨e, w⟩]) s
          else pRClause E result n k (cls ++ [⟨e, w⟩]) s

/-- `actions`, rparse.go:611-614. -/
def actionOf : Tok → Action
  | .kw .accept => .accept | .kw .reject => .reject | .kw .stall => .stall
  | .kw .setWith => .noresult
  | _ => .error

/-- `pRule`, rparse.go:616-650. -/
def pRule (E : PEnv) (n : Nat) (s : PSt) : PRes (Option Rule) :=
  let s := { s with req := .any }
  if s.cur.typ = .eof then .ok (none, s)
  else do
    let (deferto, s) ← pPhase s
    let result := actionOf s.cur.typ
    if result = .error then .error (genError E s b!"expecting an action")
    else do
      let s ← consume s
      let (cls, s) ← pRClause E result n n [] s
      if deferto ≠ .any ∧ deferto < s.req then
        .error (lineError E s b!"rule specifies a phase lower than its operations require so we cannot satisfy the phase requirement")
      else do
        let req := s.req
        let s ← consume s
        return (some ⟨cls, result, req, deferto⟩, s)

/-- `pInclude`, rparse.go:655-670.  `load` is `loadRules`. -/
def pInclude (E : PEnv) (load : Str → Except Fail (List Rule)) (s : PSt) : PRes (List Rule) := do
  let s ← consume s
  let (fname, s) ← pArg E s
  match load fname with
  | .error (.panic p) => .error (.panic p)
  | .error (.err m) => .error (lineError E s (b!"while including '" ++ fname ++ b!"': " ++ m))
  | .ok rules =>
    if !isEol s then .error (genError E s b!"expecting end of line")
    else do
      let s ← consume s
      return (rules, s)

/-- `pFile`, rparse.go:673-695.  `k` bounds the number of statements; `i` is the number of statements already seen and
identifies an include statement to the file oracle. -/
def pFile (E : PEnv) (load : Nat → Str → Except Fail (List Rule)) (n : Nat) : Nat → Nat → List Rule → PSt → Except Fail (List Rule)
  | 0, _, _, _ => .error (.panic .fuel)
  | k + 1, i, rules, s =>
    if s.cur.typ = .kw .include_ then do
      let (rl, s) ← pInclude E (load i) s
      pFile E load n k (i + 1) (rules ++ rl) s
    else do
      let (r, s) ← pRule E n s
      let rules := match r with
        | some r => rules ++ [r]
        | none => rules
      if s.cur.typ = .eof then return rules
      else pFile E load n k (i + 1) rules s

/-- `Parse`, rparse.go:699-711, with `loadRules` as a parameter.  The fuel is derived from the number of tokens. -/
def parseWith (L : Lib) (load : Nat → Str → Except Fail (List Rule)) (input : Str) : Except Fail (List Rule) :=
  match lex input with
  | .error p => .error (.panic p)
  | .ok its =>
    let n := 3 * its.length + 3
    pFile ⟨input, L⟩ load n n 0 [] ⟨its.headD Item.zero, its.tail, .any⟩

/-- Outcome of reading a file (sinksmtp.go:113-121, 136-144). -/
inductive FileRead
  | notExist (msg : Str)
  | openErr (msg : Str)
  | readErr (msg : Str)
  | data (b : Str)
  deriving DecidableEq, Repr

/-- What the file system answers during one parse.  Each read is identified by its place in the include tree (the path
of statement numbers, innermost first), so a file may answer differently each time it is read. -/
abbrev Files := List Nat → Str → FileRead

/-- `loadRules`, sinksmtp.go:135-150.  `d` is the number of file descriptors still available: the file stays open while
its includes are processed (sinksmtp.go:140). -/
def loadRules (L : Lib) (fs : Files) : Nat → List Nat → Str → Except Fail (List Rule)
  | 0, _, _ => .error (.err b!"too many open files")
  | d + 1, path, fname =>
    match fs path fname with
    | .notExist m | .openErr m | .readErr m => .error (.err m)
    | .data b =>
      match parseWith L (fun i f => loadRules L fs d (i :: path) f) b with
      | .error (.err m) => .error (.err (b!"rules parsing error " ++ m))
      | r => r

/-- `Parse` (rparse.go:699) in a process with `d` free file descriptors. -/
def parse (L : Lib) (fs : Files) (d : Nat) (path : List Nat) (input : Str) : Except Fail (List Rule) :=
  parseWith L (fun i f => loadRules L fs d (i :: path) f) input

end Sink
