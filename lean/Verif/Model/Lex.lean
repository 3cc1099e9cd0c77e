import Verif.Model.Bytes

/-!
# The rules lexer (rlex.go)

The Go lexer is a set of state functions over `(input, pos, start)`.  The model keeps the unread input
`rest = input[pos:]` and the offset `pos`; `start = pos` holds at entry of every state function
(rlex.go:390, 431, 470-476), so `start` is not a separate field.  The channel `items` becomes the list of emitted items.
-/

namespace Sink

/-- Run-time panics of the Go code, as values. -/
inductive Panic
  | index        -- index or slice bounds out of range
  | nilDeref     -- nil pointer dereference
  | consumeError -- panic("trying to consume an error"), rparse.go:69
  | impossible   -- panic("should be impossible") and friends
  | fuel         -- model artefact: a fuel bound was too small (proved unreachable)
  deriving DecidableEq, Repr

/-- The keyword item types, rlex.go:81-151, named after the Go constants. -/
inductive Kw
  | include_ | aConnect | aHelo | aFrom | aTo | aData | aMessage
  | accept | reject | stall | setWith | or | not_
  | all | from_ | to | helo | host | fromHas | toHas | heloHas | tls | dns | ip | dnsbl | source | dbl
  | with_ | message | note | savedir | tlsOpt | makeYakker
  | ehlo | none | bogus | nodots | bareip | properip | myip | remip | otherip
  | nodns | inconsistent | noforward | unqualified | route | quoted | noat | garbage
  | domainValid | domainInvalid | domainTempfail | bad | on_ | off | good | exists | any_
  deriving DecidableEq, Repr

/-- `itemType`, rlex.go:55-155.  `itemHasValue`, `itemKeywords`, `itemMaxItem` are only range markers. -/
inductive Tok
  | error | eof | eol
  | comma | lparen | rparen | semicolon
  | value | filename
  | kw (k : Kw)
  deriving DecidableEq, Repr

/-- `typ < itemHasValue` is false, i.e. the item may be used as an argument (rlex.go:55-72, rparse.go:152). -/
def Tok.hasValue : Tok → Bool
  | .error | .eof | .eol => false
  | _ => true

/-- `item`, rlex.go:45-49. -/
structure Item where
  typ : Tok
  val : Str
  pos : Nat
  deriving DecidableEq, Repr

/-- The zero `item`, what a receive from the closed channel yields (rlex.go:334-337). -/
def Item.zero : Item := ⟨.error, [], 0⟩

/-- `keywords`, rlex.go:159-231. -/
def keywords : List (Str × Kw) := [
  (b!"include", .include_),
  (b!"@connect", .aConnect), (b!"@helo", .aHelo), (b!"@from", .aFrom), (b!"@to", .aTo),
  (b!"@data", .aData), (b!"@message", .aMessage),
  (b!"accept", .accept), (b!"reject", .reject), (b!"stall", .stall), (b!"set-with", .setWith),
  (b!"or", .or), (b!"not", .not_),
  (b!"all", .all), (b!"from", .from_), (b!"to", .to), (b!"helo", .helo), (b!"host", .host),
  (b!"from-has", .fromHas), (b!"to-has", .toHas), (b!"helo-has", .heloHas), (b!"tls", .tls),
  (b!"dns", .dns), (b!"ip", .ip), (b!"dnsbl", .dnsbl), (b!"source", .source), (b!"dbl", .dbl),
  (b!"with", .with_), (b!"message", .message), (b!"note", .note), (b!"savedir", .savedir),
  (b!"tls-opt", .tlsOpt), (b!"make-yakker", .makeYakker),
  (b!"ehlo", .ehlo), (b!"none", .none), (b!"bogus", .bogus), (b!"nodots", .nodots),
  (b!"bareip", .bareip), (b!"properip", .properip), (b!"myip", .myip), (b!"remip", .remip),
  (b!"otherip", .otherip), (b!"nodns", .nodns), (b!"inconsistent", .inconsistent),
  (b!"noforward", .noforward), (b!"unqualified", .unqualified), (b!"route", .route),
  (b!"quoted", .quoted), (b!"noat", .noat), (b!"garbage", .garbage),
  (b!"resolves", .domainValid), (b!"baddom", .domainInvalid), (b!"unknown", .domainTempfail),
  (b!"bad", .bad), (b!"on", .on_), (b!"off", .off), (b!"good", .good), (b!"exists", .exists),
  (b!"any", .any_)]

/-- `keywords[v]`; `none` is the zero value `itemError`. -/
def keyword? (v : Str) : Option Kw := keywords.lookup v

/-- `specials` without the `eof` entry (rlex.go:252-259); `eof` is handled where the input is empty. -/
def special? (c : Byte) : Option Tok :=
  if c = c!"," then some .comma
  else if c = c!"(" then some .lparen
  else if c = c!")" then some .rparen
  else if c = c!";" then some .semicolon
  else if c = c!"\n" then some .eol
  else none

/-- Membership in `specialChars = "(),;\n \t"`, rlex.go:261. -/
def isSpecialChar (c : Byte) : Bool := b!"(),;\n \t".contains c

/-- Lexer position: `rest = input[pos:]`. -/
structure LexSt where
  rest : Str
  pos : Nat
  deriving DecidableEq, Repr

/-- The state functions, rlex.go:373-587.  A `nil` stateFn is `none`. -/
inductive LexFn
  | lineStart | lineRunning | special | word | quote | comment
  deriving DecidableEq, Repr

/-- A state function's effect: items emitted, next state function, new position. -/
structure LexOut where
  items : List Item
  next : Option LexFn
  st : LexSt
  deriving DecidableEq, Repr

/-- The loop of `skipWhitespace`, rlex.go:379-386, on unread input and offset. -/
def skipWsLoop : Str → Nat → LexSt
  | [], p => ⟨[], p⟩
  | c :: r, p => if c = c!" " ∨ c = c!"\t" then skipWsLoop r (p + 1) else ⟨c :: r, p⟩

/-- `skipWhitespace`, rlex.go:378-387. -/
def skipWs (s : LexSt) : LexSt := skipWsLoop s.rest s.pos

/-- `n == ' ' || n == '\t' || n == '\n' || n == eof` on the peeked character, rlex.go:419. -/
def commaStop : Str → Bool
  | [] => true
  | c :: _ => c = c!" " ∨ c = c!"\t" ∨ c = c!"\n"

/-- `lexSpecial`, rlex.go:393-427.  Called only on a special character or at the end of input; on any other byte
`specials[r]` is the zero value `itemError`, which the model keeps. -/
def lexSpecial (s : LexSt) : LexOut :=
  match s.rest with
  | [] => ⟨[⟨.eof, [], s.pos⟩], none, s⟩
  | c :: r =>
    let s' : LexSt := ⟨r, s.pos + 1⟩
    let it : Item := ⟨(special? c).getD .error, [c], s.pos⟩
    if c = c!"\n" then ⟨[it], some .lineStart, s'⟩
    else if c = c!"," ∧ commaStop r then
      ⟨[it, ⟨.error, b!"comma followed by whitespace, EOL, or EOF", s.pos + 1⟩], none, s'⟩
    else ⟨[it], some .lineRunning, s'⟩

/-- `lexWord`, rlex.go:432-457.  An empty word would make `v[0]` panic. -/
def lexWord (s : LexSt) : Except Panic LexOut :=
  let v := s.rest.takeWhile (fun c => !isSpecialChar c)
  let s' : LexSt := ⟨s.rest.drop v.length, s.pos + v.length⟩
  match keyword? v with
  | some k => .ok ⟨[⟨.kw k, v, s.pos⟩], some .lineRunning, s'⟩
  | none =>
    match v with
    | [] => .error .index
    | c :: _ =>
      if c = c!"/" ∨ hasPrefix v b!"./" then
        .ok ⟨[⟨.filename, v, s.pos⟩], some .lineRunning, s'⟩
      else if hasPrefix v b!"file:" then
        if v.length ≤ 5 then .ok ⟨[⟨.error, b!"'file:' with no filename", s.pos⟩], none, s'⟩
        else .ok ⟨[⟨.filename, v, s.pos⟩], some .lineRunning, s'⟩
      else .ok ⟨[⟨.value, v, s.pos⟩], some .lineRunning, s'⟩

/-- The scanning loop of `lexQuote`, rlex.go:476-510, from just after the opening quote.  The loop accumulates
`qparts`; here the value is built byte by byte: a closing quote ends it, `\"` and `\\` give the second byte, any other
backslash stands for itself.  `none` means end of input (unterminated).  Result: value and remaining input. -/
def scanQuote : Str → Option (Str × Str)
  | [] => none
  | [c] => if c = c!"\"" then some ([], []) else none
  | c :: d :: r =>
    if c = c!"\"" then some ([], d :: r)
    else if c = c!"\\" ∧ (d = c!"\"" ∨ d = c!"\\") then (scanQuote r).map (fun (v, t) => (d :: v, t))
    else (scanQuote (d :: r)).map (fun (v, t) => (c :: v, t))

/-- `lexQuote`, rlex.go:463-515.  Entered with the opening quote not consumed. -/
def lexQuote (s : LexSt) : LexOut :=
  match s.rest with
  | [] => ⟨[⟨.error, b!"unterminated quoted value", s.pos⟩], none, s⟩
  | _ :: q =>
    match scanQuote q with
    | some (v, t) => ⟨[⟨.value, v, s.pos⟩], some .lineRunning, ⟨t, s.pos + (s.rest.length - t.length)⟩⟩
    | none => ⟨[⟨.error, b!"unterminated quoted value", s.pos⟩], none, s⟩

/-- `lexLineRunning`, rlex.go:521-536. -/
def lexLineRunning (s : LexSt) : LexOut :=
  let s := skipWs s
  match s.rest with
  | [] => ⟨[], some .special, s⟩
  | c :: r =>
    if c = c!"\\" ∧ r.head? = some c!"\n" then ⟨[], some .lineRunning, ⟨r.drop 1, s.pos + 2⟩⟩
    else if (special? c).isSome then ⟨[], some .special, s⟩
    else if c = c!"\"" then ⟨[], some .quote, s⟩
    else ⟨[], some .word, s⟩

/-- `lexComment`, rlex.go:539-547: to the newline (not consumed) or the end of input. -/
def lexComment (s : LexSt) : LexOut :=
  let t := s.rest.dropWhile (fun c => c != c!"\n")
  ⟨[], some .lineStart, ⟨t, s.pos + (s.rest.length - t.length)⟩⟩

/-- `lexLineStart`, rlex.go:556-587. -/
def lexLineStart (s : LexSt) : LexOut :=
  let s := skipWs s
  match s.rest with
  | [] => ⟨[], some .special, s⟩
  | c :: r =>
    if c ≠ c!"\n" ∧ (special? c).isSome then ⟨[], some .special, s⟩
    else if c = c!"\"" then ⟨[], some .quote, s⟩
    else if c = c!"#" then ⟨[], some .comment, ⟨r, s.pos + 1⟩⟩
    else if c = c!"\\" then
      if r.head? = some c!"\n" then ⟨[], some .lineStart, ⟨r.drop 1, s.pos + 2⟩⟩
      else ⟨[], some .word, s⟩
    else if c = c!"\n" then ⟨[], some .lineStart, ⟨r, s.pos + 1⟩⟩
    else ⟨[], some .word, s⟩

/-- Dispatch on the state function. -/
def lexStep : LexFn → LexSt → Except Panic LexOut
  | .lineStart, s => .ok (lexLineStart s)
  | .lineRunning, s => .ok (lexLineRunning s)
  | .special, s => .ok (lexSpecial s)
  | .word, s => lexWord s
  | .quote, s => .ok (lexQuote s)
  | .comment, s => .ok (lexComment s)

/-- `(*lexer).run`, rlex.go:325-330: iterate the state functions, collecting the items sent on the channel.
`fuel` bounds the number of iterations; `Props.C01` shows `lex` never runs out. -/
def lexRun : Nat → LexFn → LexSt → Except Panic (List Item)
  | 0, _, _ => .error .fuel
  | n + 1, f, s =>
    match lexStep f s with
    | .error p => .error p
    | .ok o =>
      match o.next with
      | none => .ok o.items
      | some f' =>
        match lexRun n f' o.st with
        | .error p => .error p
        | .ok its => .ok (o.items ++ its)

/-- `lex(input)` followed by reading all items (rlex.go:364-371). -/
def lex (input : Str) : Except Panic (List Item) :=
  lexRun (3 * input.length + 3) .lineStart ⟨input, 0⟩

/-- The backwards loop of `lineInfo`, rlex.go:356-358: bytes after the last newline. -/
def lineCol (before : Str) : Nat := (before.reverse.takeWhile (fun c => c != c!"\n")).length

/-- `lineInfo`, rlex.go:354-360.  `l.input[:pos]` panics if `pos` is beyond the input. -/
def lineInfo (input : Str) (pos : Nat) : Except Panic (Nat × Nat) :=
  if input.length < pos then .error .index
  else .ok (1 + (input.take pos).count c!"\n", 1 + lineCol (input.take pos))

end Sink
