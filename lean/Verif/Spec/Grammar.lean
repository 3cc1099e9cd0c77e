import Verif.Model.Expr
import Verif.Model.Net

/-!
# The documented grammar of rules files

Written from the grammar comment (rparse.go:5-37) and doc.go ("CONTROL RULES").  It relates token sequences to syntax
trees without any parsing strategy: no state, no lookahead, no order of alternatives.  Token positions do not matter.
-/

namespace Sink.Gram

/-- The four families of option words. -/
inductive OptClass
  | addr | helo | dns | dbl
  deriving DecidableEq, Repr

/-- What an option word stands for (doc.go "Attributes of addresses et al", `dbl SRCS`); `none`: not an option word of
this family. -/
def optBits : OptClass → Kw → Option Opts
  | .addr, .unqualified => some oUnqualified
  | .addr, .route => some oRoute
  | .addr, .quoted => some oQuoted
  | .addr, .noat => some oNoat
  | .addr, .garbage => some oGarbage
  | .addr, .bad => some oBad
  | .addr, .domainValid => some oDomainValid
  | .addr, .domainInvalid => some oDomainInvalid
  | .addr, .domainTempfail => some oDomainTempfail
  | .helo, .helo => some oHelo
  | .helo, .ehlo => some oEhlo
  | .helo, .none => some oNone
  | .helo, .nodots => some oNodots
  | .helo, .bareip => some oBareip
  | .helo, .properip => some oProperip
  | .helo, .myip => some oMyip
  | .helo, .remip => some oRemip
  | .helo, .otherip => some oOtherip
  | .helo, .ip => some (oBareip ||| oProperip)
  | .helo, .bogus => some oBogus
  | .dns, .nodns => some oNodns
  | .dns, .inconsistent => some oInconsist
  | .dns, .noforward => some oNofwd
  | .dns, .good => some oGood
  | .dns, .exists => some oExists
  | .dbl, .host => some oHost
  | .dbl, .ehlo => some oEhlo
  | .dbl, .helo => some oEhlo
  | .dbl, .from_ => some oFrom
  | .dbl, .any_ => some (oHost ||| oEhlo ||| oFrom)
  | _, _ => none

/-- A comma separated, non-empty option list and the union of its options. -/
inductive Opts (c : OptClass) : List Item → Sink.Opts → Prop
  | one {it k o} : it.typ = .kw k → optBits c k = some o → Opts c [it] o
  | more {it k o cm ts os} : it.typ = .kw k → optBits c k = some o → cm.typ = .comma → Opts c ts os →
      Opts c (it :: cm :: ts) (o ||| os)

/-- Operators with a general argument (`FROM|TO|HELO|HOST arg`, `SOURCE arg`). -/
inductive ArgOp : Kw → (Str → Expr) → Prop
  | from_ : ArgOp .from_ (.matchN .from_)
  | to : ArgOp .to (.matchN .to)
  | helo : ArgOp .helo (.matchN .helo)
  | ehlo : ArgOp .ehlo (.matchN .helo)
  | host : ArgOp .host (.matchN .host)
  | source : ArgOp .source .source

/-- Operators with an option list. -/
inductive OptOp : Kw → OKind → OptClass → Prop
  | fromHas : OptOp .fromHas .fromHas .addr
  | toHas : OptOp .toHas .toHas .addr
  | heloHas : OptOp .heloHas .heloHas .helo
  | dns : OptOp .dns .dns .dns

/-- An argument is any token with a value: everything but the end of line, the end of the file, and an error. -/
def IsArg (a : Item) : Prop := a.typ ≠ .eol ∧ a.typ ≠ .eof ∧ a.typ ≠ .error

/-- An `ip` argument: a file name, or a value that is an IP address or CIDR. -/
def IsIPArg (L : Lib) (a : Item) : Prop :=
  a.typ = .filename ∨ (a.typ = .value ∧ ((L.parseIP a.val).isSome ∨ (L.parseCIDR a.val).isSome))

/-- `IsDomain a d`: the token is a plain value with a dot in it, and `d` is that value ending in a dot. -/
def IsDomain (a : Item) (d : Str) : Prop :=
  a.typ = .value ∧ c!"." ∈ a.val ∧
    ((∃ p, a.val = p ++ [c!"."]) ∧ d = a.val ∨ (¬ ∃ p, a.val = p ++ [c!"."]) ∧ d = a.val ++ [c!"."])

/-- The expression for a series of operators: a single one stands for itself. -/
def conj : List Expr → Expr
  | [e] => e
  | es => .andL es

mutual
/-- `term` of the grammar. -/
inductive Term (L : Lib) : List Item → Expr → Prop
  | arg {k mk it a} : ArgOp k mk → it.typ = .kw k → IsArg a → Term L [it, a] (mk a.val)
  | ip {it a} : it.typ = .kw .ip → IsIPArg L a → Term L [it, a] (.matchN .ip a.val)
  | dnsbl {it a d} : it.typ = .kw .dnsbl → IsDomain a d → Term L [it, a] (.dnsbl d)
  | tlsOn {it a} : it.typ = .kw .tls → a.typ = .kw .on_ → Term L [it, a] (.tls true)
  | tlsOff {it a} : it.typ = .kw .tls → a.typ = .kw .off → Term L [it, a] (.tls false)
  | all {it} : it.typ = .kw .all → Term L [it] .all
  | has {k ok c it ts o} : OptOp k ok c → it.typ = .kw k → Opts c ts o → Term L (it :: ts) (.optN ok o)
  | dbl {it ts o a d} : it.typ = .kw .dbl → Opts .dbl ts o → IsDomain a d → Term L (it :: (ts ++ [a])) (.dbl o d)
  | not_ {it ts e} : it.typ = .kw .not_ → Term L ts e → Term L (it :: ts) (.notN e)
  | paren {lp ts es rp} : lp.typ = .lparen → Andl L ts es → rp.typ = .rparen → Term L (lp :: (ts ++ [rp])) (conj es)
/-- `orl` of the grammar: terms joined by `or`, grouped to the right. -/
inductive Orl (L : Lib) : List Item → Expr → Prop
  | one {ts e} : Term L ts e → Orl L ts e
  | or {ts l o us r} : Term L ts l → o.typ = .kw .or → Orl L us r → Orl L (ts ++ o :: us) (.orN l r)
/-- `andl` of the grammar: a non-empty series. -/
inductive Andl (L : Lib) : List Item → List Expr → Prop
  | one {ts e} : Orl L ts e → Andl L ts [e]
  | more {ts e us es} : Orl L ts e → Andl L us es → Andl L (ts ++ us) (e :: es)
end

/-- `WTerms w ts w'`: the with options `ts`, read left to right, turn the settings `w` into `w'`.  A repeated option is
not allowed (an empty message, note or savedir does not count as given). -/
inductive WTerms : Withs → List Item → Withs → Prop
  | nil {w} : WTerms w [] w
  | message {w it a ts w'} : it.typ = .kw .message → (w.message = none ∨ w.message = some []) → IsArg a →
      WTerms { w with message := some a.val } ts w' → WTerms w (it :: a :: ts) w'
  | note {w it a ts w'} : it.typ = .kw .note → (w.note = none ∨ w.note = some []) → IsArg a → c!"\n" ∉ a.val →
      WTerms { w with note := some a.val } ts w' → WTerms w (it :: a :: ts) w'
  | savedir {w it a ts w'} : it.typ = .kw .savedir → (w.savedir = none ∨ w.savedir = some []) → IsArg a →
      WTerms { w with savedir := some a.val } ts w' → WTerms w (it :: a :: ts) w'
  | tlsOpt {w it a ts w'} : it.typ = .kw .tlsOpt → w.tlsOpt = none → IsArg a → (a.val = b!"off" ∨ a.val = b!"no-client") →
      WTerms { w with tlsOpt := some a.val } ts w' → WTerms w (it :: a :: ts) w'
  | makeYakker {w it ts w'} : it.typ = .kw .makeYakker → w.makeYakker = none →
      WTerms { w with makeYakker := some [] } ts w' → WTerms w (it :: ts) w'

/-- A clause: `andl [WITH wclause]`. -/
inductive Clause (L : Lib) : List Item → RClause → Prop
  | plain {ts es} : Andl L ts es → Clause L ts ⟨conj es, {}⟩
  | withs {ts es wi us w} : Andl L ts es → wi.typ = .kw .with_ → us ≠ [] → WTerms {} us w →
      Clause L (ts ++ wi :: us) ⟨conj es, w⟩

/-- Clauses separated by `;` or by `;` and an end of line.  A `set-with` clause needs a with option. -/
inductive Clauses (L : Lib) (act : Action) : List Item → List RClause → Prop
  | one {ts c} : Clause L ts c → (act = .noresult → c.withs ≠ {}) → Clauses L act ts [c]
  | more {ts c sc us cs} : Clause L ts c → (act = .noresult → c.withs ≠ {}) → sc.typ = .semicolon →
      Clauses L act us cs → Clauses L act (ts ++ sc :: us) (c :: cs)
  | moreNl {ts c sc nl us cs} : Clause L ts c → (act = .noresult → c.withs ≠ {}) → sc.typ = .semicolon → nl.typ = .eol →
      Clauses L act us cs → Clauses L act (ts ++ sc :: nl :: us) (c :: cs)

/-! ## Phases -/

/-- The later of two phases. -/
def later (a b : Phase) : Phase := if a < b then b else a

/-- The first phase at which the data looked at by an operator is known (doc.go "When rules are checked", "Match
operators and their arguments"). -/
def opNeeds : Expr → Phase
  | .matchN .from_ _ | .matchN .sourceFrom _ | .source _ | .optN .fromHas _ | .tls _ => .mfrom
  | .matchN .helo _ | .optN .heloHas _ => .helo
  | .matchN .to _ | .optN .toHas _ => .rto
  | .dbl o _ => if o &&& oFrom ≠ 0 then .mfrom else if o &&& (oEhlo ||| oHelo) ≠ 0 then .helo else .any
  | _ => .any

mutual
/-- The latest need of all operators in an expression. -/
def needs : Expr → Phase
  | .andL es => needsL es
  | .notN e => needs e
  | .orN l r => later (needs l) (needs r)
  | .all => opNeeds .all
  | .tls b => opNeeds (.tls b)
  | .dnsbl d => opNeeds (.dnsbl d)
  | .matchN k a => opNeeds (.matchN k a)
  | .source a => opNeeds (.source a)
  | .dbl o d => opNeeds (.dbl o d)
  | .optN k o => opNeeds (.optN k o)
def needsL : List Expr → Phase
  | [] => .any
  | e :: es => later (needs e) (needsL es)
end

/-- The latest need of all clauses. -/
def needsC : List RClause → Phase
  | [] => .any
  | c :: cs => later (needs c.expr) (needsC cs)

/-- The explicit phases. -/
inductive PhaseWord : Kw → Phase → Prop
  | connect : PhaseWord .aConnect .connect
  | helo : PhaseWord .aHelo .helo
  | from_ : PhaseWord .aFrom .mfrom
  | to : PhaseWord .aTo .rto
  | data : PhaseWord .aData .data
  | message : PhaseWord .aMessage .message

/-- The actions. -/
inductive ActionWord : Kw → Action → Prop
  | accept : ActionWord .accept .accept
  | reject : ActionWord .reject .reject
  | stall : ActionWord .stall .stall
  | setWith : ActionWord .setWith .noresult

/-- `rule -> [phase] what rclause`, without its end of line.  An explicit phase must not be earlier than needed. -/
inductive RuleG (L : Lib) : List Item → Rule → Prop
  | plain {ai ak a ts cs} : ai.typ = .kw ak → ActionWord ak a → Clauses L a ts cs →
      RuleG L (ai :: ts) ⟨cs, a, needsC cs, .any⟩
  | phased {pi pk ph ai ak a ts cs} : pi.typ = .kw pk → PhaseWord pk ph → ai.typ = .kw ak → ActionWord ak a →
      Clauses L a ts cs → needsC cs ≤ ph → RuleG L (pi :: ai :: ts) ⟨cs, a, needsC cs, ph⟩

/-- One statement and the rules it contributes; `Incl i f rs` says that file `f`, included by statement number `i`,
contributes `rs`. -/
inductive Stmt (L : Lib) (Incl : Nat → Str → List Rule → Prop) (i : Nat) : List Item → List Rule → Prop
  | rule {ts r} : RuleG L ts r → Stmt L Incl i ts [r]
  | incl {it a rs} : it.typ = .kw .include_ → IsArg a → Incl i a.val rs → Stmt L Incl i [it, a] rs

/-- A file: statements, each ended by an end of line; the last one may be ended by the end of the file instead. -/
inductive File (L : Lib) (Incl : Nat → Str → List Rule → Prop) : Nat → List Item → List Rule → Prop
  | eof {i e} : e.typ = .eof → File L Incl i [e] []
  | last {i ts rs e} : Stmt L Incl i ts rs → e.typ = .eof → File L Incl i (ts ++ [e]) rs
  | line {i ts rs nl us qs} : Stmt L Incl i ts rs → nl.typ = .eol → File L Incl (i + 1) us qs →
      File L Incl i (ts ++ nl :: us) (rs ++ qs)

/-- Complete statements, each ended by an end of line; `Lines i ts rs j`: they are numbers `i` up to `j`. -/
inductive Lines (L : Lib) (Incl : Nat → Str → List Rule → Prop) : Nat → List Item → List Rule → Nat → Prop
  | nil {i} : Lines L Incl i [] [] i
  | cons {i ts rs nl us qs j} : Stmt L Incl i ts rs → nl.typ = .eol → Lines L Incl (i + 1) us qs j →
      Lines L Incl i (ts ++ nl :: us) (rs ++ qs) j

/-- What a file contributes: its text is a file of the grammar, and each include contributes what the included file does.
At most `d` files may be open at a time.  Every read is answered by `fs` afresh. -/
def Contributes (L : Lib) (fs : List Nat → Str → Option Str) : Nat → List Nat → Str → List Rule → Prop
  | 0, _, _, _ => False
  | d + 1, path, f, rs => ∃ b toks, fs path f = some b ∧ lex b = .ok toks ∧
      File L (fun i g qs => Contributes L fs d (i :: path) g qs) 0 toks rs

end Sink.Gram
