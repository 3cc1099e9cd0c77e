import Verif.Spec.Place

/-!
# What the errors of rules files claim

Each complaint about a rules file is a claim about the words of the statement it is in: the words `part` before the word
named, and this word `t`.  `Wants`, `Objects` and `OfRule` give the texts of the complaints with what they claim, in terms
of the grammar (`Spec/Grammar.lean`).
-/

namespace Sink.Spec

open Gram

/-- The word begins a match operation. -/
def Begins (t : Item) : Prop := ∃ L it ts e, it.typ = t.typ ∧ Term L (it :: ts) e

/-- The end of a statement. -/
def EndsStmt (t : Item) : Prop := t.typ = .eol ∨ t.typ = .eof

/-- The end of a clause. -/
def EndsClause (t : Item) : Prop := EndsStmt t ∨ t.typ = .semicolon

/-- Words that take one argument of any kind. -/
inductive TakesArg : Kw → Prop
  | op {k mk} : ArgOp k mk → TakesArg k
  | message : TakesArg .message
  | note : TakesArg .note
  | savedir : TakesArg .savedir
  | include_ : TakesArg .include_

/-- Words that take a list of options. -/
inductive TakesOpts : Kw → OptClass → Prop
  | has {k ok c} : OptOp k ok c → TakesOpts k c
  | dbl : TakesOpts .dbl .dbl

/-- The word is an option of the family. -/
def IsOpt (c : OptClass) (t : Item) : Prop := ∃ k o, t.typ = .kw k ∧ optBits c k = some o

/-- Words up to the place of a blocklist domain. -/
inductive DomainNext : List Item → Prop
  | dnsbl {k} : k.typ = .kw .dnsbl → DomainNext [k]
  | dbl {k ts o} : k.typ = .kw .dbl → Gram.Opts .dbl ts o → DomainNext (k :: ts)

/-- The words of a rule up to a place where a clause begins: phase, action, and the clauses before. -/
inductive Opening (L : Lib) : Action → List Item → Prop
  | plain {ai ak a} : ai.typ = .kw ak → ActionWord ak a → Opening L a [ai]
  | phased {pi pk ph ai ak a} : pi.typ = .kw pk → PhaseWord pk ph → ai.typ = .kw ak → ActionWord ak a → Opening L a [pi, ai]
  | semi {a p ts c sc} : Opening L a p → Clause L ts c → (a = .noresult → c.withs ≠ {}) → sc.typ = .semicolon → Opening L a (p ++ ts ++ [sc])
  | semiNl {a p ts c sc nl} : Opening L a p → Clause L ts c → (a = .noresult → c.withs ≠ {}) → sc.typ = .semicolon → nl.typ = .eol → Opening L a (p ++ ts ++ [sc, nl])

/-- Words of with options. -/
def WithWord (t : Item) : Prop := t.typ ∈ [Tok.kw .message, .kw .note, .kw .savedir, .kw .tlsOpt, .kw .makeYakker]

/-- The option named by the word has been given already; an empty message, note or directory does not count. -/
def Given (w : Withs) (t : Item) : Prop :=
  (t.typ = .kw .message ∧ ∃ x, w.message = some x ∧ x ≠ []) ∨ (t.typ = .kw .note ∧ ∃ x, w.note = some x ∧ x ≠ []) ∨
  (t.typ = .kw .savedir ∧ ∃ x, w.savedir = some x ∧ x ≠ []) ∨ (t.typ = .kw .tlsOpt ∧ ∃ x, w.tlsOpt = some x) ∨
  (t.typ = .kw .makeYakker ∧ ∃ x, w.makeYakker = some x)

/-- After `part` the grammar wants something, and `t` is not it. -/
inductive Wants (L : Lib) : List Item → Item → Str → Prop
  | argument {p k w t} : k.typ = .kw w → TakesArg w → ¬ IsArg t → Wants L (p ++ [k]) t b!"expected argument"
  | domain {p q t} : DomainNext q → t.typ ≠ .value → Wants L (p ++ q) t b!"expected dnsbl domain"
  | ip {p k t} : k.typ = .kw .ip → t.typ = .value → ¬ IsIPArg L t → Wants L (p ++ [k]) t b!"argument is not a valid IP address or CIDR"
  | ipWord {p k t} : k.typ = .kw .ip → t.typ ≠ .value → t.typ ≠ .filename → Wants L (p ++ [k]) t b!"expected IP address, CIDR, or filename"
  | option {p k w c t} : k.typ = .kw w → TakesOpts w c → ¬ IsOpt c t → Wants L (p ++ [k]) t b!"expected valid option"
  | nextOption {p k w c ts o cm t} : k.typ = .kw w → TakesOpts w c → Gram.Opts c ts o → cm.typ = .comma → ¬ IsOpt c t →
      Wants L (p ++ k :: (ts ++ [cm])) t b!"expected valid option"
  | not_ {p k t} : k.typ = .kw .not_ → ¬ Begins t → Wants L (p ++ [k]) t b!"expected something to NOT"
  | close {p lp ts t} : lp.typ = .lparen → (ts = [] ∨ ∃ es, Andl L ts es) → t.typ ≠ .rparen → ¬ Begins t → t.typ ≠ .kw .or →
      Wants L (p ++ lp :: ts) t b!"expecting closing ')'"
  | operation {p o t} : o.typ = .kw .or → ¬ Begins t → ¬ EndsClause t → t.typ ≠ .rparen → t.typ ≠ .kw .or →
      Wants L (p ++ [o]) t b!"expecting match operation"
  | withOption {p wi us w t} : wi.typ = .kw .with_ → WTerms {} us w → ¬ WithWord t → ¬ EndsClause t →
      Wants L (p ++ wi :: us) t b!"expecting a with clause"
  | endOfClause {a p ts t} : Opening L a p → (ts = [] ∨ ∃ es, Andl L ts es) → ¬ Begins t → t.typ ≠ .kw .or → t.typ ≠ .kw .with_ → ¬ EndsClause t →
      Wants L (p ++ ts) t b!"expecting an operation or 'with'"
  | statement {t} : (∀ k a, t.typ = .kw k → ¬ ActionWord k a) → (∀ k ph, t.typ = .kw k → ¬ PhaseWord k ph) → t.typ ≠ .kw .include_ → t.typ ≠ .eof →
      Wants L [] t b!"expecting an action"
  | action {pi pk ph t} : pi.typ = .kw pk → PhaseWord pk ph → (∀ k a, t.typ = .kw k → ¬ ActionWord k a) → Wants L [pi] t b!"expecting an action"
  | endOfLine {inc a t} : inc.typ = .kw .include_ → IsArg a → ¬ EndsStmt t → Wants L [inc, a] t b!"expecting end of line"

/-- Complaints that say what is wrong without naming the word found. -/
inductive Objects (L : Lib) : List Item → Item → Str → Prop
  | noDot {p q t} : DomainNext q → t.typ = .value → c!"." ∉ t.val → Objects L (p ++ q) t b!"theoretical dnsbl domain contains no '.'"
  | onOff {p k t} : k.typ = .kw .tls → t.typ ≠ .kw .on_ → t.typ ≠ .kw .off → Objects L (p ++ [k]) t b!"expected on or off"
  | emptyParen {p lp t} : lp.typ = .lparen → t.typ = .rparen → Objects L (p ++ [lp]) t b!"empty parenthesized expression"
  | emptyLeft {p x t} : x.typ = .lparen ∨ x.typ = .kw .or → t.typ = .kw .or → Objects L (p ++ [x]) t b!"empty left side of an or"
  | emptyLeftFirst {a p t} : Opening L a p → t.typ = .kw .or → Objects L p t b!"empty left side of an or"
  | emptyRight {p o t} : o.typ = .kw .or → EndsClause t ∨ t.typ = .rparen → Objects L (p ++ [o]) t b!"empty right side of an OR"
  | repeated {p wi us w t} : wi.typ = .kw .with_ → WTerms {} us w → Given w t →
      Objects L (p ++ wi :: us) t (b!"repeated '" ++ t.val ++ b!"' option in with clause")
  | newline {p k a t} : k.typ = .kw .note → IsArg a → c!"\n" ∈ a.val → Objects L (p ++ [k, a]) t b!"note contains embedded newline"
  | tlsOpt {p k a t} : k.typ = .kw .tlsOpt → IsArg a → a.val ≠ b!"off" → a.val ≠ b!"no-client" →
      Objects L (p ++ [k, a]) t (b!"illegal tls-opt option '" ++ a.val ++ b!"' in with clause")
  | noTlsOpt {p k t} : k.typ = .kw .tlsOpt → ¬ IsArg t → Objects L (p ++ [k]) t b!"illegal tls-opt option '' in with clause"
  | emptyWith {p wi t} : wi.typ = .kw .with_ → EndsClause t → Objects L (p ++ [wi]) t b!"empty with clause"

/-- Complaints about a rule or clause as a whole, at its end. -/
inductive OfRule (L : Lib) : List Item → Item → Str → Prop
  | noOperation {a p ws t} : Opening L a p → (ws = [] ∨ ∃ wi us w, ws = wi :: us ∧ wi.typ = .kw .with_ ∧ us ≠ [] ∧ WTerms {} us w) → EndsClause t →
      OfRule L (p ++ ws) t b!"rule needs at least one operation, perhaps 'all'"
  | noWith {p ts es t} : Opening L .noresult p → Andl L ts es → EndsClause t → OfRule L (p ++ ts) t b!"'set-with' rule with no with options"
  | early {pi pk ph ai ak a ts cs t} : pi.typ = .kw pk → PhaseWord pk ph → ai.typ = .kw ak → ActionWord ak a → Clauses L a ts cs → ph < needsC cs → EndsStmt t →
      OfRule L (pi :: ai :: ts) t b!"rule specifies a phase lower than its operations require so we cannot satisfy the phase requirement"

/-- How a message names the word found. -/
def found (t : Item) : Str :=
  if t.typ = .eof then b!", found unexpected end of file"
  else if t.typ = .eol then b!", found unexpected end of line"
  else b!", found '" ++ t.val ++ b!"'"

/-- The text of a complaint after `part` about `t`; the Boolean says whether the column is given too.  Where the text of
the file itself is broken this is what is reported. -/
inductive Complaint (L : Lib) (part : List Item) (t : Item) : Bool → Str → Prop
  | wants {w} : Wants L part t w → t.typ ≠ .error → Complaint L part t true (w ++ found t)
  | broken {w} : Wants L part t w → t.typ = .error → Complaint L part t true (b!"lexing error: " ++ t.val)
  | says {w} : Objects L part t w → Complaint L part t true w
  | ofRule {w} : OfRule L part t w → Complaint L part t false w

end Sink.Spec
