import Verif.Spec.Lex
import Verif.Spec.Grammar

/-!
# Which rules can be printed and read back

`Rule.String` writes arguments as they are, without quoting.  These are the arguments for which that is harmless.
-/

namespace Sink

/-- The words the lexer takes for file names: they start with `/`, `./` or `file:`. -/
def FileLike (w : Str) : Prop := (∃ t, w = b!"/" ++ t) ∨ (∃ t, w = b!"./" ++ t) ∨ (∃ t, w = b!"file:" ++ t)

/-- A word that can be written without quotes: not empty, no white space, comma, parenthesis or semicolon in it, not
starting with a double quote, not a lone `file:` and not a lone backslash (which could continue the line). -/
def PlainWord (w : Str) : Prop :=
  w ≠ [] ∧ (∀ c ∈ w, isSpecialChar c = false) ∧ (∀ t, w ≠ c!"\"" :: t) ∧ w ≠ b!"file:" ∧ w ≠ b!"\\"

mutual
/-- All arguments of an expression can be written without quotes.  An `ip` argument must not be a keyword, and a DNS
blocklist name must not look like a file name (both are possible only for quoted text). -/
def PlainExpr : Expr → Prop
  | .andL es => PlainExprs es
  | .notN e => PlainExpr e
  | .orN l r => PlainExpr l ∧ PlainExpr r
  | .all | .tls _ | .optN _ _ => True
  | .dnsbl d => PlainWord d ∧ ¬ FileLike d
  | .matchN k a => PlainWord a ∧ (k = .ip → keyword? a = none)
  | .source a => PlainWord a
  | .dbl _ d => PlainWord d ∧ ¬ FileLike d
def PlainExprs : List Expr → Prop
  | [] => True
  | e :: es => PlainExpr e ∧ PlainExprs es
end

/-- A with value that is not empty and stands for itself between double quotes. -/
def PlainValue (o : Option Str) : Prop := ∀ v, o = some v → v ≠ [] ∧ QuoteBody v v

/-- A clause that can be printed and read back. -/
def PlainClause (c : RClause) : Prop :=
  PlainExpr c.expr ∧ PlainValue c.withs.message ∧ PlainValue c.withs.note ∧ PlainValue c.withs.savedir

/-- A rule that can be printed and read back. -/
def PlainRule (r : Rule) : Prop := ∀ c ∈ r.clauses, PlainClause c

end Sink
