import Verif.Spec.Grammar

/-!
# Places in a rules file, and the messages that name them
-/

namespace Sink.Spec

/-- `Place text p ln col`: offset `p` of the text is in line `ln`, column `col`, both counted from 1. -/
def Place (text : Str) (p ln col : Nat) : Prop :=
  ∃ above line rest, text = above ++ line ++ rest ∧ (above ++ line).length = p ∧ c!"\n" ∉ line ∧
    (above = [] ∨ ∃ a, above = a ++ b!"\n") ∧ ln = above.count c!"\n" + 1 ∧ col = line.length + 1

/-- The message names the place of offset `p`: the line, or the line and the column. -/
def Names (text : Str) (p : Nat) (msg : Str) : Prop :=
  ∃ ln col what, Place text p ln col ∧
    (msg = b!"at line " ++ decDigits ln ++ b!": " ++ what ∨
      msg = b!"at line " ++ decDigits ln ++ b!" char " ++ decDigits col ++ b!": " ++ what)

/-- Tokens inside one statement: it goes on in the next line only after a semicolon. -/
inductive Within : List Item → Prop
  | nil : Within []
  | cons {t ts} : t.typ ≠ .eol → Within ts → Within (t :: ts)
  | semi {u t ts} : u.typ = .semicolon → t.typ = .eol → Within ts → Within (u :: t :: ts)

end Sink.Spec
