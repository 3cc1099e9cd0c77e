import Verif.Model.Expr

/-!
# Adding rules to rules
-/

namespace Sink.Spec

/-- `rs'` is `rs` with the rules `new` added, in any places, all in their order. -/
inductive Added : List Rule → List Rule → List Rule → Prop
  | nil : Added [] [] []
  | old {new rs rs'} (r : Rule) : Added new rs rs' → Added new (r :: rs) (r :: rs')
  | new {new rs rs'} (r : Rule) : Added new rs rs' → Added (r :: new) rs (r :: rs')

/-- The options a rule can set. -/
def GivesOpt (r : Rule) (x : Withs) : Prop := ∃ c ∈ r.clauses, c.withs = x

end Sink.Spec
