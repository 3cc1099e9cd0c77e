import Verif.Model.Bytes

/-!
# What the tables of IP addresses are for: counting recent events
-/

namespace Sink.Spec

/-- Something done to the record of one address. -/
inductive IpOp
  | add
  | set (n : Int)
  | del
  deriving DecidableEq, Repr

/-- The count recorded for an address at time `now`, given what was done to its record before, newest first: an `add` is one
more than the count at that time, `set` gives the count, `del` removes the record; a record that is `ttl` old or older is
no record. -/
def value (ttl : Int) : Int → List (Int × IpOp) → Option Int
  | _, [] => none
  | now, (t, .add) :: h => if now - t < ttl then some ((value ttl t h).getD 0 + 1) else none
  | now, (t, .set n) :: _ => if now - t < ttl then some n else none
  | _, (_, .del) :: _ => none

/-- The number of adds in an unbroken chain ending at `now`: each less than `ttl` after the one before. -/
inductive Chain (ttl : Int) : Int → List Int → Prop
  | nil (now) : Chain ttl now []
  | cons {now t l} : now - t < ttl → Chain ttl t l → Chain ttl now (t :: l)

end Sink.Spec
