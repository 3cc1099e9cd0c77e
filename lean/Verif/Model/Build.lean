import Verif.Model.Parse

/-!
# Rules made from command line options (sinksmtp.go:1301-1362)
-/

namespace Sink

/-- The options `buildRules` looks at: `stdrules`, `failgotdata` (-M), `fromreject`, `toaccept`, `heloreject`
(sinksmtp.go:1272-1277, 1301). -/
structure BaseOpts where
  stdrules : Bool
  failgotdata : Bool
  fromreject : Str
  toaccept : Str
  heloreject : Str
  deriving DecidableEq, Repr

/-- The text `buildRules` writes to `outbuf`, sinksmtp.go:1304-1336. -/
def buildText (o : BaseOpts) : Str :=
  (if o.stdrules then b!"reject from-has bad,route\n" ++ b!"reject to-has bad,route\n" ++ b!"reject helo-has none\n" else []) ++
  (if o.failgotdata then b!"@message reject all\n" else []) ++
  (if o.fromreject ≠ [] then b!"reject from file:" ++ o.fromreject ++ b!"\n" else []) ++
  (if o.toaccept ≠ [] then b!"reject not to file:" ++ o.toaccept ++ b!"\n" else []) ++
  (if o.heloreject ≠ [] then b!"@from reject helo file:" ++ o.heloreject ++ b!"\n" else [])

/-- `buildRules`, sinksmtp.go:1301-1348.  An error means `die`.  `fs`, `d` are what `include` statements in the text would
use. -/
def buildRules (L : Lib) (fs : Files) (d : Nat) (o : BaseOpts) : Except Fail (List Rule) := parse L fs d [] (buildText o)

/-- `genStallRules`, sinksmtp.go:1355-1362: the value of `stallall`. -/
def stallRules (L : Lib) (fs : Files) (d : Nat) : Except Fail (List Rule) := parse L fs d [] b!"stall all"

end Sink
