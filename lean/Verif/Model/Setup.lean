import Verif.Model.Build

/-!
# The rules of a connection (sinksmtp.go:152-189)

Here rule lists are values; `Model/Slices.lean` has the version with Go slices and their backing arrays.
-/

namespace Sink

/-- `accumRules`, sinksmtp.go:153-159.  `i` identifies the read to the file oracle. -/
def accumRules (L : Lib) (fs : Files) (d : Nat) (i : Nat) (base : List Rule) (fname : Str) : Except Fail (List Rule) :=
  if fname = [] then .ok base
  else match loadRules L fs d [i] fname with
    | .ok rules => .ok (base ++ rules)
    | .error e => .error e

/-- The loop of `setupRules`, sinksmtp.go:172-177: the rules, or the file and error at which it stopped. -/
def accumAll (L : Lib) (fs : Files) (d : Nat) : Nat → List Rule → List Str → Except (Str × Fail) (List Rule)
  | _, base, [] => .ok base
  | i, base, f :: fsx => match accumRules L fs d i base f with
    | .ok rules => accumAll L fs d (i + 1) rules fsx
    | .error e => .error (f, e)

/-- `setupRules`, sinksmtp.go:166-189: the rules, whether they are good, and the warning written. -/
def setupRules (L : Lib) (fs : Files) (d : Nat) (stallall base : List Rule) (rulefiles : List Str) :
    Except Panic (List Rule × Bool × Option Str) :=
  match accumAll L fs d 0 base rulefiles with
  | .ok rules => .ok (rules, true, none)
  | .error (_, .panic p) => .error p
  | .error (f, .err m) => .ok (stallall, false, some (b!"problem loading rules " ++ f ++ b!": " ++ m ++ b!"\n"))

end Sink
