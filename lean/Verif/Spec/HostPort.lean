import Verif.Model.HostPort

/-!
# Host and port
-/

namespace Sink.Spec

/-- No square brackets. -/
def NoBrackets (s : Str) : Prop := c!"[" ∉ s ∧ c!"]" ∉ s

/-- The text is `host:port`, with brackets around the host if it has colons. -/
def HostPort (s host port : Str) : Prop :=
  NoBrackets host ∧ NoBrackets port ∧ c!":" ∉ port ∧
  (s = host ++ b!":" ++ port ∧ c!":" ∉ host ∨ s = b!"[" ++ host ++ b!"]:" ++ port)

end Sink.Spec
