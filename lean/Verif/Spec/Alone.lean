import Verif.Spec.Answers
import Verif.Props.Build
import Verif.Props.StdRules

/-!
# What the options alone have against a client (doc.go, "The options")

For a server that is run without rules files: `-nostdrules`, `-M`, `-fromreject`, `-toaccept`, `-heloreject`.  In terms of the text of the
files, of what the client has said, and of the recipients accepted so far.
-/

namespace Sink.Spec

/-- The pattern stands on a line of the file, which is not a comment. -/
def OnLine (W : World) (f p : Str) : Prop :=
  ∃ b lines rest l t, W.files 0 f = .data b ∧ Text b lines rest ∧ l ∈ lines ∧ Trimmed l t ∧ t ≠ [] ∧ t.head? ≠ some c!"#" ∧ p = W.lib.lower t

/-- The address matches a line of the file. -/
def AddrOn (W : World) (f a : Str) : Prop := ∃ p, OnLine W f p ∧ AddrMatch (W.lib.lower a) p

/-- The host name matches a line of the file. -/
def HostOn (W : World) (f h : Str) : Prop := ∃ p, OnLine W f p ∧ HostMatch (W.lib.lower h) p

/-- The client has given no name. -/
def BadGreeting (o : BaseOpts) (m : Mail) : Prop := o.stdrules = true ∧ m.heloname = []

/-- The sender is not an address, or on the list. -/
def BadSender (o : BaseOpts) (W : World) (m : Mail) : Prop :=
  o.stdrules = true ∧ Malformed m.from_ ∨ o.fromreject ≠ [] ∧ AddrOn W o.fromreject m.from_

/-- The recipient is not an address, or not on the list; a list without lines counts for nothing. -/
def BadRcpt (o : BaseOpts) (W : World) (r : Str) : Prop :=
  o.stdrules = true ∧ Malformed r ∨ o.toaccept ≠ [] ∧ (∃ p, OnLine W o.toaccept p) ∧ ¬ AddrOn W o.toaccept r

/-- What there is against a command of each phase. -/
def Minds (o : BaseOpts) (W : World) (rcpts : List Str) (m : Mail) : Phase → Prop
  | .helo => BadGreeting o m
  | .mfrom => BadGreeting o m ∨ BadSender o W m ∨ o.heloreject ≠ [] ∧ HostOn W o.heloreject m.heloname
  | .rto => BadGreeting o m ∨ BadSender o W m ∨ BadRcpt o W m.rcptto
  | .data => BadGreeting o m ∨ BadSender o W m ∨ ∃ r ∈ rcpts, BadRcpt o W r
  | .message => BadGreeting o m ∨ BadSender o W m ∨ (∃ r ∈ rcpts, BadRcpt o W r) ∨ o.failgotdata = true
  | .any | .connect => False

/-- A null sender, against which there is something, is the last sender or greeting: it was accepted all the same. -/
def Spared (o : BaseOpts) (W : World) (l : List Step) : Prop :=
  ∃ l1 st l2 b id, l = l1 ++ st :: l2 ∧ st.asked = some (.mfrom, ⟨b, []⟩, id) ∧
    Minds o W (envelope l1).rcpts ((heard l1).said .mfrom ⟨b, []⟩) .mfrom ∧
    ∀ q ∈ l2, ∀ ph e id, q.asked = some (ph, e, id) → ph ≠ .helo ∧ ph ≠ .mfrom

/-- The command is to be refused. -/
def Unwanted (o : BaseOpts) (W : World) (l : List Step) (ph : Phase) (e : Evt) : Prop :=
  Minds o W (envelope l).rcpts ((heard l).said ph e) ph ∧ ¬ (ph = .mfrom ∧ e.arg = []) ∨ ph ≠ .helo ∧ ph ≠ .mfrom ∧ Spared o W l

end Sink.Spec
