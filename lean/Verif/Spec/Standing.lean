import Verif.Spec.Answers

/-!
# How much of the history an answer depends on
-/

namespace Sink.Spec

/-- The last greeting the client sent, and whether TLS is on. -/
def greeting (l : List Step) : Bool × Str × Bool := ((heard l).isHelo, (heard l).heloname, l.foldl tlsNoticed false)

/-- The history `l` is in the middle of a transaction: after `before` came a MAIL FROM with the address `a`, and no greeting or MAIL FROM
since. -/
def InMail (l before : List Step) (a : Str) : Prop :=
  ∃ st t b id, l = before ++ st :: t ∧ st.asked = some (.mfrom, ⟨b, a⟩, id) ∧
    ∀ q ∈ t, ∀ ph e id, q.asked = some (ph, e, id) → ph ≠ .helo ∧ ph ≠ .mfrom

/-- Both are in the middle of a transaction with the same sender, after the same greeting. -/
def SameMail (l l' : List Step) : Prop :=
  ∃ a b b', InMail l b a ∧ InMail l' b' a ∧ greeting b = greeting b' ∧ greeting l = greeting l'

/-- Two histories in which a command of the phase `ph` comes to the same: any two for a greeting; after the same greeting for MAIL FROM; in a
transaction with the same sender for RCPT TO; and for DATA and messages with the same accepted recipients as well. -/
def SameStanding (l l' : List Step) : Phase → Prop
  | .helo => True
  | .mfrom => greeting l = greeting l'
  | .rto => SameMail l l'
  | .data | .message => SameMail l l' ∧ (envelope l).rcpts = (envelope l').rcpts
  | .any | .connect => False

/-- Two commands that come to the same: rules do not look at the text of messages, nor at anything in DATA. -/
def SameCommand (ph : Phase) (e e' : Evt) : Prop :=
  match ph with
  | .helo => e = e'
  | .mfrom | .rto => e.arg = e'.arg
  | _ => True

end Sink.Spec
