import Verif.Spec.Session

/-!
# The order of SMTP commands

What package smtpd, which hands the events to `process`, guarantees about their order.  It is not part of the repository, so this is an assumption, written from memory of the library: its table of commands
says in which state each is valid and which state follows when it is accepted.  RSET and STARTTLS, which it deals with alone, only take
the dialogue back, so what is said here is the most that can be possible.  In particular EHLO, HELO and MAIL FROM are not valid inside a transaction: if
they come after MAIL FROM, there was an RSET.
-/

namespace Sink.Spec

/-- How far the dialogue has come. -/
inductive Dialog
  | start | greeted | mail | rcpt | data
  deriving DecidableEq, Repr

/-- Outside a transaction. -/
def Dialog.outside (p : Dialog) : Dialog := if p = .start then .start else .greeted

/-- Accepted commands take it further; a message ends the transaction. -/
def Dialog.step (p : Dialog) (st : Step) : Dialog :=
  match st.event with
  | some (.helo _ _) => if st.accepted then .greeted else p.outside
  | some (.mailfrom _) => if st.accepted then .mail else p.outside
  | some (.rcptto _) => if st.accepted then .rcpt else p
  | some .data => if st.accepted then .data else p
  | some (.gotdata _) => .greeted
  | some .done | some .abort => .start
  | _ => p

def dialog (l : List Step) : Dialog := l.foldl Dialog.step .start

/-- The events that are possible: MAIL FROM after a greeting, RCPT TO after MAIL FROM, DATA after RCPT TO, and nothing but the message or the end
after DATA. -/
def Dialog.Takes (p : Dialog) : SEv → Prop
  | .helo _ _ | .tlserror | .other => p ≠ .data
  | .mailfrom _ => p ≠ .start ∧ p ≠ .data
  | .rcptto _ => p = .mail ∨ p = .rcpt
  | .data => p = .rcpt
  | .gotdata _ => p = .data
  | .done | .abort => True

instance (p : Dialog) (e : SEv) : Decidable (p.Takes e) := by cases e <;> unfold Dialog.Takes <;> infer_instance

/-- All events come in order. -/
def Orderly (l : List Step) : Prop := ∀ l1 st l2 e, l = l1 ++ st :: l2 → st.event = some e → (dialog l1).Takes e

def IsHelo (st : Step) : Prop := ∃ h a, st.event = some (.helo h a)
def IsMail (st : Step) : Prop := ∃ a, st.event = some (.mailfrom a)
def AccHelo (st : Step) : Prop := IsHelo st ∧ st.accepted = true
def AccMail (st : Step) : Prop := IsMail st ∧ st.accepted = true
def AccData (st : Step) : Prop := st.event = some .data ∧ st.accepted = true
def IsMsg (st : Step) : Prop := ∃ d, st.event = some (.gotdata d)

/-- The recipient accepted in a step. -/
def Step.rcpt (st : Step) : Option Str :=
  match st.event with
  | some (.rcptto a) => if st.accepted then some a else none
  | _ => none

/-- Before a message came an accepted greeting `hs`, an accepted sender `ms` after it, at least one accepted recipient in `c`, and right before the message
an accepted DATA `ds`; nothing in `c` began another transaction. -/
structure Complete (l a : List Step) (hs : Step) (b : List Step) (ms : Step) (c : List Step) (ds : Step) : Prop where
  eq : l = a ++ hs :: (b ++ ms :: (c ++ [ds]))
  helo : AccHelo hs
  mail : AccMail ms
  data : AccData ds
  greeted : ∀ q ∈ b, ¬ AccHelo q
  within : ∀ q ∈ c, ¬ IsHelo q ∧ ¬ IsMail q ∧ ¬ AccData q ∧ ¬ IsMsg q
  some_rcpt : c.filterMap Step.rcpt ≠ []
  env : ∀ h x y, hs.event = some (.helo h x) → ms.event = some (.mailfrom y) → envelope l = ⟨x, y, c.filterMap Step.rcpt⟩

end Sink.Spec
