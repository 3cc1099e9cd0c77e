import Verif.Model.Session

/-!
# What can be observed of a connection

Histories of steps with the replies given, under any interference by other connections: the shared state before each step
is arbitrary.
-/

namespace Sink.Spec

/-- The sense of a reply. -/
inductive Verdict
  | accepted | rejected | deferred
  deriving DecidableEq, Repr

def verdict : Reply → Verdict
  | .accept | .acceptMsg _ | .acceptData _ => .accepted
  | .reject | .rejectMsg _ => .rejected
  | .tempfail | .tempfailMsg _ => .deferred

/-- The replies among effects. -/
def replies : List Out → List Verdict
  | [] => []
  | .reply r :: o => verdict r :: replies o
  | _ :: o => replies o

/-- One step as it happened. -/
structure Step where
  pre : Sess
  i : Inp
  sh : Shared
  post : Sess
  sh' : Shared
  out : List Out

/-- The step is one the connection can make. -/
def Step.Ok (cf : Conf) (E : Env) (st : Step) : Prop := sstep cf E st.pre st.sh st.i = .ok (st.post, st.sh', st.out)

/-- A sequence of steps from `s` to `s'`.  Nothing relates the shared state after a step with that before the next one:
other connections may have done anything in between. -/
inductive Run (cf : Conf) (E : Env) : Sess → List Step → Sess → Prop
  | nil (s) : Run cf E s [] s
  | snoc {s l s1 s2 sh sh' i o} : Run cf E s l s1 → sstep cf E s1 sh i = .ok (s2, sh', o) →
      Run cf E s (l ++ [⟨s1, i, sh, s2, sh', o⟩]) s2

/-- The life of a connection from its beginning. -/
def Life (cf : Conf) (E : Env) (l : List Step) (s : Sess) : Prop :=
  ∃ sh i s0 sh0 o, startSess cf E sh i = .ok (s0, sh0, o) ∧ Run cf E s0 l s

/-- The event of a step, if it is one: events are only taken at the top of the main loop. -/
def Step.event (st : Step) : Option SEv := if st.pre.pc = .ready then some st.i.ev else none

/-- The command of the step was accepted: EHLO and HELO when no refusal is sent, the others when acceptance is sent. -/
def Step.accepted (st : Step) : Bool :=
  match st.i.ev with
  | .helo _ _ => decide (replies st.out = [])
  | _ => decide (replies st.out = [.accepted])

/-- The envelope: EHLO name, sender, recipients. -/
structure Envelope where
  helo : Str := []
  from_ : Str := []
  rcpts : List Str := []
  deriving DecidableEq, Repr

/-- An accepted command changes the envelope. -/
def Envelope.take (e : Envelope) : SEv → Envelope
  | .helo _ a => { helo := a }
  | .mailfrom a => { e with from_ := a, rcpts := [] }
  | .rcptto a => { e with rcpts := e.rcpts ++ [a] }
  | _ => e

/-- The effect of a step on the envelope. -/
def Envelope.step (e : Envelope) (st : Step) : Envelope :=
  match st.event with
  | some ev => if st.accepted then e.take ev else e
  | none => e

/-- The envelope made up of the accepted commands of a history. -/
def envelope (l : List Step) : Envelope := l.foldl Envelope.step {}

/-- The rules were asked in this step: on connecting, for each command of a transaction, and for a message that was not lost. -/
def Step.decided (st : Step) : Bool :=
  match st.pre.pc with
  | .connect | .decide _ false => true
  | .ready => match st.i.ev with
    | .helo _ _ | .mailfrom _ | .rcptto _ | .data => true
    | _ => false
  | _ => false

/-- The directory a decision leaves in effect. -/
def savedirStep (d : Str) (st : Step) : Str :=
  if st.decided then
    match st.post.c.withprops.savedir with
    | some x => if x = [] then d else x
    | none => d
  else d

/-- The save directory after a history, starting from the `-d` one. -/
def savedirOf (d : Str) (l : List Step) : Str := l.foldl savedirStep d

/-- The step reaches the phase named by `-minphase`, or is the answer to a message that could not be stored. -/
def Step.reaches (mp : Str) (st : Step) : Bool :=
  match st.pre.pc with
  | .ready => match st.i.ev with
    | .helo _ _ => decide (mp = b!"helo") && st.accepted
    | .mailfrom _ => decide (mp = b!"from") && st.accepted
    | .rcptto _ => decide (mp = b!"to") && st.accepted
    | .data => decide (mp = b!"data") && st.accepted
    | .gotdata _ => decide (mp = b!"message")
    | _ => false
  | .decide _ lost => lost || (decide (mp = b!"accepted") && decide (replies st.out = [.accepted]))
  | _ => false

end Sink.Spec
