import Verif.Model.Server
import Verif.Spec.Session
import Verif.Spec.IpMap

/-!
# What the clients of a server did

The history of do-nothing clients and of TLS failures, in terms of what can be seen of the sessions.
-/

namespace Sink.Spec

/-- The steps of connection `k`, oldest first. -/
def stepsOf (k : Nat) : List Hap → List Step
  | [] => []
  | ⟨j, _, _, .began _ _ _ _⟩ :: h => if j = k then [] else stepsOf k h
  | ⟨j, _, _, .stepped s sh i s' sh' o⟩ :: h => if j = k then stepsOf k h ++ [⟨s, i, sh, s', sh', o⟩] else stepsOf k h

/-- The session got as far as `-minphase`. -/
def reached (cf : Conf) (l : List Step) : Bool := l.any (Step.reaches cf.minphase)

/-- A TLS failure happened in the session. -/
def tlsFailed (l : List Step) : Bool := l.any fun st => decide (st.event = some .tlserror)

/-- The session counts: do-nothing detection is on, the rules could be loaded, the client was not already stalled, and there
was no TLS failure. -/
def Counting (cf : Conf) (l : List Step) (s : Sess) : Prop :=
  cf.yakCount > 0 ∧ s.rulesgood = true ∧ s.stall = false ∧ tlsFailed l = false

instance (cf : Conf) (l : List Step) (s : Sess) : Decidable (Counting cf l s) := by unfold Counting; infer_instance

/-- What the step does to the record of the client, after the steps `l` of the session: a MAIL FROM the rules let pass that
abandons an earlier accepted one adds one if the session got nowhere so far; so does the end of a session that got nowhere;
the end of one that got somewhere removes the record; `make-yakker` in the last decision sets it. -/
def contribution (cf : Conf) (l : List Step) (st : Step) : Option IpOp :=
  match st.event with
  | some (.mailfrom _) =>
    if Counting cf l st.pre ∧ reached cf l = false ∧ (envelope l).from_ ≠ [] ∧ (st.accepted = true ∨ st.post.pc = .closed) then some .add
    else none
  | some .done | some .abort =>
    if st.pre.c.withprops.makeYakker.isSome then some (.set cf.yakCount)
    else if reached cf l = false ∧ Counting cf l st.pre then some .add
    else if reached cf l = true ∧ cf.yakCount > 0 then some .del
    else none
  | _ => none

/-- The history of the do-nothing record of address `ip`, newest first. -/
def yakHist (cf : Conf) (ip : Str) : List Hap → List (Int × IpOp)
  | [] => []
  | ⟨_, _, _, .began _ _ _ _⟩ :: h => yakHist cf ip h
  | ⟨k, E, now, .stepped s sh i s' sh' o⟩ :: h =>
    if E.rip = ip ∧ ip ≠ [] then ((contribution cf (stepsOf k h) ⟨s, i, sh, s', sh', o⟩).map fun op => (now, op)).toList ++ yakHist cf ip h
    else yakHist cf ip h

/-- The times of TLS failures of connections from `ip`, newest first. -/
def tlsFailures (ip : Str) : List Hap → List Int
  | [] => []
  | ⟨_, _, _, .began _ _ _ _⟩ :: h => tlsFailures ip h
  | ⟨_, E, now, .stepped s sh i s' sh' o⟩ :: h =>
    if E.rip = ip ∧ ip ≠ [] ∧ (⟨s, i, sh, s', sh', o⟩ : Step).event = some .tlserror then now :: tlsFailures ip h else tlsFailures ip h

end Sink.Spec
