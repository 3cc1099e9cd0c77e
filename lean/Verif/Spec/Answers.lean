import Verif.Spec.Sem
import Verif.Spec.Session
import Verif.Props.Decide
import Verif.Props.Replies

/-!
# What the rules say about each command of a connection

In terms of the commands the client has sent and the answers it got, the rules, and a world that does not change: no context,
no caches and no order of evaluation.
-/

namespace Sink.Spec

/-- The rules of a connection: those of the options followed by those of the rule files; `stall all` for clients that are stalled,
and if there is something wrong with the rule files. -/
def Loaded (cf : Conf) (E : Env) (stalled : Bool) (rules : List Rule) : Prop :=
  stalled = true ∧ rules = cf.stallall ∨
  stalled = false ∧ accumAll E.W.lib E.fs E.fds 0 cf.base cf.rulefiles = .ok rules ∨
  stalled = false ∧ (∃ f m, accumAll E.W.lib E.fs E.fds 0 cf.base cf.rulefiles = .error (f, .err m)) ∧ rules = cf.stallall

/-- A command counts as said, accepted or not. -/
def hear (m : Mail) (st : Step) : Mail :=
  match st.asked with
  | some (ph, e, _) => m.said ph e
  | none => m

/-- What the client has said: the last greeting, the last sender, and the last recipient if no DATA followed. -/
def heard (l : List Step) : Mail := l.foldl hear ⟨false, [], [], []⟩

/-- TLS is noticed when a greeting is accepted and when a message arrives. -/
def tlsNoticed (on : Bool) (st : Step) : Bool :=
  match st.event with
  | some (.helo _ _) => if st.accepted then on || st.i.tls.on else on
  | some (.gotdata _) => st.i.tls.on
  | _ => on

/-- The facts of the connection: addresses, reverse DNS names, accepted recipients, whether TLS is on. -/
def facts (E : Env) (l : List Step) : TransR :=
  ⟨E.rip, E.lip, (lookupAddrVerified E.W E.rip []).1, (envelope l).rcpts, l.foldl tlsNoticed false⟩

/-- The rules say `a` with options `w` to a command: the first rule that matches and decides, and the last option of each
kind up to it. -/
def Says1 (E : Env) (rules : List Rule) (l : List Step) (ph : Phase) (e : Evt) (a : Action) (w : Withs) : Prop :=
  ∃ used, FirstMatch E.W (facts E l) ((heard l).said ph e) ph rules used a ∧
    ∀ k : WKey, LastGiven E.W (facts E l) ((heard l).said ph e) ph k used (k.of w)

/-- A null sender, to which the rules say `a` with options `w`, is the last sender or greeting, and `a` is a refusal. -/
def Waiting (E : Env) (rules : List Rule) (l : List Step) (a : Action) (w : Withs) : Prop :=
  ∃ l1 st l2 b id, l = l1 ++ st :: l2 ∧ st.asked = some (.mfrom, ⟨b, []⟩, id) ∧ Says1 E rules l1 .mfrom ⟨b, []⟩ a w ∧ Refuses a ∧
    ∀ q ∈ l2, ∀ ph e id, q.asked = some (ph, e, id) → ph ≠ .helo ∧ ph ≠ .mfrom

/-- The ruling on a command after the history `l`. -/
inductive Ruling (E : Env) (rules : List Rule) (l : List Step) (ph : Phase) (e : Evt) : Action → Withs → Prop
  /-- The refusal of a null sender is given to recipients, DATA and messages. -/
  | late {a w} : ph ≠ .helo → ph ≠ .mfrom → Waiting E rules l a w → Ruling E rules l ph e a w
  /-- A null sender is accepted, even if the rules say otherwise. -/
  | null {a w} : ph = .mfrom → e.arg = [] → Says1 E rules l ph e a w → Refuses a → Ruling E rules l ph e .accept {}
  /-- Otherwise the rules are followed. -/
  | plain {a w} : (ph = .helo ∨ ph = .mfrom ∨ ∀ a w, ¬ Waiting E rules l a w) → Says1 E rules l ph e a w →
      ¬ (ph = .mfrom ∧ e.arg = [] ∧ Refuses a) → Ruling E rules l ph e a w

end Sink.Spec
