import Verif.Spec.DemoSession
import Verif.Spec.Server

/-!
# A concrete server for examples

Used in `example`s and for counterexamples only.
-/

namespace Sink
open Spec

/-- What happens to a server next: a connection begins, or an input for connection `k`. -/
inductive Act
  | conn (k : Nat) (E : Env) (i : Inp)
  | inp (k : Nat) (i : Inp)

/-- Run a server through a list of actions; `none` if it panics or an action is impossible. -/
def serve (cf : Conf) : List Hap → Server → List Act → Option (List Hap × Server)
  | h, g, [] => some (h, g)
  | h, g, .conn k E i :: as =>
    if h.all fun e => decide (e.now ≤ i.now) then
      match g.conns k, startSess cf E g.sh i with
      | none, .ok (s, sh', o) =>
        serve cf (⟨k, E, i.now, .began g.sh s sh' o⟩ :: h) ⟨sh', fun j => if j = k then some (E, s) else g.conns j⟩ as
      | _, _ => none
    else none
  | h, g, .inp k i :: as =>
    if h.all fun e => decide (e.now ≤ i.now) then
      match g.conns k with
      | none => none
      | some (E, s) => match sstep cf E s g.sh i with
        | .ok (s', sh', o) =>
          serve cf (⟨k, E, i.now, .stepped s g.sh i s' sh' o⟩ :: h) ⟨sh', fun j => if j = k then some (E, s') else g.conns j⟩ as
        | .error _ => none
    else none

theorem serve_runs {cf : Conf} : ∀ {as : List Act} {h h' : List Hap} {g g' : Server}, Server.Runs cf h g →
    serve cf h g as = some (h', g') → Server.Runs cf h' g' := by
  intro as
  induction as with
  | nil => intro h h' g g' hr hs; cases hs; exact hr
  | cons a as ih =>
    intro h h' g g' hr hs
    cases a with
    | conn k E i =>
      rw [serve] at hs
      split at hs
      · rename_i hn
        split at hs
        · rename_i hk hst
          refine ih (.start hr ?_ hk hst) hs
          simpa using hn
        · cases hs
      · cases hs
    | inp k i =>
      rw [serve] at hs
      split at hs
      · rename_i hn
        split at hs
        · cases hs
        · rename_i hk
          split at hs
          · rename_i hst
            refine ih (.step hr ?_ hk hst) hs
            simpa using hn
          · cases hs
      · cases hs

/-- From the beginning, with no files. -/
def serveAll (cf : Conf) (as : List Act) : Option (List Hap × Server) := serve cf [] ⟨{}, fun _ => none⟩ as

theorem serveAll_runs {cf : Conf} {as : List Act} {h : List Hap} {g : Server} (hs : serveAll cf as = some (h, g)) : Server.Runs cf h g :=
  serve_runs (.init _) hs

/-- A session: connection `k` begins, is set up and gets the events, all at time `t`. -/
def session (k : Nat) (E : Env) (t : Int) (evs : List SEv) : List Act :=
  .conn k E { now := t } :: .inp k { now := t } :: .inp k { now := t } :: evs.map fun e => .inp k { ev := e, now := t }

/-- The session in one go fails to exist only if it panics. -/
def served {α : Type} (f : List Hap → Server → α) (cf : Conf) (as : List Act) : Option α := (serveAll cf as).map fun x => f x.1 x.2

end Sink
