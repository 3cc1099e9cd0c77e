import Verif.Model.Program
import Verif.Spec.DemoAccept
import Verif.Spec.DemoServer

/-!
# Concrete runs of the whole program

Used in `example`s and for counterexamples only.
-/

namespace Sink

/-- What happens next. -/
inductive ProgAct
  | front (a : FrontAct)
  /-- `process` number `k` calls `updateTimeOf` -/
  | call (k : Nat)
  /-- it begins, for a client at `raddr` -/
  | began (k : Nat) (raddr : Str)
  | stepped (k : Nat) (i : Inp)

/-- May this be observed of listeners and `main`? -/
def Launch.allows (L : Launch) : Option FrontObs → Bool
  | some (.call _ _ w _) => decide (w = .connection)
  | some (.accept j _) => decide (j < L.addrs)
  | _ => true

/-- Do it. -/
def Program.act (L : Launch) (E : Env) (p : Program) : ProgAct → Option (Option Mark × Program)
  | .front a => match p.front.act L.stat a with
    | some (o, f) => if L.allows o then some (o.map .front, { p with front := f }) else none
    | none => none
  | .call k => match p.due k with
    | w :: ws => match p.front.act L.stat (.call k w) with
      | some (some (.call n j v a), f) => if j = k ∧ v = w then some (some (.front (.call n j v a)), { p with front := f, due := putAt p.due j ws }) else none
      | _ => none
    | [] => none
  | .began k raddr => match p.front.procs k, p.srv.conns k with
    | some a, none =>
      let E := { E.ends raddr a with prefix_ := convId L.pid k }
      match startSess L.cf E p.srv.sh { now := p.front.clock } with
      | .ok (s, sh', out) => some (some (.sess ⟨k, E, p.front.clock, .began p.srv.sh s sh' out⟩),
          { p with srv := ⟨sh', putAt p.srv.conns k (some (E, s))⟩, due := putAt p.due k [startTime s] })
      | .error _ => none
    | _, _ => none
  | .stepped k i => match p.srv.conns k with
    | some (E, s) =>
      if p.due k = [] ∧ p.front.upd k = none ∧ i.now = p.front.clock then
        match sstep L.cf E s p.srv.sh i with
        | .ok (s', sh', out) => some (some (.sess ⟨k, E, i.now, .stepped s p.srv.sh i s' sh' out⟩),
            { p with srv := ⟨sh', putAt p.srv.conns k (some (E, s'))⟩, due := putAt p.due k (stepTime L.cf s i) })
        | .error _ => none
      else none
    | none => none

theorem Program.act_step {L : Launch} {E : Env} {p p' : Program} {a : ProgAct} {o : Option Mark} (h : p.act L E a = some (o, p')) : Program.Step L p o p' := by
  cases a with
  | front a =>
    simp only [Program.act] at h
    split at h
    · split at h <;> cases h
      rename_i o f hf ha
      refine .front (Front.act_step hf) ?_ ?_
      · rintro n k w b rfl; simpa [Launch.allows] using ha
      · rintro j c rfl; simpa [Launch.allows] using ha
    · cases h
  | call k =>
    simp only [Program.act] at h
    split at h
    · split at h
      · split at h <;> cases h
        rename_i hd _ _ _ _ _ _ hf he
        obtain ⟨rfl, rfl⟩ := he
        exact .call hd (Front.act_step hf)
      · cases h
    · cases h
  | began k raddr =>
    simp only [Program.act] at h
    split at h
    · split at h <;> cases h
      rename_i hp hc _ _ _ _ hs
      exact .began hp hc ⟨rfl, rfl, rfl, rfl⟩ rfl hs
    · cases h
  | stepped k i =>
    simp only [Program.act] at h
    split at h
    · split at h
      · split at h <;> cases h
        rename_i hc hd _ _ _ _ hs
        exact .stepped hc hd.1 hd.2.1 hd.2.2 hs
      · cases h
    · cases h

/-- Do all of it. -/
def Program.acts (L : Launch) (E : Env) : List Mark → Program → List ProgAct → Option (List Mark × Program)
  | l, p, [] => some (l, p)
  | l, p, a :: as =>
    match p.act L E a with
    | some (o, p') => Program.acts L E (l ++ o.toList) p' as
    | none => none

theorem Program.acts_runs {L : Launch} {E : Env} : ∀ {as : List ProgAct} {l l' : List Mark} {p p' : Program}, Program.Runs L l p →
    Program.acts L E l p as = some (l', p') → Program.Runs L l' p'
  | [], _, _, _, _, h, he => by cases he; exact h
  | a :: as, l, l', p, p', h, he => by
    simp only [Program.acts] at he
    split at he
    · exact Program.acts_runs (h.step (Program.act_step ‹_›)) he
    · cases he

/-- From the beginning, at time `t`, with no files. -/
def Program.demo (L : Launch) (E : Env) (t : Int) (as : List ProgAct) : Option (List Mark × Program) :=
  Program.acts L E [] { front := { times := .setup, clock := t }, srv := ⟨{}, fun _ => none⟩ } as

theorem Program.demo_runs {L : Launch} {E : Env} {t : Int} {as : List ProgAct} {l : List Mark} {p : Program} (h : Program.demo L E t as = some (l, p)) :
    Program.Runs L l p := Program.acts_runs (.init t _) h

/-- `process` number `k` records a time, which takes so many steps. -/
def records (k steps : Nat) : List ProgAct := .call k :: List.replicate steps (.front (.upd k)) ++ [.front (.ret k)]

end Sink
