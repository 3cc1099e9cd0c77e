import Verif.Model.Accept

/-!
# Concrete runs of the accepting part

Used in `example`s and for counterexamples only.
-/

namespace Sink

/-- What happens next. -/
inductive FrontAct
  | tick (t : Int)
  | accept (j : Nat) (laddr : Str)
  | fail (j : Nat)
  /-- the send of listener `j` -/
  | pass (j : Nat)
  /-- the next step of `main` outside `updateTimeOf` -/
  | main
  | call (k : Nat) (what : Kind)
  /-- the next step of `updateTimeOf`, called by `k` -/
  | upd (k : Nat)
  | ret (k : Nat)

/-- Do it. -/
def Front.act (sc : StatConf) (s : Front) : FrontAct → Option (Option FrontObs × Front)
  | .tick t => if s.clock ≤ t then some (none, { s with clock := t }) else none
  | .accept j laddr =>
    if s.lis j = none then
      some (some (.accept j ⟨s.accepted, laddr⟩), { s with lis := putAt s.lis j (some ⟨s.accepted, laddr⟩), accepted := s.accepted + 1 })
    else none
  | .fail j => if s.lis j = none then some (some (.fail j), s) else none
  | .pass j =>
    match s.lis j with
    | some c => if s.main = .recv then some (none, { s with lis := putAt s.lis j none, main := .count c }) else none
    | none => none
  | .main =>
    match s.main with
    | .count c => some (none, { s with main := .time c, connections := s.connections + 1 })
    | .time c => some (some (.call s.calls 0 .connection c.laddr),
        { s with main := .timing c, upd := putAt s.upd 0 (some { n := s.calls, kind := .connection, laddr := c.laddr }), calls := s.calls + 1 })
    | .timing c =>
      match s.upd 0 with
      | some u => if u.pc = .ret then some (some (.ret u.n), { s with main := .go_ c, upd := putAt s.upd 0 none }) else none
      | none => none
    | .go_ c => some (some (.start s.cid c), { s with main := .next, procs := putAt s.procs s.cid (some c.laddr) })
    | .next => some (none, { s with main := .recv, cid := s.cid + 1 })
    | .recv => none
  | .call k what =>
    match s.procs k with
    | some laddr =>
      if s.upd k = none ∧ what ≠ .connection then
        some (some (.call s.calls k what laddr),
          { s with upd := putAt s.upd k (some { n := s.calls, kind := what, laddr := laddr }), calls := s.calls + 1 })
      else none
    | none => none
  | .upd k =>
    match s.upd k with
    | some u =>
      if u.pc ≠ .ret then
        some (u.sees s.clock,
          { s with times := (updStep sc s.clock s.times u).1, upd := putAt s.upd k (some { u with pc := (updStep sc s.clock s.times u).2 }) })
      else none
    | none => none
  | .ret k =>
    match s.upd k with
    | some u => if s.procs k ≠ none ∧ u.pc = .ret then some (some (.ret u.n), { s with upd := putAt s.upd k none }) else none
    | none => none

theorem Front.act_step {sc : StatConf} {s s' : Front} {a : FrontAct} {o : Option FrontObs} (h : s.act sc a = some (o, s')) : Front.Step sc s o s' := by
  cases a with
  | tick t => simp only [Front.act] at h; split at h <;> cases h; exact .tick ‹_›
  | accept j laddr => simp only [Front.act] at h; split at h <;> cases h; exact .accept ‹_›
  | fail j => simp only [Front.act] at h; split at h <;> cases h; exact .fail ‹_›
  | pass j =>
    simp only [Front.act] at h
    split at h
    · split at h <;> cases h
      exact .pass ‹_› ‹_›
    · cases h
  | main =>
    simp only [Front.act] at h
    split at h
    · cases h; exact .count ‹_›
    · cases h; exact .time ‹_›
    · split at h
      · split at h <;> cases h
        exact .timed ‹_› ‹_› ‹_›
      · cases h
    · cases h; exact .go_ ‹_›
    · cases h; exact .next ‹_›
    · cases h
  | call k what =>
    simp only [Front.act] at h
    split at h
    · split at h <;> cases h
      rename_i hc
      exact .call ‹_› hc.1 hc.2
    · cases h
  | upd k =>
    simp only [Front.act] at h
    split at h
    · split at h <;> cases h
      exact .upd ‹_› ‹_›
    · cases h
  | ret k =>
    simp only [Front.act] at h
    split at h
    · split at h <;> cases h
      rename_i hc
      exact .ret hc.1 ‹_› hc.2
    · cases h

/-- Do all of it. -/
def Front.acts (sc : StatConf) : List FrontObs → Front → List FrontAct → Option (List FrontObs × Front)
  | l, s, [] => some (l, s)
  | l, s, a :: as =>
    match s.act sc a with
    | some (o, s') => Front.acts sc (l ++ o.toList) s' as
    | none => none

theorem Front.acts_runs {sc : StatConf} : ∀ {as : List FrontAct} {l l' : List FrontObs} {s s' : Front}, Front.Runs sc l s →
    Front.acts sc l s as = some (l', s') → Front.Runs sc l' s'
  | [], _, _, _, _, h, he => by cases he; exact h
  | a :: as, l, l', s, s', h, he => by
    simp only [Front.acts] at he
    split at he
    · exact Front.acts_runs (h.step (Front.act_step ‹_›)) he
    · cases he

/-- From the beginning, at time `t`. -/
def Front.demo (sc : StatConf) (t : Int) (as : List FrontAct) : Option (List FrontObs × Front) := Front.acts sc [] { times := .setup, clock := t } as

theorem Front.demo_runs {sc : StatConf} {t : Int} {as : List FrontAct} {l : List FrontObs} {s : Front} (h : Front.demo sc t as = some (l, s)) :
    Front.Runs sc l s := Front.acts_runs (.init t) h

/-- `main` serves the connection listener `j` has. -/
def mainServes (j steps : Nat) : List FrontAct := [.pass j, .main, .main] ++ List.replicate steps (.upd 0) ++ [.main, .main, .main]

end Sink
