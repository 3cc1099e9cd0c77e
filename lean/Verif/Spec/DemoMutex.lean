import Verif.Model.Mutex

/-!
# Running objects with a mutex, for examples
-/

namespace Sink

/-- What happens next: a call, the next instruction or the return of a goroutine, the passing of time. -/
inductive Sched (Op : Type)
  | call (k : Nat) (op : Op)
  | run (k : Nat)
  | tick (t : Int)

/-- One of these; `none` if it is not possible. -/
def schedStep {Op M V : Type} (P : Prog Op M V) (s : Sys Op M V) : Sched Op → Option (Option (Obs Op V) × Sys Op M V)
  | .call k op => match s.thr k with
    | none => some (some (.call k op), { s with thr := setAt s.thr k (some ⟨op, P.code op, P.init op⟩) })
    | some _ => none
  | .run k => match s.thr k with
    | none => none
    | some ⟨op, [], v⟩ => some (some (.ret k op v), { s with thr := setAt s.thr k none })
    | some ⟨op, .lock :: c, v⟩ => match s.holder with
      | none => some (none, { s with holder := some k, thr := setAt s.thr k (some ⟨op, c, v⟩) })
      | some _ => none
    | some ⟨op, .act f :: c, v⟩ =>
      some (none, { s with mem := (f s.clock s.mem v).1, thr := setAt s.thr k (some ⟨op, c, (f s.clock s.mem v).2⟩) })
    | some ⟨op, .unlock :: c, v⟩ => match s.holder with
      | none => none
      | some _ => some (none, { s with holder := none, thr := setAt s.thr k (some ⟨op, c, v⟩) })
  | .tick t => if s.clock ≤ t then some (some (.tick t), { s with clock := t }) else none

theorem schedStep_step {Op M V : Type} {P : Prog Op M V} {s s' : Sys Op M V} {o : Option (Obs Op V)} {c : Sched Op}
    (h : schedStep P s c = some (o, s')) : Sys.Step P s o s' := by
  unfold schedStep at h
  split at h
  · split at h
    · cases h; exact .call (by assumption)
    · cases h
  · split at h
    · cases h
    · cases h; exact .ret (by assumption)
    · split at h
      · cases h; exact .lock (by assumption) (by assumption)
      · cases h
    · cases h; exact .act (by assumption)
    · split at h
      · cases h
      · rename_i hh
        cases h; exact .unlock (by assumption) (by rw [hh]; simp)
  · split at h
    · cases h; exact .tick (by assumption)
    · cases h

/-- A whole schedule; impossible steps (waiting for the mutex) are skipped. -/
def schedule {Op M V : Type} (P : Prog Op M V) : Sys Op M V → List (Sched Op) → List (Obs Op V) × Sys Op M V
  | s, [] => ([], s)
  | s, c :: cs => match schedStep P s c with
    | none => schedule P s cs
    | some (o, s') => (o.toList ++ (schedule P s' cs).1, (schedule P s' cs).2)

theorem schedule_runs {Op M V : Type} {P : Prog Op M V} {m : M} {t0 : Int} : ∀ {cs : List (Sched Op)} {l : List (Obs Op V)} {s : Sys Op M V},
    Sys.Runs P m t0 l s → Sys.Runs P m t0 (l ++ (schedule P s cs).1) (schedule P s cs).2 := by
  intro cs
  induction cs with
  | nil => intro l s h; simpa [schedule] using h
  | cons c cs ih =>
    intro l s h
    rw [schedule]
    split
    · exact ih h
    · rename_i o s' he
      have := ih (.step h (schedStep_step he))
      simpa using this

/-- The results of a schedule. -/
def results {Op M V R : Type} (P : Prog Op M V) (m : M) (f : V → R) (cs : List (Sched Op)) : List (Nat × R) :=
  (schedule P ⟨m, none, fun _ => none, 0⟩ cs).1.filterMap fun o => match o with
    | .ret k _ v => some (k, f v)
    | _ => none

/-- Two goroutines in turns. -/
def turns {Op : Type} : Nat → List (Sched Op)
  | 0 => []
  | n + 1 => .run 1 :: .run 2 :: turns n

end Sink
