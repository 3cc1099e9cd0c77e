import Verif.Spec.Mutex
import Verif.Lemmas.IpMap

/-!
# A mutex makes calls happen one at a time
-/

namespace Sink
open Spec

variable {Op M V : Type}

theorem setAt_self {α : Type} (f : Nat → α) (k : Nat) (x : α) : setAt f k x k = x := if_pos rfl
theorem setAt_ne {α : Type} (f : Nat → α) {k j : Nat} (x : α) (h : j ≠ k) : setAt f k x j = f j := if_neg h

/-- Run accesses at given times. -/
def runActs : List (Int → M → V → M × V) → List Int → M × V → M × V
  | f :: fs, t :: ts, p => runActs fs ts (f t p.1 p.2)
  | _, _, p => p

theorem runActs_snoc {f : Int → M → V → M × V} {t : Int} : ∀ {fs : List (Int → M → V → M × V)} {ts : List Int} {p : M × V}, fs.length = ts.length →
    runActs (fs ++ [f]) (ts ++ [t]) p = f t (runActs fs ts p).1 (runActs fs ts p).2 := by
  intro fs
  induction fs with
  | nil =>
    intro ts p h
    have : ts = [] := by simpa using h.symm
    subst this; rfl
  | cons g fs ih =>
    intro ts p h
    cases ts with
    | nil => cases h
    | cons u ts => exact ih (by simpa using h)

/-- The code of a method under the mutex. -/
def guarded (fs : List (Int → M → V → M × V)) : List (Instr M V) := .lock :: fs.map .act ++ [.unlock]

/-- All accesses of all methods are under the mutex. -/
def Prog.Guarded (P : Prog Op M V) : Prop := ∀ op, P.code op = [] ∨ ∃ fs, P.code op = guarded fs

/-- The methods, run alone, do what they are specified to do. -/
def Prog.Correct (P : Prog Op M V) (D : Op → Int → Int → M → M → V → Prop) : Prop :=
  (∀ op m s, P.code op = [] → D op s s m m (P.init op)) ∧
  ∀ op fs, P.code op = guarded fs → ∀ m ts lo hi, fs.length = ts.length → ts.Pairwise (· ≤ ·) → (∀ t ∈ ts, lo ≤ t ∧ t ≤ hi) → lo ≤ hi →
    ∃ s t, lo ≤ s ∧ s ≤ t ∧ t ≤ hi ∧ D op s t m (runActs fs ts (m, P.init op)).1 (runActs fs ts (m, P.init op)).2

/-- What a goroutine is doing. -/
inductive CallStage (P : Prog Op M V) (held : Bool) (lo hi : Int) (m0 m : M) : Thread Op M V → Option V → Prop
  | begin {op} : held = false → CallStage P held lo hi m0 m ⟨op, P.code op, P.init op⟩ none
  | inside {op fs gs ts v} : held = true → P.code op = guarded (fs ++ gs) → fs.length = ts.length → ts.Pairwise (· ≤ ·) →
      (∀ t ∈ ts, lo ≤ t ∧ t ≤ hi) → (m, v) = runActs fs ts (m0, P.init op) →
      CallStage P held lo hi m0 m ⟨op, gs.map .act ++ [.unlock], v⟩ none
  | done {op v} : held = false → P.code op ≠ [] → CallStage P held lo hi m0 m ⟨op, [], v⟩ (some v)

/-- The relation between the two objects. -/
structure Sim (P : Prog Op M V) (s : Sys Op M V) (a : ASys Op M V) : Prop where
  clock : s.clock = a.clock
  le : a.last ≤ a.clock
  mem : s.holder = none → s.mem = a.mem
  thr : ∀ k, match s.thr k with
    | none => a.thr k = none ∧ s.holder ≠ some k
    | some x => ∃ r, a.thr k = some (x.op, r) ∧ CallStage P (decide (s.holder = some k)) a.last a.clock a.mem s.mem x r

theorem Sim.at {P : Prog Op M V} {s : Sys Op M V} {a : ASys Op M V} (h : Sim P s a) {k : Nat} {x : Thread Op M V} (hx : s.thr k = some x) :
    ∃ r, a.thr k = some (x.op, r) ∧ CallStage P (decide (s.holder = some k)) a.last a.clock a.mem s.mem x r := by
  have := h.thr k
  rw [hx] at this; exact this

/-- Another goroutine's stage does not mention the state of the object. -/
theorem CallStage.other {P : Prog Op M V} {lo hi lo' hi' : Int} {m0 m m0' m' : M} {x : Thread Op M V} {r : Option V}
    (h : CallStage P false lo hi m0 m x r) : CallStage P false lo' hi' m0' m' x r := by
  cases h with
  | begin h => exact .begin h
  | inside h => cases h
  | done h h' => exact .done h h'

/-- What can happen to the one can happen to the other. -/
theorem Sim.step {P : Prog Op M V} {D : Op → Int → Int → M → M → V → Prop} (hg : P.Guarded) (hc : P.Correct D) {s s' : Sys Op M V} {a : ASys Op M V}
    {o : Option (Obs Op V)} (h : Sim P s a) (hs : Sys.Step P s o s') :
    (∃ a', ASys.Step D a o a' ∧ Sim P s' a') ∨ (o = none ∧ Sim P s' a) ∨
    (∃ a' a'', ASys.Step D a none a' ∧ ASys.Step D a' o a'' ∧ Sim P s' a'') := by
  cases hs with
  | @call k op hk =>
    have h0 := h.thr k
    rw [hk] at h0
    refine .inl ⟨_, .call h0.1, h.clock, h.le, h.mem, fun j => ?_⟩
    by_cases hj : j = k
    · subst hj
      simp only [setAt_self]
      exact ⟨none, rfl, .begin (by simpa using h0.2)⟩
    · simp only [setAt_ne _ _ hj]
      exact h.thr j
  | @lock k op c v hk hn =>
    obtain ⟨r, h1, h2⟩ := h.at hk
    refine .inr (.inl ⟨rfl, h.clock, h.le, (nomatch ·), fun j => ?_⟩)
    by_cases hj : j = k
    · subst hj
      simp only [setAt_self]
      refine ⟨r, h1, ?_⟩
      generalize hx : (⟨op, .lock :: c, v⟩ : Thread Op M V) = x at h2
      cases h2 with
      | @begin op' hb =>
        simp only [Thread.mk.injEq] at hx
        obtain ⟨rfl, hcode, rfl⟩ := hx
        rcases hg op with he | ⟨fs, he⟩
        · rw [he] at hcode; cases hcode
        · rw [he] at hcode
          unfold guarded at hcode
          simp only [List.cons_append, List.cons.injEq, true_and] at hcode
          subst hcode
          exact .inside (fs := []) (gs := fs) (ts := []) (by simp) he rfl .nil (fun t ht => nomatch ht) (by rw [h.mem hn]; rfl)
      | @inside _ fs gs ts v' hb =>
        rw [hn] at hb; simp at hb
      | done hb => simp at hx
    · simp only [setAt_ne _ _ hj]
      have := h.thr j
      cases hx : s.thr j with
      | none =>
        rw [hx] at this
        exact ⟨this.1, fun e => hj (Option.some.inj e).symm⟩
      | some x =>
        rw [hx] at this
        obtain ⟨r', g1, g2⟩ := this
        refine ⟨r', g1, ?_⟩
        have e : decide (some k = some j) = false := by simpa using fun e => hj e.symm
        have e' : decide (s.holder = some j) = false := by rw [hn]; rfl
        rw [e]; rw [e'] at g2
        exact g2.other
  | @act k op f c v hk =>
    obtain ⟨r, h1, h2⟩ := h.at hk
    generalize hx : (⟨op, .act f :: c, v⟩ : Thread Op M V) = x at h2
    cases h2 with
    | @begin op' hb =>
      simp only [Thread.mk.injEq] at hx
      obtain ⟨rfl, hcode, rfl⟩ := hx
      rcases hg op with he | ⟨fs, he⟩
      · rw [he] at hcode; cases hcode
      · rw [he] at hcode; cases hcode
    | @inside op' fs gs ts v' hb hcode hl hp hw hr =>
      simp only [Thread.mk.injEq] at hx
      obtain ⟨rfl, hcode', rfl⟩ := hx
      have hold : s.holder = some k := by simpa using hb
      cases gs with
      | nil => cases hcode'
      | cons g gs =>
        simp only [List.map_cons, List.cons_append, List.cons.injEq, Instr.act.injEq] at hcode'
        obtain ⟨rfl, rfl⟩ := hcode'
        refine .inr (.inl ⟨rfl, h.clock, h.le, fun e => ?_, fun j => ?_⟩)
        · simp only at e; rw [hold] at e; cases e
        · by_cases hj : j = k
          · subst hj
            simp only [setAt_self]
            refine ⟨none, h1, .inside (fs := fs ++ [f]) (gs := gs) (ts := ts ++ [s.clock]) hb (by rw [hcode]; simp) (by simp [hl]) ?_ ?_ ?_⟩
            · rw [List.pairwise_append]
              refine ⟨hp, List.pairwise_singleton _ _, fun x hx y hy => ?_⟩
              rw [List.mem_singleton] at hy
              subst hy
              rw [h.clock]; exact (hw x hx).2
            · intro t ht
              rcases List.mem_append.1 ht with ht | ht
              · exact hw t ht
              · rw [List.mem_singleton] at ht; subst ht; rw [h.clock]; exact ⟨h.le, Int.le_refl _⟩
            · rw [runActs_snoc hl, ← hr]
          · simp only [setAt_ne _ _ hj]
            have := h.thr j
            cases hx : s.thr j with
            | none => rw [hx] at this; exact this
            | some x =>
              rw [hx] at this
              obtain ⟨r', g1, g2⟩ := this
              refine ⟨r', g1, ?_⟩
              have e : decide (s.holder = some j) = false := by rw [hold]; simpa using fun e => hj e.symm
              rw [e] at g2 ⊢
              exact g2.other
    | done hb => simp at hx
  | @unlock k op c v hk hne =>
    obtain ⟨r, h1, h2⟩ := h.at hk
    generalize hx : (⟨op, .unlock :: c, v⟩ : Thread Op M V) = x at h2
    cases h2 with
    | @begin op' hb =>
      simp only [Thread.mk.injEq] at hx
      obtain ⟨rfl, hcode, rfl⟩ := hx
      rcases hg op with he | ⟨fs, he⟩
      · rw [he] at hcode; cases hcode
      · rw [he] at hcode; cases hcode
    | @inside op' fs gs ts v' hb hcode hl hp hw hr =>
      simp only [Thread.mk.injEq] at hx
      obtain ⟨rfl, hcode', rfl⟩ := hx
      have hold : s.holder = some k := by simpa using hb
      cases gs with
      | cons g gs => cases hcode'
      | nil =>
        simp only [List.map_nil, List.nil_append, List.cons.injEq, true_and] at hcode'
        subst hcode'
        rw [List.append_nil] at hcode
        obtain ⟨x, y, l1, l2, l3, hd⟩ := hc.2 op fs hcode a.mem ts a.last a.clock hl hp hw h.le
        rw [← hr] at hd
        refine .inl ⟨_, .fire h1 l1 l2 l3 hd, h.clock, l3, fun _ => rfl, fun j => ?_⟩
        by_cases hj : j = k
        · subst hj
          simp only [setAt_self]
          exact ⟨some v, rfl, .done (by simp) (by rw [hcode]; simp [guarded])⟩
        · simp only [setAt_ne _ _ hj]
          have := h.thr j
          cases hx : s.thr j with
          | none => rw [hx] at this; exact ⟨this.1, by simp⟩
          | some x =>
            rw [hx] at this
            obtain ⟨r', g1, g2⟩ := this
            refine ⟨r', g1, ?_⟩
            have e : decide (s.holder = some j) = false := by rw [hold]; simpa using fun e => hj e.symm
            rw [e] at g2
            have e' : decide (none = some j) = false := by simp
            rw [e']
            exact g2.other
    | done hb => simp at hx
  | @ret k op v hk =>
    obtain ⟨r, h1, h2⟩ := h.at hk
    generalize hx : (⟨op, [], v⟩ : Thread Op M V) = x at h2
    have rest : ∀ a' : ASys Op M V, a'.mem = a.mem → a'.clock = a.clock → a'.last = a.last → s.holder ≠ some k → (∀ j, j ≠ k → a'.thr j = a.thr j) →
        a'.thr k = none → Sim P { s with thr := setAt s.thr k none } a' := by
      intro a' hm hcl hlast hh hthr hnone
      refine ⟨by rw [hcl]; exact h.clock, by rw [hlast, hcl]; exact h.le, fun e => by rw [hm]; exact h.mem e, fun j => ?_⟩
      by_cases hj : j = k
      · subst hj
        simp only [setAt_self]
        exact ⟨hnone, hh⟩
      · simp only [setAt_ne _ _ hj, hthr j hj]
        have := h.thr j
        cases hx : s.thr j with
        | none => rw [hx] at this; exact this
        | some x =>
          rw [hx] at this
          obtain ⟨r', g1, g2⟩ := this
          refine ⟨r', g1, ?_⟩
          rw [hlast, hcl, hm]; exact g2
    cases h2 with
    | @begin op' hb =>
      simp only [Thread.mk.injEq] at hx
      obtain ⟨rfl, hcode, rfl⟩ := hx
      have hd := hc.1 op a.mem a.last hcode.symm
      refine .inr (.inr ⟨_, _, .fire h1 (Int.le_refl _) (Int.le_refl _) h.le hd, .ret (setAt_self _ _ _), ?_⟩)
      refine rest _ rfl rfl rfl (by simpa using hb) (fun j hj => ?_) ?_
      · simp only [setAt_ne _ _ hj]
      · simp only [setAt_self]
    | @inside op' fs gs ts v' hb hcode hl hp hw hr => simp at hx
    | done hb hne =>
      simp only [Thread.mk.injEq] at hx
      obtain ⟨rfl, -, rfl⟩ := hx
      refine .inl ⟨_, .ret h1, ?_⟩
      refine rest _ rfl rfl rfl (by simpa using hb) (fun j hj => ?_) ?_
      · simp only [setAt_ne _ _ hj]
      · simp only [setAt_self]
  | @tick t ht =>
    rw [h.clock] at ht
    refine .inl ⟨_, .tick ht, rfl, Int.le_trans h.le ht, h.mem, fun j => ?_⟩
    have := h.thr j
    simp only
    cases hx : s.thr j with
    | none => rw [hx] at this; exact this
    | some x =>
      rw [hx] at this
      obtain ⟨r', g1, g2⟩ := this
      refine ⟨r', g1, ?_⟩
      generalize decide (s.holder = some j) = b at g2 ⊢
      cases g2 with
      | begin h => exact .begin h
      | inside h h2 h3 h4 h5 h6 => exact .inside h h2 h3 h4 (fun t' ht' => ⟨(h5 t' ht').1, Int.le_trans (h5 t' ht').2 ht⟩) h6
      | done h h' => exact .done h h'

/-- Everything that can be observed of an object with a mutex can be observed of one whose calls happen one at a time. -/
theorem Sys.Runs.atomic {P : Prog Op M V} {D : Op → Int → Int → M → M → V → Prop} (hg : P.Guarded) (hc : P.Correct D) {m : M} {t0 : Int}
    {l : List (Obs Op V)} {s : Sys Op M V} (h : Sys.Runs P m t0 l s) : ∃ a, ASys.Runs D m t0 l a ∧ Sim P s a := by
  induction h with
  | init => exact ⟨_, .init, rfl, Int.le_refl _, fun _ => rfl, fun k => ⟨rfl, by simp⟩⟩
  | step _ hs ih =>
    obtain ⟨a, ha, hsim⟩ := ih
    rcases hsim.step hg hc hs with ⟨a', h1, h2⟩ | ⟨rfl, h2⟩ | ⟨a', a'', h1, h2, h3⟩
    · exact ⟨a', .step ha h1, h2⟩
    · exact ⟨a, by simpa using ha, h2⟩
    · refine ⟨a'', ?_, h3⟩
      have := ASys.Runs.step (.step ha h1) h2
      simpa using this

/-- Every access happens under the mutex, and only the owner unlocks. -/
theorem Sim.excl {P : Prog Op M V} (hg : P.Guarded) {s : Sys Op M V} {a : ASys Op M V} (h : Sim P s a) {k : Nat} {x : Thread Op M V}
    (hx : s.thr k = some x) {i : Instr M V} {c : List (Instr M V)} (hi : x.code = i :: c) (hne : i ≠ .lock) : s.holder = some k := by
  obtain ⟨r, -, h2⟩ := h.at hx
  cases h2 with
  | @begin op' hb =>
    simp only at hi
    rcases hg op' with he | ⟨fs, he⟩
    · rw [he] at hi; cases hi
    · rw [he] at hi; cases hi; exact absurd rfl hne
  | inside hb => simpa using hb
  | done hb => cases hi

/-- Something can always happen while a goroutine is in a call. -/
theorem Sim.progress {P : Prog Op M V} (hg : P.Guarded) {s : Sys Op M V} {a : ASys Op M V} (h : Sim P s a) (hw : ∃ k, s.thr k ≠ none) :
    ∃ o s', Sys.Step P s o s' ∧ (∀ k op, o ≠ some (.call k op)) ∧ ∀ t, o ≠ some (.tick t) := by
  obtain ⟨k, hk⟩ := hw
  cases hh : s.holder with
  | some j =>
    have hj := h.thr j
    cases hx : s.thr j with
    | none => rw [hx] at hj; exact absurd hh hj.2
    | some x =>
      rw [hx] at hj
      obtain ⟨r, -, h2⟩ := hj
      have hb : decide (s.holder = some j) = true := by simpa using hh
      rw [hb] at h2
      cases h2 with
      | begin h => cases h
      | @inside op fs gs ts v =>
        cases gs with
        | nil => exact ⟨_, _, .unlock (c := []) hx (by rw [hh]; simp), nofun, nofun⟩
        | cons g gs => exact ⟨_, _, .act hx, nofun, nofun⟩
      | done h => cases h
  | none =>
    cases hx : s.thr k with
    | none => exact absurd hx hk
    | some x =>
      obtain ⟨op, code, v⟩ := x
      cases code with
      | nil => exact ⟨_, _, .ret hx, nofun, nofun⟩
      | cons i c =>
        cases i with
        | lock => exact ⟨_, _, .lock hx hh, nofun, nofun⟩
        | act f => exact ⟨_, _, .act hx, nofun, nofun⟩
        | unlock =>
          exfalso
          have := h.excl hg hx rfl (by simp)
          rw [hh] at this; cases this

end Sink
