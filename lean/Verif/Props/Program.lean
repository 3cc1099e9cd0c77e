import Mathlib.Data.List.Nodup
import Mathlib.Data.List.Perm.Subperm
import Verif.Model.Program
import Verif.Props.Greet
import Verif.Props.Times
import Verif.Props.Accept
import Verif.Props.Apart
import Verif.Props.Isolation
import Verif.Props.Flags
import Verif.Spec.DemoProgram

/-!
# C100: the statistics of the whole program
-/

namespace Sink
open Spec

/-! ## The parts -/

namespace Spec

/-- What listeners, `main` and `updateTimeOf` did, oldest first. -/
def obsOf (l : List Mark) : List FrontObs := l.filterMap fun m => match m with
  | .front o => some o
  | .sess _ => none

/-- What the sessions did, newest first. -/
def hapsOf (l : List Mark) : List Hap := (l.filterMap fun m => match m with
  | .front _ => none
  | .sess e => some e).reverse

end Spec

theorem obsOf_append (l l' : List Mark) : obsOf (l ++ l') = obsOf l ++ obsOf l' := by simp [obsOf]
theorem hapsOf_append (l l' : List Mark) : hapsOf (l ++ l') = hapsOf l' ++ hapsOf l := by simp [hapsOf]

theorem mem_obsOf {l : List Mark} {o : FrontObs} : o ∈ obsOf l ↔ .front o ∈ l := by
  unfold obsOf
  rw [List.mem_filterMap]
  constructor
  · rintro ⟨m, hm, h⟩
    cases m <;> simp at h
    exact h ▸ hm
  · exact fun h => ⟨_, h, rfl⟩

theorem mem_hapsOf {l : List Mark} {e : Hap} : e ∈ hapsOf l ↔ .sess e ∈ l := by
  unfold hapsOf
  rw [List.mem_reverse, List.mem_filterMap]
  constructor
  · rintro ⟨m, hm, h⟩
    cases m <;> simp at h
    exact h ▸ hm
  · exact fun h => ⟨_, h, rfl⟩

theorem front_clock {sc : StatConf} {s s' : Front} {o : Option FrontObs} (h : Front.Step sc s o s') : s.clock ≤ s'.clock := by
  cases h <;> first | assumption | exact Int.le_refl _

/-- The parts of a run are runs of the parts, and the clock is ahead of everything that happened. -/
theorem Program.Runs.parts {L : Launch} {l : List Mark} {p : Program} (h : Program.Runs L l p) :
    Front.Runs L.stat (obsOf l) p.front ∧ Server.Runs L.cf (hapsOf l) p.srv ∧ ∀ e ∈ hapsOf l, e.now ≤ p.front.clock := by
  induction h with
  | init t fs => exact ⟨.init t, .init fs, by simp [hapsOf]⟩
  | @step l p p' o h hs ih =>
    obtain ⟨h1, h2, h3⟩ := ih
    rw [obsOf_append, hapsOf_append]
    cases hs with
    | @front o f hf _ _ =>
      have e1 : obsOf (o.map Mark.front).toList = o.toList := by cases o <;> rfl
      have e2 : hapsOf (o.map Mark.front).toList = [] := by cases o <;> rfl
      rw [e1, e2]
      exact ⟨.step h1 hf, h2, fun e he => Int.le_trans (h3 e he) (front_clock hf)⟩
    | call hd hf => exact ⟨.step h1 hf, h2, fun e he => Int.le_trans (h3 e he) (front_clock hf)⟩
    | @began k a E i s sh' out hp hc hE hn hst =>
      refine ⟨by simpa [obsOf] using h1, .start h2 (fun e he => hn ▸ h3 e he) hc hst, fun e he => ?_⟩
      rcases List.mem_cons.1 he with rfl | he
      · exact hn ▸ Int.le_refl _
      · exact h3 e he
    | @stepped k E i s s' sh' out hc hd hu hn hst =>
      refine ⟨by simpa [obsOf] using h1, .step h2 (fun e he => hn ▸ h3 e he) hc hst, fun e he => ?_⟩
      rcases List.mem_cons.1 he with rfl | he
      · exact hn ▸ Int.le_refl _
      · exact h3 e he

/-- The run until some observation. -/
theorem Program.Runs.at {L : Launch} {l : List Mark} {p : Program} (h : Program.Runs L l p) :
    ∀ {l1 l2 : List Mark} {m : Mark}, l = l1 ++ m :: l2 →
      ∃ p1 p2, Program.Runs L l1 p1 ∧ Program.Step L p1 (some m) p2 ∧ Program.Runs L (l1 ++ [m]) p2 := by
  induction h with
  | init t fs => intro l1 l2 m h; simp at h
  | @step l p p' o h hs ih =>
    intro l1 l2 m he
    cases o with
    | none => exact ih (by simpa using he)
    | some x =>
      rcases List.eq_nil_or_concat l2 with rfl | ⟨l3, y, rfl⟩
      · have : l = l1 ∧ x = m := by simpa using List.append_inj' (s₁ := l) (t₁ := [x]) he rfl
        obtain ⟨rfl, rfl⟩ := this
        exact ⟨p, p', h, hs, .step h hs⟩
      · have : l = l1 ++ m :: l3 := by
          have := List.append_inj' (s₁ := l) (t₁ := [x]) (s₂ := l1 ++ m :: l3) (t₂ := [y]) (by simpa using he) rfl
          exact this.1
        exact ih this

/-! ## Numbers, addresses and prefixes -/

theorem front_procs {sc : StatConf} {l : List FrontObs} {s s' : Front} {o : Option FrontObs} (hr : Front.Runs sc l s) (h : Front.Step sc s o s')
    {k : Nat} {a : Str} (hk : s.procs k = some a) : s'.procs k = some a := by
  cases h <;> try exact hk
  rename_i c hm
  have := ((front_callInv hr).begun k a hk).2
  rw [hm] at this
  simp only [putAt]
  rw [if_neg]
  · exact hk
  · rintro rfl; simp at this

theorem front_procs_iff {sc : StatConf} {l : List FrontObs} {s : Front} (hr : Front.Runs sc l s) (k : Nat) (a : Str) :
    s.procs k = some a ↔ ∃ c, (k, c) ∈ started l ∧ c.laddr = a := by
  induction hr with
  | init t => simp [started]
  | @step l s s' o h hs ih =>
    rw [started_append]
    have dull : started o.toList = [] → s'.procs = s.procs → (s'.procs k = some a ↔ ∃ c, (k, c) ∈ started l ++ started o.toList ∧ c.laddr = a) := by
      intro e1 e2
      rw [e1, e2, List.append_nil]
      exact ih
    cases hs with
    | @go_ c hm =>
      have e : started (some (FrontObs.start s.cid c)).toList = [(s.cid, c)] := rfl
      rw [e]
      simp only [putAt, List.mem_append, List.mem_singleton, Prod.mk.injEq]
      by_cases hk : k = s.cid
      · subst hk
        rw [if_pos rfl]
        have hn : s.procs s.cid = none := by
          cases e : s.procs s.cid with
          | none => rfl
          | some b =>
            have := ((front_callInv h).begun _ _ e).2
            rw [hm] at this; simp at this
        rw [hn] at ih
        constructor
        · intro e
          cases e
          exact ⟨c, .inr ⟨rfl, rfl⟩, rfl⟩
        · rintro ⟨c1, h1 | ⟨-, rfl⟩, rfl⟩
          · exact absurd (ih.2 ⟨_, h1, rfl⟩) (by simp)
          · rfl
      · rw [if_neg hk, ih]
        constructor
        · rintro ⟨c1, h1, h2⟩; exact ⟨c1, .inl h1, h2⟩
        · rintro ⟨c1, h1 | h1, h2⟩
          · exact ⟨c1, h1, h2⟩
          · exact absurd h1.1 hk
    | upd => exact dull (dull_started dull_sees) rfl
    | _ => exact dull rfl rfl

theorem front_call_procs {sc : StatConf} {l : List FrontObs} {s : Front} (hr : Front.Runs sc l s) {n k : Nat} {w : Kind} {la : Str} (hk : k ≠ 0)
    (hc : .call n k w la ∈ l) : s.procs k = some la := by
  induction hr with
  | init t => cases hc
  | @step l s s' o h hs ih =>
    rcases mem_snoc.1 hc with hc | hc
    · exact front_procs h hs (ih hc)
    · cases hs <;> (try simp at hc)
      case time => exact absurd hc.2.1 (Ne.symm hk)
      case call =>
        obtain ⟨-, rfl, -, rfl⟩ := hc
        assumption
      case upd =>
        unfold TimeCall.sees at hc
        split at hc <;> cases hc

theorem front_clock_le {sc : StatConf} {l : List FrontObs} {s : Front} (hr : Front.Runs sc l s) {n : Nat} {b : Bool} {t : Int}
    (hc : .clock n b t ∈ l) : t ≤ s.clock := by
  induction hr with
  | init t => cases hc
  | @step l s s' o h hs ih =>
    rcases mem_snoc.1 hc with hc | hc
    · exact Int.le_trans (ih hc) (front_clock hs)
    · cases hs <;> (try simp at hc)
      unfold TimeCall.sees at hc
      split at hc
      · simp at hc; exact hc.2.2 ▸ Int.le_refl _
      · cases hc

/-- What is known of a session. -/
theorem Program.Runs.env {L : Launch} {l : List Mark} {p : Program} (h : Program.Runs L l p) {k : Nat} {E : Env} {s : Sess}
    (hk : p.srv.conns k = some (E, s)) : p.front.procs k = some E.laddr ∧ E.Of L.pid k E.laddr := by
  induction h generalizing s with
  | init t fs => cases hk
  | @step l p p' o h hs ih =>
    obtain ⟨h1, h2, -⟩ := h.parts
    cases hs with
    | @front o f hf _ _ => exact ⟨front_procs h1 hf (ih hk).1, (ih hk).2⟩
    | call hd hf => exact ⟨front_procs h1 hf (ih hk).1, (ih hk).2⟩
    | @began j a E' i s1 sh' out hp hc hE hn hst =>
      by_cases hj : k = j
      · subst hj
        simp only [putAt, if_true] at hk
        cases hk
        have := hE.laddr
        subst this
        exact ⟨hp, hE⟩
      · simp only [putAt, if_neg hj] at hk
        exact ih hk
    | @stepped j E' i s1 s2 sh' out hc hd hu hn hst =>
      by_cases hj : k = j
      · subst hj
        simp only [putAt, if_true] at hk
        cases hk
        exact ih hc
      · simp only [putAt, if_neg hj] at hk
        exact ih hk

theorem Program.Runs.hap {L : Launch} {l : List Mark} {p : Program} (h : Program.Runs L l p) {e : Hap} (he : .sess e ∈ l) :
    p.front.procs e.k = some e.E.laddr ∧ e.E.Of L.pid e.k e.E.laddr := by
  obtain ⟨s, hs⟩ := h.parts.2.1.env e (mem_hapsOf.2 he)
  exact h.env hs

/-! ## Calls and events -/

/-- The calls of `updateTimeOf` that what happened makes necessary. -/
def Hap.kinds (cf : Conf) (e : Hap) : List Kind :=
  match e.what with
  | .began _ s _ _ => [startTime s]
  | .stepped s _ i _ _ _ => stepTime cf s i

/-- The calls that `process` number `k` has to make, or has made. -/
def wanted (cf : Conf) (k : Nat) (l : List Mark) : List Kind := l.flatMap fun m => match m with
  | .sess e => if e.k = k then e.kinds cf else []
  | .front _ => []

/-- The calls that it has made. -/
def made (k : Nat) (l : List Mark) : List Kind := l.flatMap fun m => match m with
  | .front (.call _ j w _) => if j = k then [w] else []
  | _ => []

theorem wanted_append (cf : Conf) (k : Nat) (l l' : List Mark) : wanted cf k (l ++ l') = wanted cf k l ++ wanted cf k l' := by simp [wanted]
theorem made_append (k : Nat) (l l' : List Mark) : made k (l ++ l') = made k l ++ made k l' := by simp [made]

theorem Program.Runs.due_none {L : Launch} {l : List Mark} {p : Program} (h : Program.Runs L l p) {k : Nat} (hk : p.srv.conns k = none) : p.due k = [] := by
  induction h with
  | init t fs => rfl
  | @step l p p' o h hs ih =>
    cases hs with
    | front => exact ih hk
    | @call j w ws n a f hd hf =>
      have := ih hk
      by_cases hj : k = j
      · subst hj; rw [hd] at this; cases this
      · simpa [putAt, hj] using this
    | @began j a E' i s1 sh' out hp hc hE hn hst =>
      by_cases hj : k = j
      · subst hj; simp [putAt] at hk
      · simp only [putAt, if_neg hj] at hk ⊢
        exact ih hk
    | @stepped j E' i s1 s2 sh' out hc hd hu hn hst =>
      by_cases hj : k = j
      · subst hj; simp [putAt] at hk
      · simp only [putAt, if_neg hj] at hk ⊢
        exact ih hk

/-- Every `process` makes the calls it has to make, in order. -/
theorem Program.Runs.calls {L : Launch} {l : List Mark} {p : Program} (h : Program.Runs L l p) {k : Nat} (hk : k ≠ 0) :
    wanted L.cf k l = made k l ++ p.due k := by
  induction h with
  | init t fs => rfl
  | @step l p p' o h hs ih =>
    rw [wanted_append, made_append]
    obtain ⟨h1, h2, -⟩ := h.parts
    cases hs with
    | @front o f hf hno hacc =>
      have e1 : wanted L.cf k (o.map Mark.front).toList = [] := by cases o <;> rfl
      have e2 : made k (o.map Mark.front).toList = [] := by
        cases o with
        | none => rfl
        | some x =>
          cases x <;> try rfl
          rename_i n j w a
          have hw := hno _ _ _ _ rfl
          have h0 := ((front_callInv (.step h1 hf)).kinds n j w a (by simp)).2 hw
          simp [made, h0, Ne.symm hk]
      rw [e1, e2, List.append_nil, List.append_nil]
      exact ih
    | @call j w ws n a f hd hf =>
      rw [ih]
      by_cases hj : k = j
      · subst hj; simp [putAt, wanted, made, hd]
      · simp [putAt, wanted, made, hj, Ne.symm hj]
    | @began j a E' i s1 sh' out hp hc hE hn hst =>
      rw [ih]
      by_cases hj : k = j
      · subst hj; simp [putAt, wanted, made, Hap.kinds, h.due_none hc]
      · simp [putAt, wanted, made, hj, Ne.symm hj]
    | @stepped j E' i s1 s2 sh' out hc hd hu hn hst =>
      rw [ih]
      by_cases hj : k = j
      · subst hj; simp [putAt, wanted, made, Hap.kinds, hd]
      · simp [putAt, wanted, made, hj, Ne.symm hj]

namespace Spec

/-- Something of this kind happened, in a session to the address in `e`; `h` is what the sessions did before.  A do-nothing client, or another, was received; a message
was answered; a session ended which had got as far as `-minphase` (unless that is `message`). -/
def Occurs (cf : Conf) (h : List Hap) (e : Hap) : Kind → Prop
  | .connection => False
  | .yakker => (∃ sh s sh' o, e.what = .began sh s sh' o) ∧ DoNothing cf e.E.rip e.now h
  | .regular => (∃ sh s sh' o, e.what = .began sh s sh' o) ∧ ¬ DoNothing cf e.E.rip e.now h
  | .message => ∃ s sh i s' sh' o id lost, e.what = .stepped s sh i s' sh' o ∧ s.pc = .decide id lost
  | .reachedMinphase => ∃ s sh i s' sh' o, e.what = .stepped s sh i s' sh' o ∧ Step.ended ⟨s, i, sh, s', sh', o⟩ = true ∧
      reached cf (stepsOf e.k h) = true ∧ cf.minphase ≠ b!"message"

end Spec

theorem occurs_iff {L : Launch} {l : List Mark} {p : Program} {e : Hap} (h : Program.Runs L (l ++ [.sess e]) p) (w : Kind) :
    Occurs L.cf (hapsOf l) e w ↔ w ∈ e.kinds L.cf := by
  have hs := h.parts.2.1
  have he : hapsOf (l ++ [.sess e]) = e :: hapsOf l := by simp [hapsOf]
  rw [he] at hs
  generalize p.srv = g at hs
  obtain ⟨k, E, now, what⟩ := e
  cases what with
  | began sh s sh' o =>
    obtain ⟨h1, h2⟩ := C95_start hs
    have hb : ∃ sh1 s1 sh1' o1, What.began sh s sh' o = .began sh1 s1 sh1' o1 := ⟨_, _, _, _, rfl⟩
    have h3 : startTime s = .yakker ∨ startTime s = .regular := by unfold startTime; split <;> simp
    cases w with
    | yakker => simp only [Occurs, Hap.kinds, ← h1, hb, true_and, List.mem_singleton, eq_comm]
    | regular => simp only [Occurs, Hap.kinds, ← h2, hb, true_and, List.mem_singleton, eq_comm]
    | _ => rcases h3 with h3 | h3 <;> simp [Occurs, Hap.kinds, h3]
  | stepped s sh i s' sh' o =>
    cases hs with
    | @step _ g0 _ _ _ _ _ _ _ hr hn hk hst =>
      have hl := (hr.life (k := k)).1 _ _ hk
      have h1 := C95_reached hl (i := i) (s' := s') (sh := g0.sh) (sh' := sh') (o := o)
      cases w
      case reachedMinphase =>
        simp only [Occurs, Hap.kinds, h1, What.stepped.injEq]
        constructor
        · rintro ⟨s, sh, i, s', sh', o, ⟨rfl, rfl, rfl, rfl, rfl, rfl⟩, h⟩; exact h
        · intro h; exact ⟨_, _, _, _, _, _, ⟨rfl, rfl, rfl, rfl, rfl, rfl⟩, h⟩
      case message =>
        simp only [Occurs, Hap.kinds, stepTime, What.stepped.injEq]
        constructor
        · rintro ⟨s1, sh1, i1, s1', sh1', o1, id, lost, ⟨rfl, rfl, rfl, rfl, rfl, rfl⟩, hp⟩
          simp [hp]
        · intro hm
          cases hp : s.pc <;> simp [hp] at hm
          · cases hv : i.ev <;> simp [hv] at hm
          · exact ⟨_, _, _, _, _, _, _, _, ⟨rfl, rfl, rfl, rfl, rfl, rfl⟩, hp⟩
      all_goals
        simp only [Occurs, Hap.kinds, stepTime]
        cases hp : s.pc <;> simp
        cases hv : i.ev <;> simp

theorem mem_wanted {cf : Conf} {k : Nat} {w : Kind} {l : List Mark} : w ∈ wanted cf k l ↔ ∃ e, .sess e ∈ l ∧ e.k = k ∧ w ∈ e.kinds cf := by
  unfold wanted
  rw [List.mem_flatMap]
  constructor
  · rintro ⟨m, hm, h⟩
    cases m with
    | front o => cases h
    | sess e =>
      simp only at h
      split at h
      · exact ⟨e, hm, ‹_›, h⟩
      · cases h
  · rintro ⟨e, he, hk, hw⟩
    exact ⟨_, he, by simp only [hk, if_true]; exact hw⟩

theorem mem_made {k : Nat} {w : Kind} {l : List Mark} : w ∈ made k l ↔ ∃ n a, .front (.call n k w a) ∈ l := by
  unfold made
  rw [List.mem_flatMap]
  constructor
  · rintro ⟨m, hm, h⟩
    cases m with
    | sess e => cases h
    | front o =>
      cases o <;> simp at h
      obtain ⟨rfl, rfl⟩ := h
      exact ⟨_, _, hm⟩
  · rintro ⟨n, a, h⟩
    exact ⟨_, h, by simp⟩

namespace Spec

/-- Nobody is about to record a time or doing so. -/
def Recorded (p : Program) : Prop := ∀ k, p.due k = [] ∧ p.front.upd k = none

/-- In `l` something of the kind happens, in a session to an address that belongs to `a`; `l0` is what was before. -/
def Happens (cf : Conf) (a : Option Str) (w : Kind) (l0 l : List Mark) (e : Hap) : Prop :=
  ∃ l1 l2, l = l1 ++ .sess e :: l2 ∧ Occurs cf (hapsOf (l0 ++ l1)) e w ∧ Belongs a e.E.laddr

end Spec

/-- Events and kinds of calls. -/
theorem happens_iff {L : Launch} {l0 l : List Mark} {p : Program} (h : Program.Runs L (l0 ++ l) p) {a : Option Str} {w : Kind} {e : Hap} :
    Happens L.cf a w l0 l e ↔ .sess e ∈ l ∧ w ∈ e.kinds L.cf ∧ Belongs a e.E.laddr := by
  constructor
  · rintro ⟨l1, l2, rfl, h1, h2⟩
    obtain ⟨p1, p2, -, -, h3⟩ := h.at (l1 := l0 ++ l1) (m := .sess e) (l2 := l2) (by simp)
    exact ⟨by simp, (occurs_iff h3 w).1 h1, h2⟩
  · rintro ⟨h1, h2, h3⟩
    obtain ⟨l1, l2, rfl⟩ := List.append_of_mem h1
    obtain ⟨p1, p2, -, -, h4⟩ := h.at (l1 := l0 ++ l1) (m := .sess e) (l2 := l2) (by simp)
    exact ⟨l1, l2, rfl, (occurs_iff h4 w).2 h2, h3⟩

/-- A call of `updateTimeOf` is for something that happened before. -/
theorem call_event {L : Launch} {l : List Mark} {p : Program} (h : Program.Runs L l p) {n k : Nat} {w : Kind} {la : Str} (hw : w ≠ .connection)
    (hc : .front (.call n k w la) ∈ l) : k ≠ 0 ∧ p.front.procs k = some la ∧ ∃ e, .sess e ∈ l ∧ e.k = k ∧ w ∈ e.kinds L.cf ∧ e.E.laddr = la := by
  have hk : k ≠ 0 := fun h0 => hw (((front_callInv h.parts.1).kinds n k w la (mem_obsOf.2 hc)).1 h0)
  have hm : w ∈ wanted L.cf k l := by
    rw [h.calls hk]
    exact List.mem_append_left _ (mem_made.2 ⟨n, la, hc⟩)
  have hp : p.front.procs k = some la := front_call_procs h.parts.1 hk (mem_obsOf.2 hc)
  obtain ⟨e, he, rfl, h2⟩ := mem_wanted.1 hm
  refine ⟨hk, hp, e, he, rfl, h2, ?_⟩
  have := (h.hap he).1
  rw [hp] at this
  exact (Option.some.inj this).symm

theorem ret_of_still {L : Launch} {l : List Mark} {p : Program} (h : Program.Runs L l p) (hq : Recorded p) {n k : Nat} {w : Kind} {la : Str}
    (hc : .front (.call n k w la) ∈ l) : .ret n ∈ obsOf l := by
  rcases (front_callInv h.parts.1).opn n k w la (mem_obsOf.2 hc) with h1 | ⟨u, h1, -⟩
  · exact h1
  · rw [(hq k).2] at h1; cases h1

theorem ret_mark {L : Launch} {l : List Mark} {p p' : Program} (h : Program.Runs L l p) {n : Nat} (hs : Program.Step L p (some (.front (.ret n))) p') :
    ∃ k w la, .front (.call n k w la) ∈ l := by
  have h1 := (Program.Runs.step h hs).parts.1
  obtain ⟨k, w, la, h2⟩ := (front_callInv h1).rets n (mem_obsOf.2 (by simp))
  exact ⟨k, w, la, by simpa using mem_obsOf.1 h2⟩

theorem clock_mark {L : Launch} {p p' : Program} {n : Nat} {b : Bool} {t : Int}
    (hs : Program.Step L p (some (.front (.clock n b t))) p') : ∃ k u, p.front.upd k = some u ∧ u.n = n ∧ t = p.front.clock := by
  generalize hm : some (Mark.front (.clock n b t)) = m at hs
  cases hs with
  | @front o f hf _ _ =>
    cases o with
    | none => cases hm
    | some x =>
      simp only [Option.map_some, Option.some.injEq, Mark.front.injEq] at hm
      subst hm
      generalize ho : some (FrontObs.clock n b t) = o at hf
      cases hf <;> try cases ho
      rename_i k u h1 h2
      unfold TimeCall.sees at ho
      split at ho
      · simp at ho
        exact ⟨k, u, h1, ho.1.symm, ho.2.2⟩
      · cases ho
  | _ => cases hm

/-- **C100.** When nobody is recording anything, the page has a time for a kind of event (at one of the addresses listened on, or at any) exactly if such an event has
happened.  That time is when one of them was recorded: not before it happened, and none happened after the recording was over. -/
theorem C100_last {L : Launch} {l : List Mark} {p : Program} (hr : Program.Runs L l p) (hq : Recorded p) {a : Option Str} (ha : Spec.Kept L.stat a)
    {w : Kind} (hw : w ≠ .connection) :
    ((∃ t, Spec.shown p.front a w = some t) ↔ ∃ e, Happens L.cf a w [] l e) ∧
    ∀ t, Spec.shown p.front a w = some t → ∃ l1 l2 n e, l = l1 ++ .front (.ret n) :: l2 ∧ Happens L.cf a w [] l1 e ∧
      .front (.call n e.k w e.E.laddr) ∈ l1 ∧ .front (.clock n a.isSome t) ∈ l1 ∧ e.now ≤ t ∧ t ≤ p.front.clock ∧
      ∀ e', ¬ Happens L.cf a w (l1 ++ [.front (.ret n)]) l2 e' := by
  have hf := hr.parts.1
  have hci := front_callInv hf
  refine ⟨⟨?_, ?_⟩, ?_⟩
  · rintro ⟨t, ht⟩
    obtain ⟨n, k, la, h1, h2, -, -⟩ := C70_shown ha.1 hf ht
    obtain ⟨-, -, e, h3, -, h4, rfl⟩ := call_event hr hw (mem_obsOf.1 h1)
    exact ⟨e, (happens_iff (l0 := []) hr).2 ⟨h3, h4, h2⟩⟩
  · rintro ⟨e, he⟩
    obtain ⟨h1, h2, h3⟩ := (happens_iff (l0 := []) hr).1 he
    have hp := (hr.hap h1).1
    have hk : e.k ≠ 0 := Nat.ne_of_gt (hci.begun _ _ hp).1
    have hm : w ∈ made e.k l := by
      have := hr.calls hk
      rw [(hq e.k).1, List.append_nil] at this
      rw [← this]
      exact mem_wanted.2 ⟨e, h1, rfl, h2⟩
    obtain ⟨n, la, hc⟩ := mem_made.1 hm
    have h4 := (call_event hr hw hc).2.1
    rw [hp] at h4
    cases h4
    exact C70_present hf ha (mem_obsOf.2 hc) (ret_of_still hr hq hc) h3
  · intro t ht
    obtain ⟨n, k, la, h1, h2, h3, h4⟩ := C70_shown ha.1 hf ht
    have hret := ret_of_still hr hq (mem_obsOf.1 h1)
    obtain ⟨l1, l2, rfl⟩ := List.append_of_mem (mem_obsOf.1 hret)
    obtain ⟨p1, p2, r1, s1, r2⟩ := hr.at rfl
    obtain ⟨k', w', la', hc⟩ := ret_mark r1 s1
    obtain ⟨rfl, rfl, rfl⟩ := hci.uniq n k w la k' w' la' h1 (mem_obsOf.2 (by simp [hc]))
    obtain ⟨q1, q2, hq3⟩ := List.append_of_mem (mem_obsOf.1 h3)
    obtain ⟨p3, p4, r3, s3, r4⟩ := hr.at hq3
    obtain ⟨k3, u, h5, h6, h7⟩ := clock_mark s3
    obtain ⟨h8, h9⟩ := (front_callInv r3.parts.1).thr k3 u h5
    rw [h6] at h8 h9
    have hsub : ∀ x, .front x ∈ q1 → (.front x : Mark) ∈ l1 ++ .front (.ret n) :: l2 := fun x hx => by rw [hq3]; simp [hx]
    obtain ⟨rfl, rfl, rfl⟩ := hci.uniq n k w la _ _ _ h1 (mem_obsOf.2 (hsub _ (mem_obsOf.1 h8)))
    obtain ⟨hk, -, e, g1, g2, g3, g4⟩ := call_event r3 hw (mem_obsOf.1 h8)
    have hpre : ∃ q3, l1 = q1 ++ .front (.clock n a.isSome t) :: q3 := by
      rcases List.append_eq_append_iff.1 hq3 with ⟨z, rfl, hz⟩ | ⟨z, rfl, hz⟩
      · exfalso
        cases z with
        | nil => simp at hz
        | cons y z =>
          simp only [List.cons_append, List.cons.injEq] at hz
          rw [← hz.1] at h9
          exact h9 (mem_obsOf.2 (by simp))
      · cases z with
        | nil => simp at hz
        | cons y z =>
          simp only [List.cons_append, List.cons.injEq] at hz
          exact ⟨z, by rw [hz.1]⟩
    obtain ⟨q3, rfl⟩ := hpre
    refine ⟨_, l2, n, e, rfl, (happens_iff (l0 := []) r1).2 ⟨by simp [g1], g3, g4 ▸ h2⟩, ?_, by simp, ?_, front_clock_le hf h3, ?_⟩
    · rw [g2, g4]
      simp [mem_obsOf.1 h8]
    · rw [h7]
      exact r3.parts.2.2 e (mem_hapsOf.2 g1)
    · intro e' he'
      obtain ⟨b1, b2, b3⟩ := (happens_iff (l0 := q1 ++ .front (.clock n a.isSome t) :: q3 ++ [.front (.ret n)]) (by simpa using hr)).1 he'
      have hp := (hr.hap (e := e') (by simp [b1])).1
      have hk' : e'.k ≠ 0 := Nat.ne_of_gt (hci.begun _ _ hp).1
      have hm : u.kind ∈ made e'.k l2 := by
        have c1 := hr.calls hk'
        have c2 := r2.calls hk'
        rw [(hq e'.k).1, List.append_nil] at c1
        have hsplit : q1 ++ Mark.front (.clock n a.isSome t) :: q3 ++ .front (.ret n) :: l2 =
          (q1 ++ Mark.front (.clock n a.isSome t) :: q3 ++ [.front (.ret n)]) ++ l2 := by simp
        rw [hsplit, wanted_append, made_append, c2, List.append_assoc, List.append_cancel_left_eq] at c1
        rw [← c1]
        exact List.mem_append_right _ (mem_wanted.2 ⟨e', b1, rfl, b2⟩)
      obtain ⟨n', la', hc'⟩ := mem_made.1 hm
      have hin : (.front (.call n' e'.k u.kind la') : Mark) ∈ q1 ++ .front (.clock n a.isSome t) :: q3 ++ .front (.ret n) :: l2 := by simp [hc']
      have h10 := (call_event hr hw hin).2.1
      rw [hp] at h10
      cases h10
      refine h4 n' e'.k _ (mem_obsOf.2 hin) b3 (ret_of_still hr hq hin)
        ⟨obsOf (q1 ++ .front (.clock n a.isSome t) :: q3 ++ [.front (.ret n)]), obsOf l2, ?_, mem_obsOf.2 (by simp), _, _, _, mem_obsOf.2 hc'⟩
      rw [← obsOf_append]
      simp

/-! ## Connections and sessions -/

namespace Spec

/-- The sessions that began: their numbers and local addresses. -/
def sessionsOf (h : List Hap) : List (Nat × Str) := h.filterMap fun e => match e.what with
  | .began .. => some (e.k, e.E.laddr)
  | .stepped .. => none

/-- What `main` started: numbers and local addresses. -/
def servedOf (l : List FrontObs) : List (Nat × Str) := (started l).map fun x => (x.1, x.2.laddr)

end Spec

theorem Did.unlocated {cf : Conf} {E : Env} {s s' : Sess} {sh sh' : Shared} {i : Inp} {o : List Out} (h : Did cf E s sh i s' sh' o) (a : Str) :
    Out.loccount a ∉ o := by
  have hm : ∀ {o : List Out}, Mild o → Out.loccount a ∉ o := fun h h1 => by have := h _ h1; cases this
  have hw : ∀ t x, Out.loccount a ∉ writeLog t x := fun t x => hm (mild_writeLog t x)
  have hy : ∀ cf E i t x, Out.loccount a ∉ yakLog cf E i t x := by intro cf E i t x; unfold yakLog; split <;> simp
  cases h with
  | tls _ _ _ h | save _ _ _ _ h => exact hm h
  | drop _ hd _ h => exact hm (hd.mild.append h)
  | connect _ hd => exact hm hd.mild
  | heloRef _ _ hd | mailRef _ _ hd | rcptRef _ _ hd | dataRef _ _ hd => exact hm (.cons rfl hd.mild)
  | heloAcc _ _ hd _ h => exact hm (.append (.cons rfl hd.mild) h)
  | mailAcc _ _ hd _ h | rcptAcc _ _ hd h | dataAcc _ _ hd h | mailCount _ _ hd _ _ h =>
    subst h
    refine hm (.append (.cons rfl hd.mild) ?_)
    intro x hx
    simp only [List.mem_cons, List.not_mem_nil, or_false] at hx
    rcases hx with rfl | rfl | rfl <;> rfl
  | mailDrop _ _ hd _ _ h =>
    subst h
    have := hm hd.mild
    simp [this, hw]
  | gotKeep _ _ _ h | gotSave _ _ _ _ h => subst h; split <;> simp
  | tlserror | other | closed | answerFail => simp
  | finish _ he =>
    unfold endStep
    simp only
    split
    · split <;> split <;> simp [hw, hy]
    · split
      · split <;> split <;> simp [hw, hy]
      · split <;> split <;> simp
  | answerRef _ hd => exact hm hd.mild
  | answerAcc _ hd h =>
    subst h
    have := hm hd.mild
    simp [this]

theorem startSess_located {cf : Conf} {E : Env} {sh sh' : Shared} {i : Inp} {s : Sess} {o : List Out} (h : startSess cf E sh i = .ok (s, sh', o)) (a : Str) :
    o.count (.loccount a) = if E.laddr = a then 1 else 0 := by
  have hy : ∀ cf E i t x, Out.loccount a ∉ yakLog cf E i t x := by intro cf E i t x; unfold yakLog; split <;> simp
  have hc : ∀ cf E x t, Out.loccount a ∉ (connParams cf E x t).2.2.2 := by
    intro cf E x t
    unfold connParams
    split
    · simp
    · simp only; split
      · simp
      · split <;> simp
  unfold startSess at h
  simp only [bind, Except.bind, pure, Except.pure] at h
  split at h
  · cases h
  · rename_i r hr
    obtain ⟨rules, good, w⟩ := r
    split at h
    · cases h
    · cases h
      simp only [List.cons_append, List.append_assoc, List.count_cons, List.count_append]
      rw [List.count_eq_zero_of_not_mem (hc _ _ _ _)]
      have h2 : ∀ (b : Bool) t, (if b = true then Out.count .yakkers :: yakLog cf E i t b!"connection" else []).count (Out.loccount a) = 0 := by
        intro b t
        rw [List.count_eq_zero]
        cases b <;> simp [hy]
      rw [h2]
      cases w <;> simp [beq_iff_eq]

/-- The table of connections by local address. -/
theorem located {cf : Conf} {h : List Hap} {g : Server} (hr : Server.Runs cf h g) (a : Str) :
    (h.flatMap Hap.out).count (.loccount a) = ((sessionsOf h).map (·.2)).count a := by
  induction hr with
  | init => rfl
  | start hr hn hk hs ih =>
    rw [List.flatMap_cons, List.count_append, ih]
    simp only [Hap.out, startSess_located hs a, sessionsOf, List.filterMap_cons, List.map_cons, List.count_cons, beq_iff_eq]
    omega
  | step hr hn hk hs ih =>
    rw [List.flatMap_cons, List.count_append, ih]
    simp only [Hap.out, sessionsOf, List.filterMap_cons]
    rw [List.count_eq_zero_of_not_mem ((sstep_did hs).unlocated a), Nat.zero_add]

/-- A session begins once. -/
theorem sessions_once {cf : Conf} {h : List Hap} {g : Server} (hr : Server.Runs cf h g) : (sessionsOf h).Nodup := by
  induction hr with
  | init => exact List.nodup_nil
  | @start h g k E i s sh' o hr hn hk hs ih =>
    refine List.nodup_cons.2 ⟨fun hm => ?_, ih⟩
    simp only [List.mem_filterMap] at hm
    obtain ⟨e, he, h1⟩ := hm
    have : e.k = k := by
      obtain ⟨k', E', now', w⟩ := e
      cases w <;> simp at h1
      exact h1.1
    exact (hr.life (k := k)).2 hk e he this
  | step hr hn hk hs ih => exact ih

theorem conns_session {cf : Conf} {h : List Hap} {g : Server} (hr : Server.Runs cf h g) {k : Nat} {E : Env} {s : Sess} (hk : g.conns k = some (E, s)) :
    (k, E.laddr) ∈ sessionsOf h := by
  induction hr generalizing s with
  | init => cases hk
  | @start h g j E' i s1 sh' o hr hn hj hs ih =>
    simp only at hk
    split at hk
    · cases hk
      rename_i e
      subst e
      simp [sessionsOf]
    · exact List.mem_cons_of_mem _ (ih hk)
  | @step h g j E' i s1 s2 sh' o hr hn hj hs ih =>
    simp only at hk
    split at hk
    · cases hk
      rename_i e
      subst e
      exact ih hj
    · exact ih hk

theorem mem_sessionsOf {h : List Hap} {k : Nat} {a : Str} (hm : (k, a) ∈ sessionsOf h) : ∃ e ∈ h, e.k = k ∧ e.E.laddr = a := by
  simp only [sessionsOf, List.mem_filterMap] at hm
  obtain ⟨e, he, h1⟩ := hm
  refine ⟨e, he, ?_⟩
  obtain ⟨k', E', now', w⟩ := e
  cases w <;> simp at h1
  exact h1

theorem served_once {sc : StatConf} {l : List FrontObs} {s : Front} (h : Front.Runs sc l s) : (servedOf l).Nodup := by
  have h1 : ((servedOf l).map (·.1)).Nodup := by
    have : (servedOf l).map (·.1) = (started l).map (·.1) := by simp [servedOf]
    rw [this, (C69_numbers h).1]
    exact List.nodup_range'
  exact List.Nodup.of_map _ h1

/-- **C100.** Every session is one that `main` started, under its number, for a connection that one of the listeners accepted; it has the local address of that
connection, knows the client by the address without the port, and its records in the log begin with the process number and the number of the session. -/
theorem C100_sessions {L : Launch} {l : List Mark} {p : Program} (hr : Program.Runs L l p) {e : Hap} (he : .sess e ∈ l) :
    (∃ j c, j < L.addrs ∧ .front (.accept j c) ∈ l ∧ .front (.start e.k c) ∈ l ∧ e.E.laddr = c.laddr) ∧
    e.E.rip = hostOf e.E.raddr ∧ e.E.prefix_ = convId L.pid e.k := by
  obtain ⟨h1, h2⟩ := hr.hap he
  refine ⟨?_, h2.rip, h2.prefix_⟩
  obtain ⟨c, h3, h4⟩ := (front_procs_iff hr.parts.1 _ _).1 h1
  have h5 := mem_started.1 h3
  obtain ⟨j, h6⟩ := (C69_numbers hr.parts.1).2.2 _ _ h5
  refine ⟨j, c, ?_, mem_obsOf.1 h6, mem_obsOf.1 h5, h4.symm⟩
  obtain ⟨l1, l2, rfl⟩ := List.append_of_mem (mem_obsOf.1 h6)
  obtain ⟨p1, p2, -, hs, -⟩ := hr.at rfl
  generalize hm : some (Mark.front (.accept j c)) = m at hs
  cases hs with
  | @front o f hf h1 h2 =>
    cases o with
    | none => cases hm
    | some x => cases hm; exact h2 _ _ rfl
  | _ => cases hm

/-- **C100.** The number of connections on the page is at least the number of sessions that began, and at any time when `main` waits for a connection and all the sessions it
started have begun it is that number; then the number for each local address is that of the connections to it that were served. -/
theorem C100_connections {L : Launch} {l : List Mark} {p : Program} (hr : Program.Runs L l p) :
    (sessionsOf (hapsOf l)).length ≤ p.front.connections ∧
    (∀ a, ((hapsOf l).flatMap Hap.out).count (.loccount a) = ((sessionsOf (hapsOf l)).map (·.2)).count a) ∧
    (p.front.main = .recv → (∀ k c, .front (.start k c) ∈ l → p.srv.conns k ≠ none) →
      p.front.connections = (sessionsOf (hapsOf l)).length ∧
      ∀ a, ((hapsOf l).flatMap Hap.out).count (.loccount a) = ((started (obsOf l)).map (·.2.laddr)).count a) := by
  obtain ⟨h1, h2, -⟩ := hr.parts
  have hc := C69_counter h1
  have hsub : sessionsOf (hapsOf l) ⊆ servedOf (obsOf l) := by
    rintro ⟨k, a⟩ hm
    obtain ⟨e, he, rfl, rfl⟩ := mem_sessionsOf hm
    obtain ⟨c, h3, h4⟩ := (front_procs_iff h1 _ _).1 (hr.hap (mem_hapsOf.1 he)).1
    exact List.mem_map.2 ⟨_, h3, by simp [h4]⟩
  have hlen := (List.subperm_of_subset (sessions_once h2) hsub).length_le
  have hl : (servedOf (obsOf l)).length = (started (obsOf l)).length := by simp [servedOf]
  refine ⟨by omega, located h2, fun hm hall => ?_⟩
  have hsub' : servedOf (obsOf l) ⊆ sessionsOf (hapsOf l) := by
    rintro ⟨k, a⟩ hm
    simp only [servedOf, List.mem_map, Prod.mk.injEq] at hm
    obtain ⟨⟨k', c⟩, h3, rfl, rfl⟩ := hm
    have hp := (front_procs_iff h1 k' c.laddr).2 ⟨c, h3, rfl⟩
    cases hk : p.srv.conns k' with
    | none => exact absurd hk (hall _ c (mem_obsOf.1 (mem_started.1 h3)))
    | some x =>
      obtain ⟨E, s⟩ := x
      have h4 := (hr.env hk).1
      rw [hp] at h4
      have h5 : (k', E.laddr) ∈ sessionsOf (hapsOf l) := conns_session h2 hk
      rwa [← Option.some.inj h4] at h5
  have hlen' := (List.subperm_of_subset (served_once h1) hsub').length_le
  have hperm : (sessionsOf (hapsOf l)).Perm (servedOf (obsOf l)) :=
    (List.subperm_of_subset (sessions_once h2) hsub).perm_of_length_le hlen'
  refine ⟨by rw [hc.2.2 hm, ← hl]; exact hperm.length_eq.symm, fun a => ?_⟩
  rw [located h2, (hperm.map _).count_eq]
  simp [servedOf, Function.comp_def]

/-- **C100.** The server listens on the addresses that are given after the options, and statistics are kept by address if they are several or with `-statsperip`,
and shown with `-pprof`. -/
theorem C100_launch {P : ArgLib} {V : StartEnv} {pid : Nat} {args : List Str} {L : Launch} (hl : launch P V pid args = some L) :
    ∃ os rest, Reads P args os rest ∧ L.addrs = rest.length ∧ L.pid = pid ∧
      (∀ a, Spec.Kept L.stat a ↔ (∃ v, v ≠ [] ∧ lastOf os b!"pprof" = some v) ∧ (a ≠ none → (rest.length > 1 ∨ On os b!"statsperip") ∧ a ≠ some [])) := by
  unfold launch at hl
  split at hl
  · cases hl
  · rename_i c hc
    split at hl
    · cases hl
    · cases hl
      obtain ⟨os, rest, h1⟩ := (C96_reads P args).1 ⟨c, hc⟩
      obtain ⟨c', hc', h2, h3⟩ := C96_stat h1
      obtain ⟨c'', hc'', h4, -⟩ := C96_settings h1
      rw [hc] at hc' hc''
      cases hc'; cases hc''
      refine ⟨os, rest, h1, by rw [h4], rfl, fun a => ?_⟩
      simp only [Spec.Kept, h2, h3]

/-! ## Examples -/

/-- Started with `-pprof x -helo here -force-receive` and one address, say. -/
def demoLaunch : Launch := ⟨{ demoConf with savedir := [], rulefiles := [] }, ⟨true, false⟩, 1, 7⟩

/-- Two connections.  While the first session goes on the second begins; a message comes in on the first at time 8; the first ends at time 9. -/
def demoProgram : Option (List Mark × Program) :=
  Program.demo demoLaunch demoEnv 5 ([.front (.accept 0 b!"192.0.2.9:25")] ++ (mainServes 0 4).map .front ++ [.began 1 b!"192.0.2.2:1234"] ++ records 1 4 ++
    [.front (.accept 0 b!"192.0.2.9:25")] ++ (mainServes 0 4).map .front ++
    [.stepped 1 { now := 5 }, .stepped 1 { now := 5 }, .stepped 1 { ev := .helo false b!"x", now := 5 }, .front (.tick 6), .began 2 b!"192.0.2.3:99"] ++
    [.stepped 1 { ev := .mailfrom b!"a@example.com", now := 6 }, .stepped 1 { ev := .rcptto b!"b@example.com", now := 6 }] ++ records 2 4 ++
    [.stepped 1 { ev := .data, now := 6 }, .front (.tick 8), .stepped 1 { ev := .gotdata b!"hello", now := 8 }, .stepped 1 { now := 8 }] ++ records 1 4 ++
    [.front (.tick 9), .stepped 1 { ev := .done, now := 9 }] ++ records 1 4)

example : demoProgram.isSome = true := by decide +kernel
example : demoProgram.map (fun x => [Kind.regular, .message, .reachedMinphase, .yakker].map (Spec.shown x.2.front none)) =
    some [some 6, some 8, some 9, none] := by decide +kernel
example : demoProgram.map (fun x => (x.2.front.connections, sessionsOf (hapsOf x.1))) =
    some (2, [(2, b!"192.0.2.9:25"), (1, b!"192.0.2.9:25")]) := by decide +kernel
example : demoProgram.map (fun x => (hapsOf x.1).map fun e => (e.now, e.E.prefix_, e.E.rip)) =
    some [(9, b!"7/1", b!"192.0.2.2"), (8, b!"7/1", b!"192.0.2.2"), (8, b!"7/1", b!"192.0.2.2"), (6, b!"7/1", b!"192.0.2.2"), (6, b!"7/1", b!"192.0.2.2"),
      (6, b!"7/1", b!"192.0.2.2"), (6, b!"7/2", b!"192.0.2.3"), (5, b!"7/1", b!"192.0.2.2"), (5, b!"7/1", b!"192.0.2.2"), (5, b!"7/1", b!"192.0.2.2"),
      (5, b!"7/1", b!"192.0.2.2")] := by decide +kernel

/-- In the end nobody is recording anything. -/
example : ∃ l p, Program.Runs demoLaunch l p ∧ Recorded p ∧ Spec.shown p.front none .message = some 8 := by
  have h : demoProgram.isSome = true := by decide +kernel
  obtain ⟨⟨l, p⟩, hp⟩ := Option.isSome_iff_exists.1 h
  have hr : Program.Runs demoLaunch l p := Program.demo_runs hp
  have h1 : demoProgram.map (fun x => (x.2.front.cid, decide (x.2.front.main = .recv), Spec.shown x.2.front none .message)) = some (3, true, some 8) := by
    decide +kernel
  have h2 : demoProgram.map (fun x => [0, 1, 2].map fun k => (x.2.due k, x.2.front.upd k)) = some [([], none), ([], none), ([], none)] := by decide +kernel
  rw [hp] at h1 h2
  simp only [Option.map_some, Option.some.injEq, Prod.mk.injEq, decide_eq_true_eq, List.map_cons, List.map_nil, List.cons.injEq, and_true] at h1 h2
  obtain ⟨g1, g2, g3⟩ := h1
  obtain ⟨⟨a1, a2⟩, ⟨b1, b2⟩, c1, c2⟩ := h2
  refine ⟨l, p, hr, fun k => ?_, g3⟩
  have hc := front_callInv hr.parts.1
  have lt : ∀ a, p.front.procs k = some a → k < 3 := fun a ha => by
    have := (hc.begun k a ha).2
    rwa [g1, g2] at this
  by_cases hk : k < 3
  · have : k = 0 ∨ k = 1 ∨ k = 2 := by omega
    rcases this with rfl | rfl | rfl
    · exact ⟨a1, a2⟩
    · exact ⟨b1, b2⟩
    · exact ⟨c1, c2⟩
  · constructor
    · cases he : p.srv.conns k with
      | none => exact hr.due_none he
      | some x => exact absurd (lt _ (hr.env he).1) hk
    · cases he : p.front.upd k with
      | none => rfl
      | some u => exact absurd (lt _ (hc.procs k u he (by rintro rfl; exact hk (by decide)))) hk

end Sink
