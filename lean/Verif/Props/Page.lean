import Verif.Model.Page
import Verif.Props.Stats
import Verif.Props.Server

/-!
# C83: the statistics page shows each number under its own name
-/

namespace Sink
namespace Spec

/-- A step of which this holds, given the steps of its session before it. -/
def onStep (Q : Env → List Step → Step → Prop) (h : List Hap) (e : Hap) : Prop :=
  match e.what with
  | .stepped s sh i s' sh' o => Q e.E (stepsOf e.k h) ⟨s, i, sh, s', sh', o⟩
  | .began _ _ _ _ => False

/-- The beginning of a session of which this holds. -/
def onStart (Q : Sess → Prop) (_ : List Hap) (e : Hap) : Prop :=
  match e.what with
  | .began _ s _ _ => Q s
  | .stepped _ _ _ _ _ _ => False

/-- The step makes its client a do-nothing client, or adds to one that is, in a way that is reported: at the end of a useless session when
that makes the limit, by abandoning transactions when that exceeds it, by a rule when the count was not the limit. -/
def newYakker (cf : Conf) (forced : Bool) (h : List Hap) (e : Hap) : Prop :=
  match e.what with
  | .stepped s sh i s' sh' o =>
    let v := (value cf.yakTimeout e.now (yakHist cf e.E.rip h)).getD 0
    match contribution cf (stepsOf e.k h) ⟨s, i, sh, s', sh', o⟩ with
    | some .add => forced = false ∧ e.E.rip ≠ [] ∧ if Ends ⟨s, i, sh, s', sh', o⟩ then v + 1 = cf.yakCount else v + 1 > cf.yakCount
    | some (.set _) => v ≠ cf.yakCount
    | _ => False
  | .began _ _ _ _ => False

/-- The names on the statistics page and what is counted under each. -/
def statNames (cf : Conf) : List (List Str × (List Hap → Hap → Prop)) :=
  [([b!"smtpcounts", b!"commands", b!"ehlo"], onStep fun _ _ st => ∃ h a, st.event = some (.helo h a)),
   ([b!"smtpcounts", b!"commands", b!"mailfrom"], onStep fun _ _ st => ∃ a, st.event = some (.mailfrom a)),
   ([b!"smtpcounts", b!"commands", b!"rcptto"], onStep fun _ _ st => ∃ a, st.event = some (.rcptto a)),
   ([b!"smtpcounts", b!"commands", b!"data"], onStep fun _ _ st => st.event = some .data),
   ([b!"smtpcounts", b!"commands", b!"starttls"], onStep fun _ _ st => st.tlsSeen = true ∨ st.event = some .tlserror),
   ([b!"smtpcounts", b!"accepted", b!"ehlo"], onStep fun _ _ st => (∃ h a, st.event = some (.helo h a)) ∧ st.accepted = true),
   ([b!"smtpcounts", b!"accepted", b!"mailfrom"], onStep fun _ _ st => (∃ a, st.event = some (.mailfrom a)) ∧ st.accepted = true),
   ([b!"smtpcounts", b!"accepted", b!"rcptto"], onStep fun _ _ st => (∃ a, st.event = some (.rcptto a)) ∧ st.accepted = true),
   ([b!"smtpcounts", b!"accepted", b!"data"], onStep fun _ _ st => st.event = some .data ∧ st.accepted = true),
   ([b!"smtpcounts", b!"accepted", b!"messages"], onStep fun _ _ st => ∃ d, st.event = some (.gotdata d)),
   ([b!"smtpcounts", b!"ehlo_tlson"], onStep fun _ _ st => st.tlsSeen = true),
   ([b!"smtpcounts", b!"quits"], onStep fun _ _ st => st.event = some .done),
   ([b!"smtpcounts", b!"aborts"], onStep fun _ _ st => st.event = some .abort),
   ([b!"smtpcounts", b!"rsets"], onStep fun _ l st => Restarts cf l st),
   ([b!"events", b!"tls_errors"], onStep fun _ _ st => st.event = some .tlserror),
   ([b!"events", b!"yakkers"], onStart fun s => s.stall = true),
   ([b!"events", b!"notls_conns"], onStep fun E _ st => st.pre.pc = .tls ∧ (st.sh.notls.lookup E.rip tlsTimeout st.i.now).1.1 = true ∧
      (st.sh.notls.lookup E.rip tlsTimeout st.i.now).1.2 ≥ 2),
   ([b!"events", b!"rules_errors"], onStart fun s => s.rulesgood = false),
   ([b!"events", b!"rsetdrops"], onStep fun _ l st => Restarts cf l st ∧ st.rsetDrop),
   ([b!"events", b!"abandons"], onStep fun E l st => st.ended = true ∧ Rated cf l st.pre ∧ LastPassed E l),
   ([b!"events", b!"refuseds"], onStep fun E l st => st.ended = true ∧ Rated cf l st.pre ∧ ¬ LastPassed E l),
   ([b!"events", b!"yakker_adds"], newYakker cf false),
   ([b!"events", b!"yakker_forces"], fun h e => newYakker cf true h e)]

open Classical in
/-- How often something happened in the history of the server. -/
noncomputable def times (P : List Hap → Hap → Prop) : List Hap → Nat
  | [] => 0
  | e :: h => times P h + if P h e then 1 else 0

end Spec
open Spec

open Classical in
/-- Numbers on the page. -/
theorem stat_row {cf : Conf} {P : List Hap → Hap → Prop} {x : Counter}
    (hstart : ∀ {h : List Hap} {g : Server} {k : Nat} {E : Env} {i : Inp} {s : Sess} {sh' : Shared} {o : List Out},
      Server.Runs cf (⟨k, E, i.now, .began g.sh s sh' o⟩ :: h) ⟨sh', fun j => if j = k then some (E, s) else g.conns j⟩ →
      startSess cf E g.sh i = .ok (s, sh', o) →
      (P h ⟨k, E, i.now, .began g.sh s sh' o⟩ → tally x o = 1) ∧ (¬ P h ⟨k, E, i.now, .began g.sh s sh' o⟩ → tally x o = 0))
    (hstep : ∀ {h : List Hap} {g : Server} {k : Nat} {E : Env} {i : Inp} {s s' : Sess} {sh' : Shared} {o : List Out},
      Server.Runs cf (⟨k, E, i.now, .stepped s g.sh i s' sh' o⟩ :: h) ⟨sh', fun j => if j = k then some (E, s') else g.conns j⟩ →
      Life cf E (stepsOf k h) s → sstep cf E s g.sh i = .ok (s', sh', o) →
      (P h ⟨k, E, i.now, .stepped s g.sh i s' sh' o⟩ → tally x o = 1) ∧ (¬ P h ⟨k, E, i.now, .stepped s g.sh i s' sh' o⟩ → tally x o = 0))
    {h : List Hap} {g : Server} (hr : Server.Runs cf h g) : tally x (h.flatMap Hap.out) = Spec.times P h := by
  have key : ∀ {n : Nat} {p : Prop} [Decidable p], (p → n = 1) → (¬ p → n = 0) → n = if p then 1 else 0 := by
    intro n p _ h1 h2
    split
    · exact h1 (by assumption)
    · exact h2 (by assumption)
  induction hr with
  | init => rfl
  | start hr hn hk hs ih =>
    rw [List.flatMap_cons, tally_append, ih]
    obtain ⟨h1, h2⟩ := hstart (.start hr hn hk hs) hs
    simp only [Hap.out, Spec.times]
    rw [key h1 h2, Nat.add_comm]
  | step hr hn hk hs ih =>
    rw [List.flatMap_cons, tally_append, ih]
    obtain ⟨h1, h2⟩ := hstep (.step hr hn hk hs) (hr.life.1 _ _ hk) hs
    simp only [Hap.out, Spec.times]
    rw [key h1 h2, Nat.add_comm]

theorem step_row {cf : Conf} {Q : Env → List Step → Step → Prop} {x : Counter} (hx : x ≠ .yakads ∧ x ≠ .yakforces) (hy : x ≠ .yakkers ∧ x ≠ .ruleserr)
    (hq : ∀ E l st, Q E l st ↔ Happened cf E l st x) {h : List Hap} {g : Server} (hr : Server.Runs cf h g) :
    tally x (h.flatMap Hap.out) = Spec.times (onStep Q) h := by
  refine stat_row (fun _ hs => ?_) (fun _ hl hs => ?_) hr
  · refine ⟨fun h => h.elim, fun _ => ?_⟩
    rw [C65_start hs x, if_neg fun h => hy.1 h.1, if_neg fun h => hy.2 h.1]
  · simp only [onStep, hq]
    exact C65_step hl hs hx

theorem start_row {cf : Conf} {Q : Sess → Prop} {x : Counter} (hx : (x = .yakkers ∧ Q = fun s => s.stall = true) ∨ (x = .ruleserr ∧ Q = fun s => s.rulesgood = false))
    {h : List Hap} {g : Server} (hr : Server.Runs cf h g) : tally x (h.flatMap Hap.out) = Spec.times (onStart Q) h := by
  refine stat_row (fun _ hs => ?_) (fun _ hl hs => ?_) hr
  · rw [C65_start hs x]
    rcases hx with ⟨rfl, rfl⟩ | ⟨rfl, rfl⟩ <;> simp +contextual [onStart]
  · refine ⟨fun h => h.elim, fun _ => ?_⟩
    rcases hx with ⟨rfl, rfl⟩ | ⟨rfl, rfl⟩ <;> exact (C65_step hl hs (by decide)).2 id

/-- The two counters of do-nothing clients: never more than one report, and it is a forced one iff a rule sets the record. -/
theorem Did.yakTally {cf : Conf} {E : Env} {s s' : Sess} {sh sh' : Shared} {i : Inp} {o : List Out} (h : Did cf E s sh i s' sh' o)
    {l : List Step} (hl : SessOK cf E l s) :
    (tally .yakads o = if Reports o then 1 else 0) ∧
    (tally .yakforces o = if Reports o ∧ (contribution cf l ⟨s, i, sh, s', sh', o⟩).any (fun op => op != .add && op != .del) = true then 1 else 0) := by
  have mild : ∀ {o : List Out}, Mild o → tally .yakads o = 0 ∧ tally .yakforces o = 0 := by
    intro o hm
    unfold tally
    rw [List.countP_eq_zero, List.countP_eq_zero]
    refine ⟨fun x hx h => ?_, fun x hx h => ?_⟩ <;>
    · have := hm x hx
      simp only [decide_eq_true_eq] at h
      subst h
      exact absurd this (by decide)
  have calm : ∀ {o : List Out} {P : Prop} [Decidable P], Mild o → (tally .yakads o = if Reports o then 1 else 0) ∧ (tally .yakforces o = if Reports o ∧ P then 1 else 0) := by
    intro o P _ hm
    rw [if_neg hm.silent, if_neg fun h => hm.silent h.1]
    exact mild hm
  have acc : ∀ {r : Reply} {c : Counter}, (Out.count c).mild = true → Mild [.reply r, .count c] := fun hc => .cons rfl (.cons hc .nil)
  cases h with
  | tls _ _ _ hm | save _ _ _ _ hm => exact calm hm
  | drop _ hd _ hm => exact calm (hd.mild.append hm)
  | connect _ hd | answerRef _ hd => exact calm hd.mild
  | heloRef _ _ hd | mailRef _ _ hd | rcptRef _ _ hd | dataRef _ _ hd => exact calm (.cons rfl hd.mild)
  | heloAcc _ _ hd _ hm => exact calm (.append (.cons rfl hd.mild) hm)
  | mailAcc _ _ hd _ ho | rcptAcc _ _ hd ho | dataAcc _ _ hd ho => rw [ho]; exact calm (.append (.cons rfl hd.mild) (acc rfl))
  | mailCount _ _ hd _ _ ho => rw [ho]; exact calm (.append (.cons rfl hd.mild) (.cons rfl (acc rfl)))
  | answerAcc _ hd ho => rw [ho]; exact calm (.append hd.mild (.cons rfl .nil))
  | gotKeep _ _ _ ho | gotSave _ _ _ _ ho =>
    have hno : ¬ Reports _ := fun hx : Reports o => by
      rw [ho] at hx
      unfold Reports at hx
      split at hx <;> simp at hx
    rw [if_neg hno, if_neg fun h => hno h.1, ho, tally_count, tally_count]
    split <;> simp [tally]
  | tlserror => exact calm (.cons rfl (.cons rfl .nil))
  | answerFail => exact calm (.cons rfl .nil)
  | other | closed => exact calm .nil
  | @mailDrop arg s1 o1 o' res c1 hp he hd hn hk ho =>
    have hm := mild hd.mild
    have hrep : Reports (.count .mailfrom :: o1 ++ o') := by rw [ho]; simp [Reports]
    rw [if_pos hrep, if_neg]
    · rw [ho]
      simp [tally_append, tally_count, tally_nil, writeLog_uncounted, hm.1, hm.2, tally_cons]
    · rintro ⟨-, h⟩
      simp only [contribution, Step.event, hp, he, if_true] at h
      split at h <;> simp at h
  | @finish x hp hx =>
    have hne : x ≠ .yakads ∧ x ≠ .yakforces := by rcases hx with ⟨-, rfl⟩ | ⟨-, rfl⟩ <;> decide
    have hc : contribution cf l ⟨s, i, sh, { s with pc := .closed }, (endStep cf E s sh i).2.1, .count x :: (endStep cf E s sh i).2.2⟩ =
        if s.c.withprops.makeYakker.isSome then some (.set cf.yakCount)
        else if reached cf l = false ∧ Counting cf l s then some .add
        else if reached cf l = true ∧ cf.yakCount > 0 then some .del
        else none := by
      rcases hx with ⟨he, _⟩ | ⟨he, _⟩ <;> simp only [contribution, Step.event, hp, he, if_true]
    rw [hc, tally_count, tally_count, if_neg hne.1, if_neg hne.2]
    have hmild : (Out.count x).mild = true := by rcases hx with ⟨-, rfl⟩ | ⟨-, rfl⟩ <;> rfl
    simp only [silent_cons hmild]
    have hlast : Mild (if s.rulesgood = true ∧ (s.sesscounts = true ∨ cf.yakCount = 0) then
        [Out.count (if s.trans.lastresgood then .abandons else .refuseds)] else []) := by
      split
      · cases s.trans.lastresgood <;> exact .cons rfl .nil
      · exact .nil
    have hz := mild hlast
    have hsil := hlast.silent
    unfold endStep
    simp only [hl.got, hl.counts] at hz hsil ⊢
    by_cases h1 : s.c.withprops.makeYakker.isSome = true
    · simp only [if_pos h1]
      by_cases hcnt : (sh.yak.set s.trans.rip cf.yakTimeout cf.yakCount i.now).1 ≠ cf.yakCount
      · simp only [if_pos hcnt]
        simp [tally_append, hz, tally_count, writeLog_uncounted, yakLog_uncounted, Reports]
      · simp only [if_neg hcnt, List.nil_append, hz, hsil, false_and, if_false]
        simp
    · simp only [if_neg h1]
      by_cases h2 : reached cf l = false ∧ Counting cf l s
      · simp only [if_pos h2]
        by_cases hcnt : (sh.yak.add s.trans.rip cf.yakTimeout i.now).1 = cf.yakCount
        · simp only [if_pos hcnt]
          simp [tally_append, hz, tally_count, writeLog_uncounted, yakLog_uncounted, Reports]
        · simp only [if_neg hcnt, List.nil_append, hz, hsil, false_and, if_false]
          simp
      · simp only [if_neg h2]
        by_cases h3 : cf.yakCount > 0 ∧ reached cf l = true
        · simp only [if_pos h3, hz, hsil, false_and, if_false]; simp
        · simp only [if_neg h3, hz, hsil, false_and, if_false]; simp

/-- Reports, as the history of the server has it. -/
theorem yak_row {cf : Conf} {h : List Hap} {g : Server} {k : Nat} {E : Env} {i : Inp} {s s' : Sess} {sh' : Shared} {o : List Out}
    (hr : Server.Runs cf (⟨k, E, i.now, .stepped s g.sh i s' sh' o⟩ :: h) ⟨sh', fun j => if j = k then some (E, s') else g.conns j⟩)
    (hl : Life cf E (stepsOf k h) s) (hs : sstep cf E s g.sh i = .ok (s', sh', o)) :
    (Reports o ↔ newYakker cf false h ⟨k, E, i.now, .stepped s g.sh i s' sh' o⟩) ∧
    (Reports o ∧ (contribution cf (stepsOf k h) ⟨s, i, g.sh, s', sh', o⟩).any (fun op => op != .add && op != .del) = true ↔
      newYakker cf true h ⟨k, E, i.now, .stepped s g.sh i s' sh' o⟩) := by
  have hd := sstep_did hs
  unfold newYakker
  simp only
  by_cases hip : E.rip = []
  · have hy : yakHist cf E.rip h = [] := by
      rw [hip]
      clear hr hl hs hd
      induction h with
      | nil => rfl
      | cons e h ih =>
        obtain ⟨k, E, now, w⟩ := e
        cases w with
        | began => exact ih
        | stepped => simp [yakHist, ih]
    rw [hy]
    have hrep := hd.reports hl.ok
    rw [hip] at hrep
    generalize hc : contribution cf (stepsOf k h) ⟨s, i, g.sh, s', sh', o⟩ = c at hrep
    have pos : c = some .add → cf.yakCount > 0 := by
      rintro rfl
      unfold contribution at hc
      repeat' split at hc
      all_goals first | (cases hc; done) | (rename_i h1; exact h1.1.1) | (rename_i h1; exact h1.2.1)
    have hz : (g.sh.yak.add [] cf.yakTimeout i.now).1 = 0 := rfl
    have hz2 : (g.sh.yak.set [] cf.yakTimeout cf.yakCount i.now).1 = 0 := rfl
    rw [hz, hz2] at hrep
    rcases hrep with ⟨rfl, h2⟩ | ⟨rfl, -, h3⟩ | ⟨-, h2⟩
    · simp [h2]
    · have := pos rfl
      have hn : ¬ Reports o := by rw [h3]; omega
      simp [hn, hip]
    · cases c with
      | none => simp only at h2; simp [h2]
      | some op => cases op with
        | add =>
          have := pos rfl
          have hn : ¬ Reports o := by simp only at h2; rw [h2]; omega
          simp [hn, hip]
        | set n => simp only at h2; simp [h2, value]
        | del => simp only at h2; simp [h2]
  · have hrep := C40_reports_partial hr hip
    generalize hc : contribution cf (stepsOf k h) ⟨s, i, g.sh, s', sh', o⟩ = c at hrep
    cases c with
    | none => simp only [ReportRule] at hrep; simp [hrep]
    | some op => cases op with
      | add => simp only [ReportRule] at hrep; simp [hrep, hip]
      | set n => simp only [ReportRule] at hrep; simp [hrep]
      | del => simp only [ReportRule] at hrep; simp [hrep]

theorem start_yak {cf : Conf} {E : Env} {sh sh' : Shared} {i : Inp} {s : Sess} {o : List Out} (hs : startSess cf E sh i = .ok (s, sh', o)) :
    tally .yakads o = 0 ∧ tally .yakforces o = 0 := by
  rw [C65_start hs, C65_start hs]; simp

/-- **C83.** Whatever the interleaving of connections, at any time: under each name on the statistics page is the number of times that what
the name says has happened. -/
theorem C83_page {cf : Conf} {h : List Hap} {g : Server} (hr : Server.Runs cf h g) (many : Bool) (pid : Int) (now : Str) :
    ∀ r ∈ statNames cf, ∃ x, (Var.map (setupExpvars many pid now)).at r.1 = some (.int x) ∧
      tally x (h.flatMap Hap.out) = Spec.times r.2 h := by
  have row : ∀ {p : List Str} {Q : Env → List Step → Step → Prop} (x : Counter), (Var.map (setupExpvars many pid now)).at p = some (.int x) →
      x ≠ .yakads ∧ x ≠ .yakforces → x ≠ .yakkers ∧ x ≠ .ruleserr → (∀ E l st, Q E l st ↔ Happened cf E l st x) →
      ∃ x, (Var.map (setupExpvars many pid now)).at p = some (.int x) ∧ tally x (h.flatMap Hap.out) = Spec.times (onStep Q) h :=
    fun x h1 h2 h3 h4 => ⟨x, h1, step_row h2 h3 h4 hr⟩
  unfold statNames
  simp only [List.forall_mem_cons, List.not_mem_nil, false_implies, implies_true, and_true]
  refine ⟨row .ehlo (by cases many <;> rfl) (by decide) (by decide) fun _ _ _ => .rfl, row .mailfrom (by cases many <;> rfl) (by decide) (by decide) fun _ _ _ => .rfl,
    row .rcptto (by cases many <;> rfl) (by decide) (by decide) fun _ _ _ => .rfl, row .data (by cases many <;> rfl) (by decide) (by decide) fun _ _ _ => .rfl,
    row .starttls (by cases many <;> rfl) (by decide) (by decide) fun _ _ _ => .rfl, row .ehloAccept (by cases many <;> rfl) (by decide) (by decide) fun _ _ _ => .rfl,
    row .mailfromAccept (by cases many <;> rfl) (by decide) (by decide) fun _ _ _ => .rfl, row .rcpttoAccept (by cases many <;> rfl) (by decide) (by decide) fun _ _ _ => .rfl,
    row .dataAccept (by cases many <;> rfl) (by decide) (by decide) fun _ _ _ => .rfl, row .messages (by cases many <;> rfl) (by decide) (by decide) fun _ _ _ => .rfl,
    row .tlson (by cases many <;> rfl) (by decide) (by decide) fun _ _ _ => .rfl, row .quits (by cases many <;> rfl) (by decide) (by decide) fun _ _ _ => .rfl,
    row .aborts (by cases many <;> rfl) (by decide) (by decide) fun _ _ _ => .rfl, row .rsets (by cases many <;> rfl) (by decide) (by decide) fun _ _ _ => .rfl,
    row .tlserrs (by cases many <;> rfl) (by decide) (by decide) fun _ _ _ => .rfl,
    ⟨.yakkers, by cases many <;> rfl, start_row (.inl ⟨rfl, rfl⟩) hr⟩,
    row .notlscnt (by cases many <;> rfl) (by decide) (by decide) fun _ _ _ => .rfl,
    ⟨.ruleserr, by cases many <;> rfl, start_row (.inr ⟨rfl, rfl⟩) hr⟩,
    row .rsetdrops (by cases many <;> rfl) (by decide) (by decide) fun _ _ _ => .rfl, row .abandons (by cases many <;> rfl) (by decide) (by decide) fun _ _ _ => .rfl,
    row .refuseds (by cases many <;> rfl) (by decide) (by decide) fun _ _ _ => .rfl,
    ⟨.yakads, by cases many <;> rfl, stat_row (fun _ hs => ⟨fun h => h.elim, fun _ => (start_yak hs).1⟩) (fun hr hl hs => ?_) hr⟩,
    ⟨.yakforces, by cases many <;> rfl, stat_row (fun _ hs => ⟨fun h => h.elim, fun _ => (start_yak hs).2⟩) (fun hr hl hs => ?_) hr⟩⟩
  · obtain ⟨h1, -⟩ := (sstep_did hs).yakTally hl.ok
    rw [h1, ← (yak_row hr hl hs).1]
    exact ⟨fun h => if_pos h, fun h => if_neg h⟩
  · obtain ⟨-, h1⟩ := (sstep_did hs).yakTally hl.ok
    rw [h1, ← (yak_row hr hl hs).2]
    exact ⟨fun h => if_pos h, fun h => if_neg h⟩

theorem Var.at_map {m : VarMap} {p : List Str} {w : Var} (h : (Var.map m).at p = some w) :
    (p = [] ∧ w = .map m) ∨ ∃ k v q, p = k :: q ∧ (k, v) ∈ m ∧ v.at q = some w := by
  cases p with
  | nil => left; exact ⟨rfl, by simpa [Var.at] using h.symm⟩
  | cons k q =>
    right
    simp only [Var.at, Option.bind_eq_some_iff] at h
    obtain ⟨v, h1, h2⟩ := h
    refine ⟨k, v, q, rfl, ?_, h2⟩
    clear h2
    induction m with
    | nil => cases h1
    | cons e m ih =>
      rw [List.lookup_cons] at h1
      split at h1
      · rename_i hk
        simp only [beq_iff_eq] at hk
        cases h1; subst hk; exact .head _
      · exact .tail _ (ih h1)

theorem Var.at_leaf {v w : Var} {p : List Str} (hv : ∀ m, v ≠ .map m) (h : v.at p = some w) : p = [] ∧ w = v := by
  cases p with
  | nil => exact ⟨rfl, by cases v <;> simpa [Var.at] using h.symm⟩
  | cons k q => cases v with
    | map m => exact absurd rfl (hv m)
    | _ => simp [Var.at] at h

/-- The numbers of events on the page. -/
def pageNumbers : List (List Str × Var) :=
  [([b!"smtpcounts", b!"commands", b!"ehlo"], .int .ehlo), ([b!"smtpcounts", b!"commands", b!"mailfrom"], .int .mailfrom),
   ([b!"smtpcounts", b!"commands", b!"rcptto"], .int .rcptto), ([b!"smtpcounts", b!"commands", b!"data"], .int .data),
   ([b!"smtpcounts", b!"commands", b!"starttls"], .int .starttls), ([b!"smtpcounts", b!"accepted", b!"ehlo"], .int .ehloAccept),
   ([b!"smtpcounts", b!"accepted", b!"mailfrom"], .int .mailfromAccept), ([b!"smtpcounts", b!"accepted", b!"rcptto"], .int .rcpttoAccept),
   ([b!"smtpcounts", b!"accepted", b!"data"], .int .dataAccept), ([b!"smtpcounts", b!"accepted", b!"messages"], .int .messages),
   ([b!"smtpcounts", b!"ehlo_tlson"], .int .tlson), ([b!"smtpcounts", b!"quits"], .int .quits), ([b!"smtpcounts", b!"aborts"], .int .aborts),
   ([b!"smtpcounts", b!"rsets"], .int .rsets), ([b!"events", b!"tls_errors"], .int .tlserrs), ([b!"events", b!"yakkers"], .int .yakkers),
   ([b!"events", b!"notls_conns"], .int .notlscnt), ([b!"events", b!"rules_errors"], .int .ruleserr),
   ([b!"events", b!"rsetdrops"], .int .rsetdrops), ([b!"events", b!"abandons"], .int .abandons), ([b!"events", b!"refuseds"], .int .refuseds),
   ([b!"events", b!"yakker_adds"], .int .yakads), ([b!"events", b!"yakker_forces"], .int .yakforces),
   ([b!"events", b!"connections"], .connections)]

/-- The rest of the page. -/
def pageOther (many : Bool) (pid : Int) (now : Str) : List (List Str × Var) :=
  [([b!"sizes", b!"notls"], .ipTable false), ([b!"sizes", b!"yakkers"], .ipTable true), ([b!"dnsbl_hits"], .hits .dbl),
   ([b!"sbl_hits"], .hits .sbl), ([b!"pid"], .num pid), ([b!"startTime"], .text now), ([b!"last"], .times)] ++
  if many then [([b!"connects_to"], .hits .loc), ([b!"lasts_to"], .iptimes)] else []

theorem page_events (many : Bool) (pid : Int) (now : Str) : setupExpvars many pid now =
    [(b!"last", .times), (b!"startTime", .text now), (b!"pid", .num pid),
     (b!"smtpcounts", .map
       [(b!"rsets", .int .rsets), (b!"aborts", .int .aborts), (b!"quits", .int .quits), (b!"ehlo_tlson", .int .tlson),
        (b!"accepted", .map [(b!"messages", .int .messages), (b!"data", .int .dataAccept), (b!"rcptto", .int .rcpttoAccept),
          (b!"mailfrom", .int .mailfromAccept), (b!"ehlo", .int .ehloAccept)]),
        (b!"commands", .map [(b!"starttls", .int .starttls), (b!"data", .int .data), (b!"rcptto", .int .rcptto), (b!"mailfrom", .int .mailfrom),
          (b!"ehlo", .int .ehlo)])]),
     (b!"events", .map [(b!"refuseds", .int .refuseds), (b!"abandons", .int .abandons), (b!"rsetdrops", .int .rsetdrops),
        (b!"yakker_forces", .int .yakforces), (b!"yakker_adds", .int .yakads), (b!"rules_errors", .int .ruleserr),
        (b!"notls_conns", .int .notlscnt), (b!"yakkers", .int .yakkers), (b!"tls_errors", .int .tlserrs), (b!"connections", .connections)])] ++
    (if many then [(b!"lasts_to", .iptimes), (b!"connects_to", .hits .loc)] else []) ++
    [(b!"sbl_hits", .hits .sbl), (b!"dnsbl_hits", .hits .dbl), (b!"sizes", .map [(b!"yakkers", .ipTable true), (b!"notls", .ipTable false)])] := by
  cases many <;> rfl

/-- **C83.** There is nothing else on the page. -/
theorem C83_all {many : Bool} {pid : Int} {now : Str} {p : List Str} {w : Var} (hw : ∀ m, w ≠ .map m) :
    (Var.map (setupExpvars many pid now)).at p = some w ↔ (p, w) ∈ pageNumbers ++ pageOther many pid now := by
  constructor
  · intro h
    rw [page_events] at h
    have leaf : ∀ {v : Var} {q : List Str}, v.at q = some w → (∀ m, v ≠ .map m) → q = [] ∧ w = v := fun h h1 => Var.at_leaf h1 h
    have top := Var.at_map h
    clear h
    rcases top with ⟨-, h⟩ | ⟨k, v, q, rfl, hm, hv⟩
    · exact absurd h (hw _)
    simp only [List.mem_append, List.mem_cons, List.not_mem_nil, or_false, Prod.mk.injEq] at hm
    rcases hm with ((⟨rfl, rfl⟩ | ⟨rfl, rfl⟩ | ⟨rfl, rfl⟩ | ⟨rfl, rfl⟩ | ⟨rfl, rfl⟩) | hm) | ⟨rfl, rfl⟩ | ⟨rfl, rfl⟩ | ⟨rfl, rfl⟩
    case inl.inr =>
      cases many
      · simp at hm
      · simp only [if_true, List.mem_cons, List.not_mem_nil, or_false, Prod.mk.injEq] at hm
        rcases hm with ⟨rfl, rfl⟩ | ⟨rfl, rfl⟩ <;>
          (obtain ⟨rfl, rfl⟩ := leaf hv (by intro m h; cases h); simp [pageNumbers, pageOther])
    case inl.inl.inr.inr.inr.inl =>
      rcases Var.at_map hv with ⟨-, h⟩ | ⟨k, v, q, rfl, hm, hv⟩
      · exact absurd h (hw _)
      simp only [List.mem_cons, List.not_mem_nil, or_false, Prod.mk.injEq] at hm
      rcases hm with ⟨rfl, rfl⟩ | ⟨rfl, rfl⟩ | ⟨rfl, rfl⟩ | ⟨rfl, rfl⟩ | ⟨rfl, rfl⟩ | ⟨rfl, rfl⟩
      iterate 4 (obtain ⟨rfl, rfl⟩ := leaf hv (by intro m h; cases h); simp [pageNumbers])
      all_goals
        rcases Var.at_map hv with ⟨-, h⟩ | ⟨k, v, q, rfl, hm, hv⟩
        · exact absurd h (hw _)
        simp only [List.mem_cons, List.not_mem_nil, or_false, Prod.mk.injEq] at hm
        rcases hm with ⟨rfl, rfl⟩ | ⟨rfl, rfl⟩ | ⟨rfl, rfl⟩ | ⟨rfl, rfl⟩ | ⟨rfl, rfl⟩ <;>
          (obtain ⟨rfl, rfl⟩ := leaf hv (by intro m h; cases h); simp [pageNumbers])
    case inl.inl.inr.inr.inr.inr =>
      rcases Var.at_map hv with ⟨-, h⟩ | ⟨k, v, q, rfl, hm, hv⟩
      · exact absurd h (hw _)
      simp only [List.mem_cons, List.not_mem_nil, or_false, Prod.mk.injEq] at hm
      rcases hm with ⟨rfl, rfl⟩ | ⟨rfl, rfl⟩ | ⟨rfl, rfl⟩ | ⟨rfl, rfl⟩ | ⟨rfl, rfl⟩ | ⟨rfl, rfl⟩ | ⟨rfl, rfl⟩ | ⟨rfl, rfl⟩ | ⟨rfl, rfl⟩ | ⟨rfl, rfl⟩ <;>
        (obtain ⟨rfl, rfl⟩ := leaf hv (by intro m h; cases h); simp [pageNumbers])
    case inr.inr.inr =>
      rcases Var.at_map hv with ⟨-, h⟩ | ⟨k, v, q, rfl, hm, hv⟩
      · exact absurd h (hw _)
      simp only [List.mem_cons, List.not_mem_nil, or_false, Prod.mk.injEq] at hm
      rcases hm with ⟨rfl, rfl⟩ | ⟨rfl, rfl⟩ <;>
        (obtain ⟨rfl, rfl⟩ := leaf hv (by intro m h; cases h); simp [pageOther])
    all_goals (obtain ⟨rfl, rfl⟩ := leaf hv (by intro m h; cases h); simp [pageOther])
  · have all : ∀ e ∈ pageNumbers ++ pageOther many pid now, (Var.map (setupExpvars many pid now)).at e.1 = some e.2 := by
      cases many <;>
      · simp only [pageNumbers, pageOther, List.cons_append, List.nil_append, List.append_nil, if_true, Bool.false_eq_true, if_false,
          List.forall_mem_cons, List.not_mem_nil, false_implies, implies_true, and_true]
        repeat' constructor
    exact all (p, w)

/-- Every number of events has one name, and only one. -/
theorem C83_once {many : Bool} {pid : Int} {now : Str} (x : Counter) :
    ∃ p, (Var.map (setupExpvars many pid now)).at p = some (.int x) ∧
      ∀ q, (Var.map (setupExpvars many pid now)).at q = some (.int x) → q = p := by
  simp only [C83_all (w := .int x) (by intro m h; cases h)]
  cases x <;> cases many <;> simp [pageNumbers, pageOther]

/-! ## Examples -/

/-- The number of events shown under a name. -/
def shown (h : List Hap) (p : List Str) : Option Nat :=
  match (Var.map (setupExpvars true 1 [])).at p with
  | some (.int x) => some (tally x (h.flatMap Hap.out))
  | _ => none

/-- Rules that refuse all messages. -/
def demoEnvM : Env := { demoEnv with fs := fun _ => tbl (.notExist b!"no such file") [(b!"/rules", .data b!"reject from b@\n@message reject all\n")] }

/-- A session with a refused and an accepted sender and a message.  The message is refused after it was received, and still is shown
among the accepted messages. -/
example : served (fun h _ => [[b!"smtpcounts", b!"commands", b!"mailfrom"], [b!"smtpcounts", b!"accepted", b!"mailfrom"],
      [b!"smtpcounts", b!"accepted", b!"messages"], [b!"smtpcounts", b!"accepted", b!"quits"], [b!"smtpcounts", b!"quits"],
      [b!"events", b!"yakker_adds"], [b!"sizes"]].map (shown h)) demoConfY
    (session 0 demoEnvM 1 ([.helo false b!"mail.example.com", .mailfrom b!"b@example.com", .mailfrom b!"a@example.com", .rcptto b!"u@example.com",
      .data, .gotdata b!"x"] ++ List.replicate 8 .done)) =
    some [some 2, some 1, some 1, none, some 1, some 0, none] := by decide +kernel

/-- Two useless sessions make a do-nothing client. -/
example : served (fun h _ => [[b!"events", b!"yakker_adds"], [b!"events", b!"yakker_forces"], [b!"events", b!"yakkers"]].map (shown h)) demoConfY
    (session 0 demoEnv 1 [.done] ++ session 1 demoEnv 2 [.done] ++ session 2 demoEnv 3 [.done]) = some [some 1, some 0, some 1] := by decide +kernel

/-- A variable set again is not shown twice. -/
example : ((VarMap.set [] b!"a" (.num 1)).set b!"b" (.num 2)).set b!"a" (.num 3) = [(b!"a", .num 3), (b!"b", .num 2)] := rfl

end Sink
