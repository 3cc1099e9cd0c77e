import Verif.Props.Stalled
import Verif.Props.Session
import Verif.Spec.Server

/-!
# The tables of the server and the history of its clients
-/

namespace Sink
open Spec

theorem gotTrans_rip (H : Hashes) (arg : Str) (i : Inp) (t : Trans) : (gotTrans H arg i t).rip = t.rip := by
  unfold gotTrans
  simp only
  split <;> rfl

theorem DecR.flags {E : Env} {ph : Phase} {evt : Evt} {id : Str} {s s' : Sess} {ref : Bool} {o : List Out} {res : Action} {c1 : Ctx}
    (h : DecR E ph evt id s ref s' o res c1) :
    s'.stall = s.stall ∧ s'.rulesgood = s.rulesgood ∧ s'.trans.rip = s.trans.rip ∧ s'.sesscounts = s.sesscounts := by
  refine ⟨?_, ?_, h.rip, h.sc⟩ <;> rw [h.sess]

/-- What steps leave alone. -/
theorem Did.flags {cf : Conf} {E : Env} {s s' : Sess} {sh sh' : Shared} {i : Inp} {o : List Out} (h : Did cf E s sh i s' sh' o) :
    s'.stall = s.stall ∧ s'.rulesgood = s.rulesgood ∧ s'.trans.rip = s.trans.rip ∧
    s'.sesscounts = (s.sesscounts && !decide ((⟨s, i, sh, s', sh', o⟩ : Step).event = some .tlserror)) := by
  unfold Step.event
  have ne : ∀ {b : Bool} {ev : SEv}, ev ≠ .tlserror → (b && !decide (some ev = some SEv.tlserror)) = b := by
    intro b ev h
    simp [h]
  cases h with
  | tls hp ht _ =>
    unfold tlsStep at ht
    cases ht
    simp [hp]
  | drop hp hd _ => simpa [hp, Sess.withRdns] using hd.flags
  | connect hp hd => simpa [hp, Sess.withRdns] using hd.flags
  | heloRef hp he hd => simpa [hp, he] using hd.flags
  | heloAcc hp he hd _ => simpa [hp, he, Sess.helod] using hd.flags
  | mailRef hp he hd => simpa [hp, he] using hd.flags
  | mailAcc hp he hd => simpa [hp, he, Sess.mailed] using hd.flags
  | mailCount hp he hd => simpa [hp, he, Sess.mailed] using hd.flags
  | mailDrop hp he hd => simpa [hp, he] using hd.flags
  | rcptRef hp he hd => simpa [hp, he] using hd.flags
  | rcptAcc hp he hd _ => simpa [hp, he, Sess.rcpted] using hd.flags
  | dataRef hp he hd => simpa [hp, he] using hd.flags
  | dataAcc hp he hd _ => simpa [hp, he] using hd.flags
  | gotKeep hp he => simp [hp, he, Sess.got, gotTrans_rip]
  | gotSave hp he => simp [hp, he, Sess.got, Sess.goto, gotTrans_rip]
  | tlserror hp he => simp [hp, he]
  | finish hp he _ => rcases he with ⟨he, _⟩ | ⟨he, _⟩ <;> simp [hp, he]
  | other hp he => simp [hp, he]
  | save hp _ _ _ => simp [hp]
  | answerFail hp => simp [hp]
  | answerRef hp hd => simpa [hp] using hd.flags
  | answerAcc hp hd _ => simpa [hp] using hd.flags
  | closed hp => simp [hp]

theorem run_flags {cf : Conf} {E : Env} {s0 s : Sess} {l : List Step} (hr : Run cf E s0 l s) :
    s.stall = s0.stall ∧ s.rulesgood = s0.rulesgood ∧ s.trans.rip = s0.trans.rip ∧ s.sesscounts = (s0.sesscounts && !tlsFailed l) := by
  refine Spec.Run.ind (P := fun l s => s.stall = s0.stall ∧ s.rulesgood = s0.rulesgood ∧ s.trans.rip = s0.trans.rip ∧
    s.sesscounts = (s0.sesscounts && !tlsFailed l)) hr ⟨rfl, rfl, rfl, by simp [tlsFailed]⟩ ?_
  rintro l s1 s2 sh sh' i o _ ⟨i1, i2, i3, i4⟩ hd _
  obtain ⟨h1, h2, h3, h4⟩ := hd.flags
  refine ⟨h1.trans i1, h2.trans i2, h3.trans i3, ?_⟩
  rw [h4, i4]
  simp only [tlsFailed, List.any_append, List.any_cons, List.any_nil, Bool.or_false]
  cases s0.sesscounts <;> simp [Bool.not_or]

theorem run_reached {cf : Conf} {E : Env} {s0 s : Sess} {l : List Step} (hr : Run cf E s0 l s) (h0 : s0.gotsomewhere = false) :
    s.gotsomewhere = reached cf l := by
  refine Spec.Run.ind (P := fun l s => s.gotsomewhere = reached cf l) hr h0 ?_
  intro l s1 s2 sh sh' i o _ ih hd _
  rw [hd.got, ih]
  simp [reached, List.any_append]

/-- A session in terms of its history. -/
structure SessOK (cf : Conf) (E : Env) (l : List Step) (s : Sess) : Prop where
  life : Life cf E l s
  rip : s.trans.rip = E.rip
  from_ : s.trans.from_ = (envelope l).from_
  got : s.gotsomewhere = reached cf l
  counts : s.sesscounts = true ↔ Counting cf l s

theorem Spec.Life.ok {cf : Conf} {E : Env} {s : Sess} {l : List Step} (h : Life cf E l s) : SessOK cf E l s := by
  have h' := h
  obtain ⟨sh, i, s0, sh0, o, hs, hr⟩ := h
  obtain ⟨f1, f2, f3, f4⟩ := run_flags hr
  obtain ⟨-, g2, -, g4, g5, -⟩ := startSess_init hs
  obtain ⟨rules, good, w, t, -, -, c3, c4, -⟩ := startSess_ctx hs
  refine ⟨h', f3.trans g5, ?_, run_reached hr g4, ?_⟩
  · rw [← run_env hr g2]; rfl
  · unfold Counting
    rw [f4, c4, f1, f2, c3]
    simp only [Bool.and_eq_true, Bool.not_eq_true', decide_eq_true_eq]
    tauto

/-- Every connection of a server is a session. -/
theorem Server.Runs.life {cf : Conf} {h : List Hap} {g : Server} (hr : Server.Runs cf h g) {k : Nat} :
    (∀ E s, g.conns k = some (E, s) → Life cf E (stepsOf k h) s) ∧ (g.conns k = none → ∀ e ∈ h, e.k ≠ k) := by
  induction hr with
  | init fs => refine ⟨fun E s h => ?_, by simp⟩; cases h
  | @start h g j E i s sh' o hr hn hk hs ih =>
    constructor
    · intro E1 s1 h1
      simp only at h1
      unfold stepsOf
      by_cases hj : k = j
      · rw [if_pos hj] at h1
        cases h1
        rw [if_pos hj.symm]
        exact ⟨_, _, _, _, _, hs, .nil _⟩
      · rw [if_neg hj] at h1
        rw [if_neg fun h => hj h.symm]
        exact ih.1 _ _ h1
    · intro h1 e he
      simp only at h1
      by_cases hj : k = j
      · rw [if_pos hj] at h1; cases h1
      · rw [if_neg hj] at h1
        rcases List.mem_cons.mp he with rfl | he
        · exact fun h => hj h.symm
        · exact ih.2 h1 e he
  | @step h g j E i s s' sh' o hr hn hk hs ih =>
    constructor
    · intro E1 s1 h1
      simp only at h1
      unfold stepsOf
      by_cases hj : k = j
      · subst hj
        rw [if_pos rfl] at h1
        cases h1
        rw [if_pos rfl]
        obtain ⟨sh0, i0, s0, sh1, o1, h2, h3⟩ := ih.1 _ _ hk
        exact ⟨sh0, i0, s0, sh1, o1, h2, .snoc h3 hs⟩
      · rw [if_neg hj] at h1
        rw [if_neg fun h => hj h.symm]
        exact ih.1 _ _ h1
    · intro h1 e he
      simp only at h1
      by_cases hj : k = j
      · rw [if_pos hj] at h1; cases h1
      · rw [if_neg hj] at h1
        rcases List.mem_cons.mp he with rfl | he
        · exact fun h => hj h.symm
        · exact ih.2 h1 e he

/-- What an operation does to a table. -/
def opYak (ttl now : Int) (ip : Str) (m : IpMap) : Option IpOp → IpMap
  | none => m
  | some .add => (m.add ip ttl now).2
  | some (.set n) => (m.set ip ttl n now).2
  | some .del => m.del ip

/-- The step changes the table of do-nothing clients as its contribution says. -/
theorem Did.yak {cf : Conf} {E : Env} {s s' : Sess} {sh sh' : Shared} {i : Inp} {o : List Out} (h : Did cf E s sh i s' sh' o)
    {l : List Step} (hl : SessOK cf E l s) :
    sh'.yak = opYak cf.yakTimeout i.now E.rip sh.yak (contribution cf l ⟨s, i, sh, s', sh', o⟩) := by
  unfold contribution Step.event Step.accepted
  have counts_iff : ∀ {ph evt id ref s1 o res c1}, DecR E ph evt id s ref s1 o res c1 →
      (s1.counts ↔ (envelope l).from_ ≠ [] ∧ reached cf l = false ∧ Counting cf l s) := by
    intro ph evt id ref s1 o res c1 hd
    unfold Sess.counts
    rw [hd.sc, hd.got, hl.got, hl.counts]
    obtain ⟨m, a, ht⟩ := hd.trans
    rw [ht]
    simp only
    rw [hl.from_]
  have hrip : ∀ {ph evt id ref s1 o res c1}, DecR E ph evt id s ref s1 o res c1 → s1.trans.rip = E.rip := by
    intro ph evt id ref s1 o res c1 hd
    rw [hd.rip, hl.rip]
  cases h with
  | tls hp ht _ =>
    unfold tlsStep at ht
    cases ht
    simp only [hp, reduceCtorEq, if_false]
    rfl
  | drop hp hd _ => simp only [hp, reduceCtorEq, if_false]; rfl
  | connect hp hd => simp only [hp, reduceCtorEq, if_false]; rfl
  | heloRef hp he hd => simp only [hp, he, if_true]; rfl
  | heloAcc hp he hd _ => simp only [hp, he, if_true]; rfl
  | mailRef hp he hd =>
    simp only [hp, he, if_true]
    rw [if_neg]
    · rfl
    · rintro ⟨-, -, -, h⟩
      rcases h with h | h
      · rcases hd.refused (by decide) with hr | hr <;> simp [replies, hr] at h
      · rw [hd.pc, hp] at h; cases h
  | mailAcc hp he hd hc ho =>
    simp only [hp, he, if_true]
    rw [if_neg]
    · rfl
    · rintro ⟨h1, h2, h3, -⟩
      exact hc ((counts_iff hd).mpr ⟨h3, h2, h1⟩)
  | mailCount hp he hd hc hn ho =>
    subst ho
    simp only [hp, he, if_true]
    obtain ⟨h1, h2, h3⟩ := (counts_iff hd).mp hc
    rw [if_pos ⟨h3, h2, h1, .inl (by simp [replies, replies_append, hd.quiet, verdict_doAccept])⟩, hrip hd]
    rfl
  | mailDrop hp he hd hc hn ho =>
    simp only [hp, he, if_true]
    obtain ⟨h1, h2, h3⟩ := (counts_iff hd).mp hc
    rw [if_pos ⟨h3, h2, h1, .inr (by trivial)⟩, hrip hd]
    rfl
  | rcptRef hp he hd => simp only [hp, he, if_true]; rfl
  | rcptAcc hp he hd _ => simp only [hp, he, if_true]; rfl
  | dataRef hp he hd => simp only [hp, he, if_true]; rfl
  | dataAcc hp he hd _ => simp only [hp, he, if_true]; rfl
  | gotKeep hp he => simp only [hp, he, if_true]; rfl
  | gotSave hp he => simp only [hp, he, if_true]; rfl
  | tlserror hp he => simp only [hp, he, if_true]; rfl
  | @finish x hp he _ =>
    have key : (endStep cf E s sh i).2.1.yak = opYak cf.yakTimeout i.now E.rip sh.yak
        (if s.c.withprops.makeYakker.isSome then some (.set cf.yakCount)
        else if reached cf l = false ∧ Counting cf l s then some .add
        else if reached cf l = true ∧ cf.yakCount > 0 then some .del
        else none) := by
      unfold endStep
      simp only [hl.got, hl.counts, hl.rip]
      by_cases h1 : s.c.withprops.makeYakker.isSome = true
      · simp only [if_pos h1]; rfl
      · simp only [if_neg h1]
        by_cases h2 : reached cf l = false ∧ Counting cf l s
        · simp only [if_pos h2]; rfl
        · simp only [if_neg h2]
          by_cases h3 : cf.yakCount > 0 ∧ reached cf l = true
          · simp only [if_pos h3, if_pos h3.symm]; rfl
          · have h3' : ¬ (reached cf l = true ∧ cf.yakCount > 0) := fun h => h3 h.symm
            simp only [if_neg h3, if_neg h3']; rfl
    rcases he with ⟨he, _⟩ | ⟨he, _⟩ <;> · simp only [hp, he, if_true]; exact key
  | other hp he => simp only [hp, he, if_true]; rfl
  | save hp hst _ _ =>
    simp only [hp, reduceCtorEq, if_false]
    exact (sstep_save_tables hp hst).1
  | answerFail hp => simp only [hp, reduceCtorEq, if_false]; rfl
  | answerRef hp hd => simp only [hp, reduceCtorEq, if_false]; rfl
  | answerAcc hp hd _ => simp only [hp, reduceCtorEq, if_false]; rfl
  | closed hp => simp only [hp, reduceCtorEq, if_false]; rfl

/-- The step changes the table of TLS failures only if it is one, or looks the client up. -/
theorem Did.notls {cf : Conf} {E : Env} {s s' : Sess} {sh sh' : Shared} {i : Inp} {o : List Out} (h : Did cf E s sh i s' sh' o)
    {l : List Step} (hl : SessOK cf E l s) :
    sh'.notls = if s.pc = .tls then (sh.notls.lookup E.rip tlsTimeout i.now).2
      else opYak tlsTimeout i.now E.rip sh.notls (if (⟨s, i, sh, s', sh', o⟩ : Step).event = some .tlserror then some .add else none) := by
  unfold Step.event
  cases h with
  | tls hp ht _ =>
    unfold tlsStep at ht
    cases ht
    rw [if_pos hp, ← hl.rip]
    rfl
  | drop hp hd _ => simp [hp, opYak]
  | connect hp hd => simp [hp, opYak]
  | heloRef hp he hd => simp [hp, he, opYak]
  | heloAcc hp he hd _ => simp [hp, he, opYak]
  | mailRef hp he hd => simp [hp, he, opYak]
  | mailAcc hp he hd => simp [hp, he, opYak]
  | mailCount hp he hd => simp [hp, he, opYak]
  | mailDrop hp he hd => simp [hp, he, opYak]
  | rcptRef hp he hd => simp [hp, he, opYak]
  | rcptAcc hp he hd _ => simp [hp, he, opYak]
  | dataRef hp he hd => simp [hp, he, opYak]
  | dataAcc hp he hd _ => simp [hp, he, opYak]
  | gotKeep hp he => simp [hp, he, opYak]
  | gotSave hp he => simp [hp, he, opYak]
  | tlserror hp he => simp [hp, he, opYak, hl.rip]
  | finish hp he _ =>
    have : (endStep cf E s sh i).2.1.notls = sh.notls := by
      unfold endStep
      simp only
      split
      · rfl
      · split
        · rfl
        · split <;> rfl
    rcases he with ⟨he, _⟩ | ⟨he, _⟩ <;> simp [hp, he, opYak, this]
  | other hp he => simp [hp, he, opYak]
  | save hp hst _ _ =>
    simp only [hp, reduceCtorEq, if_false, opYak]
    exact (sstep_save_tables hp hst).2
  | answerFail hp => simp [hp, opYak]
  | answerRef hp hd => simp [hp, opYak]
  | answerAcc hp hd _ => simp [hp, opYak]
  | closed hp => simp [hp, opYak]

/-- An operation on one address is recorded in its history and in no other. -/
theorem IpAgrees.op {ttl : Int} {m : IpMap} {ip a : Str} {now : Int} {h : List (Int × IpOp)} (ha : IpAgrees ttl m ip now h)
    (op : Option IpOp) :
    IpAgrees ttl (opYak ttl now a m op) ip now (if a = ip ∧ ip ≠ [] then (op.map fun o => (now, o)).toList ++ h else h) := by
  by_cases hai : a = ip ∧ ip ≠ []
  · rw [if_pos hai]
    obtain ⟨rfl, hne⟩ := hai
    cases op with
    | none => exact ha
    | some o => cases o with
      | add => exact (ha.add hne).2
      | set n => exact (ha.set hne).2
      | del => exact ha.del hne
  · rw [if_neg hai]
    by_cases h0 : a = []
    · subst h0
      cases op with
      | none => exact ha
      | some o => cases o <;> exact ha
    · have hne : ip ≠ a := by
        rintro rfl
        exact hai ⟨rfl, h0⟩
      refine ha.congr ?_
      cases op with
      | none => rfl
      | some o => cases o with
        | add => exact ((m.add_eq h0 ttl now).2 ip).trans (if_neg hne)
        | set n => exact ((m.set_eq h0 ttl n now).2 ip).trans (if_neg hne)
        | del => exact (m.del_eq h0 ip).trans (if_neg hne)

theorem IpAgrees.look {ttl : Int} {m : IpMap} {ip a : Str} {now : Int} {h : List (Int × IpOp)} (ha : IpAgrees ttl m ip now h) :
    IpAgrees ttl (m.lookup a ttl now).2 ip now h := by
  by_cases hai : ip = a
  · subst hai; exact ha.lookup.2
  · refine ha.congr ?_
    rw [(m.lookup_eq a ttl now).2 ip, if_neg fun h => hai h.1]

/-- The times of failures as a history. -/
def addsAt (l : List Int) : List (Int × IpOp) := l.map fun t => (t, .add)

/-- The tables of a server hold what its clients did. -/
theorem Server.Runs.tables {cf : Conf} {h : List Hap} {g : Server} (hr : Server.Runs cf h g) (ip : Str) {now : Int}
    (hn : ∀ e ∈ h, e.now ≤ now) :
    IpAgrees cf.yakTimeout g.sh.yak ip now (yakHist cf ip h) ∧ IpAgrees tlsTimeout g.sh.notls ip now (addsAt (tlsFailures ip h)) := by
  induction hr generalizing now with
  | init fs => exact ⟨fun t _ => rfl, fun t _ => rfl⟩
  | @start h g j E i s sh' o hr hm hk hs ih =>
    obtain ⟨h1, h2⟩ := ih hm
    have hle : i.now ≤ now := hn _ List.mem_cons_self
    obtain ⟨rules, good, w, t, -, -, -, -, -, -, rfl⟩ := startSess_ctx hs
    exact ⟨h1.look.later hle, h2.later hle⟩
  | @step h g j E i s s' sh' o hr hm hk hs ih =>
    obtain ⟨h1, h2⟩ := ih hm
    have hle : i.now ≤ now := hn _ List.mem_cons_self
    have hl := (hr.life.1 _ _ hk).ok
    have hd := sstep_did hs
    constructor
    · have := h1.op (a := E.rip) (contribution cf (stepsOf j h) ⟨s, i, g.sh, s', sh', o⟩)
      rw [← hd.yak hl] at this
      exact this.later hle
    · have hd2 := hd.notls hl
      simp only
      by_cases hp : s.pc = .tls
      · rw [if_pos hp] at hd2
        rw [hd2]
        have : tlsFailures ip (⟨j, E, i.now, .stepped s g.sh i s' sh' o⟩ :: h) = tlsFailures ip h := by
          simp only [tlsFailures]
          rw [if_neg]
          rintro ⟨-, -, hx⟩
          unfold Step.event at hx
          simp [hp] at hx
        rw [this]
        exact h2.look.later hle
      · rw [if_neg hp] at hd2
        rw [hd2]
        have := h2.op (a := E.rip) (if (⟨s, i, g.sh, s', sh', o⟩ : Step).event = some .tlserror then some .add else none)
        refine IpAgrees.later ?_ hle
        refine Eq.mp (congrArg _ ?_) this
        simp only [tlsFailures]
        by_cases h3 : E.rip = ip ∧ ip ≠ []
        · by_cases h4 : (⟨s, i, g.sh, s', sh', o⟩ : Step).event = some .tlserror
          · simp [h3, h4, addsAt]
          · simp [h3, h4, addsAt]
        · rw [if_neg h3, if_neg fun hx => h3 ⟨hx.1, hx.2.1⟩]

end Sink
