import Verif.Lemmas.Server
import Verif.Props.Replies
import Verif.Spec.DemoServer

/-!
# C65: the statistics are exact
-/

namespace Sink
namespace Spec

/-- How often a counter was increased. -/
def tally (x : Counter) (o : List Out) : Nat := o.countP fun y => decide (y = .count x)

/-- The rules were asked in this step and did not refuse.  The answer of a step shows that, except on connecting. -/
def Step.passed (E : Env) (st : Step) : Prop :=
  match st.pre.pc with
  | .connect => ∃ res c1, Decide E.W (st.pre.withRdns E).trans.r .connect {} (st.pre.withRdns E).c = .ok (res, c1) ∧
      (res = .noresult ∨ res = .accept)
  | .ready => st.accepted = true
  | _ => replies st.out = [.accepted]

/-- The last time the rules were asked, newest step last: did they let it pass? -/
def LastPassed (E : Env) (l : List Step) : Prop := ∃ st, (l.reverse.find? Step.decided) = some st ∧ st.passed E

/-- TLS was seen to be on by an accepted EHLO, for the first time since it was not. -/
def Step.tlsSeen (st : Step) : Bool :=
  match st.event with
  | some (.helo _ _) => st.accepted && st.i.tls.on && !st.pre.trans.tlson
  | _ => false

def Step.ended (st : Step) : Bool :=
  match st.event with
  | some .done | some .abort => true
  | _ => false

/-- The session is one of which it is counted how it ended: the rules were loaded, and do-nothing detection is off or the session counts
for it. -/
def Rated (cf : Conf) (l : List Step) (s : Sess) : Prop := s.rulesgood = true ∧ (cf.yakCount = 0 ∨ Counting cf l s)

instance (cf : Conf) (l : List Step) (s : Sess) : Decidable (Rated cf l s) := by unfold Rated; infer_instance

/-- A MAIL FROM the rules let pass that abandons an earlier transaction, in a session that got nowhere and counts. -/
def Restarts (cf : Conf) (l : List Step) (st : Step) : Prop :=
  (∃ a, st.event = some (.mailfrom a)) ∧ contribution cf l st = some .add

/-- What each counter counts, for a step that comes after the steps `l` of its session.  Not here: the reports about do-nothing clients
(C40), and what is counted when a session starts. -/
def Happened (cf : Conf) (E : Env) (l : List Step) (st : Step) : Counter → Prop
  | .ehlo => ∃ h a, st.event = some (.helo h a)
  | .ehloAccept => (∃ h a, st.event = some (.helo h a)) ∧ st.accepted = true
  | .mailfrom => ∃ a, st.event = some (.mailfrom a)
  | .mailfromAccept => (∃ a, st.event = some (.mailfrom a)) ∧ st.accepted = true
  | .rcptto => ∃ a, st.event = some (.rcptto a)
  | .rcpttoAccept => (∃ a, st.event = some (.rcptto a)) ∧ st.accepted = true
  | .data => st.event = some .data
  | .dataAccept => st.event = some .data ∧ st.accepted = true
  | .messages => ∃ d, st.event = some (.gotdata d)
  | .tlserrs => st.event = some .tlserror
  | .tlson => st.tlsSeen = true
  | .starttls => st.tlsSeen = true ∨ st.event = some .tlserror
  | .quits => st.event = some .done
  | .aborts => st.event = some .abort
  | .rsets => Restarts cf l st
  | .rsetdrops => Restarts cf l st ∧ st.rsetDrop
  | .notlscnt => st.pre.pc = .tls ∧ (st.sh.notls.lookup E.rip tlsTimeout st.i.now).1.1 = true ∧
      (st.sh.notls.lookup E.rip tlsTimeout st.i.now).1.2 ≥ 2
  | .abandons => st.ended = true ∧ Rated cf l st.pre ∧ LastPassed E l
  | .refuseds => st.ended = true ∧ Rated cf l st.pre ∧ ¬ LastPassed E l
  | .yakkers | .ruleserr => False
  | .yakads | .yakforces => False

end Spec
open Spec

theorem tally_nil (x : Counter) : tally x [] = 0 := rfl
theorem tally_append (x : Counter) (a b : List Out) : tally x (a ++ b) = tally x a + tally x b := List.countP_append
theorem tally_count (x y : Counter) (o : List Out) : tally x (.count y :: o) = tally x o + if y = x then 1 else 0 := by
  simp [tally, List.countP_cons]
theorem tally_cons {x : Counter} {y : Out} (h : ∀ z, y ≠ .count z) (o : List Out) : tally x (y :: o) = tally x o := by
  simp [tally, List.countP_cons, h]

/-- No counter is touched. -/
abbrev Uncounted (o : List Out) : Prop := ∀ x, tally x o = 0

theorem Uncounted.append {a b : List Out} (ha : Uncounted a) (hb : Uncounted b) : Uncounted (a ++ b) := fun x => by
  rw [tally_append, ha x, hb x]
theorem Uncounted.cons {y : Out} (h : ∀ z, y ≠ .count z) {b : List Out} (hb : Uncounted b) : Uncounted (y :: b) := fun x => by
  rw [tally_cons h, hb x]
theorem Uncounted.nil : Uncounted [] := fun _ => rfl

theorem writeLog_uncounted (t : Trans) (s : Str) : Uncounted (writeLog t s) := by
  unfold writeLog; split
  · exact .cons (by simp) .nil
  · exact .nil
theorem tlsClientLog_uncounted (t : Trans) (st : TlsState) : Uncounted (tlsClientLog t st) := by
  unfold tlsClientLog; split
  · exact .nil
  · split <;> exact writeLog_uncounted _ _
theorem yakLog_uncounted (cf : Conf) (E : Env) (i : Inp) (t : Trans) (w : Str) : Uncounted (yakLog cf E i t w) := by
  unfold yakLog; split
  · exact .cons (by simp) .nil
  · exact .nil

theorem logSbls_uncounted {W : World} {rip : Str} : ∀ {hs : List Str} {t t' : Trace} {o : List Out},
    logSbls W rip hs t = .ok (o, t') → Uncounted o := by
  intro hs
  induction hs with
  | nil => intro t t' o h; cases h; exact .nil
  | cons x hs ih =>
    intro t t' o h
    rw [logSbls] at h
    split at h
    · cases h1 : getSBLHits W rip t with
      | error p => rw [h1] at h; cases h
      | ok r =>
        rw [h1] at h
        simp only [bind, Except.bind, pure, Except.pure] at h
        cases h2 : logSbls W rip hs r.2 with
        | error p => rw [h2] at h; cases h
        | ok q =>
          rw [h2] at h
          simp only at h
          have := ih h2
          split at h
          · cases h; exact .cons (by simp) (.cons (by simp) this)
          · cases h; exact this
    · exact ih h

theorem logDnsbls_uncounted {W : World} {t t' : Trans} {c c' : Ctx} {o : List Out} (h : logDnsbls W t c = .ok (t', c', o)) :
    Uncounted o := by
  unfold logDnsbls at h
  split at h
  · cases h; exact .nil
  · simp only at h
    split at h
    · cases h; exact .nil
    · split at h
      · cases h
      · rename_i hs
        cases h
        exact .cons (by simp) (.cons (by simp) (logSbls_uncounted hs))

theorem logDomerr_uncounted (t : Trans) (c : Ctx) : Uncounted (logDomerr t c).2 := by
  unfold logDomerr
  split
  · exact .nil
  · split
    · exact .nil
    · simp only
      split
      · exact .cons (by simp) .nil
      · exact .nil

theorem logNote_uncounted {t : Trans} {c : Ctx} {o : List Out} (h : logNote t c = .ok o) : Uncounted o := by
  unfold logNote at h
  split at h
  · cases h; exact .nil
  · split at h
    · cases h; exact .nil
    · unfold logWrite at h
      split at h
      · cases h; exact .cons (by simp) .nil
      · cases h

/-- Decisions touch no counter. -/
theorem DecR.uncounted {E : Env} {ph : Phase} {evt : Evt} {id : Str} {s s' : Sess} {ref : Bool} {o : List Out} {res : Action} {c1 : Ctx}
    (h : DecR E ph evt id s ref s' o res c1) : Uncounted o := by
  obtain ⟨t1, o1, o3, h1, h2, h3, _⟩ := h.said
  rw [h3]
  refine (((logDnsbls_uncounted h1).append (logDomerr_uncounted _ _)).append (logNote_uncounted h2)).append ?_
  unfold refusal
  split
  · exact .nil
  · exact .cons (by simp) .nil

theorem DecR.lastgood {E : Env} {ph : Phase} {evt : Evt} {id : Str} {s s' : Sess} {ref : Bool} {o : List Out} {res : Action} {c1 : Ctx}
    (h : DecR E ph evt id s ref s' o res c1) : (s'.trans.lastresgood = true ↔ (res = .noresult ∨ res = .accept)) ∧
    (ph ≠ .connect → (s'.trans.lastresgood = true ↔ ref = false)) := by
  obtain ⟨m, a, ht⟩ := h.trans
  have h1 : s'.trans.lastresgood = true ↔ (res = .noresult ∨ res = .accept) := by rw [ht]; simp
  refine ⟨h1, fun hp => ?_⟩
  have hr := h.ref_iff
  rw [if_neg hp] at hr
  rw [h1, hr, decide_eq_false_iff_not, Decidable.not_not]

theorem gotTrans_lastresgood (H : Hashes) (arg : Str) (i : Inp) (t : Trans) : (gotTrans H arg i t).lastresgood = t.lastresgood := by
  unfold gotTrans; simp only; split <;> rfl

theorem Did.lastgood {cf : Conf} {E : Env} {s s' : Sess} {sh sh' : Shared} {i : Inp} {o : List Out} (h : Did cf E s sh i s' sh' o)
    (hc : s'.pc ≠ .closed) : s'.trans.lastresgood = true ↔
      if (⟨s, i, sh, s', sh', o⟩ : Step).decided then (⟨s, i, sh, s', sh', o⟩ : Step).passed E else s.trans.lastresgood = true := by
  have one : ∀ {o : List Out}, (replies o).length = 1 → replies o ≠ [] := fun h h' => by rw [h'] at h; cases h
  cases h with
  | tls hp ht _ =>
    unfold tlsStep at ht
    cases ht
    simp [Step.decided, hp]
  | drop hp | mailDrop hp | finish hp | closed hp => exact absurd (by first | rfl | exact hp) hc
  | connect hp hd =>
    simp only [Step.decided, Step.passed, hp, if_true]
    have := hd.lastgood.1
    rw [this]
    constructor
    · intro h; exact ⟨_, _, hd.dec, h⟩
    · rintro ⟨r, c, h1, h2⟩
      rw [hd.dec] at h1
      cases h1
      exact h2
  | heloRef hp he hd =>
    have h1 := one (hd.one (by decide))
    simp only [Step.decided, Step.passed, Step.accepted, hp, he, if_true, (hd.lastgood.2 (by decide))]
    simp [replies, h1]
  | heloAcc hp he hd hq =>
    have h1 := hd.none (.inr rfl)
    have h2 : ∀ x, replies (.count x :: _ ++ _) = [] := fun x => (replies_append _ _).trans (by rw [hq]; simpa [replies] using h1)
    simp only [Step.decided, Step.passed, Step.accepted, hp, he, if_true, Sess.helod, (hd.lastgood.2 (by decide)), h2, decide_true]
  | mailRef hp he hd | rcptRef hp he hd | dataRef hp he hd =>
    have h1 := hd.refused (by decide)
    simp only [Step.decided, Step.passed, Step.accepted, hp, he, if_true, (hd.lastgood.2 (by decide)), replies]
    rcases h1 with h1 | h1 <;> simp [h1]
  | mailAcc hp he hd _ ho | mailCount hp he hd _ _ ho | rcptAcc hp he hd ho | dataAcc hp he hd ho =>
    have h1 := hd.none (.inr rfl)
    simp only [Step.decided, Step.passed, Step.accepted, hp, he, if_true, Sess.mailed, Sess.rcpted, (hd.lastgood.2 (by decide)), ho, List.cons_append,
      replies, replies_append, h1, verdict_doAccept, List.nil_append, decide_true]
  | gotKeep hp he => simp [Step.decided, hp, he, Sess.got, gotTrans_lastresgood]
  | gotSave hp he => simp [Step.decided, hp, he, Sess.got, Sess.goto, gotTrans_lastresgood]
  | tlserror hp he => simp [Step.decided, hp, he]
  | other hp he => simp [Step.decided, hp, he]
  | save hp => simp [Step.decided, hp]
  | answerFail hp => simp [Step.decided, hp]
  | answerRef hp hd =>
    have h1 := hd.refused (by decide)
    simp only [Step.decided, Step.passed, hp, if_true, (hd.lastgood.2 (by decide))]
    rcases h1 with h1 | h1 <;> simp [h1]
  | answerAcc hp hd ho =>
    have h1 := hd.none (.inr rfl)
    simp only [Step.decided, Step.passed, hp, if_true, (hd.lastgood.2 (by decide)), ho, replies_append, h1, replies, verdict_doAccept, List.nil_append]

theorem run_lastgood {cf : Conf} {E : Env} {s0 s : Sess} {l : List Step} (hr : Run cf E s0 l s) (h0 : s0.trans.lastresgood = false)
    (hc : s.pc ≠ .closed) : s.trans.lastresgood = true ↔ LastPassed E l := by
  induction hr with
  | nil => simp [LastPassed, h0]
  | @snoc l s1 s2 sh sh' i o hr hs ih =>
    have hc1 : s1.pc ≠ Pc.closed := fun h => by
      simp only [sstep, h, Except.ok.injEq, Prod.mk.injEq] at hs
      exact hc (hs.1 ▸ h)
    rw [(sstep_did hs).lastgood hc]
    unfold LastPassed
    simp only [List.reverse_append, List.reverse_cons, List.reverse_nil, List.nil_append, List.singleton_append, List.find?_cons]
    cases Step.decided _ with
    | true => simp
    | false => simpa [LastPassed] using ih hc1

theorem endStep_tally (cf : Conf) (E : Env) (s : Sess) (sh : Shared) (i : Inp) {x : Counter} (hx : x ≠ .yakads ∧ x ≠ .yakforces) :
    tally x (endStep cf E s sh i).2.2 =
      if s.rulesgood = true ∧ (s.sesscounts = true ∨ cf.yakCount = 0) then
        (if (if s.trans.lastresgood then Counter.abandons else .refuseds) = x then 1 else 0) else 0 := by
  have hl : tally x (if s.rulesgood = true ∧ (s.sesscounts = true ∨ cf.yakCount = 0) then
      [Out.count (if s.trans.lastresgood then .abandons else .refuseds)] else []) =
      if s.rulesgood = true ∧ (s.sesscounts = true ∨ cf.yakCount = 0) then
        (if (if s.trans.lastresgood then Counter.abandons else .refuseds) = x then 1 else 0) else 0 := by
    split
    · rw [tally_count, tally_nil, Nat.zero_add]
    · rfl
  unfold endStep
  simp only
  split
  · rw [tally_append, hl]
    split
    · rw [tally_append, tally_append, writeLog_uncounted, yakLog_uncounted, tally_count, tally_count, tally_nil]
      rw [if_neg (Ne.symm hx.1), if_neg (Ne.symm hx.2)]
      simp
    · simp [tally_nil]
  · split
    · rw [tally_append, hl]
      split
      · rw [tally_append, tally_append, writeLog_uncounted, yakLog_uncounted, tally_count, tally_nil]
        rw [if_neg (Ne.symm hx.1)]
        simp
      · simp [tally_nil]
    · split <;> exact hl

theorem startSess_good {cf : Conf} {E : Env} {sh sh' : Shared} {i : Inp} {s : Sess} {o : List Out}
    (h : startSess cf E sh i = .ok (s, sh', o)) : s.trans.lastresgood = false := by
  unfold startSess at h
  simp only [bind, Except.bind, pure, Except.pure] at h
  split at h
  · cases h
  · split at h
    · cases h
    · cases h
      rfl

theorem tlsStep_out {s s' : Sess} {sh sh' : Shared} {i : Inp} {o : List Out} (h : tlsStep s sh i = .ok (s', sh', o)) :
    o = if (sh.notls.lookup s.trans.rip tlsTimeout i.now).1.1 = true ∧ (sh.notls.lookup s.trans.rip tlsTimeout i.now).1.2 ≥ 2 then
      [.count .notlscnt] else [] := by
  simp only [tlsStep, Except.ok.injEq, Prod.mk.injEq, Bool.and_eq_true, decide_eq_true_eq] at h
  exact h.2.2.symm

theorem save_uncounted {cf : Conf} {E : Env} {s s' : Sess} {sh sh' : Shared} {i : Inp} {o : List Out} (h : sstep cf E s sh i = .ok (s', sh', o))
    {p : SavePc} {tgt rec_ id : Str} (hp : s.pc = .save p tgt rec_ id) : Uncounted o := by
  have hw : ∀ m, Uncounted [.warn m] := fun m => .cons (by simp) .nil
  simp only [sstep, hp] at h
  cases p with
  | open_ =>
    simp only [openStep] at h
    split at h <;> cases h <;> first | exact .nil | exact hw _
  | write =>
    simp only [writeStep] at h
    split at h <;> cases h <;> first | exact .nil | exact hw _
  | sync =>
    simp only [syncStep] at h
    split at h <;> cases h <;> first | exact .nil | exact hw _
  | close =>
    simp only [closeStep] at h
    split at h <;> cases h <;> first | exact .nil | exact hw _

theorem restarts_iff {cf : Conf} {E : Env} {l : List Step} {s s' : Sess} (hok : SessOK cf E l s) {sh sh' : Shared} {i : Inp} {o : List Out} :
    Restarts cf l ⟨s, i, sh, s', sh', o⟩ ↔ (∃ a, (⟨s, i, sh, s', sh', o⟩ : Step).event = some (.mailfrom a)) ∧ s.counts ∧
      ((⟨s, i, sh, s', sh', o⟩ : Step).accepted = true ∨ s'.pc = .closed) := by
  unfold Restarts Sess.counts
  refine and_congr_right fun ⟨a, ha⟩ => ?_
  unfold contribution
  simp only [ha, hok.from_, hok.got, hok.counts]
  split
  · rename_i hh; exact ⟨fun _ => ⟨⟨hh.2.2.1, hh.2.1, hh.1⟩, hh.2.2.2⟩, fun _ => rfl⟩
  · rename_i hh; exact ⟨fun h => (by cases h), fun h => absurd ⟨h.1.2.2, h.1.2.1, h.1.1, h.2⟩ hh⟩

/-- **C65.** What each counter counts, step by step. -/
theorem C65_step {cf : Conf} {E : Env} {l : List Step} {s s' : Sess} (h : Life cf E l s) {sh sh' : Shared} {i : Inp} {o : List Out}
    (hs : sstep cf E s sh i = .ok (s', sh', o)) {x : Counter} (hx : x ≠ .yakads ∧ x ≠ .yakforces) :
    (Happened cf E l ⟨s, i, sh, s', sh', o⟩ x → tally x o = 1) ∧ (¬ Happened cf E l ⟨s, i, sh, s', sh', o⟩ x → tally x o = 0) := by
  have hok := h.ok
  have hgood : s.pc ≠ .closed → (s.trans.lastresgood = true ↔ LastPassed E l) := by
    obtain ⟨sh, i, s0, sh0, o, hst, hr⟩ := h
    exact run_lastgood hr (startSess_good hst)
  have hd := sstep_did hs
  have hR := restarts_iff hok (i := i) (sh := sh) (s' := s') (sh' := sh') (o := o)
  clear hs
  cases hd with
  | tls hp ht _ =>
    have ho := tlsStep_out ht
    rw [hok.rip] at ho
    by_cases hn : (sh.notls.lookup E.rip tlsTimeout i.now).1.1 = true ∧ (sh.notls.lookup E.rip tlsTimeout i.now).1.2 ≥ 2
    · rw [if_pos hn] at ho
      subst ho
      cases x <;> simp [Happened, Step.event, Step.tlsSeen, Step.ended, Restarts, hp, hn, tally_count, tally_nil]
    · rw [if_neg hn] at ho
      subst ho
      cases x <;> simp [Happened, Step.event, Step.tlsSeen, Step.ended, Restarts, hp, tally_nil]
      exact fun h1 => Int.not_le.1 fun h2 => hn ⟨h1, h2⟩
  | drop hp hd hq hm ho =>
    have hu : Uncounted _ := ho ▸ (by split; exact .nil; exact writeLog_uncounted _ _ : Uncounted (if _ then [] else _))
    have := hd.uncounted.append hu x
    cases x <;> simp [Happened, Step.event, Step.tlsSeen, Step.ended, Restarts, hp, this]
  | connect hp hd =>
    have hu := hd.uncounted x
    cases x <;> simp [Happened, Step.event, Step.tlsSeen, Step.ended, Restarts, hp, hu]
  | heloRef hp he hd =>
    have hu := hd.uncounted x
    have hacc : ∀ o, Step.accepted ⟨s, i, sh, s', sh, o⟩ = decide (replies o = []) := fun o => by simp [Step.accepted, he]
    have h1 : ¬ replies _ = [] := fun h => by have := hd.one (by decide); rw [h] at this; cases this
    cases x <;> simp [Happened, Step.event, Step.tlsSeen, Step.ended, Restarts, hp, he, hu, tally_count, hacc, replies, h1]
  | @heloAcc hh arg s1 o1 o' res c1 hp he hd hq hm ho =>
    have hu := hd.uncounted x
    have h1 := hd.none (.inr rfl)
    have h2 : replies o' = [] := hq
    have htl : s1.trans.tlson = s.trans.tlson := by
      obtain ⟨m, a, ht⟩ := hd.trans
      rw [ht]
    have hacc : Step.accepted ⟨s, i, sh, s1.helod cf arg i.tls, sh, .count .ehlo :: o1 ++ o'⟩ = true := by
      simp [Step.accepted, he, replies, replies_append, h1, h2]
    rw [htl] at ho
    by_cases hon : i.tls.on = true ∧ s.trans.tlson = false
    · have h3 : tally x (.count .ehlo :: o1 ++ o') = (if Counter.ehlo = x then 1 else 0) + (if Counter.ehloAccept = x then 1 else 0) +
          (if Counter.tlson = x then 1 else 0) + if Counter.starttls = x then 1 else 0 := by
        rw [tally_append, tally_count, hu, ho, if_pos hon, tally_count]
        simp only [List.cons_append, List.nil_append, tally_count, tlsClientLog_uncounted]
        omega
      generalize hout : Out.count Counter.ehlo :: o1 ++ o' = out at hacc h3 hR ⊢
      cases x <;> simp [Happened, Step.event, hp, he, Step.tlsSeen, Step.ended, Restarts, hacc, h3, hon]
    · have h3 : tally x (.count .ehlo :: o1 ++ o') = (if Counter.ehlo = x then 1 else 0) + (if Counter.ehloAccept = x then 1 else 0) := by
        rw [tally_append, tally_count, hu, ho, if_neg hon, tally_count, tally_nil]
        omega
      have hon' : i.tls.on = true → s.trans.tlson = true := fun h => by
        cases hh : s.trans.tlson
        · exact absurd ⟨h, hh⟩ hon
        · rfl
      generalize hout : Out.count Counter.ehlo :: o1 ++ o' = out at hacc h3 hR ⊢
      cases x <;> simp [Happened, Step.event, hp, he, Step.tlsSeen, Step.ended, Restarts, hacc, h3] <;> exact hon'
  | mailRef hp he hd | rcptRef hp he hd | dataRef hp he hd =>
    have hu := hd.uncounted x
    have h1 : ¬ replies _ = [.accepted] := fun h => by have := hd.refused (by decide); rw [h] at this; simp at this
    have hcl : s'.pc ≠ .closed := by rw [hd.pc, hp]; simp
    have hacc : ∀ o, Step.accepted ⟨s, i, sh, s', sh, o⟩ = decide (replies o = [.accepted]) := fun o => by simp [Step.accepted, he]
    cases x <;> simp [Happened, Step.event, Step.tlsSeen, Step.ended, hR, hp, he, hu, tally_count, hacc, replies, h1, hcl]
  | @mailAcc arg s1 o1 o' res c1 hp he hd hn ho =>
    have hu := hd.uncounted x
    have h1 := hd.none (.inr rfl)
    have hc : ¬ s.counts := fun h => hn (by
      obtain ⟨m, a, ht⟩ := hd.trans
      refine ⟨?_, ?_, ?_⟩
      · rw [ht]; exact h.1
      · rw [hd.got]; exact h.2.1
      · rw [hd.sc]; exact h.2.2)
    have hacc : Step.accepted ⟨s, i, sh, s1.mailed cf arg, sh, .count .mailfrom :: o1 ++ o'⟩ = true := by
      simp [Step.accepted, he, replies, replies_append, h1, ho, verdict_doAccept]
    have h3 : tally x (.count .mailfrom :: o1 ++ o') = (if Counter.mailfrom = x then 1 else 0) + (if Counter.mailfromAccept = x then 1 else 0) := by
      rw [tally_append, tally_count, hu, ho, tally_cons (by simp), tally_count, tally_nil]
      omega
    generalize hout : Out.count Counter.mailfrom :: o1 ++ o' = out at hacc h3 hR ⊢
    cases x <;> simp [Happened, Step.event, hp, he, Step.tlsSeen, Step.ended, hR, hacc, h3, hc]
  | @mailCount arg s1 o1 o' res c1 hp he hd hn hk ho =>
    have hu := hd.uncounted x
    have h1 := hd.none (.inr rfl)
    have hc : s.counts := by
      obtain ⟨m, a, ht⟩ := hd.trans
      refine ⟨?_, ?_, ?_⟩
      · have := hn.1; rw [ht] at this; exact this
      · rw [← hd.got]; exact hn.2.1
      · rw [← hd.sc]; exact hn.2.2
    have hcl : s1.pc ≠ .closed := by rw [hd.pc, hp]; simp
    have hacc : ∀ sh', Step.accepted ⟨s, i, sh, s1.mailed cf arg, sh', .count .mailfrom :: o1 ++ o'⟩ = true := by
      simp [Step.accepted, he, replies, replies_append, h1, ho, verdict_doAccept]
    have h3 : tally x (.count .mailfrom :: o1 ++ o') = (if Counter.mailfrom = x then 1 else 0) + (if Counter.rsets = x then 1 else 0) +
        (if Counter.mailfromAccept = x then 1 else 0) := by
      rw [tally_append, tally_count, hu, ho, tally_count, tally_cons (by simp), tally_count, tally_nil]
      omega
    generalize hout : Out.count Counter.mailfrom :: o1 ++ o' = out at hacc h3 hR ⊢
    cases x <;> simp [Happened, Step.event, hp, he, Step.tlsSeen, Step.ended, hR, hacc, h3, hc, Step.rsetDrop, hcl]
  | @mailDrop arg s1 o1 o' res c1 hp he hd hn hk ho =>
    have hu := hd.uncounted x
    have h1 := hd.none (.inr rfl)
    have hc : s.counts := by
      obtain ⟨m, a, ht⟩ := hd.trans
      refine ⟨?_, ?_, ?_⟩
      · have := hn.1; rw [ht] at this; exact this
      · rw [← hd.got]; exact hn.2.1
      · rw [← hd.sc]; exact hn.2.2
    have hrep : sent (.count .mailfrom :: o1 ++ o') = [.tempfailMsg b!"Too many unsuccessful delivery attempts"] := by
      simp only [List.cons_append, sent, sent_append, sent_nil.2 h1, ho, sent_nil.2 (quiet_writeLog _ _)]
      rfl
    have hacc : ∀ s' sh', Step.accepted ⟨s, i, sh, s', sh', .count .mailfrom :: o1 ++ o'⟩ = false := by
      intro s' sh'
      unfold Step.accepted
      simp only [he]
      rw [replies_answers, hrep]
      simp [verdict]
    have h3 : tally x (.count .mailfrom :: o1 ++ o') = (if Counter.mailfrom = x then 1 else 0) + (if Counter.rsets = x then 1 else 0) +
        (if Counter.rsetdrops = x then 1 else 0) := by
      rw [tally_append, tally_count, hu, ho, tally_append, tally_append, writeLog_uncounted]
      rw [show ∀ m, tally x [.reply (.tempfailMsg m)] = 0 from fun m => tally_cons (by simp) []]
      simp only [tally_count, tally_nil, if_neg (Ne.symm hx.1)]
      omega
    clear ho
    generalize hout : Out.count Counter.mailfrom :: o1 ++ o' = out at hrep hacc h3 hR ⊢
    clear hout
    cases x <;> simp only [Happened, Step.event, hp, he, Step.tlsSeen, Step.ended, hR, hacc, h3, hc, Step.rsetDrop, hrep] <;> simp
  | @rcptAcc arg s1 o1 o' res c1 hp he hd ho =>
    have hu := hd.uncounted x
    have h1 := hd.none (.inr rfl)
    have hacc : Step.accepted ⟨s, i, sh, s1.rcpted cf arg, sh, .count .rcptto :: o1 ++ o'⟩ = true := by
      simp [Step.accepted, he, replies, replies_append, h1, ho, verdict_doAccept]
    have h3 : tally x (.count .rcptto :: o1 ++ o') = (if Counter.rcptto = x then 1 else 0) + (if Counter.rcpttoAccept = x then 1 else 0) := by
      rw [tally_append, tally_count, hu, ho, tally_cons (by simp), tally_count, tally_nil]
      omega
    generalize hout : Out.count Counter.rcptto :: o1 ++ o' = out at hacc h3 hR ⊢
    cases x <;> simp [Happened, Step.event, hp, he, Step.tlsSeen, Step.ended, Restarts, hacc, h3]
  | @dataAcc s1 o1 o' res c1 hp he hd ho =>
    have hu := hd.uncounted x
    have h1 := hd.none (.inr rfl)
    have hacc : ∀ s', Step.accepted ⟨s, i, sh, s', sh, .count .data :: o1 ++ o'⟩ = true := by
      simp [Step.accepted, he, replies, replies_append, h1, ho, verdict_doAccept]
    have h3 : tally x (.count .data :: o1 ++ o') = (if Counter.data = x then 1 else 0) + (if Counter.dataAccept = x then 1 else 0) := by
      rw [tally_append, tally_count, hu, ho, tally_cons (by simp), tally_count, tally_nil]
      omega
    generalize hout : Out.count Counter.data :: o1 ++ o' = out at hacc h3 hR ⊢
    cases x <;> simp [Happened, Step.event, hp, he, Step.tlsSeen, Step.ended, Restarts, hacc, h3]
  | gotKeep hp he _ ho | gotSave hp he _ _ ho =>
    have h3 : tally x o = if Counter.messages = x then 1 else 0 := by
      rw [ho, tally_count]
      split <;> simp [tally_nil, tally_cons]
    cases x <;> simp [Happened, Step.event, hp, he, Step.tlsSeen, Step.ended, Restarts, h3]
  | tlserror hp he =>
    cases x <;> simp [Happened, Step.event, hp, he, Step.tlsSeen, Step.ended, Restarts, tally_count, tally_nil]
  | finish hp he _ =>
    have hr : (s.rulesgood = true ∧ (s.sesscounts = true ∨ cf.yakCount = 0)) ↔ Rated cf l s := by
      unfold Rated; rw [hok.counts]; exact and_congr_right fun _ => Or.comm
    have hg := hgood (by rw [hp]; simp)
    have h3 := endStep_tally cf E s sh i hx
    by_cases hR' : Rated cf l s <;> by_cases hL : LastPassed E l <;>
    rcases he with ⟨he, rfl⟩ | ⟨he, rfl⟩ <;>
    cases x <;> simp [Happened, Step.event, hp, he, Step.tlsSeen, Step.ended, Restarts, tally_count, h3, hr, hR', hg, hL]
  | other hp he =>
    cases x <;> simp [Happened, Step.event, hp, he, Step.tlsSeen, Step.ended, Restarts, tally_nil]
  | save hp hst =>
    have hu := save_uncounted hst hp x
    cases x <;> simp [Happened, Step.event, hp, Step.tlsSeen, Step.ended, Restarts, hu]
  | answerFail hp =>
    cases x <;> simp [Happened, Step.event, hp, Step.tlsSeen, Step.ended, Restarts, tally_cons, tally_nil]
  | answerRef hp hd =>
    have hu := hd.uncounted x
    cases x <;> simp [Happened, Step.event, hp, Step.tlsSeen, Step.ended, Restarts, hu]
  | answerAcc hp hd ho =>
    have hu := hd.uncounted x
    cases x <;> simp [Happened, Step.event, hp, Step.tlsSeen, Step.ended, Restarts, hu, ho, tally_append, tally_cons, tally_nil]
  | closed hp =>
    cases x <;> simp [Happened, Step.event, hp, Step.tlsSeen, Step.ended, Restarts, tally_nil]

theorem setupRules_warns {L : Lib} {fs : Files} {d : Nat} {stallall base : List Rule} {rf : List Str} {rules : List Rule} {good : Bool}
    {w : Option Str} (h : setupRules L fs d stallall base rf = .ok (rules, good, w)) : good = true ↔ w = none := by
  unfold setupRules at h
  split at h <;> cases h <;> simp

theorem connParams_uncounted (cf : Conf) (E : Env) (n : Str) (t : Trace) : Uncounted (connParams cf E n t).2.2.2 := by
  unfold connParams
  split
  · exact .nil
  · simp only
    split
    · exact .cons (by simp) .nil
    · split <;> exact .nil

/-- **C65.** What is counted when a session starts: whether the client is stalled, and whether the rules could not be loaded. -/
theorem C65_start {cf : Conf} {E : Env} {sh sh' : Shared} {i : Inp} {s : Sess} {o : List Out} (h : startSess cf E sh i = .ok (s, sh', o))
    (x : Counter) : tally x o = (if x = .yakkers ∧ s.stall = true then 1 else 0) + if x = .ruleserr ∧ s.rulesgood = false then 1 else 0 := by
  unfold startSess at h
  simp only [bind, Except.bind, pure, Except.pure] at h
  split at h
  · cases h
  · rename_i r hr
    obtain ⟨rules, good, w⟩ := r
    have hw : good = true ↔ w = none := setupRules_warns hr
    split at h
    · cases h
    · cases h
      simp only [tally_append, List.cons_append]
      rw [tally_cons (by simp), tally_append, tally_append, connParams_uncounted]
      have h2 : ∀ (b : Bool) t, tally x (if b = true then Out.count .yakkers :: yakLog cf E i t b!"connection" else []) =
          if x = .yakkers ∧ b = true then 1 else 0 := by
        intro b t
        cases b
        · simp [tally_nil]
        · simp [tally_count, yakLog_uncounted, eq_comm]
      rw [h2]
      cases w with
      | none =>
        rw [hw.2 rfl]
        simp [tally_nil]
      | some m =>
        have : good = false := by cases good; rfl; exact absurd (hw.1 rfl) (by simp)
        rw [tally_cons (by simp), tally_count, tally_nil, this]
        simp only [eq_comm (a := Counter.ruleserr), and_true]
        omega

namespace Spec

/-- What an entry of the history of the server put out. -/
def Hap.out (e : Hap) : List Out :=
  match e.what with
  | .began _ _ _ o => o
  | .stepped _ _ _ _ _ o => o

open Classical in
/-- How often what a counter counts happened in the history of the server. -/
noncomputable def occurrences (cf : Conf) (x : Counter) : List Hap → Nat
  | [] => 0
  | ⟨_, _, _, .began _ s _ _⟩ :: h => occurrences cf x h +
      (if x = .yakkers ∧ s.stall = true then 1 else 0) + if x = .ruleserr ∧ s.rulesgood = false then 1 else 0
  | ⟨k, E, _, .stepped s sh i s' sh' o⟩ :: h => occurrences cf x h + if Happened cf E (stepsOf k h) ⟨s, i, sh, s', sh', o⟩ x then 1 else 0

end Spec

/-- **C65.** At any time, whatever the interleaving of connections, each counter is the number of times that what it counts has happened. -/
theorem C65_server {cf : Conf} {h : List Hap} {g : Server} (hr : Server.Runs cf h g) {x : Counter} (hx : x ≠ .yakads ∧ x ≠ .yakforces) :
    tally x (h.flatMap Hap.out) = occurrences cf x h := by
  induction hr with
  | init => rfl
  | start hr hn hk hs ih =>
    rw [List.flatMap_cons, tally_append, ih]
    simp only [Hap.out, occurrences, C65_start hs x]
    omega
  | step hr hn hk hs ih =>
    rw [List.flatMap_cons, tally_append, ih]
    simp only [Hap.out, occurrences]
    obtain ⟨h1, h2⟩ := C65_step (hr.life.1 _ _ hk) hs hx
    split
    · rename_i hh; rw [h1 hh]; omega
    · rename_i hh; rw [h2 hh]; omega

/-- The ways a session ends. -/
theorem Did.closes {cf : Conf} {E : Env} {s s' : Sess} {sh sh' : Shared} {i : Inp} {o : List Out} (h : Did cf E s sh i s' sh' o) :
    (s'.pc = .closed ↔ s.pc = .closed ∨ (s.pc = .ready ∧ (i.ev = .done ∨ i.ev = .abort)) ∨
      (s.pc = .connect ∧ s'.pc = .closed) ∨ (∃ a, s.pc = .ready ∧ i.ev = .mailfrom a) ∧ s'.pc = .closed) ∧
    ((∃ a, s.pc = .ready ∧ i.ev = .mailfrom a) → s'.pc = .closed → s.counts ∧ (⟨s, i, sh, s', sh', o⟩ : Step).rsetDrop) := by
  have hpc : ∀ {ph evt id ref s1 o res c1}, DecR E ph evt id s ref s1 o res c1 → s1.pc = s.pc := fun hd => by rw [hd.sess]
  cases h with
  | tls hp ht =>
    have : s'.pc = .connect := by
      simp only [tlsStep, Except.ok.injEq, Prod.mk.injEq] at ht
      rw [← ht.1]
    simp [this, hp]
  | drop hp | connect hp | closed hp | answerFail hp | answerRef hp | answerAcc hp => simp [hp]
  | heloRef hp he hd | mailRef hp he hd | rcptRef hp he hd | dataRef hp he hd | heloAcc hp he hd | mailAcc hp he hd
  | mailCount hp he hd | rcptAcc hp he hd | dataAcc hp he hd =>
    simp [hp, he, hpc hd]
  | gotKeep hp he => simp [hp, he]
  | gotSave hp he => simp [hp, he, Sess.goto]
  | tlserror hp he => simp [hp, he]
  | finish hp he => rcases he with ⟨he, _⟩ | ⟨he, _⟩ <;> simp [hp, he]
  | other hp he => simp [hp, he]
  | save hp _ _ hn => rcases hn with ⟨q, rfl⟩ | ⟨b, rfl⟩ <;> simp [hp]
  | @mailDrop arg s1 o1 o' res c1 hp he hd hn hk ho =>
    refine ⟨⟨fun _ => .inr (.inr (.inr ⟨⟨_, hp, he⟩, rfl⟩)), fun _ => rfl⟩, fun _ _ => ⟨?_, ⟨_, (if_pos hp).trans (congrArg some he)⟩, rfl, ?_⟩⟩
    · obtain ⟨m, a, ht⟩ := hd.trans
      refine ⟨?_, ?_, ?_⟩
      · have := hn.1; rw [ht] at this; exact this
      · rw [← hd.got]; exact hn.2.1
      · rw [← hd.sc]; exact hn.2.2
    · have h1 := hd.none (.inr rfl)
      simp only [List.cons_append, sent, sent_append, sent_nil.2 h1, ho, sent_nil.2 (quiet_writeLog _ _)]
      rfl

/-- Numbers that must fit together, in every session. -/
theorem C65_laws {cf : Conf} {E : Env} {l : List Step} {s : Sess} (h : Life cf E l s) :
    let T := fun x => tally x (l.flatMap (·.out))
    T .starttls = T .tlson + T .tlserrs ∧
    T .ehloAccept ≤ T .ehlo ∧ T .mailfromAccept ≤ T .mailfrom ∧ T .rcpttoAccept ≤ T .rcptto ∧ T .dataAccept ≤ T .data ∧
    T .abandons + T .refuseds ≤ T .quits + T .aborts ∧
    T .rsetdrops ≤ T .rsets ∧ T .rsets + T .mailfromAccept ≤ 2 * T .mailfrom ∧
    T .quits + T .aborts + T .rsetdrops + l.countP (fun st => decide (st.pre.pc = .connect ∧ st.post.pc = .closed)) =
      (if s.pc = .closed then 1 else 0) := by
  obtain ⟨sh, i, s0, sh0, o, hst, hr⟩ := h
  induction hr with
  | nil => simp [tally_nil, (startSess_init hst).1]
  | @snoc l s1 s2 sh1 sh2 ii o1 hr hs ih =>
    have hl : Life cf E l s1 := ⟨_, _, _, _, _, hst, hr⟩
    have hok := hl.ok
    have hd := sstep_did hs
    obtain ⟨hc1, hc2⟩ := hd.closes
    obtain ⟨i1, i2, i3, i4, i5, i6, i7, i8, i9⟩ := ih
    have F : ∀ {x : Counter}, x ≠ .yakads ∧ x ≠ .yakforces → _ := fun hx => C65_step hl hs hx
    have hR : (∃ a, s1.pc = .ready ∧ ii.ev = .mailfrom a) → s2.pc = .closed →
        Happened cf E l ⟨s1, ii, sh1, s2, sh2, o1⟩ .rsetdrops := by
      intro h1 h2
      obtain ⟨h3, h4⟩ := hc2 h1 h2
      exact ⟨(restarts_iff hok).2 ⟨h4.1, h3, .inr h2⟩, h4⟩
    have mono : ∀ {x y : Counter}, x ≠ .yakads ∧ x ≠ .yakforces → y ≠ .yakads ∧ y ≠ .yakforces →
        (Happened cf E l ⟨s1, ii, sh1, s2, sh2, o1⟩ x → Happened cf E l ⟨s1, ii, sh1, s2, sh2, o1⟩ y) → tally x o1 ≤ tally y o1 := by
      intro x y hx hy h
      by_cases hh : Happened cf E l ⟨s1, ii, sh1, s2, sh2, o1⟩ x
      · rw [(F hx).1 hh, (F hy).1 (h hh)]
      · rw [(F hx).2 hh]; exact Nat.zero_le _
    have j2 : tally .ehloAccept o1 ≤ tally .ehlo o1 := mono (by decide) (by decide) fun h => h.1
    have j3 : tally .mailfromAccept o1 ≤ tally .mailfrom o1 := mono (by decide) (by decide) fun h => h.1
    have j4 : tally .rcpttoAccept o1 ≤ tally .rcptto o1 := mono (by decide) (by decide) fun h => h.1
    have j5 : tally .dataAccept o1 ≤ tally .data o1 := mono (by decide) (by decide) fun h => h.1
    have j7 : tally .rsetdrops o1 ≤ tally .rsets o1 := mono (by decide) (by decide) fun h => h.1
    have j8 : tally .rsets o1 ≤ tally .mailfrom o1 := mono (by decide) (by decide) fun h => h.1
    have j1 : tally .starttls o1 = tally .tlson o1 + tally .tlserrs o1 := by
      by_cases h1 : (⟨s1, ii, sh1, s2, sh2, o1⟩ : Step).event = some .tlserror
      · have h2 : ¬ (⟨s1, ii, sh1, s2, sh2, o1⟩ : Step).tlsSeen = true := by unfold Step.tlsSeen; rw [h1]; simp
        rw [(F (x := .starttls) (by decide)).1 (.inr h1), (F (x := .tlson) (by decide)).2 h2, (F (x := .tlserrs) (by decide)).1 h1]
      · by_cases h2 : (⟨s1, ii, sh1, s2, sh2, o1⟩ : Step).tlsSeen = true
        · rw [(F (x := .starttls) (by decide)).1 (.inl h2), (F (x := .tlson) (by decide)).1 h2, (F (x := .tlserrs) (by decide)).2 h1]
        · rw [(F (x := .starttls) (by decide)).2 (fun h => h.elim h2 h1), (F (x := .tlson) (by decide)).2 h2, (F (x := .tlserrs) (by decide)).2 h1]
    have j6 : tally .abandons o1 + tally .refuseds o1 ≤ tally .quits o1 + tally .aborts o1 := by
      have hne : ∀ {x : Counter}, x ≠ .yakads ∧ x ≠ .yakforces → tally x o1 ≤ 1 := fun hx => by
        rcases Classical.em (Happened cf E l ⟨s1, ii, sh1, s2, sh2, o1⟩ _) with h | h
        · rw [(F hx).1 h]
        · rw [(F hx).2 h]; omega
      by_cases he : (⟨s1, ii, sh1, s2, sh2, o1⟩ : Step).ended = true
      · have h1 : tally .quits o1 + tally .aborts o1 ≥ 1 := by
          unfold Step.ended at he
          split at he
          · rename_i h; rw [(F (x := .quits) (by decide)).1 h]; omega
          · rename_i h; rw [(F (x := .aborts) (by decide)).1 h]; omega
          · cases he
        by_cases hp : LastPassed E l
        · rw [(F (x := .refuseds) (by decide)).2 (fun h => h.2.2 hp)]
          have := hne (x := .abandons) (by decide)
          omega
        · rw [(F (x := .abandons) (by decide)).2 (fun h => hp h.2.2)]
          have := hne (x := .refuseds) (by decide)
          omega
      · rw [(F (x := .refuseds) (by decide)).2 (fun h => he h.1), (F (x := .abandons) (by decide)).2 (fun h => he h.1)]
        omega
    have j9 : (if s1.pc = .closed then 1 else 0) + tally .quits o1 + tally .aborts o1 + tally .rsetdrops o1 +
        (if s1.pc = .connect ∧ s2.pc = .closed then 1 else 0) = if s2.pc = .closed then 1 else 0 := by
      have e1 : tally .quits o1 = if s1.pc = .ready ∧ ii.ev = .done then 1 else 0 := by
        split
        · rename_i h; exact (F (x := .quits) (by decide)).1 ((if_pos h.1).trans (congrArg some h.2))
        · rename_i h
          refine (F (x := .quits) (by decide)).2 fun hh => h ?_
          simp only [Happened, Step.event] at hh
          split at hh
          · exact ⟨by assumption, Option.some.inj hh⟩
          · cases hh
      have e2 : tally .aborts o1 = if s1.pc = .ready ∧ ii.ev = .abort then 1 else 0 := by
        split
        · rename_i h; exact (F (x := .aborts) (by decide)).1 ((if_pos h.1).trans (congrArg some h.2))
        · rename_i h
          refine (F (x := .aborts) (by decide)).2 fun hh => h ?_
          simp only [Happened, Step.event] at hh
          split at hh
          · exact ⟨by assumption, Option.some.inj hh⟩
          · cases hh
      have : Decidable ((∃ a, s1.pc = .ready ∧ ii.ev = .mailfrom a) ∧ s2.pc = .closed) := Classical.dec _
      have e3 : tally .rsetdrops o1 = if (∃ a, s1.pc = .ready ∧ ii.ev = .mailfrom a) ∧ s2.pc = .closed then 1 else 0 := by
        split
        · rename_i h; exact (F (x := .rsetdrops) (by decide)).1 (hR h.1 h.2)
        · rename_i h
          refine (F (x := .rsetdrops) (by decide)).2 fun hh => h ?_
          obtain ⟨a, ha⟩ := hh.2.1
          simp only [Step.event] at ha
          split at ha
          · exact ⟨⟨a, by assumption, Option.some.inj ha⟩, hh.2.2.1⟩
          · cases ha
      rw [e1, e2, e3]
      clear e1 e2 e3 F mono hR hc2 hd hs
      obtain ⟨p, hp⟩ : ∃ p, s1.pc = p := ⟨_, rfl⟩
      obtain ⟨e, he⟩ : ∃ e, ii.ev = e := ⟨_, rfl⟩
      cases p <;> simp only [hp, reduceCtorEq, false_and, true_and, false_or, or_false, exists_false, if_false, if_true, true_or] at hc1 ⊢
      case ready => cases e <;> simp [he] at hc1 ⊢ <;> first | exact hc1 | simp [hp]
      all_goals simp [hc1]
    dsimp only at i1 i2 i3 i4 i5 i6 i7 i8 i9
    simp only [List.flatMap_append, List.flatMap_cons, List.flatMap_nil, List.append_nil, tally_append, List.countP_append, List.countP_cons,
      List.countP_nil, decide_eq_true_eq]
    refine ⟨by omega, by omega, by omega, by omega, by omega, by omega, by omega, by omega, ?_⟩
    rw [← j9, ← i9]
    omega

/-- A session with one refused recipient and one message. -/
example : seen (fun l _ _ => [Counter.ehlo, .ehloAccept, .mailfrom, .mailfromAccept, .rcptto, .rcpttoAccept, .data, .dataAccept, .messages,
    .quits, .aborts, .abandons, .refuseds].map fun x => tally x (l.flatMap (·.out))) (driveAll demoConf demoEnv {} {} demoTalk) =
    .ok [1, 1, 1, 1, 2, 1, 1, 1, 1, 1, 0, 1, 0] := by decide +kernel
/-- A client that goes away after a refusal, after a failed STARTTLS. -/
example : seen (fun l _ _ => [Counter.starttls, .tlson, .tlserrs, .quits, .aborts, .abandons, .refuseds].map
    fun x => tally x (l.flatMap (·.out))) (driveAll demoConf demoEnv {} {} (events [.tlserror, .helo false b!"example.com",
      .mailfrom b!"a@example.com", .rcptto b!"bad@example.com", .abort])) =
    .ok [1, 0, 1, 0, 1, 0, 1] := by decide +kernel

end Sink
