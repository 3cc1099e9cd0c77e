import Verif.Lemmas.Session

/-!
# Invariants of a connection
-/

namespace Sink
open Spec

/-- Case analysis of a step of a run, with the invariant for the state before it. -/
theorem Spec.Run.ind {cf : Conf} {E : Env} {P : List Step → Sess → Prop} {s0 s : Sess} {l : List Step} (h : Run cf E s0 l s)
    (h0 : P [] s0)
    (hs : ∀ l s1 s2 sh sh' i o, Run cf E s0 l s1 → P l s1 → Did cf E s1 sh i s2 sh' o → sstep cf E s1 sh i = .ok (s2, sh', o) →
      P (l ++ [⟨s1, i, sh, s2, sh', o⟩]) s2) : P l s := by
  induction h with
  | nil => exact h0
  | snoc hr hst ih => exact hs _ _ _ _ _ _ _ hr ih (sstep_did hst) hst

/-- The envelope in the transaction. -/
def Trans.env (t : Trans) : Envelope := ⟨t.heloname, t.from_, t.rcptto⟩

section DecR
variable {E : Env} {ph : Phase} {evt : Evt} {id : Str} {s s' : Sess} {ref : Bool} {o : List Out} {res : Action} {c1 : Ctx}

theorem DecR.env (h : DecR E ph evt id s ref s' o res c1) : s'.trans.env = s.trans.env := by
  obtain ⟨m, a, ht⟩ := h.trans
  rw [ht]; rfl

theorem DecR.got (h : DecR E ph evt id s ref s' o res c1) : s'.gotsomewhere = s.gotsomewhere := by
  rw [h.sess]

theorem DecR.sc (h : DecR E ph evt id s ref s' o res c1) : s'.sesscounts = s.sesscounts := by
  rw [h.sess]

theorem DecR.pc (h : DecR E ph evt id s ref s' o res c1) : s'.pc = s.pc := by
  rw [h.sess]

theorem DecR.rip (h : DecR E ph evt id s ref s' o res c1) : s'.trans.rip = s.trans.rip := by
  obtain ⟨m, a, ht⟩ := h.trans
  rw [ht]

theorem DecR.savedir (h : DecR E ph evt id s ref s' o res c1) : s'.trans.savedir =
    match s'.c.withprops.savedir with
    | some x => if x = [] then s.trans.savedir else x
    | none => s.trans.savedir := by
  obtain ⟨m, a, ht⟩ := h.trans
  obtain ⟨d, tr, hc⟩ := h.ctx
  rw [ht, hc]
  simp only
  cases c1.withprops.savedir with
  | none => rfl
  | some x =>
    simp only [Option.getD_some]
    by_cases hx : x = []
    · simp [hx]
    · simp [hx]

/-- A refusal is answered by one refusing reply (never on connect). -/
theorem DecR.refused (h : DecR E ph evt id s true s' o res c1) (hp : ph ≠ .connect) :
    replies o = [.rejected] ∨ replies o = [.deferred] := by
  have := h.rep
  rw [if_neg (by simp [hp])] at this
  rw [this]
  split
  · exact Or.inl rfl
  · exact Or.inr rfl

theorem DecR.quiet (h : DecR E ph evt id s false s' o res c1) : Quiet o := by
  have := h.rep
  rw [if_pos (by simp)] at this
  exact this

end DecR

theorem verdict_doAccept (c : Ctx) (id : Str) : verdict (doAccept c id) = .accepted := by
  unfold doAccept
  simp only
  split
  · rfl
  · split <;> rfl

theorem gotTrans_env (H : Hashes) (arg : Str) (i : Inp) (t : Trans) : (gotTrans H arg i t).env = t.env := by
  unfold gotTrans
  simp only
  split <;> rfl

theorem gotTrans_data (H : Hashes) (arg : Str) (i : Inp) (t : Trans) : (gotTrans H arg i t).data = arg := by
  unfold gotTrans
  simp only
  split <;> rfl

/-- How the steps of a connection change the envelope. -/
theorem Did.env {cf : Conf} {E : Env} {s s' : Sess} {sh sh' : Shared} {i : Inp} {o : List Out} (h : Did cf E s sh i s' sh' o) :
    s'.trans.env = s.trans.env.step ⟨s, i, sh, s', sh', o⟩ := by
  unfold Envelope.step Step.event Step.accepted
  cases h with
  | tls hp ht _ =>
    simp only [hp, reduceCtorEq, if_false]
    unfold tlsStep at ht
    cases ht
    rfl
  | drop hp hd _ => simp only [hp, reduceCtorEq, if_false]; exact hd.env
  | connect hp hd => simp only [hp, reduceCtorEq, if_false]; exact hd.env
  | heloRef hp he hd =>
    simp only [hp, if_true, he]
    rw [hd.env]
    rcases hd.refused (by decide) with hr | hr <;> simp [replies, hr]
  | heloAcc hp he hd hq =>
    simp only [hp, if_true, he]
    simp [replies, replies_append, hd.quiet, hq, Sess.helod, Trans.env, Envelope.take]
  | mailRef hp he hd =>
    simp only [hp, if_true, he]
    rw [hd.env]
    rcases hd.refused (by decide) with hr | hr <;> simp [replies, hr]
  | mailAcc hp he hd hc ho =>
    subst ho
    simp only [hp, if_true, he]
    simp only [List.cons_append, replies, replies_append, hd.quiet, verdict_doAccept, List.nil_append, decide_true, if_true,
      Envelope.take, ← hd.env, Sess.mailed]
    rfl
  | mailCount hp he hd hc hn ho =>
    subst ho
    simp only [hp, if_true, he]
    simp only [List.cons_append, replies, replies_append, hd.quiet, verdict_doAccept, List.nil_append, decide_true, if_true,
      Envelope.take, ← hd.env, Sess.mailed]
    rfl
  | mailDrop hp he hd hc hn ho =>
    subst ho
    simp only [hp, if_true, he]
    rw [← hd.env]
    simp [replies, replies_append, hd.quiet, quiet_writeLog, verdict, Trans.env]
  | rcptRef hp he hd =>
    simp only [hp, if_true, he]
    rw [hd.env]
    rcases hd.refused (by decide) with hr | hr <;> simp [replies, hr]
  | rcptAcc hp he hd ho =>
    subst ho
    simp only [hp, if_true, he]
    simp only [List.cons_append, replies, replies_append, hd.quiet, verdict_doAccept, List.nil_append, decide_true, if_true,
      Envelope.take, ← hd.env, Sess.rcpted]
    rfl
  | dataRef hp he hd =>
    simp only [hp, if_true, he, Envelope.take, ite_self]
    exact hd.env
  | dataAcc hp he hd ho =>
    simp only [hp, if_true, he, Envelope.take, ite_self]
    exact hd.env
  | gotKeep hp he hs ho =>
    simp only [hp, if_true, he, Envelope.take, ite_self]
    exact gotTrans_env _ _ _ _
  | gotSave hp he hs hn ho =>
    simp only [hp, if_true, he, Envelope.take, ite_self]
    exact gotTrans_env _ _ _ _
  | tlserror hp he => simp only [hp, if_true, he, Envelope.take, ite_self]
  | finish hp he _ =>
    rcases he with ⟨he, _⟩ | ⟨he, _⟩ <;> simp only [hp, if_true, he, Envelope.take, ite_self]
  | other hp he => simp only [hp, if_true, he, Envelope.take, ite_self]
  | save hp _ _ _ => simp only [hp, reduceCtorEq, if_false]
  | answerFail hp => simp only [hp, reduceCtorEq, if_false]
  | answerRef hp hd => simp only [hp, reduceCtorEq, if_false]; exact hd.env
  | answerAcc hp hd ho => simp only [hp, reduceCtorEq, if_false]; exact hd.env
  | closed hp => simp only [hp, reduceCtorEq, if_false]

/-- How the steps of a connection change the save directory. -/
theorem Did.savedir {cf : Conf} {E : Env} {s s' : Sess} {sh sh' : Shared} {i : Inp} {o : List Out} (h : Did cf E s sh i s' sh' o) :
    s'.trans.savedir = savedirStep s.trans.savedir ⟨s, i, sh, s', sh', o⟩ := by
  unfold savedirStep Step.decided
  cases h with
  | tls hp ht _ =>
    simp only [hp]
    unfold tlsStep at ht
    cases ht
    rfl
  | drop hp hd _ => simp only [hp, if_true]; exact hd.savedir
  | connect hp hd => simp only [hp, if_true]; exact hd.savedir
  | heloRef hp he hd => simp only [hp, if_true, he]; exact hd.savedir
  | heloAcc hp he hd hq => simp only [hp, if_true, he]; exact hd.savedir
  | mailRef hp he hd => simp only [hp, if_true, he]; exact hd.savedir
  | mailAcc hp he hd hc ho => simp only [hp, if_true, he]; exact hd.savedir
  | mailCount hp he hd hc hn ho => simp only [hp, if_true, he]; exact hd.savedir
  | mailDrop hp he hd hc hn ho => simp only [hp, if_true, he]; exact hd.savedir
  | rcptRef hp he hd => simp only [hp, if_true, he]; exact hd.savedir
  | rcptAcc hp he hd ho => simp only [hp, if_true, he]; exact hd.savedir
  | dataRef hp he hd => simp only [hp, if_true, he]; exact hd.savedir
  | dataAcc hp he hd ho => simp only [hp, if_true, he]; exact hd.savedir
  | gotKeep hp he hs ho => simp only [hp, he]; exact gotTrans_savedir _ _ _ _
  | gotSave hp he hs hn ho => simp only [hp, he]; exact gotTrans_savedir _ _ _ _
  | tlserror hp he => simp only [hp, he]; rfl
  | finish hp he _ =>
    rcases he with ⟨he, _⟩ | ⟨he, _⟩ <;> · simp only [hp, he]; rfl
  | other hp he => simp only [hp, he]; rfl
  | save hp _ _ _ => simp only [hp]; rfl
  | answerFail hp => simp only [hp]; rfl
  | answerRef hp hd => simp only [hp, if_true]; exact hd.savedir
  | answerAcc hp hd ho => simp only [hp, if_true]; exact hd.savedir
  | closed hp => simp only [hp]; rfl

/-- How the steps of a connection change whether it got anywhere. -/
theorem Did.got {cf : Conf} {E : Env} {s s' : Sess} {sh sh' : Shared} {i : Inp} {o : List Out} (h : Did cf E s sh i s' sh' o) :
    s'.gotsomewhere = (s.gotsomewhere || Step.reaches cf.minphase ⟨s, i, sh, s', sh', o⟩) := by
  unfold Step.reaches Step.accepted
  cases h with
  | tls hp ht _ =>
    simp only [hp]
    unfold tlsStep at ht
    cases ht
    simp
  | drop hp hd _ => simp only [hp, Bool.or_false]; exact hd.got
  | connect hp hd => simp only [hp, Bool.or_false]; exact hd.got
  | heloRef hp he hd =>
    simp only [hp, he]
    rw [hd.got]
    rcases hd.refused (by decide) with hr | hr <;> simp [replies, hr]
  | heloAcc hp he hd hq =>
    simp only [hp, he]
    simp [replies, replies_append, hd.quiet, hq, Sess.helod, hd.got]
  | mailRef hp he hd =>
    simp only [hp, he]
    rw [hd.got]
    rcases hd.refused (by decide) with hr | hr <;> simp [replies, hr]
  | mailAcc hp he hd hc ho =>
    subst ho
    simp only [hp, he]
    simp [replies, replies_append, hd.quiet, verdict_doAccept, Sess.mailed, hd.got]
  | mailCount hp he hd hc hn ho =>
    subst ho
    simp only [hp, he]
    simp [replies, replies_append, hd.quiet, verdict_doAccept, Sess.mailed, hd.got]
  | mailDrop hp he hd hc hn ho =>
    subst ho
    simp only [hp, he]
    simp [replies, replies_append, hd.quiet, quiet_writeLog, verdict, hd.got]
  | rcptRef hp he hd =>
    simp only [hp, he]
    rw [hd.got]
    rcases hd.refused (by decide) with hr | hr <;> simp [replies, hr]
  | rcptAcc hp he hd ho =>
    subst ho
    simp only [hp, he]
    simp [replies, replies_append, hd.quiet, verdict_doAccept, Sess.rcpted, hd.got]
  | dataRef hp he hd =>
    simp only [hp, he]
    rw [hd.got]
    rcases hd.refused (by decide) with hr | hr <;> simp [replies, hr]
  | dataAcc hp he hd ho =>
    subst ho
    simp only [hp, he]
    simp [replies, replies_append, hd.quiet, verdict_doAccept, hd.got]
  | gotKeep hp he hs ho => simp only [hp, he]; simp [Sess.got]
  | gotSave hp he hs hn ho => simp only [hp, he]; simp [Sess.got, Sess.goto]
  | tlserror hp he => simp only [hp, he, Bool.or_false]
  | finish hp he _ =>
    rcases he with ⟨he, _⟩ | ⟨he, _⟩ <;> simp only [hp, he, Bool.or_false]
  | other hp he => simp only [hp, he, Bool.or_false]
  | save hp _ _ _ => simp only [hp, Bool.or_false]
  | answerFail hp => simp only [hp]; simp
  | answerRef hp hd =>
    simp only [hp]
    rw [hd.got]
    rcases hd.refused (by decide) with hr | hr <;> simp [hr]
  | answerAcc hp hd ho =>
    subst ho
    simp only [hp]
    simp [replies, replies_append, hd.quiet, verdict_doAccept, hd.got]
  | closed hp => simp only [hp, Bool.or_false]

/-- A connection begins with nothing. -/
theorem startSess_init {cf : Conf} {E : Env} {sh sh' : Shared} {i : Inp} {s : Sess} {o : List Out}
    (h : startSess cf E sh i = .ok (s, sh', o)) :
    s.pc = .tls ∧ s.trans.env = {} ∧ s.trans.savedir = cf.savedir ∧ s.gotsomewhere = false ∧ s.trans.rip = E.rip ∧
    s.trans.raddr = E.raddr ∧ s.trans.laddr = E.laddr ∧ s.trans.lip = E.lip := by
  unfold startSess at h
  simp only [bind, Except.bind, pure, Except.pure] at h
  split at h
  · cases h
  · split at h
    · cases h
    · cases h
      exact ⟨rfl, rfl, rfl, rfl, rfl, rfl, rfl, rfl⟩

end Sink
