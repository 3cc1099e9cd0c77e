import Verif.Lemmas.Steps
import Verif.Spec.Session

/-!
# What `decider` and the steps of a connection change
-/

namespace Sink
open Spec Relation

theorem replies_append (a b : List Out) : replies (a ++ b) = replies a ++ replies b := by
  induction a with
  | nil => rfl
  | cons x a ih => cases x <;> simp [replies, ih]

/-- No reply among these effects. -/
abbrev Quiet (o : List Out) : Prop := replies o = []

theorem quiet_writeLog (t : Trans) (s : Str) : Quiet (writeLog t s) := by unfold writeLog; split <;> rfl
theorem quiet_yakLog (cf : Conf) (E : Env) (i : Inp) (t : Trans) (w : Str) : Quiet (yakLog cf E i t w) := by
  unfold yakLog; split <;> rfl
theorem quiet_tlsClientLog (t : Trans) (st : TlsState) : Quiet (tlsClientLog t st) := by
  unfold tlsClientLog; split
  · rfl
  · split <;> exact quiet_writeLog _ _

/-- Not a report about do-nothing clients, a line about a message or the count of a connection. -/
def Out.mild : Out → Bool
  | .count .yakads | .count .yakforces | .dnlog _ | .msglog _ | .loccount _ | .warnOnce _ => false
  | _ => true

/-- Only mild effects. -/
abbrev Mild (o : List Out) : Prop := ∀ x ∈ o, x.mild = true

theorem Mild.nil : Mild [] := fun x hx => by cases hx
theorem Mild.append {a b : List Out} (ha : Mild a) (hb : Mild b) : Mild (a ++ b) := fun x hx => by
  rcases List.mem_append.mp hx with h | h
  · exact ha x h
  · exact hb x h
theorem Mild.cons {x : Out} {b : List Out} (hx : x.mild = true) (hb : Mild b) : Mild (x :: b) := fun y hy => by
  rcases List.mem_cons.mp hy with rfl | h
  · exact hx
  · exact hb y h
theorem mild_writeLog (t : Trans) (s : Str) : Mild (writeLog t s) := by
  unfold writeLog; split
  · exact .cons rfl .nil
  · exact .nil
theorem mild_tlsClientLog (t : Trans) (st : TlsState) : Mild (tlsClientLog t st) := by
  unfold tlsClientLog; split
  · exact .nil
  · split <;> exact mild_writeLog _ _

theorem logSbls_mild {W : World} {rip : Str} : ∀ {hs : List Str} {t t' : Trace} {o : List Out},
    logSbls W rip hs t = .ok (o, t') → Mild o := by
  intro hs
  induction hs with
  | nil => intro t t' o h; cases h; exact .nil
  | cons x hs ih =>
    intro t t' o h
    rw [logSbls] at h
    split at h
    · cases h1 : getSBLHits W rip t with
      | error p => rw [h1] at h; cases h
      | ok r =>
        rw [h1] at h
        simp only [bind, Except.bind, pure, Except.pure] at h
        cases h2 : logSbls W rip hs r.2 with
        | error p => rw [h2] at h; cases h
        | ok q =>
          rw [h2] at h
          simp only at h
          have := ih h2
          split at h
          · cases h; exact .cons rfl (.cons rfl this)
          · cases h; exact this
    · exact ih h

theorem logDnsbls_mild {W : World} {t t' : Trans} {c c' : Ctx} {o : List Out} (h : logDnsbls W t c = .ok (t', c', o)) : Mild o := by
  unfold logDnsbls at h
  split at h
  · cases h; exact .nil
  · simp only at h
    split at h
    · cases h; exact .nil
    · split at h
      · cases h
      · rename_i hs
        cases h
        exact .cons rfl (.cons rfl (logSbls_mild hs))

theorem logDomerr_mild (t : Trans) (c : Ctx) : Mild (logDomerr t c).2 := by
  unfold logDomerr
  split
  · exact .nil
  · split
    · exact .nil
    · simp only
      split
      · exact .cons rfl .nil
      · exact .nil

theorem logNote_mild {t : Trans} {c : Ctx} {o : List Out} (h : logNote t c = .ok o) : Mild o := by
  unfold logNote at h
  split at h
  · cases h; exact .nil
  · split at h
    · cases h; exact .nil
    · unfold logWrite at h
      split at h
      · cases h; exact .cons rfl .nil
      · cases h

theorem logSbls_quiet {W : World} {rip : Str} : ∀ {hs : List Str} {t t' : Trace} {o : List Out},
    logSbls W rip hs t = .ok (o, t') → Quiet o := by
  intro hs
  induction hs with
  | nil => intro t t' o h; cases h; rfl
  | cons x hs ih =>
    intro t t' o h
    rw [logSbls] at h
    split at h
    · cases h1 : getSBLHits W rip t with
      | error p => rw [h1] at h; cases h
      | ok r =>
        rw [h1] at h
        simp only [bind, Except.bind, pure, Except.pure] at h
        cases h2 : logSbls W rip hs r.2 with
        | error p => rw [h2] at h; cases h
        | ok q =>
          rw [h2] at h
          simp only at h
          have := ih h2
          split at h <;> · cases h; simpa [Quiet, replies] using this
    · exact ih h

theorem logDnsbls_frame {W : World} {t t' : Trans} {c c' : Ctx} {o : List Out} (h : logDnsbls W t c = .ok (t', c', o)) :
    Quiet o ∧ (∃ m, t' = { t with lastmsg := m }) ∧ ∃ d tr, c' = { c with dnsblhit := d, trace := tr } := by
  unfold logDnsbls at h
  split at h
  · cases h; exact ⟨rfl, ⟨_, rfl⟩, _, _, rfl⟩
  · simp only at h
    split at h
    · cases h; exact ⟨rfl, ⟨_, rfl⟩, _, _, rfl⟩
    · split at h
      · cases h
      · rename_i o1 tr1 hs
        cases h
        exact ⟨by simpa [Quiet, replies] using logSbls_quiet hs, ⟨_, rfl⟩, _, _, rfl⟩

theorem logDomerr_frame (t : Trans) (c : Ctx) : Quiet (logDomerr t c).2 ∧ ∃ m, (logDomerr t c).1 = { t with lastamsg := m } := by
  unfold logDomerr
  split
  · exact ⟨rfl, _, rfl⟩
  · split
    · exact ⟨rfl, _, rfl⟩
    · simp only
      split
      · exact ⟨rfl, _, rfl⟩
      · exact ⟨rfl, _, rfl⟩

theorem logNote_quiet {t : Trans} {c : Ctx} {o : List Out} (h : logNote t c = .ok o) : Quiet o := by
  unfold logNote at h
  split at h
  · cases h; rfl
  · split at h
    · cases h; rfl
    · unfold logWrite at h
      split at h
      · cases h; rfl
      · cases h

theorem logNote_congr {t t' : Trans} {c : Ctx} (h : t.hasLog = t'.hasLog) : logNote t c = logNote t' c := by
  unfold logNote logWrite; rw [h]

/-- The reply to a refused command. -/
def refusal (ph : Phase) (t : Trans) (msg id : Str) (ref : Bool) (res : Action) : List Out :=
  if ph = .connect ∨ ref = false then []
  else [.reply (if res = .reject then rejectReply ph t msg id else if msg ≠ [] then .tempfailMsg msg else .tempfail)]

/-- What a decision did: the rules' answer, the new context, the effects. -/
structure DecR (E : Env) (ph : Phase) (evt : Evt) (id : Str) (s : Sess) (ref : Bool) (s' : Sess) (o : List Out)
    (res : Action) (c1 : Ctx) : Prop where
  dec : Decide E.W s.trans.r ph evt s.c = .ok (res, c1)
  ctx : ∃ d tr, s'.c = { c1 with dnsblhit := d, trace := tr }
  trans : ∃ m a, s'.trans = { s.trans with
    lastmsg := m, lastamsg := a, lastresgood := decide (res = .noresult ∨ res = .accept),
    savedir := if c1.withprops.savedir.getD [] ≠ [] then c1.withprops.savedir.getD [] else s.trans.savedir }
  sess : s' = { s with c := s'.c, trans := s'.trans, tlsCfg := tlsOpt c1 s.tlsCfg }
  ref_iff : ref = (if ph = .connect then decide (res = .reject) else decide (¬ (res = .noresult ∨ res = .accept)))
  rep : if ph = .connect ∨ ref = false then Quiet o else
    replies o = [if res = .reject then .rejected else .deferred]
  valid : res ≠ .error
  mild : Mild o
  said : ∃ t1 o1 o3, logDnsbls E.W s.trans c1 = .ok (t1, s'.c, o1) ∧ logNote s.trans s'.c = .ok o3 ∧
    o = o1 ++ (logDomerr t1 s'.c).2 ++ o3 ++ refusal ph s'.trans (c1.withprops.message.getD []) id ref res ∧
    s'.trans.lastmsg = t1.lastmsg ∧ s'.trans.lastamsg = (logDomerr t1 s'.c).1.lastamsg

theorem decider_ok {E : Env} {ph : Phase} {evt : Evt} {id : Str} {s s' : Sess} {ref : Bool} {o : List Out}
    (h : decider E ph evt id s = .ok (ref, s', o)) (hv : ∀ res c1, Decide E.W s.trans.r ph evt s.c = .ok (res, c1) → res ≠ .error) :
    ∃ res c1, DecR E ph evt id s ref s' o res c1 := by
  unfold decider at h
  cases hd : Decide E.W s.trans.r ph evt s.c with
  | error p => rw [hd] at h; cases h
  | ok r =>
    obtain ⟨res, c1⟩ := r
    rw [hd] at h
    simp only [bind, Except.bind, pure, Except.pure] at h
    cases hl : logDnsbls E.W s.trans c1 with
    | error p => rw [hl] at h; cases h
    | ok r =>
      obtain ⟨t1, c2, o1⟩ := r
      rw [hl] at h
      simp only at h
      obtain ⟨q1, ⟨m, ht1⟩, d, tr, hc2⟩ := logDnsbls_frame hl
      obtain ⟨q2, a, ht2⟩ := logDomerr_frame t1 c2
      have m1 := logDnsbls_mild hl
      have m2 := logDomerr_mild t1 c2
      have hw : c2.withprops = c1.withprops := by rw [hc2]
      have htl : tlsOpt c2 s.tlsCfg = tlsOpt c1 s.tlsCfg := by unfold tlsOpt; rw [hw]
      generalize hx : logDomerr t1 c2 = x at h q2 ht2 m2
      obtain ⟨t2, o2⟩ := x
      simp only at h q2 ht2 m2
      rw [hw, htl] at h
      generalize hsd : c1.withprops.savedir.getD [] = sd at h
      cases hn : logNote (if sd ≠ [] then { t2 with savedir := sd } else t2) c2 with
      | error p => simp only [hn] at h; cases h
      | ok o3 =>
        simp only [hn] at h
        have q3 := logNote_quiet hn
        have m3 : Mild (o1 ++ o2 ++ o3) := (m1.append m2).append (logNote_mild hn)
        have q : Quiet (o1 ++ o2 ++ o3) := by
          unfold Quiet at q1 q2 q3 ⊢
          rw [replies_append, replies_append, q1, q2, q3]; rfl
        refine ⟨res, c1, ?_⟩
        have hres := hv res c1 hd
        have htr : (if sd ≠ [] then { t2 with savedir := sd } else t2) =
            { s.trans with lastmsg := m, lastamsg := a, savedir := if sd ≠ [] then sd else s.trans.savedir } := by
          rw [ht2, ht1]; split <;> rfl
        have hn' : logNote s.trans c2 = .ok o3 := by
          rw [← hn, htr]; exact logNote_congr rfl
        have hlm : t1.lastmsg = m := by rw [ht1]
        have hla : t2.lastamsg = a := by rw [ht2]
        rw [htr] at h
        split at h
        · rename_i hr
          cases h
          refine ⟨hd, ⟨d, tr, hc2⟩, ⟨m, a, ?_⟩, rfl, ?_, ?_, hres, m3,
            t1, o1, o3, hl, hn', by simp only [hx]; simp [refusal], hlm.symm, by simp only [hx]; exact hla.symm⟩
          · simp [hr, hsd]
          · have : res ≠ .reject := by rcases hr with rfl | rfl <;> decide
            simp [hr, this]
          · simpa using q
        · rename_i hr
          split at h
          · rename_i hph
            cases h
            refine ⟨hd, ⟨d, tr, hc2⟩, ⟨m, a, ?_⟩, rfl, ?_, ?_, hres, m3,
              t1, o1, o3, hl, hn', by simp only [hx]; simp [refusal, hph], hlm.symm, by simp only [hx]; exact hla.symm⟩
            · simp [hr, hsd]
            · simp [hph]
            · simpa [hph] using q
          · rename_i hph
            have hrep : ∀ r : Reply, replies (o1 ++ o2 ++ o3 ++ [.reply r]) = [verdict r] := by
              intro r
              rw [replies_append, q]; rfl
            cases res with
            | error => exact absurd rfl hres
            | noresult => exact absurd (Or.inl rfl) hr
            | accept => exact absurd (Or.inr rfl) hr
            | reject =>
              cases h
              refine ⟨hd, ⟨d, tr, hc2⟩, ⟨m, a, ?_⟩, rfl, ?_, ?_, hres, m3.append (.cons rfl .nil),
                t1, o1, o3, hl, hn', by simp only [hx]; simp [refusal, hph], hlm.symm, by simp only [hx]; exact hla.symm⟩
              · simp [hsd]
              · simp [hph]
              · simp only [hph, false_or, Bool.true_eq_false, if_false]
                rw [hrep]
                unfold rejectReply
                split
                · rfl
                · split
                  · rfl
                  · split
                    · rfl
                    · split <;> rfl
            | stall =>
              cases h
              refine ⟨hd, ⟨d, tr, hc2⟩, ⟨m, a, ?_⟩, rfl, ?_, ?_, hres, m3.append (.cons rfl .nil),
                t1, o1, o3, hl, hn', by simp only [hx]; simp [refusal, hph], hlm.symm, by simp only [hx]; exact hla.symm⟩
              · simp [hsd]
              · simp [hph]
              · simp only [hph, false_or, Bool.true_eq_false, if_false]
                rw [hrep]
                split <;> rfl


theorem ruleLoop_valid {W : World} {tr : TransR} {ph : Phase} : ∀ {rs : List Rule} {c c' : Ctx} {a : Action},
    ruleLoop W tr ph rs c = .ok (a, c') → a = .noresult ∨ a ≥ .accept := by
  intro rs
  induction rs with
  | nil => intro c c' a h; cases h; exact .inl rfl
  | cons r rs ih =>
    intro c c' a h
    rw [ruleLoop] at h
    split at h
    · exact ih h
    · cases hr : runRule W tr ph r c with
      | error p => rw [hr] at h; cases h
      | ok x =>
        rw [hr] at h
        simp only [bind, Except.bind, pure, Except.pure] at h
        split at h
        · exact ih h
        · split at h
          · rename_i hx; cases h; exact .inr hx.2
          · exact ih h

theorem action_ne_error {a : Action} (h : a ≥ .accept) : a ≠ .error := by rintro rfl; exact absurd h (by decide)

theorem decide_valid {W : World} {tr : TransR} {ph : Phase} {e : Evt} {c c' : Ctx} {a : Action}
    (h : Decide W tr ph e c = .ok (a, c')) : a ≠ .error := by
  cases decide_end h with
  | pending hp => exact action_ne_error hp
  | plain _ hl _ =>
    rcases ruleLoop_valid hl with h | h
    · rw [h]; decide
    · exact action_ne_error h
  | defer => decide

theorem decider_did {E : Env} {ph : Phase} {evt : Evt} {id : Str} {s s' : Sess} {ref : Bool} {o : List Out}
    (h : decider E ph evt id s = .ok (ref, s', o)) : ∃ res c1, DecR E ph evt id s ref s' o res c1 :=
  decider_ok h fun _ _ hd => decide_valid hd

/-- The session in which the connect decision is made. -/
def Sess.withRdns (E : Env) (s : Sess) : Sess :=
  { s with trans := { s.trans with rdns := (lookupAddrVerified E.W s.trans.rip s.c.trace).1 },
           c := { s.c with trace := (lookupAddrVerified E.W s.trans.rip s.c.trace).2 } }

/-- An abandoned transaction is counted at this MAIL FROM. -/
def Sess.counts (s : Sess) : Prop := s.trans.from_ ≠ [] ∧ s.gotsomewhere = false ∧ s.sesscounts = true

instance (s : Sess) : Decidable s.counts := by unfold Sess.counts; infer_instance

/-- The session after an accepted EHLO. -/
def Sess.helod (cf : Conf) (arg : Str) (tls : TlsState) (s : Sess) : Sess :=
  { s with gotsomewhere := s.gotsomewhere || decide (cf.minphase = b!"helo"),
           trans := { s.trans with heloname := arg, from_ := [], data := [], hash := [], bodyhash := [], rcptto := [],
                                   tlson := s.trans.tlson || tls.on } }

/-- The session after an accepted MAIL FROM. -/
def Sess.mailed (cf : Conf) (arg : Str) (s : Sess) : Sess :=
  { s with trans := { s.trans with from_ := arg, data := [], rcptto := [] },
           gotsomewhere := s.gotsomewhere || decide (cf.minphase = b!"from") }

/-- The session after an accepted RCPT TO. -/
def Sess.rcpted (cf : Conf) (arg : Str) (s : Sess) : Sess :=
  { s with trans := { s.trans with rcptto := s.trans.rcptto ++ [arg] },
           gotsomewhere := s.gotsomewhere || decide (cf.minphase = b!"to") }

/-- The session when a message has arrived. -/
def Sess.got (cf : Conf) (E : Env) (arg : Str) (i : Inp) (s : Sess) : Sess :=
  { s with gotsomewhere := s.gotsomewhere || decide (cf.minphase = b!"message"), trans := gotTrans E.H arg i s.trans }

/-- The session at another place. -/
def Sess.goto (s : Sess) (p : Pc) : Sess := { s with pc := p }

theorem connectStep_eq (E : Env) (s : Sess) (sh : Shared) (i : Inp) : connectStep E s sh i =
    (decider E .connect {} [] (s.withRdns E)).bind fun x =>
      if x.1 then .ok (x.2.1.goto .closed, sh, x.2.2 ++ (if x.2.1.stall then [] else
        writeLog x.2.1.trans (b!"! " ++ x.2.1.trans.rip ++ b!" dropped on connect due to rule at " ++ i.nowText ++ b!"\n")))
      else .ok (x.2.1.goto .ready, sh, x.2.2) := rfl

/-- All the ways a step can go. -/
inductive Did (cf : Conf) (E : Env) (s : Sess) (sh : Shared) (i : Inp) : Sess → Shared → List Out → Prop
  | tls {s' sh' o} : s.pc = .tls → tlsStep s sh i = .ok (s', sh', o) → Quiet o → Mild o → Did cf E s sh i s' sh' o
  | drop {s1 o o' res c1} : s.pc = .connect → DecR E .connect {} [] (s.withRdns E) true s1 o res c1 → Quiet o' → Mild o' →
      o' = (if s1.stall then [] else
        writeLog s1.trans (b!"! " ++ s1.trans.rip ++ b!" dropped on connect due to rule at " ++ i.nowText ++ b!"\n")) →
      Did cf E s sh i { s1 with pc := .closed } sh (o ++ o')
  | connect {s1 o res c1} : s.pc = .connect → DecR E .connect {} [] (s.withRdns E) false s1 o res c1 →
      Did cf E s sh i { s1 with pc := .ready } sh o
  | heloRef {h arg s1 o res c1} : s.pc = .ready → i.ev = .helo h arg → DecR E .helo ⟨h, arg⟩ [] s true s1 o res c1 →
      Did cf E s sh i s1 sh (.count .ehlo :: o)
  | heloAcc {h arg s1 o o' res c1} : s.pc = .ready → i.ev = .helo h arg → DecR E .helo ⟨h, arg⟩ [] s false s1 o res c1 → Quiet o' → Mild o' →
      o' = .count .ehloAccept :: (if i.tls.on ∧ s1.trans.tlson = false then
        [.count .tlson, .count .starttls] ++ tlsClientLog (s1.helod cf arg i.tls).trans i.tls else []) →
      Did cf E s sh i (s1.helod cf arg i.tls) sh (.count .ehlo :: o ++ o')
  | mailRef {arg s1 o res c1} : s.pc = .ready → i.ev = .mailfrom arg → DecR E .mfrom ⟨false, arg⟩ [] s true s1 o res c1 →
      Did cf E s sh i s1 sh (.count .mailfrom :: o)
  | mailAcc {arg s1 o o' res c1} : s.pc = .ready → i.ev = .mailfrom arg → DecR E .mfrom ⟨false, arg⟩ [] s false s1 o res c1 →
      ¬ s1.counts → o' = [.reply (doAccept s1.c []), .count .mailfromAccept] →
      Did cf E s sh i (s1.mailed cf arg) sh (.count .mailfrom :: o ++ o')
  | mailCount {arg s1 o o' res c1} : s.pc = .ready → i.ev = .mailfrom arg → DecR E .mfrom ⟨false, arg⟩ [] s false s1 o res c1 →
      s1.counts → (sh.yak.add s1.trans.rip cf.yakTimeout i.now).1 ≤ cf.yakCount →
      o' = [.count .rsets, .reply (doAccept s1.c []), .count .mailfromAccept] →
      Did cf E s sh i (s1.mailed cf arg) { sh with yak := (sh.yak.add s1.trans.rip cf.yakTimeout i.now).2 }
        (.count .mailfrom :: o ++ o')
  | mailDrop {arg s1 o o' res c1} : s.pc = .ready → i.ev = .mailfrom arg → DecR E .mfrom ⟨false, arg⟩ [] s false s1 o res c1 →
      s1.counts → (sh.yak.add s1.trans.rip cf.yakTimeout i.now).1 > cf.yakCount →
      o' = [.count .rsets, .count .yakads, .count .rsetdrops] ++
        writeLog s1.trans (b!"! " ++ s1.trans.rip ++ b!" added as a yakker at hit " ++
          decInt (sh.yak.add s1.trans.rip cf.yakTimeout i.now).1 ++ b!" due to RSET\n") ++
        [.reply (.tempfailMsg b!"Too many unsuccessful delivery attempts")] →
      Did cf E s sh i { s1 with pc := .closed } { sh with yak := (sh.yak.add s1.trans.rip cf.yakTimeout i.now).2 }
        (.count .mailfrom :: o ++ o')
  | rcptRef {arg s1 o res c1} : s.pc = .ready → i.ev = .rcptto arg → DecR E .rto ⟨false, arg⟩ [] s true s1 o res c1 →
      Did cf E s sh i s1 sh (.count .rcptto :: o)
  | rcptAcc {arg s1 o o' res c1} : s.pc = .ready → i.ev = .rcptto arg → DecR E .rto ⟨false, arg⟩ [] s false s1 o res c1 →
      o' = [.reply (doAccept s1.c []), .count .rcpttoAccept] →
      Did cf E s sh i (s1.rcpted cf arg) sh (.count .rcptto :: o ++ o')
  | dataRef {s1 o res c1} : s.pc = .ready → i.ev = .data → DecR E .data {} [] s true s1 o res c1 →
      Did cf E s sh i s1 sh (.count .data :: o)
  | dataAcc {s1 o o' res c1} : s.pc = .ready → i.ev = .data → DecR E .data {} [] s false s1 o res c1 →
      o' = [.reply (doAccept s1.c []), .count .dataAccept] →
      Did cf E s sh i { s1 with gotsomewhere := s1.gotsomewhere || decide (cf.minphase = b!"data") } sh (.count .data :: o ++ o')
  | gotKeep {arg o} : s.pc = .ready → i.ev = .gotdata arg → s.trans.savedir = [] →
      o = .count .messages :: (if cf.logf then [.msglog (logLine E.prefix_ (gotTrans E.H arg i s.trans))] else []) →
      Did cf E s sh i { s.got cf E arg i with pc := .decide (gotTrans E.H arg i s.trans).hash false } sh o
  | gotSave {arg o n} : s.pc = .ready → i.ev = .gotdata arg → s.trans.savedir ≠ [] →
      saveName E.H cf.hashtype E.prefix_ (gotTrans E.H arg i s.trans) = some n →
      o = .count .messages :: (if cf.logf then [.msglog (logLine E.prefix_ (gotTrans E.H arg i s.trans))] else []) →
      Did cf E s sh i ((s.got cf E arg i).goto (.save .open_ (s.trans.savedir ++ b!"/" ++ n)
        (msgDetails E.H E.prefix_ (gotTrans E.H arg i s.trans)).1 n)) sh o
  | tlserror : s.pc = .ready → i.ev = .tlserror →
      Did cf E s sh i { s with sesscounts := false } { sh with notls := (sh.notls.add s.trans.rip tlsTimeout i.now).2 }
        [.count .tlserrs, .count .starttls]
  | finish {x} : s.pc = .ready → (i.ev = .done ∧ x = .quits) ∨ (i.ev = .abort ∧ x = .aborts) → Quiet (endStep cf E s sh i).2.2 →
      Did cf E s sh i { s with pc := .closed } (endStep cf E s sh i).2.1 (.count x :: (endStep cf E s sh i).2.2)
  | other : s.pc = .ready → i.ev = .other → Did cf E s sh i s sh []
  | save {p tgt rec_ id p' sh' o} : s.pc = .save p tgt rec_ id → sstep cf E s sh i = .ok ({ s with pc := p' }, sh', o) → Quiet o →
      ((∃ q, p' = .save q tgt rec_ id) ∨ ∃ b, p' = .decide id b) → Mild o → Did cf E s sh i { s with pc := p' } sh' o
  | answerFail {id} : s.pc = .decide id true →
      Did cf E s sh i { s with pc := .ready, gotsomewhere := true } sh [.reply .tempfail]
  | answerRef {id s1 o res c1} : s.pc = .decide id false → DecR E .message { arg := s.trans.data } id s true s1 o res c1 →
      Did cf E s sh i { s1 with pc := .ready } sh o
  | answerAcc {id s1 o o' res c1} : s.pc = .decide id false → DecR E .message { arg := s.trans.data } id s false s1 o res c1 →
      o' = [.reply (doAccept s1.c id)] →
      Did cf E s sh i { s1 with pc := .ready, gotsomewhere := s1.gotsomewhere || decide (cf.minphase = b!"accepted") } sh (o ++ o')
  | closed : s.pc = .closed → Did cf E s sh i s sh []

theorem gotTrans_savedir (H : Hashes) (arg : Str) (i : Inp) (t : Trans) : (gotTrans H arg i t).savedir = t.savedir := by
  unfold gotTrans; simp only; split <;> rfl

theorem quiet_append {a b : List Out} (ha : Quiet a) (hb : Quiet b) : Quiet (a ++ b) := by
  unfold Quiet at *; rw [replies_append, ha, hb]; rfl

theorem endStep_quiet (cf : Conf) (E : Env) (s : Sess) (sh : Shared) (i : Inp) : Quiet (endStep cf E s sh i).2.2 := by
  unfold endStep
  simp only
  have hl : Quiet (if s.rulesgood = true ∧ (s.sesscounts = true ∨ cf.yakCount = 0) then
    [Out.count (if s.trans.lastresgood then .abandons else .refuseds)] else []) := by split <;> rfl
  split
  · refine quiet_append ?_ hl
    split
    · exact quiet_append (quiet_append (quiet_writeLog _ _) rfl) (quiet_yakLog _ _ _ _ _)
    · rfl
  · split
    · refine quiet_append ?_ hl
      split
      · exact quiet_append (quiet_append (quiet_writeLog _ _) rfl) (quiet_yakLog _ _ _ _ _)
      · rfl
    · split
      · exact hl
      · exact hl

theorem endStep_sess (cf : Conf) (E : Env) (s : Sess) (sh : Shared) (i : Inp) : (endStep cf E s sh i).1 = { s with pc := .closed } := by
  unfold endStep
  simp only
  split
  · rfl
  · split
    · rfl
    · split <;> rfl

theorem sstep_did {cf : Conf} {E : Env} {s s' : Sess} {sh sh' : Shared} {i : Inp} {o : List Out}
    (h : sstep cf E s sh i = .ok (s', sh', o)) : Did cf E s sh i s' sh' o := by
  cases hpc : s.pc with
  | tls =>
    simp only [sstep, hpc] at h
    have h' := h
    simp only [tlsStep, Except.ok.injEq, Prod.mk.injEq] at h'
    refine .tls hpc h ?_ ?_
    · rw [← h'.2.2]; split <;> rfl
    · rw [← h'.2.2]; split
      · exact .cons rfl .nil
      · exact .nil
  | connect =>
    simp only [sstep, hpc] at h
    rw [connectStep_eq] at h
    cases hd : decider E .connect {} [] (s.withRdns E) with
    | error p => rw [hd] at h; cases h
    | ok r =>
      obtain ⟨ref, s1, o1⟩ := r
      rw [hd] at h
      simp only [Except.bind] at h
      obtain ⟨res, c1, hr⟩ := decider_did hd
      cases ref with
      | true =>
        simp only [if_true, Except.ok.injEq, Prod.mk.injEq] at h
        obtain ⟨rfl, rfl, rfl⟩ := h
        refine .drop hpc hr ?_ ?_ rfl
        · split
          · rfl
          · exact quiet_writeLog _ _
        · split
          · exact .nil
          · exact mild_writeLog _ _
      | false =>
        simp only [Bool.false_eq_true, if_false, Except.ok.injEq, Prod.mk.injEq] at h
        obtain ⟨rfl, rfl, rfl⟩ := h
        exact .connect hpc hr
  | ready =>
    simp only [sstep, hpc, eventStep] at h
    cases he : i.ev with
    | helo hh arg =>
      simp only [he, heloStep, bind, Except.bind, pure, Except.pure] at h
      cases hd : decider E .helo ⟨hh, arg⟩ [] s with
      | error p => rw [hd] at h; cases h
      | ok r =>
        obtain ⟨ref, s1, o1⟩ := r
        rw [hd] at h
        obtain ⟨res, c1, hr⟩ := decider_did hd
        cases ref with
        | true =>
          simp only [if_true, Except.ok.injEq, Prod.mk.injEq] at h
          obtain ⟨rfl, rfl, rfl⟩ := h
          exact .heloRef hpc he hr
        | false =>
          simp only [Bool.false_eq_true, if_false] at h
          split at h
          · rename_i ht
            simp only [Except.ok.injEq, Prod.mk.injEq] at h
            obtain ⟨rfl, rfl, rfl⟩ := h
            have := Did.heloAcc (cf := cf) (sh := sh) (o' := [.count .ehloAccept] ++ [.count .tlson, .count .starttls] ++
              tlsClientLog (s1.helod cf arg i.tls).trans i.tls) hpc he hr (quiet_append rfl (quiet_tlsClientLog _ _))
              (.append (.cons rfl (.cons rfl (.cons rfl .nil))) (mild_tlsClientLog _ _)) (by rw [if_pos ht]; rfl)
            simp only [Sess.helod, ht.2, ht.1, Bool.false_or, List.append_assoc] at this ⊢
            simpa using this
          · rename_i ht
            simp only [Except.ok.injEq, Prod.mk.injEq] at h
            obtain ⟨rfl, rfl, rfl⟩ := h
            have := Did.heloAcc (cf := cf) (sh := sh) (o' := [.count .ehloAccept]) hpc he hr rfl (.cons rfl .nil)
              (by rw [if_neg ht])
            have e : (s1.trans.tlson || i.tls.on) = s1.trans.tlson := by
              cases h1 : s1.trans.tlson <;> cases h2 : i.tls.on <;> simp_all
            simpa [Sess.helod, e] using this
    | mailfrom arg =>
      simp only [he, mailStep, bind, Except.bind, pure, Except.pure] at h
      cases hd : decider E .mfrom ⟨false, arg⟩ [] s with
      | error p => rw [hd] at h; cases h
      | ok r =>
        obtain ⟨ref, s1, o1⟩ := r
        rw [hd] at h
        obtain ⟨res, c1, hr⟩ := decider_did hd
        cases ref with
        | true =>
          simp only [if_true, Except.ok.injEq, Prod.mk.injEq] at h
          obtain ⟨rfl, rfl, rfl⟩ := h
          exact .mailRef hpc he hr
        | false =>
          simp only [Bool.false_eq_true, if_false] at h
          split at h
          · rename_i hc
            split at h
            · rename_i hy
              simp only [Except.ok.injEq, Prod.mk.injEq] at h
              obtain ⟨rfl, rfl, rfl⟩ := h
              have := Did.mailDrop (cf := cf) (sh := sh) hpc he hr hc hy rfl
              simpa using this
            · rename_i hy
              simp only [mailDone, Except.ok.injEq, Prod.mk.injEq] at h
              obtain ⟨rfl, rfl, rfl⟩ := h
              have := Did.mailCount (cf := cf) (sh := sh) hpc he hr hc (by omega) rfl
              simpa [Sess.mailed] using this
          · rename_i hc
            simp only [mailDone, Except.ok.injEq, Prod.mk.injEq] at h
            obtain ⟨rfl, rfl, rfl⟩ := h
            exact .mailAcc hpc he hr hc rfl
    | rcptto arg =>
      simp only [he, rcptStep, bind, Except.bind, pure, Except.pure] at h
      cases hd : decider E .rto ⟨false, arg⟩ [] s with
      | error p => rw [hd] at h; cases h
      | ok r =>
        obtain ⟨ref, s1, o1⟩ := r
        rw [hd] at h
        obtain ⟨res, c1, hr⟩ := decider_did hd
        cases ref with
        | true =>
          simp only [if_true, Except.ok.injEq, Prod.mk.injEq] at h
          obtain ⟨rfl, rfl, rfl⟩ := h
          exact .rcptRef hpc he hr
        | false =>
          simp only [Bool.false_eq_true, if_false, Except.ok.injEq, Prod.mk.injEq] at h
          obtain ⟨rfl, rfl, rfl⟩ := h
          exact .rcptAcc hpc he hr rfl
    | data =>
      simp only [he, dataStep, bind, Except.bind, pure, Except.pure] at h
      cases hd : decider E .data {} [] s with
      | error p => rw [hd] at h; cases h
      | ok r =>
        obtain ⟨ref, s1, o1⟩ := r
        rw [hd] at h
        obtain ⟨res, c1, hr⟩ := decider_did hd
        cases ref with
        | true =>
          simp only [if_true, Except.ok.injEq, Prod.mk.injEq] at h
          obtain ⟨rfl, rfl, rfl⟩ := h
          exact .dataRef hpc he hr
        | false =>
          simp only [Bool.false_eq_true, if_false, Except.ok.injEq, Prod.mk.injEq] at h
          obtain ⟨rfl, rfl, rfl⟩ := h
          exact .dataAcc hpc he hr rfl
    | gotdata arg =>
      simp only [he, gotStep, gotTrans_savedir] at h
      split at h
      · rename_i hsd
        simp only [Except.ok.injEq, Prod.mk.injEq] at h
        obtain ⟨rfl, rfl, rfl⟩ := h
        exact .gotKeep hpc he hsd rfl
      · rename_i hsd
        split at h
        · cases h
        · rename_i n hn
          simp only [Except.ok.injEq, Prod.mk.injEq] at h
          obtain ⟨rfl, rfl, rfl⟩ := h
          exact .gotSave hpc he hsd hn rfl
    | tlserror =>
      simp only [he, Except.ok.injEq, Prod.mk.injEq] at h
      obtain ⟨rfl, rfl, rfl⟩ := h
      have := Did.tlserror (cf := cf) (E := E) (sh := sh) hpc he
      rwa [hpc] at this
    | done =>
      simp only [he, Except.ok.injEq, Prod.mk.injEq] at h
      obtain ⟨rfl, rfl, rfl⟩ := h
      rw [endStep_sess]
      exact .finish hpc (.inl ⟨he, rfl⟩) (endStep_quiet _ _ _ _ _)
    | abort =>
      simp only [he, Except.ok.injEq, Prod.mk.injEq] at h
      obtain ⟨rfl, rfl, rfl⟩ := h
      rw [endStep_sess]
      exact .finish hpc (.inr ⟨he, rfl⟩) (endStep_quiet _ _ _ _ _)
    | other =>
      simp only [he, Except.ok.injEq, Prod.mk.injEq] at h
      obtain ⟨rfl, rfl, rfl⟩ := h
      exact .other hpc he
  | save p tgt rec_ id =>
    have h0 := h
    cases p with
    | open_ =>
      simp only [sstep, hpc, openStep] at h
      split at h <;>
      · simp only [Except.ok.injEq, Prod.mk.injEq] at h
        obtain ⟨rfl, rfl, rfl⟩ := h
        exact .save hpc h0 rfl (by simp) (by first | exact .nil | exact .cons rfl .nil)
    | write =>
      simp only [sstep, hpc, writeStep] at h
      split at h <;>
      · simp only [Except.ok.injEq, Prod.mk.injEq] at h
        obtain ⟨rfl, rfl, rfl⟩ := h
        exact .save hpc h0 rfl (by simp) (by first | exact .nil | exact .cons rfl .nil)
    | sync =>
      simp only [sstep, hpc, syncStep] at h
      split at h <;>
      · simp only [Except.ok.injEq, Prod.mk.injEq] at h
        obtain ⟨rfl, rfl, rfl⟩ := h
        exact .save hpc h0 rfl (by simp) (by first | exact .nil | exact .cons rfl .nil)
    | close =>
      simp only [sstep, hpc, closeStep] at h
      split at h <;>
      · simp only [Except.ok.injEq, Prod.mk.injEq] at h
        obtain ⟨rfl, rfl, rfl⟩ := h
        exact .save hpc h0 rfl (by simp) (by first | exact .nil | exact .cons rfl .nil)
  | decide id failed =>
    simp only [sstep, hpc, answerStep] at h
    cases failed with
    | true =>
      simp only [if_true, Except.ok.injEq, Prod.mk.injEq] at h
      obtain ⟨rfl, rfl, rfl⟩ := h
      exact .answerFail hpc
    | false =>
      simp only [Bool.false_eq_true, if_false, bind, Except.bind, pure, Except.pure] at h
      cases hd : decider E .message { arg := s.trans.data } id s with
      | error p => rw [hd] at h; cases h
      | ok r =>
        obtain ⟨ref, s1, o1⟩ := r
        rw [hd] at h
        obtain ⟨res, c1, hr⟩ := decider_did hd
        cases ref with
        | true =>
          simp only [if_true, Except.ok.injEq, Prod.mk.injEq] at h
          obtain ⟨rfl, rfl, rfl⟩ := h
          exact .answerRef hpc hr
        | false =>
          simp only [Bool.false_eq_true, if_false, Except.ok.injEq, Prod.mk.injEq] at h
          obtain ⟨rfl, rfl, rfl⟩ := h
          exact .answerAcc hpc hr rfl
  | closed =>
    simp only [sstep, hpc, Except.ok.injEq, Prod.mk.injEq] at h
    obtain ⟨rfl, rfl, rfl⟩ := h
    exact .closed hpc

end Sink
