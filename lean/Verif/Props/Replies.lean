import Verif.Lemmas.SessionInv
import Verif.Spec.DemoSession

/-!
# C63: every command is answered exactly once.  C64: the answer is the decision of the rules
-/

namespace Sink
namespace Spec

/-- The replies themselves. -/
def sent : List Out → List Reply
  | [] => []
  | .reply r :: o => r :: sent o
  | _ :: o => sent o

/-- A message has been received and not answered yet. -/
def Owing : Pc → Bool
  | .save .. | .decide .. => true
  | _ => false

/-- What the client sent in this step asks for an answer: MAIL FROM, RCPT TO, DATA and the message itself (its answer may come in a
later step).  EHLO and HELO are not here: the library answers them unless they are refused. -/
def Step.asks (st : Step) : Bool :=
  match st.event with
  | some (.mailfrom _) | some (.rcptto _) | some .data | some (.gotdata _) => true
  | _ => false

/-- An EHLO or HELO that is refused in this step. -/
def Step.heloRefused (st : Step) : Bool :=
  match st.event with
  | some (.helo _ _) => !st.accepted
  | _ => false

/-- How far the answer to a message is away. -/
def distance : Pc → Nat
  | .save .open_ .. => 5
  | .save .write .. => 4
  | .save .sync .. => 3
  | .save .close .. => 2
  | .decide .. => 1
  | _ => 0

/-- The rules are asked in this step, for a command or a message: phase, what is asked about, and the ID to be shown. -/
def Step.asked (st : Step) : Option (Phase × Evt × Str) :=
  match st.pre.pc with
  | .ready => match st.i.ev with
    | .helo h a => some (.helo, ⟨h, a⟩, [])
    | .mailfrom a => some (.mfrom, ⟨false, a⟩, [])
    | .rcptto a => some (.rto, ⟨false, a⟩, [])
    | .data => some (.data, {}, [])
    | _ => none
  | .decide id false => some (.message, { arg := st.pre.trans.data }, id)
  | _ => none

/-- The session is ended because of too many RSETs. -/
def Step.rsetDrop (st : Step) : Prop :=
  (∃ a, st.event = some (.mailfrom a)) ∧ st.post.pc = .closed ∧
    sent st.out = [.tempfailMsg b!"Too many unsuccessful delivery attempts"]

/-- A text with an ID, if there is one. -/
def withId (msg how id : Str) : Str := if id = [] then msg else msg ++ b!"\n" ++ how ++ b!" with ID " ++ id

end Spec
open Spec

theorem sent_append (a b : List Out) : sent (a ++ b) = sent a ++ sent b := by
  induction a with
  | nil => rfl
  | cons x a ih => cases x <;> simp [sent, ih]

theorem replies_answers (o : List Out) : replies o = (sent o).map verdict := by
  induction o with
  | nil => rfl
  | cons x o ih => cases x <;> simp [replies, sent, ih]

theorem sent_nil {o : List Out} : sent o = [] ↔ replies o = [] := by rw [replies_answers]; simp

theorem sent_length (o : List Out) : (sent o).length = (replies o).length := by rw [replies_answers]; simp

theorem DecR.one {E : Env} {ph : Phase} {evt : Evt} {id : Str} {s s' : Sess} {o : List Out} {res : Action} {c1 : Ctx}
    (h : DecR E ph evt id s true s' o res c1) (hp : ph ≠ .connect) : (replies o).length = 1 := by
  have := h.rep
  simp only [hp, false_or, Bool.true_eq_false, if_false] at this
  rw [this]; rfl

theorem DecR.none {E : Env} {ph : Phase} {evt : Evt} {id : Str} {s s' : Sess} {ref : Bool} {o : List Out} {res : Action} {c1 : Ctx}
    (h : DecR E ph evt id s ref s' o res c1) (hp : ph = .connect ∨ ref = false) : replies o = [] := by
  have := h.rep
  rwa [if_pos hp] at this

@[simp] theorem helod_pc (cf : Conf) (a : Str) (t : TlsState) (s : Sess) : (s.helod cf a t).pc = s.pc := rfl
@[simp] theorem mailed_pc (cf : Conf) (a : Str) (s : Sess) : (s.mailed cf a).pc = s.pc := rfl
@[simp] theorem rcpted_pc (cf : Conf) (a : Str) (s : Sess) : (s.rcpted cf a).pc = s.pc := rfl

/-- In every step: the replies, and the answers owed before and after. -/
theorem Did.balance {cf : Conf} {E : Env} {s s' : Sess} {sh sh' : Shared} {i : Inp} {o : List Out} (h : Did cf E s sh i s' sh' o) :
    (sent o).length + (Owing s'.pc).toNat =
      (Owing s.pc).toNat + (Step.asks ⟨s, i, sh, s', sh', o⟩).toNat + (Step.heloRefused ⟨s, i, sh, s', sh', o⟩).toNat := by
  have hpc : ∀ {ph evt id ref s1 o res c1}, DecR E ph evt id s ref s1 o res c1 → s1.pc = s.pc := fun hd => by rw [hd.sess]
  rw [sent_length]
  cases h with
  | tls hp ht hq =>
    have : s'.pc = .connect := by
      simp only [tlsStep, Except.ok.injEq, Prod.mk.injEq] at ht
      rw [← ht.1]
    rw [hq, this, hp]
    simp [Step.asks, Step.heloRefused, Step.event, hp, Owing]
  | drop hp hd hq =>
    have := hd.none (.inl rfl)
    rw [replies_append, this, hq]
    simp [Step.asks, Step.heloRefused, Step.event, hp, Owing]
  | connect hp hd =>
    rw [hd.none (.inl rfl)]
    simp [Step.asks, Step.heloRefused, Step.event, hp, Owing]
  | heloRef hp he hd =>
    have h1 := hd.one (by decide)
    simp only [Step.asks, Step.heloRefused, Step.event, Step.accepted, hp, if_true, he, hpc hd, replies]
    have h2 : replies _ ≠ [] := fun h => by rw [h] at h1; cases h1
    simp [h1, h2, Owing]
  | heloAcc hp he hd hq =>
    have h1 := hd.none (.inr rfl)
    have h2 : replies (.count .ehlo :: _ ++ _) = [] := (replies_append _ _).trans (by rw [hq]; simpa [replies] using h1)
    have h3 := hpc hd
    simp only [Step.asks, Step.heloRefused, Step.event, Step.accepted, hp, if_true, he, decide_eq_true h2, helod_pc, h3, h2]
    rfl
  | mailRef hp he hd =>
    have h1 := hd.one (by decide)
    simp only [Step.asks, Step.heloRefused, Step.event, hp, if_true, he, hpc hd]
    simpa [replies, Owing] using h1
  | mailAcc hp he hd _ ho =>
    have h1 := hd.none (.inr rfl)
    have h3 := hpc hd
    simp only [Step.asks, Step.heloRefused, Step.event, hp, if_true, he, helod_pc, mailed_pc, rcpted_pc, h3, ho, replies_append]
    simp [replies, h1, Owing]
  | mailCount hp he hd _ _ ho =>
    have h1 := hd.none (.inr rfl)
    have h3 := hpc hd
    simp only [Step.asks, Step.heloRefused, Step.event, hp, if_true, he, helod_pc, mailed_pc, rcpted_pc, h3, ho, replies_append]
    simp [replies, h1, Owing]
  | mailDrop hp he hd _ _ ho =>
    have h1 := hd.none (.inr rfl)
    simp only [Step.asks, Step.heloRefused, Step.event, hp, if_true, he, ho, replies_append, quiet_writeLog]
    simp [replies, h1, Owing]
  | rcptRef hp he hd =>
    have h1 := hd.one (by decide)
    simp only [Step.asks, Step.heloRefused, Step.event, hp, if_true, he, hpc hd]
    simpa [replies, Owing] using h1
  | rcptAcc hp he hd ho =>
    have h1 := hd.none (.inr rfl)
    have h3 := hpc hd
    simp only [Step.asks, Step.heloRefused, Step.event, hp, if_true, he, helod_pc, mailed_pc, rcpted_pc, h3, ho, replies_append]
    simp [replies, h1, Owing]
  | dataRef hp he hd =>
    have h1 := hd.one (by decide)
    simp only [Step.asks, Step.heloRefused, Step.event, hp, if_true, he, hpc hd]
    simpa [replies, Owing] using h1
  | dataAcc hp he hd ho =>
    have h1 := hd.none (.inr rfl)
    simp only [Step.asks, Step.heloRefused, Step.event, hp, if_true, he, hpc hd, ho, replies_append]
    simp [replies, h1, Owing]
  | gotKeep hp he _ ho =>
    simp only [Step.asks, Step.heloRefused, Step.event, hp, if_true, he, ho]
    split <;> simp [replies, Owing]
  | gotSave hp he _ _ ho =>
    simp only [Step.asks, Step.heloRefused, Step.event, hp, if_true, he, ho, Sess.goto]
    split <;> simp [replies, Owing]
  | tlserror hp he => simp [Step.asks, Step.heloRefused, Step.event, hp, he, replies, Owing]
  | finish hp he hq =>
    rw [show ∀ x, replies (.count x :: (endStep cf E s sh i).2.2) = [] from fun _ => hq]
    rcases he with ⟨he, _⟩ | ⟨he, _⟩ <;> simp [Step.asks, Step.heloRefused, Step.event, hp, he, Owing]
  | other hp he => simp [Step.asks, Step.heloRefused, Step.event, hp, he, replies, Owing]
  | save hp _ hq hn =>
    rw [hq]
    rcases hn with ⟨q, rfl⟩ | ⟨b, rfl⟩ <;> simp [Step.asks, Step.heloRefused, Step.event, hp, Owing]
  | answerFail hp => simp [Step.asks, Step.heloRefused, Step.event, hp, replies, Owing]
  | answerRef hp hd =>
    have h1 := hd.one (by decide)
    simp only [Step.asks, Step.heloRefused, Step.event, hp]
    simpa [Owing] using h1
  | answerAcc hp hd ho =>
    have h1 := hd.none (.inr rfl)
    simp only [Step.asks, Step.heloRefused, Step.event, hp, ho, replies_append, h1]
    simp [replies, Owing]
  | closed hp => simp [Step.asks, Step.heloRefused, Step.event, hp, replies, Owing]

/-- After a step an answer is owed if a message just arrived, or if it was owed before and not given. -/
theorem Did.owing {cf : Conf} {E : Env} {s s' : Sess} {sh sh' : Shared} {i : Inp} {o : List Out} (h : Did cf E s sh i s' sh' o)
    (hs : Owing s.pc = false) : Owing s'.pc = true ↔ ∃ d, (Step.event ⟨s, i, sh, s', sh', o⟩) = some (.gotdata d) := by
  have hpc : ∀ {ph evt id ref s1 o res c1}, DecR E ph evt id s ref s1 o res c1 → s1.pc = s.pc := fun hd => by rw [hd.sess]
  cases h with
  | tls hp ht hq =>
    have : s'.pc = .connect := by
      simp only [tlsStep, Except.ok.injEq, Prod.mk.injEq] at ht
      rw [← ht.1]
    simp [Step.event, hp, this, Owing]
  | drop hp | connect hp | finish hp he | closed hp | mailDrop hp he =>
    first
    | simp [Step.event, hp, Owing]; done
    | (rcases he with ⟨he, _⟩ | ⟨he, _⟩ <;> simp [Step.event, hp, he, Owing]; done)
    | simp [Step.event, hp, he, Owing]
  | heloRef hp he hd | mailRef hp he hd | rcptRef hp he hd | dataRef hp he hd | heloAcc hp he hd | mailAcc hp he hd
  | mailCount hp he hd | rcptAcc hp he hd | dataAcc hp he hd =>
    simp [Step.event, hp, he, Owing, hpc hd]
  | gotKeep hp he => simp [Step.event, hp, he, Owing]
  | gotSave hp he => simp [Step.event, hp, he, Owing, Sess.goto]
  | tlserror hp he => simp [Step.event, hp, he, Owing]
  | other hp he => simp [Step.event, hp, he, Owing]
  | save hp => simp [hp, Owing] at hs
  | answerFail hp | answerRef hp | answerAcc hp => simp [hp, Owing] at hs

/-- **C63.** In one step: MAIL FROM, RCPT TO and DATA are answered at once and exactly once; a message is not answered when it arrives but
exactly once later; a refused EHLO gets one answer; nothing else is answered. -/
theorem C63_step {cf : Conf} {E : Env} {st : Step} (h : st.Ok cf E) :
    (sent st.out).length =
      if Owing st.pre.pc then (if Owing st.post.pc then 0 else 1)
      else match st.event with
        | some (.mailfrom _) | some (.rcptto _) | some .data => 1
        | some (.helo _ _) => if st.accepted then 0 else 1
        | _ => 0 := by
  obtain ⟨pre, i, sh, post, sh', out⟩ := st
  have hd := sstep_did h
  have hb := hd.balance
  have ho := hd.owing
  cases hp : pre.pc with
  | save | decide =>
    simp only [hp, show Owing (.save _ _ _ _) = true from rfl, show Owing (.decide _ _) = true from rfl, Step.asks, Step.heloRefused, Step.event, reduceCtorEq, if_false, if_true, Bool.toNat_false, Bool.toNat_true] at hb ⊢
    cases hw : Owing post.pc <;> simp [hw] at hb ⊢ <;> omega
  | tls | connect | closed =>
    simp only [hp, show Owing .tls = false from rfl, show Owing .connect = false from rfl, show Owing .closed = false from rfl,
      Step.asks, Step.heloRefused, Step.event, reduceCtorEq, if_false, Bool.toNat_false, Bool.false_eq_true] at hb ⊢
    omega
  | ready =>
    have ho := ho (by simp only [hp]; rfl)
    simp only [hp, show Owing .ready = false from rfl, Step.asks, Step.heloRefused, Step.event, if_true, Bool.toNat_false, Bool.false_eq_true, if_false] at hb ho ⊢
    generalize Step.accepted _ = acc at hb ⊢
    cases he : i.ev <;> simp [he] at hb ho ⊢ <;> simp [ho] at hb ⊢ <;> try omega
    cases acc <;> simp_all

theorem run_balance {cf : Conf} {E : Env} {l : List Step} {s0 s : Sess} (h : Run cf E s0 l s) (h0 : Owing s0.pc = false) :
    (sent (l.flatMap (·.out))).length + (Owing s.pc).toNat = l.countP Step.asks + l.countP Step.heloRefused := by
  induction h with
  | nil => simp [sent, h0]
  | snoc hr hs ih =>
    have := (sstep_did hs).balance
    simp only [List.flatMap_append, sent_append, List.length_append, List.countP_append, List.countP_cons, List.countP_nil, List.flatMap_cons,
      List.flatMap_nil, List.append_nil, sent, List.length_nil]
    revert this
    cases Step.asks _ <;> cases Step.heloRefused _ <;> simp <;> omega

/-- **C63.** At any time in the life of a connection the number of answers given is that of MAIL FROM, RCPT TO, DATA commands, messages and
refused EHLOs received, less one if the last of these is a message that is being dealt with. -/
theorem C63_total {cf : Conf} {E : Env} {l : List Step} {s : Sess} (h : Life cf E l s) :
    (sent (l.flatMap (·.out))).length + (Owing s.pc).toNat = l.countP Step.asks + l.countP Step.heloRefused := by
  obtain ⟨sh, i, s0, sh0, o, hs, hr⟩ := h
  exact run_balance hr (by rw [(startSess_init hs).1]; rfl)

/-- Only a message that is being dealt with delays anything: while it is, no command is taken. -/
theorem C63_in_turn {st : Step} (h : Owing st.pre.pc = true) : st.event = none := by
  unfold Step.event
  rw [if_neg]
  intro hp
  rw [hp] at h
  cases h

theorem sstep_distance {cf : Conf} {E : Env} {s s' : Sess} {sh sh' : Shared} {i : Inp} {o : List Out} (h : sstep cf E s sh i = .ok (s', sh', o))
    (hw : Owing s.pc = true) : distance s'.pc < distance s.pc := by
  cases hp : s.pc with
  | tls | connect | ready | closed => rw [hp] at hw; cases hw
  | save p tgt rec_ id =>
    simp only [sstep, hp] at h
    cases p with
    | open_ =>
      simp only [openStep] at h
      split at h <;> cases h <;> simp [distance]
    | write =>
      simp only [writeStep] at h
      split at h <;> cases h <;> simp [distance]
    | sync =>
      simp only [syncStep] at h
      split at h <;> cases h <;> simp [distance]
    | close =>
      simp only [closeStep] at h
      split at h <;> cases h <;> simp [distance]
  | decide id f =>
    have hd := sstep_did h
    cases hd <;> simp_all [distance]

/-- **C63.** A message is answered in the fifth step after its arrival at the latest, whatever the other connections and the file
system do: as long as it is not, fewer than five steps have been made. -/
theorem C63_soon {cf : Conf} {E : Env} {l : List Step} {s s' : Sess} (h : Run cf E s l s') (hw : Owing s.pc = true)
    (hl : sent (l.flatMap (·.out)) = []) : l.length + distance s'.pc ≤ distance s.pc ∧ Owing s'.pc = true ∧ l.length < 5 := by
  have key : l.length + distance s'.pc ≤ distance s.pc ∧ Owing s'.pc = true := by
    induction h with
    | nil => exact ⟨by simp, hw⟩
    | @snoc l s2 s3 sh sh' i o hr hs ih =>
      simp only [List.flatMap_append, sent_append, List.append_eq_nil_iff, List.flatMap_cons, List.flatMap_nil, List.append_nil] at hl
      obtain ⟨h1, h2⟩ := ih hl.1
      have h3 := sstep_distance hs h2
      have h4 := (sstep_did hs).balance
      simp only [hl.2, h2, List.length_nil, Nat.zero_add, Bool.toNat_true] at h4
      refine ⟨by simp only [List.length_append, List.length_cons, List.length_nil]; omega, ?_⟩
      cases h5 : Owing s3.pc with
      | true => rfl
      | false => rw [h5, Bool.toNat_false] at h4; omega
  refine ⟨key.1, key.2, ?_⟩
  have h1 : distance s.pc ≤ 5 := by unfold distance; split <;> omega
  have h2 : 0 < distance s'.pc := by
    have := key.2
    generalize s'.pc = p at this
    cases p with
    | save q _ _ _ => cases q <;> simp [distance]
    | decide => simp [distance]
    | tls | connect | ready | closed => cases this
  omega

/-- Nothing is sent, or done, after the end. -/
theorem C63_end {cf : Conf} {E : Env} {l : List Step} {s s' : Sess} (h : Run cf E s l s') (hc : s.pc = .closed) :
    s' = s ∧ ∀ st ∈ l, st.out = [] ∧ st.sh' = st.sh := by
  induction h with
  | nil => exact ⟨rfl, by simp⟩
  | snoc hr hs ih =>
    obtain ⟨rfl, h2⟩ := ih
    simp only [sstep, hc, Except.ok.injEq, Prod.mk.injEq] at hs
    obtain ⟨rfl, rfl, rfl⟩ := hs
    refine ⟨rfl, ?_⟩
    intro st hst
    rcases List.mem_append.1 hst with hst | hst
    · exact h2 st hst
    · cases List.mem_singleton.1 hst; exact ⟨rfl, rfl⟩

/-- One transaction with two recipients, of which one is refused. -/
def demoTalk : List Inp := events [.helo false b!"example.com", .mailfrom b!"a@example.com", .rcptto b!"bad@example.com",
  .rcptto b!"b@example.com", .data, .gotdata b!"x", .other, .other, .other, .other, .other, .done]

example : seen (fun l _ _ => (l.map fun st => (sent st.out).length)) (driveAll demoConf demoEnv {} {} demoTalk) =
    .ok [0, 0, 0, 1, 1, 1, 1, 0, 0, 0, 0, 0, 1, 0] := by decide +kernel
example : seen (fun l _ _ => (l.countP Step.asks, l.countP Step.heloRefused)) (driveAll demoConf demoEnv {} {} demoTalk) = .ok (5, 0) := by
  decide +kernel
example : seen (fun l _ _ => (l.map fun st => distance st.post.pc)) (driveAll demoConf demoEnv {} {} demoTalk) =
    .ok [0, 0, 0, 0, 0, 0, 0, 5, 4, 3, 2, 1, 0, 0] := by decide +kernel
/-- A refused EHLO. -/
example : seen (fun l _ _ => (l.map fun st => sent st.out, l.countP Step.heloRefused)) (driveAll demoConf demoEnv {} {} (events
    [.helo false [], .helo false b!"example.com"])) = .ok ([[], [], [.reject], []], 1) := by decide +kernel

/-! ### C64 -/

theorem DecR.refusedWith {E : Env} {ph : Phase} {evt : Evt} {id : Str} {s s' : Sess} {ref : Bool} {o : List Out} {res : Action} {c1 : Ctx}
    (h : DecR E ph evt id s ref s' o res c1) :
    sent o = sent (refusal ph s'.trans (c1.withprops.message.getD []) id ref res) ∧ s'.c.withprops = c1.withprops ∧
    s'.trans.rcptto = s.trans.rcptto := by
  obtain ⟨t1, o1, o3, h1, h2, h3, _⟩ := h.said
  obtain ⟨d, tr, hc⟩ := h.ctx
  obtain ⟨m, a, ht⟩ := h.trans
  refine ⟨?_, by rw [hc], by rw [ht]⟩
  have q1 : sent o1 = [] := sent_nil.2 (logDnsbls_frame h1).1
  have q2 : sent (logDomerr t1 s'.c).2 = [] := sent_nil.2 (logDomerr_frame _ _).1
  have q3 : sent o3 = [] := sent_nil.2 (logNote_quiet h2)
  rw [h3, sent_append, sent_append, sent_append, q1, q2, q3]
  rfl

/-- What is sent, from what the rules say. -/
def Spec.answerTo (ph : Phase) (res : Action) (msg id : Str) (rcpts : List Str) : List Reply :=
  match res with
  | .reject => [
      if msg ≠ [] then .rejectMsg (withId msg b!"Rejected" id)
      else if ph = .message ∨ ph = .data then
        .rejectMsg (withId (b!"We do not consent to you emailing " ++ if rcpts.length > 1 then b!"those addresses" else b!"that address")
          b!"Rejected" id)
      else if ph = .rto then .rejectMsg b!"We do not consent to you emailing that address"
      else .reject]
  | .stall => [if msg ≠ [] then .tempfailMsg msg else .tempfail]
  | _ => if ph = .helo then [] else [
      if msg ≠ [] then .acceptMsg (withId msg b!"Accepted" id)
      else if id ≠ [] then .acceptData id
      else .accept]

theorem withId_nil (m h : Str) : withId m h [] = m := rfl
theorem withId_rejected {m id : Str} (hi : id ≠ []) : withId m b!"Rejected" id = m ++ b!"\nRejected with ID " ++ id := by
  unfold withId
  rw [if_neg hi]
  simp only [List.append_assoc]
  rfl
theorem withId_accepted {m id : Str} (hi : id ≠ []) : withId m b!"Accepted" id = m ++ b!"\nAccepted with ID " ++ id := by
  unfold withId
  rw [if_neg hi]
  simp only [List.append_assoc]
  rfl

theorem DecR.refusedAnswer {E : Env} {ph : Phase} {evt : Evt} {id : Str} {s s' : Sess} {o : List Out} {res : Action} {c1 : Ctx}
    (h : DecR E ph evt id s true s' o res c1) (hp : ph ≠ .connect) (hi : ph ≠ .message → id = []) :
    sent o = answerTo ph res (c1.withprops.message.getD []) id s.trans.rcptto ∧ (res = .reject ∨ res = .stall) := by
  obtain ⟨h1, -, h3⟩ := h.refusedWith
  have hr := h.ref_iff
  simp only [hp, if_false] at hr
  have hr : ¬ (res = .noresult ∨ res = .accept) := of_decide_eq_true hr.symm
  have hv := h.valid
  have h4 : res = .reject ∨ res = .stall := by
    clear h h1
    cases res <;> simp at hr hv ⊢
  refine ⟨?_, h4⟩
  rw [h1, refusal]
  simp only [hp, false_or, Bool.true_eq_false, if_false]
  rcases h4 with rfl | rfl
  · simp only [if_true, sent, answerTo, rejectReply, pluralRecips, h3]
    by_cases hid : id = []
    · subst hid
      simp only [withId_nil, ne_eq, not_true_eq_false, if_false, false_and]
    · have : ph = .message := Decidable.not_not.1 fun hh => hid (hi hh)
      subst this
      simp only [withId_rejected hid, ne_eq, hid, not_false_eq_true, if_true, true_and, true_or]
  · simp [sent, answerTo]

theorem doAccept_answer (ph : Phase) (hp : ph ≠ .helo) (c : Ctx) (id : Str) (res : Action) (hr : res = .noresult ∨ res = .accept) (rs : List Str) :
    [doAccept c id] = answerTo ph res (c.withprops.message.getD []) id rs := by
  rcases hr with rfl | rfl <;>
  · simp only [answerTo, doAccept, hp, if_false]
    by_cases hid : id = []
    · subst hid
      simp only [withId_nil, ne_eq, not_true_eq_false, if_false]
    · simp only [withId_accepted hid, ne_eq, hid, not_false_eq_true, if_true]

theorem DecR.acceptedAnswer {E : Env} {ph : Phase} {evt : Evt} {id : Str} {s s' : Sess} {o : List Out} {res : Action} {c1 : Ctx}
    (h : DecR E ph evt id s false s' o res c1) (hp : ph ≠ .connect) :
    sent o = [] ∧ s'.c.withprops = c1.withprops ∧ (res = .noresult ∨ res = .accept) := by
  have hr := h.ref_iff
  simp only [hp, if_false] at hr
  exact ⟨sent_nil.2 h.quiet, h.refusedWith.2.1, Decidable.not_not.1 (of_decide_eq_false hr.symm)⟩

/-- **C64.** The answer to a command or message is the decision of the rules: rejected if they say `reject`, deferred if they say `stall`,
accepted otherwise, with the text of the rule's `message` or the default one.  The only exception is the drop after too many RSETs. -/
theorem C64_decision {cf : Conf} {E : Env} {st : Step} (h : st.Ok cf E) {ph : Phase} {e : Evt} {id : Str} (ha : st.asked = some (ph, e, id)) :
    ∃ res c1, Decide E.W st.pre.trans.r ph e st.pre.c = .ok (res, c1) ∧ res ≠ .error ∧
      (sent st.out = answerTo ph res (c1.withprops.message.getD []) id st.pre.trans.rcptto ∧ st.post.pc = .ready ∨
       (res = .noresult ∨ res = .accept) ∧ st.rsetDrop) := by
  obtain ⟨pre, i, sh, post, sh', out⟩ := st
  have hd : Did cf E pre sh i post sh' out := sstep_did h
  have hpc : ∀ {ph evt id ref s1 o res c1}, DecR E ph evt id pre ref s1 o res c1 → s1.pc = pre.pc := fun hd => by rw [hd.sess]
  simp only [Step.asked] at ha
  cases hd with
  | tls hp | drop hp | connect hp | closed hp | save hp | answerFail hp => rw [hp] at ha; cases ha
  | gotKeep hp he | gotSave hp he | tlserror hp he | other hp he => simp [hp, he] at ha
  | finish hp he => rcases he with ⟨he, _⟩ | ⟨he, _⟩ <;> simp [hp, he] at ha
  | heloRef hp he hd | mailRef hp he hd | rcptRef hp he hd | dataRef hp he hd =>
    simp only [hp, he, Option.some.injEq, Prod.mk.injEq] at ha
    obtain ⟨rfl, rfl, rfl⟩ := ha
    exact ⟨_, _, hd.dec, hd.valid, .inl ⟨by simpa [sent] using (hd.refusedAnswer (by decide) (fun _ => rfl)).1, (hpc hd).trans hp⟩⟩
  | answerRef hp hd =>
    simp only [hp, Option.some.injEq, Prod.mk.injEq] at ha
    obtain ⟨rfl, rfl, rfl⟩ := ha
    exact ⟨_, _, hd.dec, hd.valid, .inl ⟨(hd.refusedAnswer (by decide) (fun h => absurd rfl h)).1, rfl⟩⟩
  | answerAcc hp hd ho =>
    simp only [hp, Option.some.injEq, Prod.mk.injEq] at ha
    obtain ⟨rfl, rfl, rfl⟩ := ha
    obtain ⟨h1, h2, h3⟩ := hd.acceptedAnswer (by decide)
    refine ⟨_, _, hd.dec, hd.valid, .inl ⟨?_, rfl⟩⟩
    rw [ho, sent_append, h1, ← h2]
    exact doAccept_answer _ (by decide) _ _ _ h3 _
  | heloAcc hp he hd hq =>
    simp only [hp, he, Option.some.injEq, Prod.mk.injEq] at ha
    obtain ⟨rfl, rfl, rfl⟩ := ha
    obtain ⟨h1, h2, h3⟩ := hd.acceptedAnswer (by decide)
    refine ⟨_, _, hd.dec, hd.valid, .inl ⟨?_, (hpc hd).trans hp⟩⟩
    simp only [List.cons_append, sent, sent_append, h1, sent_nil.2 hq]
    rcases h3 with rfl | rfl <;> rfl
  | mailAcc hp he hd _ ho | mailCount hp he hd _ _ ho | rcptAcc hp he hd ho | dataAcc hp he hd ho =>
    simp only [hp, he, Option.some.injEq, Prod.mk.injEq] at ha
    obtain ⟨rfl, rfl, rfl⟩ := ha
    obtain ⟨h1, h2, h3⟩ := hd.acceptedAnswer (by decide)
    refine ⟨_, _, hd.dec, hd.valid, .inl ⟨?_, (hpc hd).trans hp⟩⟩
    simp only [ho, List.cons_append, sent, sent_append, h1, ← h2]
    exact doAccept_answer _ (by decide) _ _ _ h3 _
  | mailDrop hp he hd _ _ ho =>
    simp only [hp, he, Option.some.injEq, Prod.mk.injEq] at ha
    obtain ⟨rfl, rfl, rfl⟩ := ha
    obtain ⟨h1, h2, h3⟩ := hd.acceptedAnswer (by decide)
    refine ⟨_, _, hd.dec, hd.valid, .inr ⟨h3, ⟨_, (if_pos hp).trans (congrArg some he)⟩, rfl, ?_⟩⟩
    simp only [ho, List.cons_append, sent, sent_append, h1, sent_nil.2 (quiet_writeLog _ _)]
    rfl

/-- On connecting, `reject` ends the connection; anything else, also `stall`, lets it go on. -/
theorem C64_connect {cf : Conf} {E : Env} {st : Step} (h : st.Ok cf E) (hp : st.pre.pc = .connect) :
    ∃ res c1, Decide E.W (st.pre.withRdns E).trans.r .connect {} (st.pre.withRdns E).c = .ok (res, c1) ∧ sent st.out = [] ∧
      st.post.pc = if res = .reject then .closed else .ready := by
  obtain ⟨pre, i, sh, post, sh', out⟩ := st
  have hd : Did cf E pre sh i post sh' out := sstep_did h
  simp only at hp
  cases hd with
  | drop _ hd hq =>
    have hr : _ = decide _ := hd.ref_iff
    refine ⟨_, _, hd.dec, ?_, ?_⟩
    · rw [sent_append, sent_nil.2 hq, sent_nil.2 (hd.none (.inl rfl))]; rfl
    · rw [if_pos (of_decide_eq_true hr.symm)]
  | connect _ hd =>
    have hr : _ = decide _ := hd.ref_iff
    refine ⟨_, _, hd.dec, sent_nil.2 (hd.none (.inl rfl)), ?_⟩
    rw [if_neg (of_decide_eq_false hr.symm)]
  | _ => simp_all

/-- A message that could not be stored is deferred, whatever the rules would say. -/
theorem C64_lost {cf : Conf} {E : Env} {st : Step} (h : st.Ok cf E) {id : Str} (hp : st.pre.pc = .decide id true) :
    st.out = [.reply .tempfail] ∧ st.post.pc = .ready := by
  have h : sstep cf E st.pre st.sh st.i = .ok (st.post, st.sh', st.out) := h
  simp only [sstep, hp, answerStep, if_true, Except.ok.injEq, Prod.mk.injEq] at h
  exact ⟨h.2.2.symm, by rw [← h.1]⟩

/-- The ID of a message being dealt with. -/
def Spec.idOf : Pc → Option Str
  | .save _ _ _ id | .decide id _ => some id
  | _ => none

theorem sstep_id {cf : Conf} {E : Env} {s s' : Sess} {sh sh' : Shared} {i : Inp} {o : List Out} (h : sstep cf E s sh i = .ok (s', sh', o))
    (hw : Owing s.pc = true) (hw' : Owing s'.pc = true) : idOf s'.pc = idOf s.pc := by
  have hd := sstep_did h
  cases hd with
  | save hp _ _ hn => rcases hn with ⟨q, rfl⟩ | ⟨b, rfl⟩ <;> simp [hp, idOf]
  | _ => simp_all [Owing]

/-- **C64.** The ID shown with the answer to a message is the name of the file it was to be saved in, or its hash if there is no directory
to save in. -/
theorem C64_id {cf : Conf} {E : Env} {a : Step} {m : List Step} {s : Sess} (ha : a.Ok cf E) {d : Str} (hd : a.event = some (.gotdata d))
    (hr : Run cf E a.post m s) (hs : Owing s.pc = true) (hm : sent (m.flatMap (·.out)) = []) :
    ∃ id, idOf s.pc = some id ∧
      if a.pre.trans.savedir = [] then id = (getHashes E.H d).1
      else ∃ rec_, a.post.pc = .save .open_ (a.pre.trans.savedir ++ b!"/" ++ id) rec_ id := by
  have hid : idOf s.pc = idOf a.post.pc := by
    have ho : Owing a.post.pc = true := by
      have hp : a.pre.pc = .ready := by unfold Step.event at hd; split at hd; assumption; cases hd
      exact ((sstep_did ha).owing (by rw [hp]; rfl)).2 ⟨d, hd⟩
    clear hs
    induction hr with
    | nil => rfl
    | snoc hr hs ih =>
      simp only [List.flatMap_append, sent_append, List.append_eq_nil_iff] at hm
      rw [← ih hm.1]
      have h1 := (C63_soon hr ho hm.1).2.1
      have h2 := (C63_soon (.snoc hr hs) ho (by simpa only [List.flatMap_append, sent_append, List.append_eq_nil_iff] using hm)).2.1
      exact sstep_id hs h1 h2
  rw [hid]
  obtain ⟨pre, i, sh, post, sh', out⟩ := a
  have hp : pre.pc = .ready := by unfold Step.event at hd; split at hd; assumption; cases hd
  have he : i.ev = .gotdata d := by simpa [Step.event, hp] using hd
  have h : sstep cf E pre sh i = .ok (post, sh', out) := ha
  simp only [sstep, hp, eventStep, he, gotStep] at h
  rw [gotTrans_savedir] at h
  by_cases hsd : pre.trans.savedir = []
  · simp only [hsd, if_true, Except.ok.injEq, Prod.mk.injEq] at h ⊢
    refine ⟨_, by rw [← h.1]; rfl, ?_⟩
    unfold gotTrans
    simp only
  · simp only [hsd, if_false] at h ⊢
    split at h
    · cases h
    · cases h
      exact ⟨_, rfl, _, rfl⟩

/-- Rules with texts. -/
def demoTexts : Env := { demoEnv with fs := fun _ => tbl (.notExist b!"no such file") [
  (b!"/rules", .data b!"reject to bad@ with message \"no\"\nstall to slow@ with message \"later\"\n@message accept from a@ with message \"ta\"\n@message reject all\n")] }

/-- Each kind of answer: a rule's text for a recipient, the default text, the rule's text for a message with its ID. -/
example : seen (fun l _ _ => (l.drop 2).flatMap fun st => sent st.out) (driveAll demoConf demoTexts {} {} (events
    [.helo false b!"example.com", .mailfrom b!"a@example.com", .rcptto b!"bad@example.com", .rcptto b!"slow@example.com",
     .rcptto b!"b@example.com", .data, .gotdata b!"x", .other, .other, .other, .other, .other])) =
    .ok [.accept, .rejectMsg b!"no", .tempfailMsg b!"later", .accept, .accept, .acceptMsg b!"ta\nAccepted with ID #id 7/1 1"] := by
  decide +kernel
/-- The default text of a rejected message, for two recipients. -/
example : seen (fun l _ _ => (l.drop 2).flatMap fun st => sent st.out) (driveAll demoConf demoTexts {} {} (events
    [.helo false b!"example.com", .mailfrom b!"q@example.com", .rcptto b!"c@example.com",
     .rcptto b!"b@example.com", .data, .gotdata b!"x", .other, .other, .other, .other, .other])) =
    .ok [.accept, .accept, .accept, .accept,
      .rejectMsg b!"We do not consent to you emailing those addresses\nRejected with ID #id 7/1 1"] := by
  decide +kernel
/-- A file that cannot be written. -/
example : seen (fun l _ _ => (l.drop 7).map fun st => (st.pre.pc == .decide b!"#id 7/1 1" true, sent st.out)) (driveAll demoConf demoTexts {} {}
    (events [.helo false b!"example.com", .mailfrom b!"a@example.com", .rcptto b!"c@example.com", .data, .gotdata b!"x"] ++
     [{ sys := .failed 0 b!"disk full" }, {  ev := .other }])) = .ok [(false, []), (true, [.tempfail])] := by
  decide +kernel

end Sink
