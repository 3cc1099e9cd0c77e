import Verif.Props.SessionRules
import Verif.Lemmas.IpMap

/-!
# Connections on which everything is put off: C37, and the effect of being a do-nothing client (C38)
-/

namespace Sink
open Spec Relation

/-- The context of a connection working with the rule `stall all`. -/
structure StallCtx (c : Ctx) : Prop where
  rules : c.ruleset = stallAll
  pend : c.defresult = .error ∨ c.defresult = .stall
  defprops : c.defprops = {}
  withprops : c.withprops = {}

theorem shadow_pend {ph : Phase} {e : Evt} {c : Ctx} (h : c.defresult = .error ∨ c.defresult = .stall) (hp : c.defprops = {}) :
    ((shadow ph e c).defresult = .error ∨ (shadow ph e c).defresult = .stall) ∧ (shadow ph e c).defprops = {} := by
  cases ph <;> first | exact ⟨h, hp⟩ | exact ⟨.inl rfl, hp⟩ | exact ⟨.inl rfl, rfl⟩

theorem decide_stalled {W : World} {tr : TransR} {ph : Phase} {e : Evt} {c c' : Ctx} {a : Action} (hc : c.ruleset = stallAll)
    (hd : c.defresult = .error ∨ c.defresult = .stall) (hp : c.defprops = {}) (h : Decide W tr ph e c = .ok (a, c')) :
    a = (if ph = .mfrom ∧ e.arg = [] then .accept else .stall) ∧ StallCtx c' := by
  have hru := (Decide_frame h).1.trans hc
  obtain ⟨hs, hsp⟩ := shadow_pend (ph := ph) (e := e) hd hp
  have hloop : ∀ {a c'}, ruleLoop W tr ph c.ruleset (begun ph e c) = .ok (a, c') →
      a = .stall ∧ c' = { begun ph e c with rulemiss := false, withprops := {} } := by
    intro a c' hl
    rw [hc] at hl
    exact ruleLoop_all rfl rfl (by decide) (.inl rfl) hl
  cases decide_end h with
  | pending hge =>
    have hs' : (shadow ph e c).defresult = .stall := by
      rcases hs with h | h
      · rw [h] at hge; exact absurd hge (by decide)
      · exact h
    refine ⟨?_, hru, .inr hs', hsp, hsp⟩
    rw [if_neg]
    · exact hs'
    · rintro ⟨rfl, -⟩
      exact absurd hs' (by show ¬ (Action.error = Action.stall); decide)
  | plain hn hl hm =>
    obtain ⟨rfl, rfl⟩ := hloop hl
    refine ⟨?_, hru, hs, hsp, rfl⟩
    rw [if_neg]
    rintro ⟨h1, h2⟩
    exact hm ⟨h1, h2, by decide⟩
  | defer hn hl h1 h2 _ =>
    obtain ⟨rfl, rfl⟩ := hloop hl
    exact ⟨by rw [if_pos ⟨h1, h2⟩], hru, .inr rfl, rfl, rfl⟩

/-- A connection working with the rule `stall all` that does not count. -/
structure Stalling (s : Sess) : Prop where
  ctx : StallCtx s.c
  counts : s.sesscounts = false

section
variable {E : Env} {ph : Phase} {evt : Evt} {id : Str} {s s' : Sess} {ref : Bool} {o : List Out} {res : Action} {c1 : Ctx}

theorem DecR.stalling (h : DecR E ph evt id s ref s' o res c1) (hs : Stalling s) :
    Stalling s' ∧ res = (if ph = .mfrom ∧ evt.arg = [] then .accept else .stall) := by
  obtain ⟨h1, h2⟩ := decide_stalled hs.ctx.rules hs.ctx.pend hs.ctx.defprops h.dec
  obtain ⟨d, tr, hc⟩ := h.ctx
  exact ⟨⟨by rw [hc]; exact ⟨h2.rules, h2.pend, h2.defprops, h2.withprops⟩, h.sc.trans hs.counts⟩, h1⟩

theorem DecR.stall_reply (h : DecR E ph evt id s true s' o .stall c1) (hp : ph ≠ .connect) : replies o = [.deferred] := by
  have := h.rep
  rw [if_neg (by simp [hp])] at this
  exact this

end

theorem not_mail {ph : Phase} {a : Str} (h : ph ≠ .mfrom) : (if ph = .mfrom ∧ a = [] then Action.accept else .stall) = .stall :=
  if_neg fun hx => h hx.1

/-- What the client sees of each step of such a connection. -/
def Spec.PutOff (st : Step) : Prop :=
  match st.pre.pc with
  | .ready => match st.i.ev with
    | .helo _ _ | .rcptto _ | .data => replies st.out = [.deferred]
    | .mailfrom a => replies st.out = if a = [] then [.accepted] else [.deferred]
    | _ => replies st.out = []
  | .decide _ _ => replies st.out = [.deferred]
  | _ => replies st.out = []

/-- The table of do-nothing clients gains nothing in the step: it can only lose records. -/
def Spec.NotCounted (st : Step) : Prop := ∀ ip, st.sh'.yak.get ip = st.sh.yak.get ip ∨ st.sh'.yak.get ip = none

theorem sstep_save_tables {cf : Conf} {E : Env} {s s' : Sess} {sh sh' : Shared} {i : Inp} {o : List Out} {p : SavePc} {tgt r id : Str}
    (hp : s.pc = .save p tgt r id) (h : sstep cf E s sh i = .ok (s', sh', o)) : sh'.yak = sh.yak ∧ sh'.notls = sh.notls := by
  unfold sstep at h
  rw [hp] at h
  cases p with
  | open_ =>
    simp only [openStep] at h
    split at h <;> cases h <;> exact ⟨rfl, rfl⟩
  | write =>
    simp only [writeStep] at h
    split at h <;> cases h <;> exact ⟨rfl, rfl⟩
  | sync =>
    simp only [syncStep] at h
    split at h <;> cases h <;> exact ⟨rfl, rfl⟩
  | close =>
    simp only [closeStep] at h
    split at h <;> cases h <;> exact ⟨rfl, rfl⟩

theorem del_get (m : IpMap) (ip a : Str) : (m.del ip).get a = m.get a ∨ (m.del ip).get a = none := by
  unfold IpMap.del
  split
  · exact .inl rfl
  · split
    · rw [IpMap.get_stats, IpMap.get_erase]
      split
      · exact .inr rfl
      · exact .inl rfl
    · exact .inl rfl

theorem Did.stalling {cf : Conf} {E : Env} {s s' : Sess} {sh sh' : Shared} {i : Inp} {o : List Out} (h : Did cf E s sh i s' sh' o)
    (hs : Stalling s) : Stalling s' ∧ PutOff ⟨s, i, sh, s', sh', o⟩ ∧ NotCounted ⟨s, i, sh, s', sh', o⟩ := by
  have same : NotCounted ⟨s, i, sh, s', sh, o⟩ := fun ip => .inl rfl
  have noCount : ∀ {ph evt id ref s1 o res c1}, DecR E ph evt id s ref s1 o res c1 → ¬ s1.counts := by
    intro ph evt id ref s1 o res c1 hd hc
    have := hc.2.2
    rw [hd.sc.trans hs.counts] at this
    exact absurd this (by decide)
  have nopass : ∀ {ph evt id s1 o res c1}, DecR E ph evt id s false s1 o res c1 → ph ≠ .connect → ph ≠ .mfrom → False := by
    intro ph evt id s1 o res c1 hd h1 h2
    have h3 := (hd.stalling hs).2
    rw [not_mail h2] at h3
    rcases hd.passed h1 with h | h <;> rw [h] at h3 <;> cases h3
  have ref : ∀ {ph evt id s1 o res c1}, DecR E ph evt id s true s1 o res c1 → ph ≠ .connect → ph ≠ .mfrom → replies o = [.deferred] := by
    intro ph evt id s1 o res c1 hd h1 h2
    have h3 := (hd.stalling hs).2
    rw [not_mail h2] at h3
    subst h3
    exact hd.stall_reply h1
  have rd : Stalling (s.withRdns E) := ⟨⟨hs.ctx.rules, hs.ctx.pend, hs.ctx.defprops, hs.ctx.withprops⟩, hs.counts⟩
  unfold PutOff
  cases h with
  | tls hp ht hq =>
    unfold tlsStep at ht
    cases ht
    simp only [hp]
    exact ⟨⟨hs.ctx, hs.counts⟩, hq, fun ip => .inl rfl⟩
  | @drop s1 oo o' res c1 hp hd hq =>
    simp only [hp]
    refine ⟨⟨(hd.stalling rd).1.ctx, (hd.stalling rd).1.counts⟩, ?_, same⟩
    have := hd.rep
    rw [if_pos (.inl rfl)] at this
    exact quiet_append this hq
  | @connect s1 oo res c1 hp hd =>
    simp only [hp]
    exact ⟨⟨(hd.stalling rd).1.ctx, (hd.stalling rd).1.counts⟩, hd.quiet, same⟩
  | heloRef hp he hd =>
    have r := ref hd (by decide) (by decide)
    simp only [hp, he]
    exact ⟨(hd.stalling hs).1, r, same⟩
  | rcptRef hp he hd =>
    have r := ref hd (by decide) (by decide)
    simp only [hp, he]
    exact ⟨(hd.stalling hs).1, r, same⟩
  | dataRef hp he hd =>
    have r := ref hd (by decide) (by decide)
    simp only [hp, he]
    exact ⟨(hd.stalling hs).1, r, same⟩
  | heloAcc hp he hd hq => exact (nopass hd (by decide) (by decide)).elim
  | rcptAcc hp he hd hq => exact (nopass hd (by decide) (by decide)).elim
  | dataAcc hp he hd hq => exact (nopass hd (by decide) (by decide)).elim
  | @mailRef arg s1 oo res c1 hp he hd =>
    simp only [hp, he]
    have h3 := (hd.stalling hs).2
    by_cases ha : arg = []
    · rw [if_pos ⟨rfl, ha⟩] at h3
      subst h3
      have := hd.ref_iff
      rw [if_neg (by decide)] at this
      exact absurd this (by decide)
    · rw [if_neg (fun hx => ha hx.2)] at h3
      subst h3
      rw [if_neg ha]
      have r := hd.stall_reply (by decide)
      exact ⟨(hd.stalling hs).1, r, same⟩
  | @mailAcc arg s1 oo o' res c1 hp he hd hc ho =>
    simp only [hp, he]
    have h3 := (hd.stalling hs).2
    by_cases ha : arg = []
    · rw [if_pos ha]
      subst ho
      refine ⟨⟨(hd.stalling hs).1.ctx, (hd.stalling hs).1.counts⟩, ?_, same⟩
      simp [replies, replies_append, hd.quiet, verdict_doAccept]
    · rw [if_neg (fun hx => ha hx.2)] at h3
      rcases hd.passed (by decide) with h | h <;> rw [h] at h3 <;> cases h3
  | mailCount hp he hd hc _ _ => exact absurd hc (noCount hd)
  | mailDrop hp he hd hc _ _ => exact absurd hc (noCount hd)
  | gotKeep hp he _ ho =>
    subst ho
    simp only [hp, he]
    refine ⟨⟨hs.ctx, hs.counts⟩, ?_, same⟩
    split <;> rfl
  | gotSave hp he _ _ ho =>
    subst ho
    simp only [hp, he]
    refine ⟨⟨hs.ctx, hs.counts⟩, ?_, same⟩
    split <;> rfl
  | tlserror hp he =>
    simp only [hp, he]
    exact ⟨⟨hs.ctx, rfl⟩, rfl, fun ip => .inl rfl⟩
  | @finish x hp he hq =>
    have : replies (.count x :: (endStep cf E s sh i).2.2) = [] := hq
    refine ⟨⟨hs.ctx, hs.counts⟩, ?_, ?_⟩
    · rcases he with ⟨he, _⟩ | ⟨he, _⟩ <;> · simp only [hp, he]; exact this
    · intro ip
      show (endStep cf E s sh i).2.1.yak.get ip = _ ∨ _
      have hm : s.c.withprops.makeYakker.isSome = false := by rw [hs.ctx.withprops]; rfl
      unfold endStep
      simp only [hm, hs.counts, Bool.false_eq_true, if_false, and_false]
      split
      · exact del_get _ _ _
      · exact .inl rfl
  | other hp he =>
    simp only [hp, he]
    exact ⟨hs, rfl, same⟩
  | save hp hst hq _ =>
    simp only [hp]
    refine ⟨⟨hs.ctx, hs.counts⟩, hq, fun ip => .inl ?_⟩
    show sh'.yak.get ip = _
    rw [(sstep_save_tables hp hst).1]
  | answerFail hp =>
    simp only [hp]
    exact ⟨⟨hs.ctx, hs.counts⟩, rfl, same⟩
  | answerRef hp hd =>
    simp only [hp]
    exact ⟨⟨(hd.stalling hs).1.ctx, (hd.stalling hs).1.counts⟩, ref hd (by decide) (by decide), same⟩
  | answerAcc hp hd ho => exact (nopass hd (by decide) (by decide)).elim
  | closed hp =>
    simp only [hp]
    exact ⟨hs, rfl, same⟩

theorem run_stalling {cf : Conf} {E : Env} {s0 s : Sess} {l : List Step} (hr : Run cf E s0 l s) (h0 : Stalling s0) :
    Stalling s ∧ ∀ st ∈ l, PutOff st ∧ NotCounted st :=
  Spec.Run.ind (P := fun l s => Stalling s ∧ ∀ st ∈ l, PutOff st ∧ NotCounted st) hr ⟨h0, by simp⟩ fun l s1 s2 sh sh' i o _ ih hd _ => by
    obtain ⟨h1, h2, h3⟩ := hd.stalling ih.1
    refine ⟨h1, fun st hst => ?_⟩
    rcases List.mem_append.mp hst with h | h
    · exact ih.2 st h
    · rw [List.mem_singleton.mp h]
      exact ⟨h2, h3⟩

/-! ## C37 -/

/-- A rules file of the command line cannot be used: reading or parsing it fails. -/
def Spec.Broken (cf : Conf) (E : Env) : Prop :=
  ∃ i f e, cf.rulefiles[i]? = some f ∧ f ≠ [] ∧ loadRules E.W.lib E.fs E.fds [i] f = .error e

theorem accumAll_broken {L : Lib} {fs : Files} {d : Nat} : ∀ {rf : List Str} {k : Nat} {base : List Rule} {i : Nat} {f : Str} {e : Fail},
    rf[i]? = some f → f ≠ [] → loadRules L fs d [k + i] f = .error e → ∃ x, accumAll L fs d k base rf = .error x := by
  intro rf
  induction rf with
  | nil => intro k base i f e h; simp at h
  | cons g rf ih =>
    intro k base i f e h hf he
    rw [accumAll]
    cases i with
    | zero =>
      simp only [List.getElem?_cons_zero, Option.some.injEq] at h
      subst h
      rw [accumRules, if_neg hf]
      rw [show k + 0 = k from rfl] at he
      rw [he]
      exact ⟨_, rfl⟩
    | succ i =>
      split
      · exact ih (by simpa using h) hf (by rw [show k + 1 + i = k + (i + 1) by omega]; exact he)
      · exact ⟨_, rfl⟩

theorem startSess_broken {cf : Conf} {E : Env} (hb : Broken cf E) {sh sh' : Shared} {i : Inp} {s : Sess} {o : List Out}
    (h : startSess cf E sh i = .ok (s, sh', o)) : s.rulesgood = false ∧ s.sesscounts = false ∧ ∃ t, s.c = newContext cf.stallall t := by
  obtain ⟨k, f, e, h1, h2, h3⟩ := hb
  obtain ⟨rules, good, w, t, g1, g2, g3, g4, -⟩ := startSess_ctx h
  obtain ⟨x, hx⟩ := accumAll_broken (k := 0) (base := cf.base) h1 h2 (by rw [Nat.zero_add]; exact h3)
  have : good = false ∧ rules = cf.stallall := by
    unfold setupRules at g1
    rw [hx] at g1
    obtain ⟨f, e⟩ := x
    cases e with
    | panic p => cases g1
    | err m => cases g1; exact ⟨rfl, rfl⟩
  obtain ⟨rfl, rfl⟩ := this
  refine ⟨g3, by rw [g4]; simp, t, ?_⟩
  rw [g2]
  split <;> rfl

/-- **C37.** A rules file cannot be read or parsed: then on the whole connection every EHLO, HELO, MAIL FROM, RCPT TO, DATA and
message is answered with a temporary failure, except MAIL FROM:<>, and no step of it adds to the table of do-nothing clients. -/
theorem C37_broken_rules {o : BaseOpts} {cf : Conf} (hc : Built o cf) {E : Env} (hb : Broken cf E) {l : List Step} {s : Sess}
    (h : Life cf E l s) : ∀ st ∈ l, PutOff st ∧ NotCounted st := by
  obtain ⟨sh0, i0, s0, sh1, o1, hs0, hr⟩ := h
  obtain ⟨-, h2, t, h3⟩ := startSess_broken hb hs0
  rw [hc.stall_eq] at h3
  exact (run_stalling hr ⟨by rw [h3]; exact ⟨rfl, .inl rfl, rfl, rfl⟩, h2⟩).2

/-- Beginning the connection does not add to the table either. -/
theorem C37_start {cf : Conf} {E : Env} {sh sh' : Shared} {i : Inp} {s : Sess} {o : List Out}
    (h : startSess cf E sh i = .ok (s, sh', o)) (ip : Str) : sh'.yak.get ip = sh.yak.get ip ∨ sh'.yak.get ip = none := by
  obtain ⟨rules, good, w, t, -, -, -, -, -, -, rfl⟩ := startSess_ctx h
  show (sh.yak.lookup E.rip cf.yakTimeout i.now).2.get ip = _ ∨ (sh.yak.lookup E.rip cf.yakTimeout i.now).2.get ip = _
  unfold IpMap.lookup
  simp only
  split
  · exact .inl rfl
  · split
    · exact .inl rfl
    · rw [IpMap.get_stats, IpMap.get_erase]
      split
      · exact .inr rfl
      · exact .inl rfl

/-- `-r /rules -r /broken`, with do-nothing detection. -/
def demoConfB : Conf := { demoConf with rulefiles := [b!"/rules", b!"/broken"], base := documentedRules true false none none none, yakCount := 1, yakTimeout := 100 }

example : Configured ⟨true, false, [], [], []⟩ demoConfB :=
  ⟨⟨cleanNil, cleanNil, cleanNil⟩, ⟨demoLib, fun _ _ => .notExist [], 5, C11_base_rules _ _ _ _ cleanNil cleanNil cleanNil⟩,
   ⟨demoLib, fun _ _ => .notExist [], 5, C11_stall_rules _ _ _⟩⟩

/-- Whether a result is an error. -/
def failed {ε α : Type} : Except ε α → Bool
  | .error _ => true
  | .ok _ => false

theorem failed_iff {ε α : Type} {x : Except ε α} : failed x = true → ∃ e, x = .error e := by
  cases x with
  | error e => exact fun _ => ⟨e, rfl⟩
  | ok a => intro h; cases h

example : Broken demoConfB demoEnv := by
  obtain ⟨e, he⟩ := failed_iff (x := loadRules demoEnv.W.lib demoEnv.fs demoEnv.fds [1] b!"/broken") (by decide +kernel)
  exact ⟨1, b!"/broken", e, rfl, by decide, he⟩

example : seen (fun l _ sh => (l.map fun st => replies st.out, sh.yak.ips)) (driveAll demoConfB demoEnv {} {} (events
    [.helo false b!"mail.example.com", .mailfrom [], .rcptto b!"u@example.com", .mailfrom b!"a@example.com", .data, .done])) =
    .ok ([[], [], [.deferred], [.accepted], [.deferred], [.deferred], [.deferred], []], []) := by
  decide +kernel

/-- With readable rules the same session is accepted, and it counts (only QUIT after EHLO counts here). -/
example : seen (fun l _ sh => (l.map fun st => replies st.out, sh.yak.ips.map fun e => (e.1, e.2.count)))
    (driveAll { demoConfB with rulefiles := [b!"/rules"], minphase := b!"data" } demoEnv {} {} (events
    [.helo false b!"mail.example.com", .mailfrom b!"a@example.com", .rcptto b!"u@example.com", .done])) =
    .ok ([[], [], [], [.accepted], [.accepted], []], [(b!"192.0.2.2", 1)]) := by
  decide +kernel

end Sink
