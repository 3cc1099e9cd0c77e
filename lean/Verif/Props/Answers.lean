import Verif.Lemmas.Answers
import Verif.Props.SessionRules
import Verif.Props.TlsOpt

/-!
# C76: the answers of a connection, from rules and commands alone
-/

namespace Sink
open Spec Relation

theorem loadRules_parsed {L : Lib} {fs : Files} {d : Nat} {path : List Nat} {f : Str} {rs : List Rule}
    (h : loadRules L fs d path f = .ok rs) : ∀ r ∈ rs, FromParse r := by
  cases d with
  | zero => rw [loadRules] at h; cases h
  | succ d =>
    rw [loadRules] at h
    split at h
    · cases h
    · cases h
    · cases h
    · split at h
      · cases h
      · exact fun r hr => ⟨_, _, _, _, _, _, h, hr⟩

theorem asked_phase {st : Step} {ph : Phase} {e : Evt} {id : Str} (h : st.asked = some (ph, e, id)) :
    ph = .helo ∨ ph = .mfrom ∨ ph = .rto ∨ ph = .data ∨ ph = .message := by
  unfold Step.asked at h
  split at h
  · split at h <;> first | cases h; done | (cases h; simp)
  · cases h; simp
  · cases h

theorem accumAll_parsed {L : Lib} {fs : Files} {d : Nat} : ∀ {rf : List Str} {i : Nat} {base rules : List Rule},
    accumAll L fs d i base rf = .ok rules → (∀ r ∈ base, FromParse r) → ∀ r ∈ rules, FromParse r := by
  intro rf
  induction rf with
  | nil => intro i base rules h hb; cases h; exact hb
  | cons f rf ih =>
    intro i base rules h hb
    rw [accumAll] at h
    cases ha : accumRules L fs d i base f with
    | error e => rw [ha] at h; cases h
    | ok r =>
      rw [ha] at h
      refine ih h ?_
      unfold accumRules at ha
      split at ha
      · cases ha; exact hb
      · split at ha
        · rename_i rs hl
          cases ha
          intro q hq
          rcases List.mem_append.1 hq with hq | hq
          · exact hb q hq
          · exact loadRules_parsed hl q hq
        · cases ha

theorem Built.parsed {o : BaseOpts} {cf : Conf} (h : Built o cf) : (∀ r ∈ cf.base, FromParse r) ∧ ∀ r ∈ cf.stallall, FromParse r := by
  obtain ⟨L, fs, d, h1⟩ := h.base
  obtain ⟨L', fs', d', h2⟩ := h.stall
  exact ⟨fun r hr => ⟨_, _, _, _, _, _, h1, hr⟩, fun r hr => ⟨_, _, _, _, _, _, h2, hr⟩⟩

theorem Spec.Loaded.parsed {o : BaseOpts} {cf : Conf} (h : Built o cf) {E : Env} {b : Bool} {rules : List Rule} (hl : Loaded cf E b rules) :
    ∀ r ∈ rules, FromParse r := by
  rcases hl with ⟨-, rfl⟩ | ⟨-, hl⟩ | ⟨-, -, rfl⟩
  · exact h.parsed.2
  · exact accumAll_parsed hl h.parsed.1
  · exact h.parsed.2

theorem startSess_loaded {cf : Conf} {E : Env} {sh sh' : Shared} {i : Inp} {s : Sess} {o : List Out}
    (h : startSess cf E sh i = .ok (s, sh', o)) : Loaded cf E s.stall s.c.ruleset := by
  obtain ⟨rules, good, w, t, h1, h2, -⟩ := startSess_ctx h
  rw [h2]
  by_cases hst : s.stall = true
  · rw [hst]; exact .inl ⟨rfl, rfl⟩
  · rw [Bool.not_eq_true] at hst
    rw [hst]
    refine .inr ?_
    unfold setupRules at h1
    split at h1
    · rename_i hx; cases h1; exact .inl ⟨rfl, hx⟩
    · cases h1
    · rename_i f m hx
      cases h1; exact .inr ⟨rfl, ⟨f, m, hx⟩, rfl⟩

/-- Only the setup of TLS leads to the decision on connecting. -/
theorem Did.to_connect {cf : Conf} {E : Env} {s s' : Sess} {sh sh' : Shared} {i : Inp} {o : List Out} (h : Did cf E s sh i s' sh' o)
    (hq : s'.pc = .connect) : s.pc = .tls ∧ s'.c = s.c := by
  have hpc : ∀ {ph evt id ref s0 s1 o res c1}, DecR E ph evt id s0 ref s1 o res c1 → s1.pc = s0.pc := fun hd => by rw [hd.sess]
  cases h with
  | tls hp ht => unfold tlsStep at ht; cases ht; exact ⟨hp, rfl⟩
  | drop | connect | mailDrop | gotKeep | finish | answerFail | answerRef | answerAcc => cases hq
  | gotSave hp he => cases hq
  | heloRef hp he hd | mailRef hp he hd | rcptRef hp he hd | dataRef hp he hd => rw [hpc hd, hp] at hq; cases hq
  | heloAcc hp he hd | mailAcc hp he hd | mailCount hp he hd | rcptAcc hp he hd | dataAcc hp he hd =>
    have := (hpc hd).symm.trans hq
    rw [hp] at this; cases this
  | tlserror hp he | other hp he | closed hp => rw [hp] at hq; cases hq
  | save hp _ _ hn => rcases hn with ⟨q, rfl⟩ | ⟨b, rfl⟩ <;> cases hq

/-- In every state of a connection the context tells its history. -/
theorem life_tells {o : BaseOpts} {cf : Conf} (hb : Built o cf) {E : Env} (hs : E.W.Static) {sh0 sh1 : Shared} {i0 : Inp} {s0 s : Sess} {o1 : List Out}
    {l : List Step} (hst : startSess cf E sh0 i0 = .ok (s0, sh1, o1)) (hr : Run cf E s0 l s) :
    Tells E s0.c.ruleset l s.c ∧ (s.pc = .tls ∨ s.pc = .connect → s.c.defresult = .error) := by
  have hload := startSess_loaded hst
  have hpc := (startSess_init hst).1
  have hp := hload.parsed hb
  refine Spec.Run.ind (P := fun l s => Tells E s0.c.ruleset l s.c ∧ (s.pc = .tls ∨ s.pc = .connect → s.c.defresult = .error)) hr ?_ ?_
  · obtain ⟨rules, good, w, t, h1, h2, -⟩ := startSess_ctx hst
    rw [h2]
    refine ⟨⟨rfl, ⟨by simp [newContext], by simp [newContext], by simp [newContext]⟩, rfl, rfl, rfl, .inl ⟨rfl, ?_⟩⟩, fun _ => rfl⟩
    rintro a w ⟨l1, st, l2, b, id, hx, -⟩
    simp at hx
  · intro l s1 s2 sh sh' i o hr ih hd hstep
    have hL : Life cf E l s1 := ⟨sh0, i0, s0, sh1, o1, hst, hr⟩
    have key : s2.pc = .tls ∨ s2.pc = .connect → s2.c.defresult = .error := by
      intro hq
      rcases hq with hq | hq
      · exact absurd hq hd.pc_tls
      · obtain ⟨h1, h2⟩ := hd.to_connect hq
        rw [h2]
        exact ih.2 (.inl h1)
    refine ⟨?_, key⟩
    cases hd.askStep with
    | quiet h1 h2 h3 => exact h3 ▸ ih.1.none h1
    | connect h1 h2 h3 h4 =>
      have h4 : s2.c = _ := h4
      have h5 : Tells E s0.c.ruleset l (s1.withRdns E).c := ih.1.same s1.c.dnsblhit _
      rw [h4]
      exact ((h5.connect hs (ih.2 (.inr h2)) h3).none h1).same _ _
    | asked h1 h2 h3 h4 h5 =>
      have h5 : s2.c = _ := h5
      rw [h5]
      have h4 : Decide E.W s1.trans.r _ _ s1.c = _ := h4
      rw [life_facts hs hL h2 h3] at h4
      exact (ih.1.asked hs hp (asked_phase h1) h4 h1).same _ _

/-- **C76.** In a world that does not change, every answer of a connection follows from the rules and the commands sent so far: it is the
answer to the ruling of the history, with the options of the rules.  The one exception is the drop after too many RSETs.  The rules are
those of the options and rule files. -/
theorem C76_answers {o : BaseOpts} {cf : Conf} (hb : Built o cf) {E : Env} (hs : E.W.Static) {l : List Step} {s : Sess} (h : Life cf E l s) :
    ∃ rules, Loaded cf E s.stall rules ∧ ∀ l1 st l2 ph e id, l = l1 ++ st :: l2 → st.asked = some (ph, e, id) →
      ∃ a w, Ruling E rules l1 ph e a w ∧ st.post.c.withprops = w ∧
        (sent st.out = answerTo ph a (w.message.getD []) id (envelope l1).rcpts ∧ st.post.pc = .ready ∨
         (a = .noresult ∨ a = .accept) ∧ st.rsetDrop) := by
  obtain ⟨sh0, i0, s0, sh1, o1, hst, hr⟩ := h
  refine ⟨s0.c.ruleset, (run_flags hr).1 ▸ startSess_loaded hst, fun l1 st l2 ph e id hl ha => ?_⟩
  obtain ⟨hr1, hok, -⟩ := hr.split hl
  have hL : Life cf E l1 st.pre := ⟨sh0, i0, s0, sh1, o1, hst, hr1⟩
  obtain ⟨ht, -⟩ := life_tells hb hs hst hr1
  obtain ⟨res, c1, h1, -, h3⟩ := C64_decision hok ha
  have hrc : st.pre.trans.rcptto = (envelope l1).rcpts := (C33_rules_see hL).1
  rw [hrc] at h3
  cases (sstep_did hok).askStep with
  | quiet h => rw [show st.asked = none from h] at ha; cases ha
  | connect h => rw [show st.asked = none from h] at ha; cases ha
  | asked k1 k2 k3 k4 k5 =>
    cases (show st.asked = _ from k1).symm.trans ha
    have k4 : Decide E.W st.pre.trans.r ph e st.pre.c = _ := k4
    rw [h1] at k4
    cases k4
    rw [life_facts hs hL k2 k3] at h1
    have k5 : st.post.c = _ := k5
    exact ⟨res, _, ht.ruling hs ((startSess_loaded hst).parsed hb) (asked_phase ha) h1, by rw [k5], h3⟩

/-- C76: on connecting too; only `reject` ends the connection there. -/
theorem C76_connect {o : BaseOpts} {cf : Conf} (hb : Built o cf) {E : Env} (hs : E.W.Static) {l : List Step} {s : Sess} (h : Life cf E l s) :
    ∃ rules, Loaded cf E s.stall rules ∧ ∀ l1 st l2, l = l1 ++ st :: l2 → st.pre.pc = .connect →
      ∃ used a, FirstMatch E.W (facts E l1) (heard l1) .connect rules used a ∧ sent st.out = [] ∧
        st.post.pc = if a = .reject then .closed else .ready := by
  obtain ⟨sh0, i0, s0, sh1, o1, hst, hr⟩ := h
  refine ⟨s0.c.ruleset, (run_flags hr).1 ▸ startSess_loaded hst, fun l1 st l2 hl hp => ?_⟩
  obtain ⟨hr1, hok, -⟩ := hr.split hl
  have hL : Life cf E l1 st.pre := ⟨sh0, i0, s0, sh1, o1, hst, hr1⟩
  obtain ⟨ht, h0⟩ := life_tells hb hs hst hr1
  have ht' : Tells E s0.c.ruleset l1 (st.pre.withRdns E).c := ht.same st.pre.c.dnsblhit _
  obtain ⟨res, c1, h1, h2, h3⟩ := C64_connect hok hp
  rw [life_facts_connect hs hL] at h1
  have hpar := (startSess_loaded hst).parsed hb
  obtain ⟨used, ret, wp, k1, -, k3⟩ := decide_ctx hs (fun r hx => hpar r (ht'.ruleset ▸ hx)) ht'.cache (by simp)
    (.inr (.inr (h0 (.inr hp)))) h1
  rw [ht'.ruleset] at k1
  have key : (st.pre.withRdns E).c.mail.said .connect {} = { heard l1 with rcptto := (st.pre.withRdns E).c.mail.rcptto } := by
    rw [ht'.mail]; rfl
  rw [key] at k1
  refine ⟨used, ret, firstMatch_rcpt (by decide) (fun r hx => (hpar r hx).le) k1, h2, ?_⟩
  rcases k3 with ⟨-, rfl, -⟩ | ⟨k, -⟩
  · exact h3
  · cases k

/-- C76: there is one ruling, so commands, rules and world determine the answers. -/
theorem C76_determined {E : Env} {rules : List Rule} {l : List Step} {ph : Phase} {e : Evt} {a a' : Action} {w w' : Withs}
    (h : Ruling E rules l ph e a w) (h' : Ruling E rules l ph e a' w') : a = a' ∧ w = w' := h.unique h'

/-- A client at 192.0.2.2, with a rule about senders that looks at the EHLO name. -/
def demoEnvA : Env := { demoEnv with fs := fun _ => tbl (.notExist b!"no such file") [
  (b!"/a", .data b!"@from reject helo .example.com with message \"go away\"\naccept to u@example.com with message fine\nstall to-has noat\n")] }

def demoConfA : Conf := { demoConf with rulefiles := [b!"/a"] }

example : Built ⟨true, false, [], [], []⟩ demoConfA ∧ demoEnvA.W.Static :=
  ⟨⟨⟨demoLib, fun _ _ => .notExist [], 5, by decide +kernel⟩, ⟨demoLib, fun _ _ => .notExist [], 5, by decide +kernel⟩⟩, demoWorld_static⟩

/-- The null sender is let through and its refusal given to the recipients, until the next greeting; then the other rules are seen.  A
recipient refused by the standard rules, and one accepted with a message. -/
example : seen (fun l _ _ => (l.drop 2).map fun st => sent st.out) (driveAll demoConfA demoEnvA {} {} (events
    [.helo false b!"me.example.com", .mailfrom [], .rcptto b!"u@example.com", .mailfrom b!"a@example.com",
     .helo false b!"me.example.org", .mailfrom [], .rcptto b!"u@example.com", .rcptto b!"u@@", .data])) =
    .ok [[], [.accept], [.rejectMsg b!"go away"], [.rejectMsg b!"go away"], [], [.accept], [.acceptMsg b!"fine"],
      [.rejectMsg b!"We do not consent to you emailing that address"], [.acceptMsg b!"fine"]] := by
  decide +kernel

/-- The rules of that connection. -/
example : ∃ rules, Loaded demoConfA demoEnvA false rules ∧ rules.length = 6 :=
  ⟨_, .inr (.inl ⟨rfl, rfl⟩), by decide +kernel⟩

end Sink
