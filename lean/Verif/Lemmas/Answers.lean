import Verif.Spec.Answers
import Verif.Props.Meta
import Verif.Lemmas.BaseRules

/-!
# The context of a connection says what the history says
-/

namespace Sink
open Spec Relation Gram

theorem Withs.ext_keys {w w' : Withs} (h : ∀ k : WKey, k.of w = k.of w') : w = w' := by
  obtain ⟨a, b, c, d, e⟩ := w
  obtain ⟨a', b', c', d', e'⟩ := w'
  have h1 := h .message
  have h2 := h .note
  have h3 := h .savedir
  have h4 := h .tlsOpt
  have h5 := h .makeYakker
  simp only [WKey.of] at h1 h2 h3 h4 h5
  subst h1 h2 h3 h4 h5
  rfl

theorem Spec.Says1.unique {E : Env} {rules : List Rule} {l : List Step} {ph : Phase} {e : Evt} {a a' : Action} {w w' : Withs}
    (h : Says1 E rules l ph e a w) (h' : Says1 E rules l ph e a' w') : a = a' ∧ w = w' := by
  obtain ⟨u, h1, h2⟩ := h
  obtain ⟨u', h1', h2'⟩ := h'
  obtain ⟨rfl, rfl⟩ := h1.unique h1'
  exact ⟨rfl, Withs.ext_keys fun k => C23_determined (h2 k) (h2' k)⟩

/-! ## Waiting refusals -/

/-- The last step, if it asks about recipients, DATA or a message, or nothing, changes nothing. -/
theorem Spec.Waiting.more_iff {E : Env} {rules : List Rule} {l : List Step} {st : Step} {a : Action} {w : Withs}
    (hq : ∀ ph e id, st.asked = some (ph, e, id) → ph ≠ .helo ∧ ph ≠ .mfrom) :
    Waiting E rules (l ++ [st]) a w ↔ Waiting E rules l a w := by
  constructor
  · rintro ⟨l1, q, l2, b, id, h1, h2, h3, h4, h5⟩
    rcases List.eq_nil_or_concat l2 with rfl | ⟨m, x, rfl⟩
    · have h1 : l ++ [st] = l1 ++ [q] := h1
      obtain ⟨rfl, h⟩ := List.append_inj' h1 rfl
      cases h
      exact absurd rfl (hq _ _ _ h2).2
    · have h1 : l ++ [st] = (l1 ++ q :: m) ++ [x] := by rw [h1]; simp
      obtain ⟨rfl, h⟩ := List.append_inj' h1 rfl
      cases h
      exact ⟨l1, q, m, b, id, rfl, h2, h3, h4, fun y hy => h5 y (by simp [hy])⟩
  · rintro ⟨l1, q, l2, b, id, rfl, h2, h3, h4, h5⟩
    refine ⟨l1, q, l2 ++ [st], b, id, by simp, h2, h3, h4, fun y hy => ?_⟩
    rcases List.mem_append.1 hy with hy | hy
    · exact h5 y hy
    · rw [List.mem_singleton.1 hy]; exact hq

/-- After a greeting nothing is waiting; after a sender only its own refusal. -/
theorem Spec.Waiting.last {E : Env} {rules : List Rule} {l : List Step} {st : Step} {a : Action} {w : Withs} {ph : Phase} {e : Evt} {id : Str}
    (hq : st.asked = some (ph, e, id)) (hp : ph = .helo ∨ ph = .mfrom) (h : Waiting E rules (l ++ [st]) a w) :
    ph = .mfrom ∧ e.arg = [] ∧ Says1 E rules l ph e a w ∧ Refuses a := by
  obtain ⟨l1, q, l2, b, id', h1, h2, h3, h4, h5⟩ := h
  rcases List.eq_nil_or_concat l2 with rfl | ⟨m, x, rfl⟩
  · have h1 : l ++ [st] = l1 ++ [q] := h1
    obtain ⟨rfl, h⟩ := List.append_inj' h1 rfl
    cases h
    rw [hq] at h2
    cases h2
    exact ⟨rfl, rfl, h3, h4⟩
  · have h1 : l ++ [st] = (l1 ++ q :: m) ++ [x] := by rw [h1]; simp
    obtain ⟨rfl, h⟩ := List.append_inj' h1 rfl
    cases h
    obtain ⟨k1, k2⟩ := h5 st (by simp) _ _ _ hq
    rcases hp with hp | hp
    · exact absurd hp k1
    · exact absurd hp k2

theorem Spec.Waiting.unique {E : Env} {rules : List Rule} {l : List Step} {a a' : Action} {w w' : Withs}
    (h : Waiting E rules l a w) (h' : Waiting E rules l a' w') : a = a' ∧ w = w' := by
  induction l using List.reverseRecOn with
  | nil => obtain ⟨l1, q, l2, b, id, h1, -⟩ := h; simp at h1
  | append_singleton l st ih =>
    by_cases hq : ∀ ph e id, st.asked = some (ph, e, id) → ph ≠ .helo ∧ ph ≠ .mfrom
    · exact ih ((Waiting.more_iff hq).1 h) ((Waiting.more_iff hq).1 h')
    · push Not at hq
      obtain ⟨ph, e, id, h1, h2⟩ := hq
      have hp : ph = .helo ∨ ph = .mfrom := by
        by_cases hp : ph = .helo
        · exact .inl hp
        · exact .inr (h2 hp)
      obtain ⟨-, -, h3, -⟩ := h.last h1 hp
      obtain ⟨-, -, h4, -⟩ := h'.last h1 hp
      exact h3.unique h4

/-- There is one ruling. -/
theorem Spec.Ruling.unique {E : Env} {rules : List Rule} {l : List Step} {ph : Phase} {e : Evt} {a a' : Action} {w w' : Withs}
    (h : Ruling E rules l ph e a w) (h' : Ruling E rules l ph e a' w') : a = a' ∧ w = w' := by
  cases h with
  | late h1 h2 h3 =>
    cases h' with
    | late _ _ k3 => exact h3.unique k3
    | null k => exact absurd k h2
    | plain k =>
      rcases k with k | k | k
      · exact absurd k h1
      · exact absurd k h2
      · exact absurd h3 (k _ _)
  | null h1 h2 h3 h4 =>
    cases h' with
    | late _ k => exact absurd h1 k
    | null => exact ⟨rfl, rfl⟩
    | plain _ k1 k2 =>
      obtain ⟨rfl, rfl⟩ := h3.unique k1
      exact absurd ⟨h1, h2, h4⟩ k2
  | plain h1 h2 h3 =>
    cases h' with
    | late k1 k2 k3 =>
      rcases h1 with k | k | k
      · exact absurd k k1
      · exact absurd k k2
      · exact absurd k3 (k _ _)
    | null k1 k2 k3 k4 =>
      obtain ⟨rfl, rfl⟩ := h2.unique k3
      exact absurd ⟨k1, k2, k4⟩ h3
    | plain _ k2 => exact h2.unique k2

/-! ## What a step does -/

/-- What a step does to the context: nothing, or the decision on connecting, or a decision that was asked for. -/
inductive AskStep (E : Env) (st : Step) : Prop
  | quiet : st.asked = none → st.pre.pc ≠ .connect → st.post.c = st.pre.c → AskStep E st
  | connect {a c1 d tr'} : st.asked = none → st.pre.pc = .connect →
      Decide E.W (st.pre.withRdns E).trans.r .connect {} (st.pre.withRdns E).c = .ok (a, c1) →
      st.post.c = { c1 with dnsblhit := d, trace := tr' } → AskStep E st
  | asked {ph e id a c1 d tr'} : st.asked = some (ph, e, id) → st.pre.pc ≠ .tls → st.pre.pc ≠ .connect →
      Decide E.W st.pre.trans.r ph e st.pre.c = .ok (a, c1) →
      st.post.c = { c1 with dnsblhit := d, trace := tr' } → AskStep E st

theorem Did.askStep {cf : Conf} {E : Env} {s s' : Sess} {sh sh' : Shared} {i : Inp} {o : List Out} (h : Did cf E s sh i s' sh' o) :
    AskStep E ⟨s, i, sh, s', sh', o⟩ := by
  cases h with
  | tls hp ht _ => unfold tlsStep at ht; cases ht; exact .quiet (by simp [Step.asked, hp]) (by simp [hp]) rfl
  | drop hp hd | connect hp hd =>
    obtain ⟨d, tr, hc⟩ := hd.ctx
    exact .connect (by simp [Step.asked, hp]) hp hd.dec hc
  | heloRef hp he hd | mailRef hp he hd | rcptRef hp he hd | dataRef hp he hd
  | heloAcc hp he hd | mailAcc hp he hd | mailCount hp he hd | mailDrop hp he hd | rcptAcc hp he hd | dataAcc hp he hd =>
    obtain ⟨d, tr, hc⟩ := hd.ctx
    exact .asked (by simp only [Step.asked, hp, he]; rfl) (by simp [hp]) (by simp [hp]) hd.dec hc
  | answerRef hp hd | answerAcc hp hd =>
    obtain ⟨d, tr, hc⟩ := hd.ctx
    exact .asked (by simp only [Step.asked, hp]; rfl) (by simp [hp]) (by simp [hp]) hd.dec hc
  | gotKeep hp he | gotSave hp he | tlserror hp he | other hp he => exact .quiet (by simp [Step.asked, hp, he]) (by simp [hp]) rfl
  | finish hp he => refine .quiet ?_ (by simp [hp]) rfl; rcases he with ⟨he, _⟩ | ⟨he, _⟩ <;> simp [Step.asked, hp, he]
  | save hp | answerFail hp | closed hp => exact .quiet (by simp [Step.asked, hp]) (by simp [hp]) rfl

theorem rdnsLoop_static {W : World} (hs : W.Static) (ip : Option IP) : ∀ (names : List Str) (r : RDNS) (t t' : Trace),
    (rdnsLoop W ip names r t).1 = (rdnsLoop W ip names r t').1 := by
  intro names
  induction names with
  | nil => intro r t t'; rfl
  | cons n names ih =>
    intro r t t'
    simp only [rdnsLoop, hs.lookupIP t.length, hs.lookupIP t'.length]
    split
    · exact ih _ _ _
    · split <;> exact ih _ _ _

theorem lookupAddrVerified_static {W : World} (hs : W.Static) (ip : Str) (t : Trace) :
    (lookupAddrVerified W ip t).1 = (lookupAddrVerified W ip []).1 := by
  unfold lookupAddrVerified
  split
  · rfl
  · simp only [hs.lookupAddr t.length, hs.lookupAddr ([] : Trace).length]
    split
    · rfl
    · exact rdnsLoop_static hs _ _ _ _ _

/-! ## The invariant -/

theorem hits_rcpt {W : World} {tr : TransR} {m : Mail} {x : Str} {ph : Phase} {r : Rule} {w : Withs} (hp : ph < .rto)
    (hr : needsC r.clauses ≤ r.requires) : Hits W tr { m with rcptto := x } ph r w ↔ Hits W tr m ph r w := by
  unfold Hits RuleTo
  have h1 : ¬ (ph > .rto ∧ r.requires ≥ .rto) := fun h => absurd (Nat.lt_trans hp h.1) (Nat.lt_irrefl _)
  rw [if_neg h1, if_neg h1]
  refine and_congr_right fun he => ?_
  have hn : needsC r.clauses < .rto := Nat.lt_of_le_of_lt (Nat.le_trans hr he.1) hp
  exact ⟨clausesTo_rcpt hn, fun h => clausesTo_rcpt (x := m.rcptto) hn h⟩

theorem firstMatch_rcpt {W : World} {tr : TransR} {m : Mail} {x : Str} {ph : Phase} {rules used : List Rule} {a : Action} (hp : ph < .rto)
    (hr : ∀ r ∈ rules, needsC r.clauses ≤ r.requires) (h : FirstMatch W tr { m with rcptto := x } ph rules used a) :
    FirstMatch W tr m ph rules used a := by
  rcases h with ⟨h1, h2, h3⟩ | ⟨pre, r, post, w, rfl, h2, h3, h4, h5, h6⟩
  · exact .inl ⟨h1, h2, fun q hq hd w hh => h3 q hq hd w ((hits_rcpt hp (hr q hq)).2 hh)⟩
  · exact .inr ⟨pre, r, post, w, rfl, h2, h3, (hits_rcpt hp (hr r (by simp))).1 h4, h5,
      fun q hq hd w hh => h6 q hq hd w ((hits_rcpt hp (hr q (by simp [hq]))).2 hh)⟩

theorem lastGiven_rcpt {W : World} {tr : TransR} {m : Mail} {x : Str} {ph : Phase} {k : WKey} {rs : List Rule} {v : Option Str} (hp : ph < .rto)
    (hr : ∀ r ∈ rs, needsC r.clauses ≤ r.requires) (h : LastGiven W tr { m with rcptto := x } ph k rs v) : LastGiven W tr m ph k rs v := by
  rcases h with ⟨pre, r, post, w, y, rfl, h1, h2, h3, h4⟩ | ⟨h1, h2⟩
  · exact .inl ⟨pre, r, post, w, y, rfl, (hits_rcpt hp (hr r (by simp))).1 h1, h2, h3,
      fun q hq w hh => h4 q hq w ((hits_rcpt hp (hr q (by simp [hq]))).2 hh)⟩
  · exact .inr ⟨h1, fun q hq w hh => h2 q hq w ((hits_rcpt hp (hr q hq)).2 hh)⟩

theorem FirstMatch.used_sub {W : World} {tr : TransR} {m : Mail} {ph : Phase} {rules used : List Rule} {a : Action}
    (h : FirstMatch W tr m ph rules used a) : ∀ r ∈ used, r ∈ rules := by
  rcases h with ⟨_, rfl, _⟩ | ⟨pre, r, post, w, rfl, rfl, _⟩
  · exact fun _ h => h
  · intro q hq; simp only [List.mem_append, List.mem_singleton, List.mem_cons] at hq ⊢; tauto

/-- The context of a connection in terms of its history. -/
structure Tells (E : Env) (rules : List Rule) (l : List Step) (c : Ctx) : Prop where
  ruleset : c.ruleset = rules
  cache : CacheOK E.W c
  isHelo : c.isHelo = (heard l).isHelo
  heloname : c.heloname = (heard l).heloname
  from_ : c.from_ = (heard l).from_
  def_ : c.defresult = .error ∧ (∀ a w, ¬ Waiting E rules l a w) ∨ Refuses c.defresult ∧ Waiting E rules l c.defresult c.defprops

theorem Tells.mail {E : Env} {rules : List Rule} {l : List Step} {c : Ctx} (h : Tells E rules l c) :
    (heard l) = { c.mail with rcptto := (heard l).rcptto } := by
  simp [Ctx.mail, h.isHelo, h.heloname, h.from_]

theorem said_rcpt (m : Mail) (x : Str) (ph : Phase) (e : Evt) :
    ({ m with rcptto := x } : Mail).said ph e = { m.said ph e with rcptto := (({ m with rcptto := x } : Mail).said ph e).rcptto } := by
  cases ph <;> rfl

theorem said_same (m : Mail) (x : Str) {ph : Phase} (hp : ph = .rto ∨ ph = .data ∨ ph = .message) (e : Evt) :
    ({ m with rcptto := x } : Mail).said ph e = m.said ph e := by
  rcases hp with rfl | rfl | rfl <;> rfl

/-- In a phase with a command, what the rules say does not depend on the recipient left in the context. -/
theorem Tells.says {E : Env} {rules : List Rule} {l : List Step} {c : Ctx} (h : Tells E rules l c)
    (hr : ∀ r ∈ rules, needsC r.clauses ≤ r.requires) {ph : Phase} {e : Evt} (hp : ph = .helo ∨ ph = .mfrom ∨ ph = .rto ∨ ph = .data ∨ ph = .message)
    {used : List Rule} {a : Action} {w : Withs} (h1 : FirstMatch E.W (facts E l) (c.mail.said ph e) ph rules used a)
    (h2 : ∀ k : WKey, LastGiven E.W (facts E l) (c.mail.said ph e) ph k used (k.of w)) : Says1 E rules l ph e a w := by
  by_cases hl : ph < .rto
  · have key : c.mail.said ph e = { (heard l).said ph e with rcptto := (c.mail.said ph e).rcptto } := by
      rw [h.mail]; rcases hp with rfl | rfl | rfl | rfl | rfl <;> rfl
    rw [key] at h1 h2
    have h3 := firstMatch_rcpt hl hr h1
    exact ⟨used, h3, fun k => lastGiven_rcpt hl (fun r hx => hr r (h3.used_sub r hx)) (h2 k)⟩
  · have hp' : ph = .rto ∨ ph = .data ∨ ph = .message := by
      rcases hp with rfl | rfl | rfl | rfl | rfl
      · exact absurd (by decide) hl
      · exact absurd (by decide) hl
      · simp
      · simp
      · simp
    have key : (heard l).said ph e = c.mail.said ph e := by
      rw [h.mail]; exact said_same _ _ hp' e
    refine ⟨used, ?_, fun k => ?_⟩
    · rw [key]; exact h1
    · rw [key]; exact h2 k

/-- What the rules say, and what becomes of it, when no refusal is waiting. -/
theorem Tells.fresh {E : Env} (hs : E.W.Static) {rules : List Rule} (hr : ∀ r ∈ rules, FromParse r) {l : List Step} {c c1 : Ctx}
    (h : Tells E rules l c) {ph : Phase} {e : Evt} (hp : ph = .helo ∨ ph = .mfrom ∨ ph = .rto ∨ ph = .data ∨ ph = .message) {a : Action}
    (hd : Decide E.W (facts E l) ph e c = .ok (a, c1)) (hn : NoPending ph c) :
    ∃ ret wp, Says1 E rules l ph e ret wp ∧
      ((¬ (ph = .mfrom ∧ e.arg = [] ∧ Refuses ret) ∧ a = ret ∧ c1.withprops = wp ∧ c1.frame = (shadow ph e c).frame) ∨
       (ph = .mfrom ∧ e.arg = [] ∧ Refuses ret ∧ a = .accept ∧ c1.withprops = {} ∧ c1.defprops = wp ∧ c1.defresult = ret)) := by
  have hany : ph ≠ .any := by rcases hp with rfl | rfl | rfl | rfl | rfl <;> simp
  obtain ⟨used, ret, wp, h1, h2, h3⟩ := decide_ctx hs (fun r hx => hr r (h.ruleset ▸ hx)) h.cache hany hn hd
  rw [h.ruleset] at h1
  exact ⟨ret, wp, h.says (fun r hx => (hr r hx).le) hp h1 h2, h3⟩

theorem later_phase {ph : Phase} (hp : ph = .helo ∨ ph = .mfrom ∨ ph = .rto ∨ ph = .data ∨ ph = .message) (n1 : ph ≠ .helo) (n2 : ph ≠ .mfrom) :
    ph ∈ [Phase.rto, .data, .message] := by
  rcases hp with rfl | rfl | rfl | rfl | rfl
  · exact absurd rfl n1
  · exact absurd rfl n2
  all_goals simp

/-- A decision is the ruling of the history. -/
theorem Tells.ruling {E : Env} (hs : E.W.Static) {rules : List Rule} (hr : ∀ r ∈ rules, FromParse r) {l : List Step} {c c1 : Ctx}
    (h : Tells E rules l c) {ph : Phase} {e : Evt} (hp : ph = .helo ∨ ph = .mfrom ∨ ph = .rto ∨ ph = .data ∨ ph = .message) {a : Action}
    (hd : Decide E.W (facts E l) ph e c = .ok (a, c1)) : Ruling E rules l ph e a c1.withprops := by
  by_cases hn : NoPending ph c
  · obtain ⟨ret, wp, hsay, h3⟩ := h.fresh hs hr hp hd hn
    rcases h3 with ⟨k1, rfl, k3, -⟩ | ⟨k1, k2, k3, rfl, k4, -⟩
    · rw [k3]
      refine .plain ?_ hsay k1
      rcases hn with hn | hn | hn
      · exact .inl hn
      · exact .inr (.inl hn)
      · rcases h.def_ with hx | hx
        · exact .inr (.inr hx.2)
        · rw [hn] at hx; rcases hx.1 with hx | hx <;> cases hx
    · rw [k4]; exact .null k1 k2 hsay k3
  · simp only [NoPending, not_or] at hn
    obtain ⟨n1, n2, n3⟩ := hn
    rcases h.def_ with hx | ⟨hx, hw⟩
    · exact absurd hx.1 n3
    · rw [pending_step (later_phase hp n1 n2) (Nat.le_of_lt (refuses_iff.2 hx))] at hd
      simp only [Except.ok.injEq, Prod.mk.injEq] at hd
      obtain ⟨rfl, rfl⟩ := hd
      exact .late n1 n2 hw

/-- The context only differs in the last blocklist hits and the trace. -/
theorem Tells.same {E : Env} {rules : List Rule} {l : List Step} {c : Ctx} (h : Tells E rules l c) (d : List Str) (t : Trace) :
    Tells E rules l { c with dnsblhit := d, trace := t } :=
  ⟨h.ruleset, ⟨h.cache.files, h.cache.dnsbl, h.cache.domvalid⟩, h.isHelo, h.heloname, h.from_, h.def_⟩

theorem heard_snoc (l : List Step) (st : Step) : heard (l ++ [st]) = hear (heard l) st := by
  unfold heard; rw [List.foldl_append]; rfl

theorem Decide_said {W : World} {tr : TransR} {ph : Phase} {e : Evt} {c c' : Ctx} {a : Action} (h : Decide W tr ph e c = .ok (a, c')) :
    c'.isHelo = (shadow ph e c).isHelo ∧ c'.heloname = (shadow ph e c).heloname ∧ c'.from_ = (shadow ph e c).from_ := by
  cases decide_end h with
  | pending => exact ⟨rfl, rfl, rfl⟩
  | plain _ hl =>
    have := (ruleLoop_steps hl).frame
    exact ⟨Ctx.isHelo_of_frame this, Ctx.heloname_of_frame this, Ctx.from_of_frame this⟩
  | defer _ hl =>
    have := (ruleLoop_steps hl).frame
    have h1 := Ctx.isHelo_of_frame this
    have h2 := Ctx.heloname_of_frame this
    have h3 := Ctx.from_of_frame this
    exact ⟨h1, h2, h3⟩

/-- After a decision the context tells the longer history. -/
theorem Tells.asked {E : Env} (hs : E.W.Static) {rules : List Rule} (hr : ∀ r ∈ rules, FromParse r) {l : List Step} {c c1 : Ctx}
    (h : Tells E rules l c) {ph : Phase} {e : Evt} {id : Str} (hp : ph = .helo ∨ ph = .mfrom ∨ ph = .rto ∨ ph = .data ∨ ph = .message)
    {a : Action} (hd : Decide E.W (facts E l) ph e c = .ok (a, c1)) {st : Step} (ha : st.asked = some (ph, e, id)) :
    Tells E rules (l ++ [st]) c1 := by
  obtain ⟨hc, hrs⟩ := decide_cache hs h.cache hd
  obtain ⟨m1, m2, m3⟩ := Decide_said hd
  have hh : heard (l ++ [st]) = (heard l).said ph e := by rw [heard_snoc]; simp only [hear, ha]
  refine ⟨hrs.trans h.ruleset, hc, ?_, ?_, ?_, ?_⟩
  · rw [hh, m1]; rcases hp with rfl | rfl | rfl | rfl | rfl <;> first | rfl | exact h.isHelo
  · rw [hh, m2]; rcases hp with rfl | rfl | rfl | rfl | rfl <;> first | rfl | exact h.heloname
  · rw [hh, m3]; rcases hp with rfl | rfl | rfl | rfl | rfl <;> first | rfl | exact h.from_
  · by_cases hq : ph = .helo ∨ ph = .mfrom
    · have hn : NoPending ph c := by rcases hq with hq | hq; exacts [.inl hq, .inr (.inl hq)]
      obtain ⟨ret, wp, hsay, h3⟩ := h.fresh hs hr hp hd hn
      rcases h3 with ⟨k1, rfl, k3, k4⟩ | ⟨rfl, k2, k3, rfl, k4, k5, k6⟩
      · refine .inl ⟨?_, fun a' w' hw => ?_⟩
        · rw [Ctx.defresult_of_frame k4]; rcases hq with rfl | rfl <;> rfl
        · obtain ⟨j1, j2, j3, j4⟩ := hw.last ha hq
          obtain ⟨rfl, rfl⟩ := hsay.unique j3
          exact k1 ⟨j1, j2, j4⟩
      · refine .inr ⟨k6 ▸ k3, ?_⟩
        rw [k5, k6]
        obtain ⟨b, arg⟩ := e
        simp only at k2
        subst k2
        exact ⟨l, st, [], b, id, rfl, ha, hsay, k3, fun _ h => by cases h⟩
    · rw [not_or] at hq
      have hw : ∀ a w, Waiting E rules (l ++ [st]) a w ↔ Waiting E rules l a w := fun a w => Waiting.more_iff fun ph' e' id' h' => by
        rw [ha] at h'; cases h'; exact hq
      have hp' := later_phase hp hq.1 hq.2
      simp only [hw]
      rcases h.def_ with ⟨hx, hw⟩ | ⟨hx, hw⟩
      · obtain ⟨ret, wp, hsay, h3⟩ := h.fresh hs hr hp hd (.inr (.inr hx))
        rcases h3 with ⟨k1, rfl, k3, k4⟩ | ⟨rfl, -⟩
        · refine .inl ⟨?_, hw⟩
          rw [Ctx.defresult_of_frame k4, ← hx]
          simp only [List.mem_cons, List.not_mem_nil, or_false] at hp'
          rcases hp' with rfl | rfl | rfl <;> rfl
        · exact absurd rfl hq.2
      · rw [pending_step hp' (Nat.le_of_lt (refuses_iff.2 hx))] at hd
        simp only [Except.ok.injEq, Prod.mk.injEq] at hd
        obtain ⟨-, rfl⟩ := hd
        simp only [List.mem_cons, List.not_mem_nil, or_false] at hp'
        rcases hp' with rfl | rfl | rfl <;> exact .inr ⟨hx, hw⟩

/-- The decision on connecting leaves everything as it was: nothing was said before. -/
theorem Tells.connect {E : Env} (hs : E.W.Static) {rules : List Rule} {l : List Step} {c c1 : Ctx}
    (h : Tells E rules l c) (h0 : c.defresult = .error) {tr : TransR} {a : Action} (hd : Decide E.W tr .connect {} c = .ok (a, c1)) :
    Tells E rules l c1 := by
  obtain ⟨hc, hrs⟩ := decide_cache hs h.cache hd
  obtain ⟨m1, m2, m3⟩ := Decide_said hd
  refine ⟨hrs.trans h.ruleset, hc, m1.trans h.isHelo, m2.trans h.heloname, m3.trans h.from_, ?_⟩
  rcases h.def_ with ⟨hx, hw⟩ | ⟨hx, -⟩
  · refine .inl ⟨?_, hw⟩
    cases decide_end hd with
    | pending hp => rw [show (shadow .connect {} c).defresult = c.defresult from rfl, hx] at hp; exact absurd hp (by decide)
    | plain _ hl => exact (Ctx.defresult_of_frame (ruleLoop_steps hl).frame).trans hx
    | defer _ _ hm => cases hm
  · rw [h0] at hx; rcases hx with hx | hx <;> cases hx

/-- A step that asks nothing. -/
theorem Tells.none {E : Env} {rules : List Rule} {l : List Step} {c : Ctx} (h : Tells E rules l c) {st : Step} (ha : st.asked = none) :
    Tells E rules (l ++ [st]) c := by
  have hh : heard (l ++ [st]) = heard l := by rw [heard_snoc]; simp only [hear, ha]
  refine ⟨h.ruleset, h.cache, hh ▸ h.isHelo, hh ▸ h.heloname, hh ▸ h.from_, ?_⟩
  have hw : ∀ a w, Waiting E rules (l ++ [st]) a w ↔ Waiting E rules l a w := fun a w => Waiting.more_iff fun ph' e' id' h' => by
    rw [ha] at h'; cases h'
  simp only [hw]
  exact h.def_

/-! ## The facts of the connection -/

theorem DecR.tlson {E : Env} {ph : Phase} {evt : Evt} {id : Str} {s s' : Sess} {ref : Bool} {o : List Out} {res : Action} {c1 : Ctx}
    (h : DecR E ph evt id s ref s' o res c1) : s'.trans.tlson = s.trans.tlson ∧ s'.trans.lip = s.trans.lip := by
  obtain ⟨m, a, ht⟩ := h.trans
  rw [ht]
  exact ⟨rfl, rfl⟩

theorem gotTrans_lip (H : Hashes) (arg : Str) (i : Inp) (t : Trans) : (gotTrans H arg i t).lip = t.lip := by
  unfold gotTrans; simp only; split <;> rfl

theorem Did.noticed {cf : Conf} {E : Env} {s s' : Sess} {sh sh' : Shared} {i : Inp} {o : List Out} (h : Did cf E s sh i s' sh' o) :
    s'.trans.tlson = tlsNoticed s.trans.tlson ⟨s, i, sh, s', sh', o⟩ ∧ s'.trans.lip = s.trans.lip := by
  unfold tlsNoticed Step.event Step.accepted
  cases h with
  | tls hp ht _ => unfold tlsStep at ht; cases ht; simp [hp]
  | drop hp hd => simp only [hp, reduceCtorEq, if_false]; exact hd.tlson
  | connect hp hd => simp only [hp, reduceCtorEq, if_false]; exact hd.tlson
  | heloRef hp he hd =>
    simp only [hp, if_true, he]
    rcases hd.refused (by decide) with hr | hr <;> simpa [replies, hr] using hd.tlson
  | heloAcc hp he hd hq =>
    have h0 : replies (.count .ehlo :: _ ++ _) = [] := quiet_append (a := .count .ehlo :: _) hd.quiet hq
    simp only [hp, if_true, he, h0, decide_true]
    exact ⟨congrArg (· || i.tls.on) hd.tlson.1, hd.tlson.2⟩
  | mailRef hp he hd | rcptRef hp he hd | dataRef hp he hd => simp only [hp, if_true, he]; exact hd.tlson
  | mailAcc hp he hd | mailCount hp he hd | mailDrop hp he hd | rcptAcc hp he hd | dataAcc hp he hd =>
    simp only [hp, if_true, he]; exact hd.tlson
  | gotKeep hp he | gotSave hp he =>
    simp only [hp, if_true, he]
    exact ⟨(gotTrans_kept E.H _ i s.trans).2.2.2.2.2.1, gotTrans_lip E.H _ i s.trans⟩
  | tlserror hp he | other hp he => simp [hp, he]
  | finish hp he => rcases he with ⟨he, _⟩ | ⟨he, _⟩ <;> simp [hp, he]
  | save hp | answerFail hp | closed hp => simp [hp]
  | answerRef hp hd | answerAcc hp hd => simp only [hp, reduceCtorEq, if_false]; exact hd.tlson

theorem life_noticed {cf : Conf} {E : Env} {l : List Step} {s : Sess} (h : Life cf E l s) :
    s.trans.tlson = l.foldl tlsNoticed false ∧ s.trans.lip = E.lip := by
  obtain ⟨sh0, i0, s0, sh1, o1, hst, hr⟩ := h
  obtain ⟨b, hb⟩ := startSess_clean hst
  refine Spec.Run.ind (P := fun l s => s.trans.tlson = l.foldl tlsNoticed false ∧ s.trans.lip = E.lip) hr ?_ ?_
  · rw [hb]; exact ⟨rfl, rfl⟩
  · intro l s1 s2 sh sh' i o _ ih hd _
    obtain ⟨h1, h2⟩ := hd.noticed
    refine ⟨?_, h2.trans ih.2⟩
    rw [List.foldl_append, ← ih.1]
    exact h1

/-- Once the connection is set up the rules see the facts. -/
theorem life_facts {cf : Conf} {E : Env} (hs : E.W.Static) {l : List Step} {s : Sess} (h : Life cf E l s) (h1 : s.pc ≠ .tls) (h2 : s.pc ≠ .connect) :
    s.trans.r = facts E l := by
  have hk := life_known h
  obtain ⟨q, -, -, hq⟩ := hk.dns h1 h2
  obtain ⟨h3, h4⟩ := life_noticed h
  have h5 := (C33_rules_see h).1
  unfold facts Trans.r
  rw [hk.rip, h4, hq, lookupAddrVerified_static hs, h3]
  congr 1

/-- On connecting too, as soon as the names have been looked up. -/
theorem life_facts_connect {cf : Conf} {E : Env} (hs : E.W.Static) {l : List Step} {s : Sess} (h : Life cf E l s) :
    (s.withRdns E).trans.r = facts E l := by
  have hk := life_known h
  obtain ⟨h3, h4⟩ := life_noticed h
  have h5 := (C33_rules_see h).1
  unfold facts Trans.r Sess.withRdns
  simp only
  rw [hk.rip, h4, lookupAddrVerified_static hs, h3]
  congr 1

end Sink
