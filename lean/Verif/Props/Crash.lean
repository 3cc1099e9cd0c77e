import Verif.Lemmas.Server
import Verif.Lemmas.Crash
import Verif.Spec.DemoSession

/-!
# C47: crashes

A run-time panic in one connection ends the whole server.
-/

namespace Sink
open Spec Gram

/-- A connection in which nothing can go wrong. -/
structure SCalm (E : Env) (rules : List Rule) (log : Bool) (s : Sess) : Prop where
  c : Settled E.W (FourParts E.rip) (log = true) s.c
  rules : s.c.ruleset = rules
  rip : s.trans.rip = E.rip
  rdns : NamesOK s.trans.rdns
  log : s.trans.hasLog = log

theorem getSBLHits_ok (W : World) {rip : Str} (h : FourParts rip) (t : Trace) : ∃ x, getSBLHits W rip t = .ok x := by
  obtain ⟨a, b, c, d, l, h⟩ := h
  unfold getSBLHits
  rw [h]
  simp only
  split <;> exact ⟨_, rfl⟩

theorem logSbls_ok (W : World) {rip : Str} : ∀ {hs : List Str} {t : Trace}, (FourParts rip ∨ sblName ∉ hs) → ∃ x, logSbls W rip hs t = .ok x
  | [], t, _ => ⟨_, rfl⟩
  | x :: xs, t, h => by
    have hr : FourParts rip ∨ sblName ∉ xs := h.imp id fun h hm => h (List.mem_cons_of_mem _ hm)
    rw [logSbls]
    split
    · rename_i hx
      have h4 : FourParts rip := h.resolve_right fun hn => hn (by rw [hx]; exact List.mem_cons_self)
      obtain ⟨a, ha⟩ := getSBLHits_ok W h4 t
      obtain ⟨b, hb⟩ := logSbls_ok W (t := a.2) hr
      simp only [ha, hb, bind, Except.bind, pure, Except.pure]
      split <;> exact ⟨_, rfl⟩
    · exact logSbls_ok W hr

theorem logDnsbls_ok {W : World} {t : Trans} {c : Ctx} (h : FourParts t.rip ∨ sblName ∉ c.dnsblhit) : ∃ x, logDnsbls W t c = .ok x := by
  unfold logDnsbls
  split
  · exact ⟨_, rfl⟩
  · simp only
    split
    · exact ⟨_, rfl⟩
    · obtain ⟨x, hx⟩ := logSbls_ok W (rip := t.rip) (hs := sortStrs c.dnsblhit) (t := c.trace)
        (h.imp id fun h hm => h ((sortStrs_perm _).mem_iff.1 hm))
      rw [hx]
      exact ⟨_, rfl⟩

theorem logNote_ok {t : Trans} {c : Ctx} (h : t.hasLog = true ∨ c.withprops.note.getD [] = []) : ∃ x, logNote t c = .ok x := by
  unfold logNote
  split
  · exact ⟨_, rfl⟩
  · rename_i n hn
    split
    · exact ⟨_, rfl⟩
    · rename_i hne
      rcases h with h | h
      · unfold logWrite; rw [h]; exact ⟨_, rfl⟩
      · rw [hn] at h; exact absurd h hne

theorem decider_calm {E : Env} {rules : List Rule} {log : Bool} {s : Sess} (hr : RulesSafe (FourParts E.rip) (log = true) rules)
    (h : SCalm E rules log s) (ph : Phase) (evt : Evt) (id : Str) :
    ∃ ref s' o, decider E ph evt id s = .ok (ref, s', o) ∧ SCalm E rules log s' := by
  obtain ⟨a, c1, h1, h2, h3⟩ := Decide_ok (W := E.W) (tr := s.trans.r) (log := log = true) (ph := ph) (e := evt) (c := s.c) h.rdns
    (by show RulesSafe (FourParts s.trans.rip) _ _; rw [h.rip, h.rules]; exact hr)
    (by show Settled _ (FourParts s.trans.rip) _ _; rw [h.rip]; exact h.c)
  have hne := decide_valid h1
  have hok : ∃ x, decider E ph evt id s = .ok x := by
    obtain ⟨⟨t1, c2, o1⟩, h4⟩ := logDnsbls_ok (W := E.W) (t := s.trans) (c := c1) h2.hits
    obtain ⟨-, ⟨m, ht1⟩, d, tr, hc2⟩ := logDnsbls_frame h4
    obtain ⟨-, a2, ht2⟩ := logDomerr_frame t1 c2
    have h5 : ∀ t : Trans, t.hasLog = log → ∃ x, logNote t c2 = .ok x := fun t ht => logNote_ok (by
      rw [ht, hc2]; exact h2.note)
    unfold decider
    simp only [h1, h4, bind, Except.bind, pure, Except.pure]
    generalize hx : (if c2.withprops.savedir.getD [] ≠ [] then { (logDomerr t1 c2).1 with savedir := c2.withprops.savedir.getD [] } else (logDomerr t1 c2).1) = t3
    have ht3 : t3.hasLog = log := by
      rw [← hx]
      split <;> (rw [ht2, ht1]; exact h.log)
    obtain ⟨o3, ho3⟩ := h5 t3 ht3
    simp only [ho3]
    split
    · exact ⟨_, rfl⟩
    · split
      · exact ⟨_, rfl⟩
      · rename_i hn _
        cases a with
        | error => exact absurd rfl hne
        | noresult => exact absurd (.inl rfl) hn
        | accept => exact absurd (.inr rfl) hn
        | stall => exact ⟨_, rfl⟩
        | reject => exact ⟨_, rfl⟩
  obtain ⟨⟨ref, s', o⟩, hok⟩ := hok
  refine ⟨ref, s', o, hok, ?_⟩
  obtain ⟨res, c1', hd⟩ := decider_did hok
  have hd0 := hd.dec
  rw [h1] at hd0
  cases hd0
  obtain ⟨d, tr, hc⟩ := hd.ctx
  obtain ⟨m, a2, ht⟩ := hd.trans
  obtain ⟨hfr, -, -⟩ := Decide_frame h1
  have h3' : Settled E.W (FourParts E.rip) (log = true) c1 := by
    have : Settled E.W (FourParts s.trans.rip) (log = true) c1 := h3
    rw [h.rip] at this; exact this
  refine ⟨?_, ?_, ?_, ?_, ?_⟩
  · rw [hc]; exact ⟨h3'.files, h3'.defhits, h3'.defnote⟩
  · rw [hc]; exact hfr.trans h.rules
  · rw [ht]; exact h.rip
  · rw [ht]; exact h.rdns
  · rw [ht]; exact h.log

theorem rdnsLoop_nonempty {W : World} {eip : Option IP} : ∀ {names : List Str} {r : RDNS} {t : Trace}, (∀ n ∈ names, n ≠ []) → NamesOK r →
    NamesOK (rdnsLoop W eip names r t).1
  | [], _, _, _, h => h
  | x :: xs, r, t, hx, h => by
    have hx' : ∀ n ∈ xs, n ≠ [] := fun n hn => hx n (List.mem_cons_of_mem _ hn)
    have h0 := hx x List.mem_cons_self
    rw [rdnsLoop]
    split
    · refine rdnsLoop_nonempty hx' fun n hn => ?_
      simp only [List.mem_append, List.mem_singleton] at hn
      rcases hn with hn | (hn | hn) | hn
      · exact h n (.inl hn)
      · exact h n (.inr (.inl hn))
      · rw [hn]; exact h0
      · exact h n (.inr (.inr hn))
    · split
      · refine rdnsLoop_nonempty hx' fun n hn => ?_
        simp only [List.mem_append, List.mem_singleton] at hn
        rcases hn with (hn | hn) | hn | hn
        · exact h n (.inl hn)
        · rw [hn]; exact h0
        · exact h n (.inr (.inl hn))
        · exact h n (.inr (.inr hn))
      · refine rdnsLoop_nonempty hx' fun n hn => ?_
        simp only [List.mem_append, List.mem_singleton] at hn
        rcases hn with hn | hn | hn | hn
        · exact h n (.inl hn)
        · exact h n (.inr (.inl hn))
        · exact h n (.inr (.inr hn))
        · rw [hn]; exact h0

/-- Reverse lookups never give an empty name. -/
def NoEmptyNames (W : World) : Prop := ∀ n ip l, W.lookupAddr n ip = .ok l → [] ∉ l

theorem lookupAddrVerified_names {W : World} (hW : NoEmptyNames W) (ip : Str) (t : Trace) : NamesOK (lookupAddrVerified W ip t).1 := by
  have h0 : NamesOK {} := by intro n hn; simp at hn
  unfold lookupAddrVerified
  split
  · exact h0
  · simp only
    split
    · exact h0
    · rename_i names hl
      exact rdnsLoop_nonempty (fun n hn he => hW _ _ _ hl (by rw [← he]; exact (sortStrs_perm _).mem_iff.1 hn)) h0

theorem gotTrans_keeps (H : Hashes) (arg : Str) (i : Inp) (t : Trans) :
    (gotTrans H arg i t).rip = t.rip ∧ (gotTrans H arg i t).rdns = t.rdns ∧ (gotTrans H arg i t).hasLog = t.hasLog := by
  unfold gotTrans
  simp only
  split <;> exact ⟨rfl, rfl, rfl⟩

/-- A step of such a connection succeeds and leads to such a connection. -/
theorem sstep_calm {cf : Conf} {E : Env} {rules : List Rule} {log : Bool} {s : Sess} (hr : RulesSafe (FourParts E.rip) (log = true) rules)
    (hW : NoEmptyNames E.W) (hh : cf.hashtype = b!"msg" ∨ cf.hashtype = b!"full" ∨ cf.hashtype = b!"all") (h : SCalm E rules log s)
    (sh : Shared) (i : Inp) : ∃ s' sh' o, sstep cf E s sh i = .ok (s', sh', o) ∧ SCalm E rules log s' := by
  have keep : ∀ {s' : Sess}, s'.c = s.c → s'.trans = s.trans → SCalm E rules log s' := fun hc ht =>
    ⟨by rw [hc]; exact h.c, by rw [hc]; exact h.rules, by rw [ht]; exact h.rip, by rw [ht]; exact h.rdns, by rw [ht]; exact h.log⟩
  unfold sstep
  split
  · exact ⟨_, _, _, rfl, keep rfl rfl⟩
  · have hw : SCalm E rules log (s.withRdns E) :=
      ⟨⟨h.c.files, h.c.defhits, h.c.defnote⟩, h.rules, h.rip, lookupAddrVerified_names hW _ _, h.log⟩
    obtain ⟨ref, s', o, h1, h2⟩ := decider_calm hr hw .connect {} []
    rw [connectStep_eq, h1]
    simp only [Except.bind]
    split
    · exact ⟨_, _, _, rfl, h2.c, h2.rules, h2.rip, h2.rdns, h2.log⟩
    · exact ⟨_, _, _, rfl, h2.c, h2.rules, h2.rip, h2.rdns, h2.log⟩
  · unfold eventStep
    split
    · rename_i hel arg _
      obtain ⟨ref, s', o, h1, h2⟩ := decider_calm hr h .helo ⟨hel, arg⟩ []
      unfold heloStep
      simp only [h1, bind, Except.bind, pure, Except.pure]
      split
      · exact ⟨_, _, _, rfl, h2⟩
      · split
        · exact ⟨_, _, _, rfl, h2.c, h2.rules, h2.rip, h2.rdns, h2.log⟩
        · exact ⟨_, _, _, rfl, h2.c, h2.rules, h2.rip, h2.rdns, h2.log⟩
    · rename_i arg _
      obtain ⟨ref, s', o, h1, h2⟩ := decider_calm hr h .mfrom ⟨false, arg⟩ []
      unfold mailStep
      simp only [h1, bind, Except.bind, pure, Except.pure]
      split
      · exact ⟨_, _, _, rfl, h2⟩
      · split
        · split
          · exact ⟨_, _, _, rfl, h2.c, h2.rules, h2.rip, h2.rdns, h2.log⟩
          · exact ⟨_, _, _, rfl, h2.c, h2.rules, h2.rip, h2.rdns, h2.log⟩
        · exact ⟨_, _, _, rfl, h2.c, h2.rules, h2.rip, h2.rdns, h2.log⟩
    · rename_i arg _
      obtain ⟨ref, s', o, h1, h2⟩ := decider_calm hr h .rto ⟨false, arg⟩ []
      unfold rcptStep
      simp only [h1, bind, Except.bind, pure, Except.pure]
      split
      · exact ⟨_, _, _, rfl, h2⟩
      · exact ⟨_, _, _, rfl, h2.c, h2.rules, h2.rip, h2.rdns, h2.log⟩
    · obtain ⟨ref, s', o, h1, h2⟩ := decider_calm hr h .data {} []
      unfold dataStep
      simp only [h1, bind, Except.bind, pure, Except.pure]
      split
      · exact ⟨_, _, _, rfl, h2⟩
      · exact ⟨_, _, _, rfl, h2.c, h2.rules, h2.rip, h2.rdns, h2.log⟩
    · rename_i arg _
      obtain ⟨k1, k2, k3⟩ := gotTrans_keeps E.H arg i s.trans
      have hg : ∀ p, SCalm E rules log { s with gotsomewhere := s.gotsomewhere || decide (cf.minphase = b!"message"), trans := gotTrans E.H arg i s.trans, pc := p } :=
        fun p => ⟨h.c, h.rules, k1.trans h.rip, by show NamesOK (gotTrans E.H arg i s.trans).rdns; rw [k2]; exact h.rdns, k3.trans h.log⟩
      unfold gotStep
      simp only
      split
      · exact ⟨_, _, _, rfl, hg _⟩
      · have hn : ∃ n, saveName E.H cf.hashtype E.prefix_ (gotTrans E.H arg i s.trans) = some n := by
          unfold saveName
          rcases hh with h | h | h <;> rw [h] <;> exact ⟨_, rfl⟩
        obtain ⟨n, hn⟩ := hn
        rw [hn]
        exact ⟨_, _, _, rfl, hg _⟩
    · exact ⟨_, _, _, rfl, keep rfl rfl⟩
    · have he := endStep_sess cf E s sh i
      generalize endStep cf E s sh i = x at he
      exact ⟨_, _, _, rfl, keep (by rw [he]) (by rw [he])⟩
    · have he := endStep_sess cf E s sh i
      generalize endStep cf E s sh i = x at he
      exact ⟨_, _, _, rfl, keep (by rw [he]) (by rw [he])⟩
    · exact ⟨_, _, _, rfl, keep rfl rfl⟩
  · unfold openStep; split <;> exact ⟨_, _, _, rfl, keep rfl rfl⟩
  · unfold writeStep; simp only; split <;> exact ⟨_, _, _, rfl, keep rfl rfl⟩
  · unfold syncStep; simp only; split <;> exact ⟨_, _, _, rfl, keep rfl rfl⟩
  · unfold closeStep; split <;> exact ⟨_, _, _, rfl, keep rfl rfl⟩
  · rename_i id failed _
    unfold answerStep
    split
    · exact ⟨_, _, _, rfl, keep rfl rfl⟩
    · obtain ⟨ref, s', o, h1, h2⟩ := decider_calm hr h .message { arg := s.trans.data } id
      simp only [h1, bind, Except.bind, pure, Except.pure]
      split
      · exact ⟨_, _, _, rfl, h2.c, h2.rules, h2.rip, h2.rdns, h2.log⟩
      · exact ⟨_, _, _, rfl, h2.c, h2.rules, h2.rip, h2.rdns, h2.log⟩
  · exact ⟨_, _, _, rfl, keep rfl rfl⟩

/-- A rule that one of the rule files contains, whenever it is read. -/
def Loaded (cf : Conf) (E : Env) (r : Rule) : Prop := ∃ f ∈ cf.rulefiles, ∃ path rs, loadRules E.W.lib E.fs E.fds path f = .ok rs ∧ r ∈ rs

theorem accumAll_loaded {L : Lib} {fs : Files} {d : Nat} : ∀ {rf : List Str} {i : Nat} {base rules : List Rule},
    accumAll L fs d i base rf = .ok rules → ∃ more, rules = base ++ more ∧ ∀ r ∈ more, ∃ f ∈ rf, ∃ path rs, loadRules L fs d path f = .ok rs ∧ r ∈ rs := by
  intro rf
  induction rf with
  | nil => intro i base rules h; cases h; exact ⟨[], by simp, by simp⟩
  | cons f rf ih =>
    intro i base rules h
    rw [accumAll] at h
    cases ha : accumRules L fs d i base f with
    | error e => rw [ha] at h; cases h
    | ok r =>
      rw [ha] at h
      obtain ⟨m, hm, hl⟩ := ih h
      have hl' : ∀ r ∈ m, ∃ g ∈ f :: rf, ∃ path rs, loadRules L fs d path g = .ok rs ∧ r ∈ rs := fun r hr => by
        obtain ⟨g, hg, h⟩ := hl r hr
        exact ⟨g, List.mem_cons_of_mem _ hg, h⟩
      unfold accumRules at ha
      split at ha
      · cases ha; exact ⟨m, hm, hl'⟩
      · split at ha
        · rename_i rs hrs
          cases ha
          refine ⟨rs ++ m, by rw [hm, List.append_assoc], fun r hr => ?_⟩
          rcases List.mem_append.1 hr with hr | hr
          · exact ⟨f, List.mem_cons_self, _, rs, hrs, hr⟩
          · exact hl' r hr
        · cases ha

theorem setupRules_total (L : Lib) (fs : Files) (d : Nat) (stallall base : List Rule) (rf : List Str) :
    ∃ x, setupRules L fs d stallall base rf = .ok x := by
  have key : ∀ (rf : List Str) (i : Nat) (base : List Rule) (f : Str) (p : Panic), accumAll L fs d i base rf ≠ .error (f, .panic p) := by
    intro rf
    induction rf with
    | nil => intro i base f p h; cases h
    | cons g rf ih =>
      intro i base f p h
      rw [accumAll] at h
      split at h
      · exact ih _ _ _ _ h
      · rename_i e ha
        cases h
        unfold accumRules at ha
        split at ha
        · cases ha
        · split at ha
          · cases ha
          · rename_i hl
            cases ha
            exact loadRules_no_panic L fs d _ _ _ hl
  unfold setupRules
  split
  · exact ⟨_, rfl⟩
  · rename_i h; exact absurd h (key _ _ _ _ _)
  · exact ⟨_, rfl⟩

/-- What keeps connections from crashing. -/
structure Prudent (o : BaseOpts) (cf : Conf) (E : Env) : Prop where
  /-- The base rules come from the options; file names contain no blanks. -/
  conf : Configured o cf
  /-- `-save-hash` is one of its values (`main` checks it). -/
  hash : cf.hashtype = b!"msg" ∨ cf.hashtype = b!"full" ∨ cf.hashtype = b!"all"
  /-- Reverse DNS gives no empty names. -/
  names : NoEmptyNames E.W
  /-- Rules in files: no empty patterns, no `with note` without `-smtplog`, and no `dbl` with `sbl.spamhaus.org.` if the client has no
  IPv4 address. -/
  rules : ∀ r, Loaded cf E r → RuleSafe (FourParts E.rip) (cf.smtplog = true) r
  /-- The standard rules are used, or no rule matches the EHLO name. -/
  helo : o.stdrules = true ∨ (o.heloreject = [] ∧ ∀ r, Loaded cf E r → ¬ RuleUsesHelo r)

theorem opIn_leaf {o e : Expr} (h : OpIn o e) (h1 : ∀ es, e ≠ .andL es) (h2 : ∀ a, e ≠ .notN a) (h3 : ∀ a b, e ≠ .orN a b) : o = e := by
  cases h with
  | self => rfl
  | andL => exact absurd rfl (h1 _)
  | notN => exact absurd rfl (h2 _)
  | orL => exact absurd rfl (h3 _ _)
  | orR => exact absurd rfl (h3 _ _)

/-- The rules made from the options are safe. -/
theorem base_safe {std m : Bool} {f t h : Option Str} (v4 log : Prop) : ∀ q ∈ documentedRules std m f t h,
    RuleSafe v4 log q ∧ (RuleUsesHelo q → q.requires ≥ .helo ∧ h ≠ none) := by
  have one : ∀ (e : Expr) (a : Action) (p d : Phase), (∀ o, OpIn o e → OpSafe v4 o ∧ (UsesHelo o → p ≥ .helo ∧ h ≠ none)) →
      RuleSafe v4 log ⟨[⟨e, {}⟩], a, p, d⟩ ∧ (RuleUsesHelo ⟨[⟨e, {}⟩], a, p, d⟩ → p ≥ .helo ∧ h ≠ none) := by
    intro e a p d ho
    refine ⟨⟨fun c hc o hi => ?_, .inr fun c hc => ?_⟩, ?_⟩
    · rw [List.mem_singleton] at hc; subst hc; exact (ho o hi).1
    · rw [List.mem_singleton] at hc; subst hc; rfl
    · rintro ⟨c, hc, o, hi, hu⟩
      rw [List.mem_singleton] at hc; subst hc; exact (ho o hi).2 hu
  have leaf : ∀ (e : Expr) (a : Action) (p d : Phase), (∀ es, e ≠ .andL es) → (∀ a, e ≠ .notN a) → (∀ a b, e ≠ .orN a b) → OpSafe v4 e →
      (UsesHelo e → p ≥ .helo ∧ h ≠ none) →
      RuleSafe v4 log ⟨[⟨e, {}⟩], a, p, d⟩ ∧ (RuleUsesHelo ⟨[⟨e, {}⟩], a, p, d⟩ → p ≥ .helo ∧ h ≠ none) := by
    intro e a p d h1 h2 h3 h4 h5
    refine one e a p d fun o ho => ?_
    rw [opIn_leaf ho h1 h2 h3]
    exact ⟨h4, h5⟩
  intro q hq
  simp only [documentedRules, List.mem_append, Option.mem_toList, List.mem_map] at hq
  rcases hq with (((hq | hq) | ⟨x, _, rfl⟩) | ⟨x, _, rfl⟩) | ⟨x, hx, rfl⟩
  · cases std
    · simp at hq
    · simp only [if_true, List.mem_cons, List.not_mem_nil, or_false] at hq
      rcases hq with rfl | rfl | rfl <;> exact leaf _ _ _ _ nofun nofun nofun trivial nofun
  · cases m
    · simp at hq
    · simp only [if_true, List.mem_cons, List.not_mem_nil, or_false] at hq
      subst hq; exact leaf _ _ _ _ nofun nofun nofun trivial nofun
  · exact leaf _ _ _ _ nofun nofun nofun nofun nofun
  · refine one _ _ _ _ fun o ho => ?_
    cases ho with
    | self _ h2 => exact absurd rfl (h2 _)
    | notN ho =>
      rw [opIn_leaf ho nofun nofun nofun]
      exact ⟨nofun, nofun⟩
  · refine leaf _ _ _ _ nofun nofun nofun nofun fun _ => ⟨Nat.le_refl _, ?_⟩
    intro hn
    rw [hn] at hx
    cases hx

theorem loaded_wait {cf : Conf} {E : Env} {r : Rule} (h : Loaded cf E r) (hu : RuleUsesHelo r) : r.requires ≥ .helo := by
  obtain ⟨f, _, path, rs, hl, hr⟩ := h
  have hn : Latest (RuleNeeds r) r.requires := by
    refine loadRules_derived (P := fun r => Latest (RuleNeeds r) r.requires) (fun ts q g => ?_) _ _ _ _ hl r hr
    cases g with
    | plain _ _ _ => exact needsC_latest _
    | phased _ _ _ _ _ _ => exact needsC_latest _
  obtain ⟨c, hc, o, ho, hu⟩ := hu
  refine Phase.le_trans' ?_ (hn.2 _ ⟨c, hc, o, ho, rfl⟩)
  unfold UsesHelo at hu
  split at hu
  · exact (by decide : Phase.helo ≤ Phase.helo)
  · exact (by decide : Phase.helo ≤ Phase.mfrom)
  · cases hu

theorem stall_safe (v4 log : Prop) : RulesSafe v4 log stallAll := by
  have key : ∀ r ∈ stallAll, RuleSafe v4 log r ∧ ¬ RuleUsesHelo r := by
    intro r hr
    simp only [stallAll, List.mem_singleton] at hr
    subst hr
    refine ⟨⟨fun c hc o hi => ?_, .inr fun c hc => ?_⟩, ?_⟩
    · rw [List.mem_singleton] at hc; subst hc; rw [opIn_leaf hi nofun nofun nofun]; trivial
    · rw [List.mem_singleton] at hc; subst hc; rfl
    · rintro ⟨c, hc, o, hi, hu⟩
      rw [List.mem_singleton] at hc; subst hc; rw [opIn_leaf hi nofun nofun nofun] at hu; exact hu
  exact ⟨fun r hr => (key r hr).1, fun r hr hu => absurd hu (key r hr).2, .inr fun r hr => (key r hr).2⟩

/-- The rules a connection begins with are safe. -/
theorem Prudent.start {o : BaseOpts} {cf : Conf} {E : Env} (h : Prudent o cf E) {sh sh' : Shared} {i : Inp} {s : Sess} {out : List Out}
    (hs : startSess cf E sh i = .ok (s, sh', out)) : ∃ log, RulesSafe (FourParts E.rip) (log = true) s.c.ruleset ∧ SCalm E s.c.ruleset log s := by
  obtain ⟨rules, good, w, t, h1, h2, -, -, h5, -⟩ := startSess_ctx hs
  have hfields : s.trans.rip = E.rip ∧ s.trans.rdns = {} := by
    unfold startSess at hs
    simp only [bind, Except.bind, pure, Except.pure] at hs
    split at hs
    · cases hs
    · split at hs
      · cases hs
      · cases hs; exact ⟨rfl, rfl⟩
  refine ⟨s.trans.hasLog, ?_, ⟨?_, ?_, ?_⟩, rfl, hfields.1, ?_, rfl⟩
  · rw [h2]
    show RulesSafe _ _ (if s.stall = true then cf.stallall else rules)
    by_cases hst : s.stall = true
    · rw [if_pos hst, h.conf.stall_eq]; exact stall_safe _ _
    · rw [if_neg hst]
      have hlog : (s.trans.hasLog = true) = (cf.smtplog = true) := by
        rw [h5]; simp [hst]
      rw [hlog]
      unfold setupRules at h1
      split at h1
      · rename_i rs hrs
        cases h1
        obtain ⟨more, hm, hl⟩ := accumAll_loaded hrs
        have hb := h.conf.base_eq
        rw [hm]
        have hsafe := base_safe (std := o.stdrules) (m := o.failgotdata) (f := given o.fromreject) (t := given o.toaccept)
          (h := given o.heloreject) (FourParts E.rip) (cf.smtplog = true)
        rw [← hb] at hsafe
        refine ⟨fun r hr => ?_, fun r hr hu => ?_, ?_⟩
        · rcases List.mem_append.1 hr with hr | hr
          · exact (hsafe r hr).1
          · exact h.rules r (hl r hr)
        · rcases List.mem_append.1 hr with hr | hr
          · exact ((hsafe r hr).2 hu).1
          · exact loaded_wait (hl r hr) hu
        · rcases h.helo with hstd | ⟨hhr, hno⟩
          · left
            have : ∃ rest, documentedRules true o.failgotdata (given o.fromreject) (given o.toaccept) (given o.heloreject) = stdRules ++ rest := by
              unfold documentedRules
              simp only [if_true, List.append_assoc]
              exact ⟨_, rfl⟩
            obtain ⟨rest, hrest⟩ := this
            rw [hb, hstd, hrest, List.append_assoc]
            exact ⟨_, rfl⟩
          · right
            intro r hr hu
            rcases List.mem_append.1 hr with hr | hr
            · apply ((hsafe r hr).2 hu).2
              rw [hhr]; rfl
            · exact hno r (hl r hr) hu
      · cases h1
      · cases h1; rw [h.conf.stall_eq]; exact stall_safe _ _
  · rw [h2]; intro f l hf; cases hf
  · rw [h2]; exact .inr (by simp [newContext])
  · rw [h2]; exact .inr rfl
  · rw [hfields.2]; intro n hn; simp at hn

/-- **C47** (partial: under the conditions in `Prudent`; each of them is needed, see below).  No step of any connection panics, whatever
the client sends, in whatever order, whatever other connections do, whatever DNS and files answer. -/
theorem C47_partial {o : BaseOpts} {cf : Conf} {E : Env} (h : Prudent o cf E) :
    (∀ sh i, ∃ x, startSess cf E sh i = .ok x) ∧ ∀ l s, Life cf E l s → ∀ sh i, ∃ x, sstep cf E s sh i = .ok x := by
  constructor
  · intro sh i
    obtain ⟨x, hx⟩ := setupRules_total E.W.lib E.fs E.fds cf.stallall cf.base cf.rulefiles
    have hn : ∃ y, serverName cf E [] = .ok y := by
      unfold serverName
      split
      · exact ⟨_, rfl⟩
      · split
        · exact ⟨_, rfl⟩
        · exact ⟨_, rfl⟩
        · rename_i n l hl
          split
          · rename_i hne
            rw [List.getLast?_eq_none_iff] at hne
            subst hne
            exact absurd List.mem_cons_self (h.names _ _ _ hl)
          · exact ⟨_, rfl⟩
    obtain ⟨y, hy⟩ := hn
    unfold startSess
    simp only [hx, hy, bind, Except.bind, pure, Except.pure]
    exact ⟨_, rfl⟩
  · rintro l s ⟨sh0, i0, s0, sh0', o0, hs, hr⟩ sh i
    obtain ⟨log, h1, h2⟩ := h.start hs
    have : SCalm E s0.c.ruleset log s := by
      refine Spec.Run.ind (P := fun _ s => SCalm E s0.c.ruleset log s) hr h2 ?_
      intro l s1 s2 sh sh' i o _ ih _ hok
      obtain ⟨s', sh'', o', h3, h4⟩ := sstep_calm (cf := cf) h1 h.names h.hash ih sh i
      rw [h3] at hok
      cases hok
      exact h4
    obtain ⟨s', sh', o', h3, -⟩ := sstep_calm (cf := cf) h1 h.names h.hash this sh i
    exact ⟨_, h3⟩

/-- **C47** (partial, as above) for the whole server: whatever has happened in all its connections, every connection can take its next
step, whatever its client does; and a new client can connect. -/
theorem C47_server_partial {o : BaseOpts} {cf : Conf} {h : List Hap} {g : Server} (hr : Server.Runs cf h g) (hp : ∀ k E s, g.conns k = some (E, s) → Prudent o cf E) :
    (∀ k E s i, g.conns k = some (E, s) → ∃ x, sstep cf E s g.sh i = .ok x) ∧ ∀ E i, Prudent o cf E → ∃ x, startSess cf E g.sh i = .ok x :=
  ⟨fun k E s i hk => (C47_partial (hp k E s hk)).2 _ s (hr.life.1 E s hk) _ i, fun _ i h => (C47_partial h).1 _ i⟩


/-! ## The conditions are needed

Each of these is a crash of the whole server. -/

/-- `demoEnv` with another rules file. -/
def crashEnv (rules : Str) : Env := { demoEnv with fs := fun _ => tbl (.notExist b!"no such file") [(b!"/rules", .data rules)] }

/-- **C47** does not hold without conditions: `-nostdrules` and a rule about the EHLO name; the client says `EHLO` without a name. -/
theorem C47_empty_helo : driveAll { demoConf with base := [] } (crashEnv b!"reject helo spam.example.com\n") {} {} (events [.helo false []]) =
    .error .index := by rfl

/-- **C47** does not hold without conditions: a rule with an empty pattern. -/
theorem C47_empty_pattern : driveAll demoConf (crashEnv b!"reject from \"\"\n") {} {} (events [.helo false b!"x", .mailfrom b!"a@example.com"]) =
    .error .index := by rfl

/-- **C47** does not hold without conditions: a note in a rule, and no `-smtplog`. -/
theorem C47_note_without_log : driveAll demoConf (crashEnv b!"accept to a@ with note hello\n") {} {}
    (events [.helo false b!"x", .mailfrom b!"a@example.com", .rcptto b!"a@example.com"]) = .error .nilDeref := by rfl

/-- A world with other answers to address lookups. -/
def crashWorld (ip : Str → Except DnsErr (List IP)) (addr : Str → Except DnsErr (List Str)) : World :=
  { demoWorld with lookupIP := fun _ => ip, lookupAddr := fun _ => addr }

/-- **C47** does not hold without conditions: the name of a client with an IPv6 address is listed in `sbl.spamhaus.org`. -/
theorem C47_sbl_ipv6 : driveAll { demoConf with smtplog := true }
    { crashEnv b!"reject dbl helo sbl.spamhaus.org\n" with
      rip := b!"2001:db8::2", W := crashWorld (fun _ => .ok [.v4 0x7f000002#32]) (fun _ => .error (demoErr false)) } {} {}
    (events [.helo false b!"x"]) = .error .index := by rfl

/-- **C47** does not hold without conditions: the reverse lookup of the server's own address gives an empty name. -/
theorem C47_empty_name : startSess { demoConf with srvname := [] }
    { demoEnv with W := crashWorld (fun _ => .error (demoErr false)) (fun _ => .ok [[]]) } {} {} = .error .index := by rfl

/-- **C47** does not hold without conditions: the same for the client's address, with a rule about names in DNS blocklists. -/
theorem C47_empty_client_name : driveAll demoConf
    { crashEnv b!"reject dbl host dbl.example\n" with W := crashWorld (fun _ => .error (demoErr false)) (fun _ => .ok [[]]) } {} {}
    (events []) = .error .index := by rfl

/-- The conditions hold for ordinary settings. -/
example : Prudent ⟨true, false, [], [], []⟩ demoConf demoEnv where
  conf := ⟨⟨nofun, nofun, nofun⟩, ⟨demoLib, fun _ _ => .notExist [], 10, C11_base_rules _ _ _ _ nofun nofun nofun⟩,
    ⟨demoLib, fun _ _ => .notExist [], 10, C11_stall_rules _ _ _⟩⟩
  hash := .inr (.inr rfl)
  names := by
    intro n ip l hl
    by_cases h : ip = b!"192.0.2.2"
    · subst h
      have : demoEnv.W.lookupAddr n b!"192.0.2.2" = .ok [b!"www.example.com.", b!"mail.example.com.", b!"mx.example.com."] := rfl
      rw [this] at hl
      cases hl
      decide
    · have : demoEnv.W.lookupAddr n ip = .error (demoErr false) := by
        show tbl _ _ ip = _
        simp only [tbl, if_neg h]
      rw [this] at hl
      cases hl
  rules := by
    rintro r ⟨f, hf, path, rs, hl, hr⟩
    have hf : f = b!"/rules" := by simpa [demoConf] using hf
    subst hf
    have : loadRules demoEnv.W.lib demoEnv.fs demoEnv.fds path b!"/rules" =
        .ok [⟨[⟨.matchN .to b!"bad@", { savedir := some b!"/junk" }⟩], .reject, .rto, .any⟩,
             ⟨[⟨.matchN .from_ b!"a@", { savedir := some b!"/ab" }⟩], .noresult, .mfrom, .any⟩] := rfl
    rw [this] at hl
    cases hl
    simp only [List.mem_cons, List.not_mem_nil, or_false] at hr
    rcases hr with rfl | rfl <;> refine ⟨fun c hc o ho => ?_, .inr fun c hc => ?_⟩ <;> rw [List.mem_singleton] at hc <;> subst hc
    · rw [opIn_leaf ho nofun nofun nofun]; exact nofun
    · rfl
    · rw [opIn_leaf ho nofun nofun nofun]; exact nofun
    · rfl
  helo := .inl rfl

end Sink
