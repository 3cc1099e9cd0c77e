import Verif.Lemmas.SessionCtx
import Verif.Props.Decide
import Verif.Props.Build

/-!
# Connections under the rules made from command line options
-/

namespace Sink
open Spec Relation

/-- A pending refusal is a refusal. -/
def DefOK (c : Ctx) : Prop := c.defresult ≠ .accept

theorem begun_defresult (ph : Phase) (e : Evt) (c : Ctx) : (begun ph e c).defresult = (shadow ph e c).defresult := rfl

theorem DefOK.shadow {ph : Phase} {e : Evt} {c : Ctx} (h : DefOK c) : (Sink.shadow ph e c).defresult ≠ .accept := by
  cases ph <;> first | exact h | exact (by decide : Action.error ≠ .accept)

theorem Ctx.defresult_of_frame {c c' : Ctx} (h : c'.frame = c.frame) : c'.defresult = c.defresult := by
  have := congrArg Ctx.defresult h; exact this
theorem Ctx.defprops_of_frame {c c' : Ctx} (h : c'.frame = c.frame) : c'.defprops = c.defprops := by
  have := congrArg Ctx.defprops h; exact this

theorem Decide_defOK {W : World} {tr : TransR} {ph : Phase} {e : Evt} {c c' : Ctx} {a : Action}
    (h : Decide W tr ph e c = .ok (a, c')) (hc : DefOK c) : DefOK c' := by
  cases decide_end h with
  | pending _ => exact hc.shadow (ph := ph) (e := e)
  | plain _ hl _ =>
    show c'.defresult ≠ _
    rw [Ctx.defresult_of_frame (ruleLoop_steps hl).frame]
    exact hc.shadow (ph := ph) (e := e)
  | defer _ hl _ _ ha =>
    show _ ≠ Action.accept
    intro he
    simp only at he
    rw [he] at ha
    exact absurd ha (by decide)

theorem CtxStep.defOK {E : Env} {s s' : Sess} (h : CtxStep E s s') (hd : DefOK s.c) : DefOK s'.c := by
  cases h with
  | same h => rw [h]; exact hd
  | dec h1 h2 =>
    have : DefOK _ := Decide_defOK h1 hd
    rw [h2]
    exact this

theorem run_defOK {cf : Conf} {E : Env} {l : List Step} {s0 s : Sess} (h : Run cf E s0 l s) (h0 : DefOK s0.c) : DefOK s.c :=
  Spec.Run.ind (P := fun _ s => DefOK s.c) h h0 fun _ _ _ _ _ _ _ _ ih hd _ => hd.ctxStep.defOK ih

/-- Facts about every state of a connection. -/
structure LifeOK (cf : Conf) (E : Env) (s : Sess) : Prop where
  defOK : DefOK s.c
  files : FilesOK E.W s.c
  rules : s.c.ruleset = cf.stallall ∨ ∃ more, s.c.ruleset = cf.base ++ more

theorem life_ok {cf : Conf} {E : Env} {l : List Step} {s0 s : Sess} {sh sh' : Shared} {i : Inp} {o : List Out}
    (hs : startSess cf E sh i = .ok (s0, sh', o)) (h : Run cf E s0 l s) : LifeOK cf E s := by
  obtain ⟨rules, good, w, t, h1, h2, -⟩ := startSess_ctx hs
  have hr := startSess_rules hs
  obtain ⟨f1, f2⟩ := run_frame h
  refine ⟨run_defOK h ?_, f2 ?_, ?_⟩
  · rw [h2]; exact (by decide : Action.error ≠ .accept)
  · rw [h2]; intro f l hf; cases hf
  · rw [f1]; exact hr

/-- The stall rules. -/
def stallAll : List Rule := [⟨[⟨.all, {}⟩], .stall, .any, .any⟩]

/-- The settings came from these options, whatever the file names look like. -/
structure Built (o : BaseOpts) (cf : Conf) : Prop where
  base : ∃ L fs d, buildRules L fs d o = .ok cf.base
  stall : ∃ L fs d, stallRules L fs d = .ok cf.stallall

theorem Built.base_first {o : BaseOpts} {cf : Conf} (h : Built o cf) :
    ∃ more, cf.base = documentedRules o.stdrules o.failgotdata none none none ++ more := by
  obtain ⟨L, fs, d, hb⟩ := h.base
  exact C11_any_names hb

theorem Built.stall_eq {o : BaseOpts} {cf : Conf} (h : Built o cf) : cf.stallall = stallAll := by
  obtain ⟨L, fs, d, hb⟩ := h.stall
  rw [C11_stall_rules] at hb
  injection hb with hb
  exact hb.symm

/-- The settings came from these options, with file names as the manual asks for. -/
structure Configured (o : BaseOpts) (cf : Conf) : Prop where
  names : CleanName o.fromreject ∧ CleanName o.toaccept ∧ CleanName o.heloreject
  base : ∃ L fs d, buildRules L fs d o = .ok cf.base
  stall : ∃ L fs d, stallRules L fs d = .ok cf.stallall

theorem Configured.base_eq {o : BaseOpts} {cf : Conf} (h : Configured o cf) :
    cf.base = documentedRules o.stdrules o.failgotdata (given o.fromreject) (given o.toaccept) (given o.heloreject) := by
  obtain ⟨L, fs, d, hb⟩ := h.base
  rw [C11_base_rules L fs d o h.names.1 h.names.2.1 h.names.2.2] at hb
  injection hb with hb
  exact hb.symm

theorem Configured.built {o : BaseOpts} {cf : Conf} (h : Configured o cf) : Built o cf := ⟨h.base, h.stall⟩

theorem Configured.stall_eq {o : BaseOpts} {cf : Conf} (h : Configured o cf) : cf.stallall = stallAll := by
  obtain ⟨L, fs, d, hb⟩ := h.stall
  rw [C11_stall_rules] at hb
  injection hb with hb
  exact hb.symm

theorem documented_reject {std m : Bool} {f t h : Option Str} : ∀ q ∈ documentedRules std m f t h, q.result = .reject := by
  intro q hq
  simp only [documentedRules, List.mem_append, Option.mem_toList, List.mem_map] at hq
  rcases hq with (((hq | hq) | ⟨x, _, rfl⟩) | ⟨x, _, rfl⟩) | ⟨x, _, rfl⟩
  · cases std
    · simp at hq
    · simp only [if_true, List.mem_cons, List.not_mem_nil, or_false] at hq
      rcases hq with rfl | rfl | rfl <;> rfl
  · cases m
    · simp at hq
    · simp only [if_true, List.mem_cons, List.not_mem_nil, or_false] at hq
      subst hq; rfl
  · rfl
  · rfl
  · rfl

theorem runRule_rcptto {W : World} {tr : TransR} {ph : Phase} (hph : ph ≤ .rto) {r : Rule} {c : Ctx} {x : Bool × Ctx}
    (hr : runRule W tr ph r c = .ok x) : x.2.rcptto = c.rcptto := by
  obtain ⟨b, c1⟩ := x
  unfold runRule Rule.check at hr
  rw [if_neg (by rintro ⟨h1, -⟩; exact absurd h1 (Nat.not_lt.mpr hph))] at hr
  have := checkClauses_rcptto hr
  exact this

/-- Going through rules that can only refuse. -/
theorem ruleLoop_through {W : World} {tr : TransR} {ph : Phase} : ∀ {pre : List Rule} {rest : List Rule} {c c' : Ctx} {a : Action},
    (∀ q ∈ pre, q.result = .reject) → ruleLoop W tr ph (pre ++ rest) c = .ok (a, c') →
    a = .reject ∨ ∃ c1, RSteps W c c1 ∧ (ph ≤ .rto → c1.rcptto = c.rcptto) ∧ ruleLoop W tr ph rest c1 = .ok (a, c') := by
  intro pre
  induction pre with
  | nil => intro rest c c' a _ h; exact .inr ⟨c, .refl, fun _ => rfl, h⟩
  | cons q pre ih =>
    intro rest c c' a hp h
    rw [List.cons_append, ruleLoop] at h
    have hp' : ∀ q ∈ pre, q.result = .reject := fun x hx => hp x (by simp [hx])
    split at h
    · exact ih hp' h
    · cases hr : runRule W tr ph q c with
      | error p => rw [hr] at h; cases h
      | ok x =>
        rw [hr] at h
        simp only [bind, Except.bind, pure, Except.pure] at h
        have hs := runRule_steps hr
        have hq : ph ≤ .rto → x.2.rcptto = c.rcptto := fun hp => runRule_rcptto hp hr
        have step : ruleLoop W tr ph (pre ++ rest) x.2 = .ok (a, c') → _ := fun h => ih hp' h
        split at h
        · rcases step h with h | ⟨c1, h1, h3, h2⟩
          · exact .inl h
          · exact .inr ⟨c1, hs.trans h1, fun hp => (h3 hp).trans (hq hp), h2⟩
        · split at h
          · cases h; exact .inl (hp q (by simp))
          · rcases step h with h | ⟨c1, h1, h3, h2⟩
            · exact .inl h
            · exact .inr ⟨c1, hs.trans h1, fun hp => (h3 hp).trans (hq hp), h2⟩

/-- A decision under rules beginning with `pre ++ r :: _` where `pre` can only refuse: it refuses, or `r` is reached. -/
theorem decide_reach {W : World} {tr : TransR} {ph : Phase} {e : Evt} {c c' : Ctx} {a : Action} (hd : DefOK c) {pre rest : List Rule}
    (hrs : c.ruleset = pre ++ rest) (hpre : ∀ q ∈ pre, q.result = .reject) (h : Decide W tr ph e c = .ok (a, c')) :
    (a = .reject ∨ a = .stall) ∨ (ph = .mfrom ∧ e.arg = [] ∧ (c'.defresult = .reject ∨ c'.defresult = .stall)) ∨
    ∃ c1, RSteps W (begun ph e c) c1 ∧ (ph ≤ .rto → c1.rcptto = (begun ph e c).rcptto) ∧ ruleLoop W tr ph rest c1 = .ok (a, c') := by
  cases decide_end h with
  | pending hp =>
    left
    have := hd.shadow (ph := ph) (e := e)
    generalize (Sink.shadow ph e c).defresult = x at hp this ⊢
    cases x <;> first | exact absurd hp (by decide) | exact absurd rfl this | exact .inl rfl | exact .inr rfl
  | plain _ hl _ =>
    rw [hrs] at hl
    rcases ruleLoop_through hpre hl with h | ⟨c1, h1, h3, h2⟩
    · exact .inl (.inl h)
    · exact .inr (.inr ⟨c1, h1, h3, h2⟩)
  | @defer x _ _ hl hp he ha =>
    refine .inr (.inl ⟨hp, he, ?_⟩)
    simp only
    cases x <;> first | exact absurd ha (by decide) | exact .inl rfl | exact .inr rfl

/-! ## Rules that look at one pattern file -/

theorem matchFile_file (F : Str) : matchFile (b!"file:" ++ F) = .ok (some F) := by
  unfold matchFile
  simp [hasPrefix]

theorem evalMatch_file {W : World} {tr : TransR} {k : MKind} {F : Str} {c c' : Ctx} {b : Bool}
    (h : evalMatch W tr k (b!"file:" ++ F) c = .ok (b, c')) :
    ∃ l, c'.files F = some l ∧ ((l = [] ∧ c'.rulemiss = true) ∨
      (l ≠ [] ∧ c'.rulemiss = c.rulemiss ∧ (b = true ↔ ∃ p ∈ l, ∃ n ∈ k.names tr c, PatMatch W.lib k n p))) := by
  have hn : ∀ c1 l, getMatchList W (b!"file:" ++ F) c = .ok (l, c1) → c1.files F = some l ∧ c1.rulemiss = c.rulemiss ∧ k.names tr c1 = k.names tr c := by
    intro c1 l hl
    unfold getMatchList at hl
    rw [matchFile_file] at hl
    simp only at hl
    split at hl
    · rename_i l' hf; cases hl; exact ⟨hf, rfl, rfl⟩
    · cases hl; refine ⟨by simp [upd], rfl, ?_⟩; cases k <;> rfl
  unfold evalMatch at h
  cases hl : getMatchList W (b!"file:" ++ F) c with
  | error p => rw [hl] at h; cases h
  | ok r =>
    obtain ⟨l, c1⟩ := r
    rw [hl] at h
    obtain ⟨h1, h2, h3⟩ := hn c1 l hl
    simp only [bind, Except.bind, pure, Except.pure] at h
    split at h
    · rename_i h0
      rw [List.length_eq_zero_iff] at h0
      cases h
      exact ⟨l, h1, .inl ⟨h0, rfl⟩⟩
    · rename_i h0
      rw [List.length_eq_zero_iff] at h0
      rw [h3] at h
      cases hp : matchPats (k.matcher W.lib) (k.names tr c) l with
      | error p => rw [hp] at h; cases h
      | ok r =>
        rw [hp] at h
        cases h
        exact ⟨l, h1, .inr ⟨h0, h2, matchPats_spec (P := PatMatch W.lib k) (fun n p b => matcher_spec W.lib k) hp⟩⟩

/-- A rejecting rule about one pattern file, in a phase in which it is run once: it rejects, or the file is empty, or its
expression is false. -/
theorem ruleLoop_file {W : World} {tr : TransR} {ph : Phase} {k : MKind} {F : Str} {neg : Bool} {r : Rule} {rest : List Rule} {c c' : Ctx}
    {a : Action} (hcl : r.clauses = [⟨if neg then .notN (.matchN k (b!"file:" ++ F)) else .matchN k (b!"file:" ++ F), {}⟩])
    (hres : r.result = .reject) (hskip : skipRule ph r = false) (hph : ph ≤ .rto)
    (h : ruleLoop W tr ph (r :: rest) c = .ok (a, c')) :
    a = .reject ∨ ∃ l, c'.files F = some l ∧ (l = [] ∨ ((∃ p ∈ l, ∃ n ∈ k.names tr c, PatMatch W.lib k n p) ↔ neg = true)) := by
  rw [ruleLoop, hskip] at h
  simp only [Bool.false_eq_true, if_false] at h
  have hrun : runRule W tr ph r c = checkClauses W tr r.clauses { c with rulemiss := false } := by
    unfold runRule Rule.check
    rw [if_neg]
    rintro ⟨h1, -⟩
    exact absurd h1 (Nat.not_lt.mpr hph)
  rw [hrun, hcl] at h
  have hev : ∀ b c1, eval W tr (if neg then .notN (.matchN k (b!"file:" ++ F)) else .matchN k (b!"file:" ++ F)) { c with rulemiss := false } = .ok (b, c1) →
      ∃ l, c1.files F = some l ∧ ((l = [] ∧ c1.rulemiss = true) ∨
        (l ≠ [] ∧ c1.rulemiss = false ∧ (b = true ↔ ¬ ((∃ p ∈ l, ∃ n ∈ k.names tr c, PatMatch W.lib k n p) ↔ neg = true)))) := by
    intro b c1 hb
    have hk : k.names tr { c with rulemiss := false } = k.names tr c := by cases k <;> rfl
    cases neg with
    | false =>
      simp only [Bool.false_eq_true, if_false] at hb
      rw [eval] at hb
      obtain ⟨l, h1, h2⟩ := evalMatch_file hb
      rw [hk] at h2
      refine ⟨l, h1, ?_⟩
      rcases h2 with h2 | ⟨h2, h3, h4⟩
      · exact .inl h2
      · refine .inr ⟨h2, h3, ?_⟩
        rw [h4]
        simp
    | true =>
      simp only [if_true] at hb
      rw [eval, eval] at hb
      cases he : evalMatch W tr k (b!"file:" ++ F) { c with rulemiss := false } with
      | error p => rw [he] at hb; cases hb
      | ok x =>
        rw [he] at hb
        cases hb
        obtain ⟨l, h1, h2⟩ := evalMatch_file he
        rw [hk] at h2
        refine ⟨l, h1, ?_⟩
        rcases h2 with h2 | ⟨h2, h3, h4⟩
        · exact .inl h2
        · refine .inr ⟨h2, h3, ?_⟩
          rw [← h4]
          simp
  rw [checkClauses] at h
  cases he : eval W tr (if neg then .notN (.matchN k (b!"file:" ++ F)) else .matchN k (b!"file:" ++ F)) { c with rulemiss := false } with
  | error p => simp only [he, bind, Except.bind] at h; cases h
  | ok x =>
    obtain ⟨b, c1⟩ := x
    obtain ⟨l, h1, h2⟩ := hev b c1 he
    simp only [he, bind, Except.bind, pure, Except.pure] at h
    rcases h2 with ⟨h2, h3⟩ | ⟨h2, h3, h4⟩
    · rw [h3] at h
      simp only [if_true] at h
      rw [h3] at h
      simp only [if_true] at h
      exact .inr ⟨l, (ruleLoop_steps h).files h1, .inl h2⟩
    · rw [h3] at h
      simp only [Bool.false_eq_true, if_false] at h
      cases b with
      | true =>
        simp only [Bool.not_true, Bool.false_eq_true, if_false, h3, true_and] at h
        rw [hres, if_pos (by decide)] at h
        cases h
        exact .inl rfl
      | false =>
        simp only [Bool.not_false, if_true, checkClauses, h3, Bool.false_eq_true, if_false, false_and] at h
        refine .inr ⟨l, (ruleLoop_steps h).files h1, .inr ?_⟩
        by_contra hx
        exact absurd (h4.mpr hx) (by simp)

end Sink
