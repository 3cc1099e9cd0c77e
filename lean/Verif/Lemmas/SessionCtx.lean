import Verif.Lemmas.SessionInv
import Verif.Lemmas.Match

/-!
# The context of a connection: rules, pattern files, pending refusals
-/

namespace Sink
open Spec Relation

/-- Whatever a `Decide` does to rules and pattern files. -/
theorem RSteps.files {W : World} {c c' : Ctx} (h : RSteps W c c') {f : Str} {l : List Str} (hf : c.files f = some l) :
    c'.files f = some l := by
  induction h with
  | refl => exact hf
  | tail _ h ih =>
    cases h with
    | eval h =>
      cases h with
      | lookup n =>
        unfold getDnsblRes
        split
        · exact ih
        · simp only; split <;> exact ih
      | hit _ => unfold addDnsblHit; split <;> exact ih
      | valid d => unfold Ctx.validDomain; split <;> exact ih
      | load hn =>
        simp only [upd]
        split
        · rename_i he; subst he; rw [ih] at hn; cases hn
        · exact ih
      | domerr => exact ih
      | miss => exact ih
      | mapIter => exact ih
    | «with» => exact ih
    | rcpt => exact ih
    | reset => exact ih

/-- The entries of a file as it is at time `n`. -/
def entriesAt (W : World) (n : Nat) (f : Str) : List Str :=
  if f = [] then [] else match W.files n f with
    | .data b => readList W.lib b
    | _ => []

theorem loadList_entries (W : World) (f : Str) (t : Trace) : (loadList W f t).1 = entriesAt W t.length f := by
  unfold loadList entriesAt
  split
  · rfl
  · simp only
    split <;> simp_all

/-- The pattern files the connection knows are as they were at some time. -/
def FilesOK (W : World) (c : Ctx) : Prop := ∀ f l, c.files f = some l → ∃ n, l = entriesAt W n f

theorem RSteps.filesOK {W : World} {c c' : Ctx} (h : RSteps W c c') (hf : FilesOK W c) : FilesOK W c' := by
  induction h with
  | refl => exact hf
  | tail _ h ih =>
    cases h with
    | eval h =>
      cases h with
      | lookup n =>
        unfold getDnsblRes
        split
        · exact ih
        · simp only; split <;> exact ih
      | hit _ => unfold addDnsblHit; split <;> exact ih
      | valid d => unfold Ctx.validDomain; split <;> exact ih
      | load hn =>
        intro g l hg
        simp only [upd] at hg
        split at hg
        · rename_i he; subst he; cases hg; exact ⟨_, loadList_entries W _ _⟩
        · exact ih g l hg
      | domerr => exact ih
      | miss => exact ih
      | mapIter => exact ih
    | «with» => exact ih
    | rcpt => exact ih
    | reset => exact ih

theorem begun_files (ph : Phase) (e : Evt) (c : Ctx) : (begun ph e c).files = c.files := by cases ph <;> rfl
theorem begun_ruleset (ph : Phase) (e : Evt) (c : Ctx) : (begun ph e c).ruleset = c.ruleset := by cases ph <;> rfl

theorem Decide_frame {W : World} {tr : TransR} {ph : Phase} {e : Evt} {c c' : Ctx} {a : Action}
    (h : Decide W tr ph e c = .ok (a, c')) :
    c'.ruleset = c.ruleset ∧ (∀ f l, c.files f = some l → c'.files f = some l) ∧ (FilesOK W c → FilesOK W c') := by
  cases decide_end h with
  | pending _ =>
    refine ⟨begun_ruleset ph e c, fun f l hf => ?_, fun hf => ?_⟩
    · exact (congrFun (begun_files ph e c) f).trans hf
    · intro f l hl
      exact hf f l ((congrFun (begun_files ph e c) f).symm.trans hl)
  | plain _ hl _ =>
    have hs := ruleLoop_steps hl
    refine ⟨(Ctx.ruleset_of_frame hs.frame).trans (begun_ruleset ph e c), fun f l hf => ?_, fun hf => ?_⟩
    · exact hs.files (by rw [begun_files]; exact hf)
    · exact hs.filesOK (by unfold FilesOK; rw [begun_files]; exact hf)
  | defer _ hl _ _ _ =>
    have hs := ruleLoop_steps hl
    refine ⟨(Ctx.ruleset_of_frame hs.frame).trans (begun_ruleset ph e c), fun f l hf => ?_, fun hf => ?_⟩
    · exact hs.files (by rw [begun_files]; exact hf)
    · exact hs.filesOK (c := begun ph e c) (by unfold FilesOK; rw [begun_files]; exact hf)

/-- What a step does to the context: nothing, or a decision. -/
inductive CtxStep (E : Env) (s s' : Sess) : Prop
  | same : s'.c = s.c → CtxStep E s s'
  | dec {t tr ph e a c1 d tr'} : Decide E.W tr ph e { s.c with trace := t } = .ok (a, c1) →
      s'.c = { c1 with dnsblhit := d, trace := tr' } → CtxStep E s s'

theorem DecR.ctxStep {E : Env} {ph : Phase} {evt : Evt} {id : Str} {s s' : Sess} {ref : Bool} {o : List Out} {res : Action} {c1 : Ctx}
    (h : DecR E ph evt id s ref s' o res c1) : CtxStep E s s' := by
  obtain ⟨d, tr, hc⟩ := h.ctx
  exact .dec (t := s.c.trace) h.dec hc

theorem DecR.ctxStep' {E : Env} {ph : Phase} {evt : Evt} {id : Str} {s s' : Sess} {ref : Bool} {o : List Out} {res : Action} {c1 : Ctx}
    (h : DecR E ph evt id (s.withRdns E) ref s' o res c1) : CtxStep E s s' := by
  obtain ⟨d, tr, hc⟩ := h.ctx
  exact .dec h.dec hc

theorem Did.ctxStep {cf : Conf} {E : Env} {s s' : Sess} {sh sh' : Shared} {i : Inp} {o : List Out} (h : Did cf E s sh i s' sh' o) :
    CtxStep E s s' := by
  cases h with
  | tls hp ht _ => unfold tlsStep at ht; cases ht; exact .same rfl
  | drop hp hd _ => cases hd.ctxStep' with
    | same h => exact .same h
    | dec h1 h2 => exact .dec h1 h2
  | connect hp hd => cases hd.ctxStep' with
    | same h => exact .same h
    | dec h1 h2 => exact .dec h1 h2
  | heloRef hp he hd | mailRef hp he hd | rcptRef hp he hd | dataRef hp he hd => exact hd.ctxStep
  | heloAcc hp he hd | mailAcc hp he hd | mailCount hp he hd | mailDrop hp he hd | rcptAcc hp he hd | dataAcc hp he hd =>
    cases hd.ctxStep with
    | same h => exact .same h
    | dec h1 h2 => exact .dec h1 h2
  | answerRef hp hd | answerAcc hp hd =>
    cases hd.ctxStep with
    | same h => exact .same h
    | dec h1 h2 => exact .dec h1 h2
  | gotKeep | gotSave | tlserror | finish | other | save | answerFail | closed => exact .same rfl

theorem CtxStep.frame {E : Env} {s s' : Sess} (h : CtxStep E s s') :
    s'.c.ruleset = s.c.ruleset ∧ (∀ f l, s.c.files f = some l → s'.c.files f = some l) ∧ (FilesOK E.W s.c → FilesOK E.W s'.c) := by
  cases h with
  | same h => rw [h]; exact ⟨rfl, fun _ _ h => h, fun h => h⟩
  | dec h1 h2 =>
    obtain ⟨a, b, c⟩ := Decide_frame h1
    rw [h2]
    exact ⟨a, b, c⟩

/-- The rules of a connection never change; the pattern files it has read stay as read. -/
theorem run_frame {cf : Conf} {E : Env} {l : List Step} {s0 s : Sess} (h : Run cf E s0 l s) :
    s.c.ruleset = s0.c.ruleset ∧ (FilesOK E.W s0.c → FilesOK E.W s.c) := by
  refine Spec.Run.ind (P := fun _ s => s.c.ruleset = s0.c.ruleset ∧ (FilesOK E.W s0.c → FilesOK E.W s.c)) h ⟨rfl, fun h => h⟩ ?_
  intro l s1 s2 sh sh' i o _ ih hd _
  obtain ⟨a, _, c⟩ := hd.ctxStep.frame
  exact ⟨a.trans ih.1, fun h => c (ih.2 h)⟩

/-! ## The rules a connection starts with -/

theorem accumAll_prefix {L : Lib} {fs : Files} {d : Nat} : ∀ {rf : List Str} {i : Nat} {base rules : List Rule},
    accumAll L fs d i base rf = .ok rules → ∃ more, rules = base ++ more := by
  intro rf
  induction rf with
  | nil => intro i base rules h; cases h; exact ⟨[], by simp⟩
  | cons f rf ih =>
    intro i base rules h
    rw [accumAll] at h
    cases ha : accumRules L fs d i base f with
    | error e => rw [ha] at h; cases h
    | ok r =>
      rw [ha] at h
      obtain ⟨m, hm⟩ := ih h
      unfold accumRules at ha
      split at ha
      · cases ha; exact ⟨m, hm⟩
      · split at ha
        · rename_i rs _; cases ha; exact ⟨rs ++ m, by rw [hm, List.append_assoc]⟩
        · cases ha

theorem setupRules_cases {L : Lib} {fs : Files} {d : Nat} {stallall base : List Rule} {rf : List Str} {rules : List Rule} {good : Bool}
    {w : Option Str} (h : setupRules L fs d stallall base rf = .ok (rules, good, w)) :
    (good = true ∧ ∃ more, rules = base ++ more) ∨ (good = false ∧ rules = stallall) := by
  unfold setupRules at h
  split at h
  · rename_i rs hr; cases h; exact .inl ⟨rfl, accumAll_prefix hr⟩
  · cases h
  · cases h; exact .inr ⟨rfl, rfl⟩

theorem if_then_bool (b x : Bool) : (if b = true then false else x) = (!b && x) := by cases b <;> rfl

/-- How a connection begins. -/
theorem startSess_ctx {cf : Conf} {E : Env} {sh sh' : Shared} {i : Inp} {s : Sess} {o : List Out}
    (h : startSess cf E sh i = .ok (s, sh', o)) :
    ∃ rules good w t, setupRules E.W.lib E.fs E.fds cf.stallall cf.base cf.rulefiles = .ok (rules, good, w) ∧
      s.c = newContext (if s.stall then cf.stallall else rules) t ∧ s.rulesgood = good ∧
      s.sesscounts = (!s.stall && (good && decide (cf.yakCount > 0))) ∧
      s.trans.hasLog = (cf.smtplog && !s.stall) ∧
      s.stall = decide (cf.yakCount > 0 ∧ (sh.yak.lookup E.rip cf.yakTimeout i.now).1.1 = true ∧
        (sh.yak.lookup E.rip cf.yakTimeout i.now).1.2 ≥ cf.yakCount ∧ cf.smtplog = true) ∧
      sh' = { sh with yak := (sh.yak.lookup E.rip cf.yakTimeout i.now).2 } := by
  unfold startSess at h
  simp only [bind, Except.bind, pure, Except.pure] at h
  split at h
  · cases h
  · rename_i r hr
    split at h
    · cases h
    · cases h
      refine ⟨r.1, r.2.1, r.2.2, _, hr, rfl, rfl, ?_, rfl, rfl, rfl⟩
      exact if_then_bool _ _

/-- A connection works with the base rules and what it loaded, or with the stall rules. -/
theorem startSess_rules {cf : Conf} {E : Env} {sh sh' : Shared} {i : Inp} {s : Sess} {o : List Out}
    (h : startSess cf E sh i = .ok (s, sh', o)) : s.c.ruleset = cf.stallall ∨ ∃ more, s.c.ruleset = cf.base ++ more := by
  obtain ⟨rules, good, w, t, h1, h2, -⟩ := startSess_ctx h
  rw [h2]
  by_cases hst : s.stall = true
  · rw [hst]; exact .inl rfl
  · rw [Bool.not_eq_true] at hst
    rw [hst]
    rcases setupRules_cases h1 with ⟨-, more, h⟩ | ⟨-, h⟩
    · exact .inr ⟨more, h⟩
    · exact .inl h

/-! ## Rules that always refuse -/

/-- `all` always matches. -/
theorem ruleLoop_all {W : World} {tr : TransR} {ph : Phase} {r : Rule} {rest : List Rule} {c c' : Ctx} {a : Action}
    (hc : r.clauses = [⟨.all, {}⟩]) (hreq : r.requires = .any) (hres : r.result ≥ .accept) (hph : r.deferto = .any ∨ r.deferto = ph)
    (h : ruleLoop W tr ph (r :: rest) c = .ok (a, c')) :
    a = r.result ∧ c' = { c with rulemiss := false, withprops := c.withprops.merge {} } := by
  rw [ruleLoop] at h
  have hskip : skipRule ph r = false := by
    unfold skipRule
    rw [hreq]
    rcases hph with hd | hd <;> rw [hd] <;> cases ph <;> decide
  rw [hskip] at h
  simp only [Bool.false_eq_true, if_false] at h
  have hrun : runRule W tr ph r c = .ok (true, { c with rulemiss := false, withprops := c.withprops.merge {} }) := by
    unfold runRule
    rw [hreq]
    rw [if_neg (by rintro ⟨-, h⟩; exact absurd h (by decide))]
    unfold Rule.check
    rw [hc]
    rfl
  rw [hrun] at h
  simp only [bind, Except.bind, pure, Except.pure, Bool.false_eq_true, if_false, true_and, hres, if_true] at h
  cases h
  exact ⟨rfl, rfl⟩

end Sink
