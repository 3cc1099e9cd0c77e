import Mathlib.Logic.Relation
import Verif.Lemmas.Decide

/-!
# Evaluation as a sequence of small changes of the context

Valid in any world, also one that changes while rules are evaluated.
-/

namespace Sink
open Spec Relation

/-- The elementary changes evaluation makes. -/
inductive EStep (W : World) : Ctx → Ctx → Prop
  | lookup (n : Str) (c) : EStep W c (getDnsblRes W n c).2
  | hit {n d : Str} {c} : c.dnsbl (n ++ b!"." ++ d) = some true → EStep W c (addDnsblHit d c)
  | valid (d : Str) (c) : EStep W c (c.validDomain W d).2
  | load {f : Str} {c} : c.files f = none →
      EStep W c { c with files := upd c.files f (loadList W f c.trace).1, trace := (loadList W f c.trace).2 }
  | domerr (e : Option Str) (c) : EStep W c { c with domerr := e }
  | miss (c) : EStep W c { c with rulemiss := true }
  | mapIter (c) : EStep W c { c with trace := .mapIter :: c.trace }

/-- Any number of them. -/
abbrev ESteps (W : World) : Ctx → Ctx → Prop := ReflTransGen (EStep W)

theorem getDnsblRes_cached {W : World} {n : Str} {c : Ctx} (h : (getDnsblRes W n c).1 = true) :
    (getDnsblRes W n c).2.dnsbl n = some true := by
  unfold getDnsblRes at h ⊢
  cases hc : c.dnsbl n with
  | some r => rw [hc] at h; simp only at h ⊢; rw [hc, h]
  | none =>
    rw [hc] at h
    simp only at h ⊢
    cases hl : W.lookupIP c.trace.length n with
    | error e => rw [hl] at h; simp at h
    | ok ips =>
      rw [hl] at h
      simp only at h ⊢
      simp [upd, h]

theorem getMatchList_steps {W : World} {a : Str} {c c' : Ctx} {l : List Str} (h : getMatchList W a c = .ok (l, c')) :
    ESteps W c c' := by
  unfold getMatchList at h
  cases hm : matchFile a with
  | error p => rw [hm] at h; cases h
  | ok r =>
    rw [hm] at h
    cases r with
    | none => cases h; exact .refl
    | some f =>
      simp only at h
      cases hf : c.files f with
      | some l' => rw [hf] at h; cases h; exact .refl
      | none => rw [hf] at h; cases h; exact .single (.load hf)

theorem getAddrOpts_steps (W : World) (a : Str) (c : Ctx) : ESteps W c (getAddrOpts W a c).2 := by
  unfold getAddrOpts
  split
  · exact .refl
  · simp only
    split
    · split
      · exact .single (.valid _ c)
      · exact (ReflTransGen.single (.valid _ c)).tail (.domerr _ _)
      · exact (ReflTransGen.single (.valid _ c)).tail (.domerr _ _)
      · exact .single (.valid _ c)
    · exact .refl

theorem evalMatch_steps {W : World} {tr : TransR} {k : MKind} {a : Str} {c c' : Ctx} {b : Bool}
    (h : evalMatch W tr k a c = .ok (b, c')) : ESteps W c c' := by
  unfold evalMatch at h
  cases hl : getMatchList W a c with
  | error p => rw [hl] at h; cases h
  | ok x =>
    obtain ⟨l, c1⟩ := x
    rw [hl] at h
    simp only [bind, Except.bind, pure, Except.pure] at h
    have h1 := getMatchList_steps hl
    split at h
    · cases h; exact h1.tail (.miss _)
    · cases hp : matchPats (k.matcher W.lib) (k.names tr c1) l with
      | error p => rw [hp] at h; cases h
      | ok r => rw [hp] at h; cases h; exact h1

theorem evalSource_steps {W : World} {tr : TransR} {a : Str} {c c' : Ctx} {b : Bool}
    (h : evalSource W tr a c = .ok (b, c')) : ESteps W c c' := by
  unfold evalSource at h
  cases h1 : evalMatch W tr .host a c with
  | error p => rw [h1] at h; cases h
  | ok r1 =>
    obtain ⟨b1, c1⟩ := r1
    rw [h1] at h
    have s1 := evalMatch_steps h1
    cases b1 with
    | true => cases h; exact s1
    | false =>
      simp only [bind, Except.bind, Bool.false_eq_true, if_false] at h
      cases h2 : evalMatch W tr .helo a c1 with
      | error p => rw [h2] at h; cases h
      | ok r2 =>
        obtain ⟨b2, c2⟩ := r2
        rw [h2] at h
        have s2 := s1.trans (evalMatch_steps h2)
        cases b2 with
        | true => cases h; exact s2
        | false =>
          simp only [Bool.false_eq_true, if_false] at h
          exact s2.trans (evalMatch_steps h)

theorem evalDnsbl_steps (W : World) (tr : TransR) (d : Str) (c : Ctx) : ESteps W c (evalDnsbl W tr d c).2 := by
  unfold evalDnsbl
  split
  · exact .refl
  · split
    · rename_i s0 s1 s2 s3 _
      have e : s3 ++ b!"." ++ s2 ++ b!"." ++ s1 ++ b!"." ++ s0 ++ b!"." ++ d =
        (s3 ++ b!"." ++ s2 ++ b!"." ++ s1 ++ b!"." ++ s0) ++ b!"." ++ d := by simp
      simp only
      split
      · rename_i hr
        refine (ReflTransGen.single (.lookup _ c)).tail (.hit (n := s3 ++ b!"." ++ s2 ++ b!"." ++ s1 ++ b!"." ++ s0) ?_)
        rw [← e]
        exact getDnsblRes_cached hr
      · exact .single (.lookup _ c)
    · exact .refl

theorem dblLookups_steps (W : World) (d : Str) : ∀ (l : List Str) (ret : Bool) (c : Ctx),
    ESteps W c (dblLookups W d l ret c).2 := by
  intro l
  induction l with
  | nil => intro ret c; exact .refl
  | cons s ss ih =>
    intro ret c
    rw [dblLookups]
    split
    · rename_i hr
      exact ((ReflTransGen.single (.lookup _ c)).tail (.hit (getDnsblRes_cached hr))).trans (ih _ _)
    · exact (ReflTransGen.single (.lookup _ c)).trans (ih _ _)

theorem dblFrom_steps (W : World) (src : Opts) (chk : List Str) (c : Ctx) : ESteps W c (dblFrom W src chk c).2 := by
  unfold dblFrom
  split
  · simp only
    split
    · split <;> exact getAddrOpts_steps W _ c
    · exact getAddrOpts_steps W _ c
  · exact .refl

theorem evalDbl_steps {W : World} {tr : TransR} {src : Opts} {d : Str} {c c' : Ctx} {b : Bool}
    (h : evalDbl W tr src d c = .ok (b, c')) : ESteps W c c' := by
  unfold evalDbl at h
  cases hx : dblNames tr src c with
  | error p => rw [hx] at h; cases h
  | ok chk =>
    rw [hx] at h
    simp only [bind, Except.bind, pure, Except.pure] at h
    have h1 := dblFrom_steps W src chk c
    split at h
    · cases h; exact h1
    · simp only [Except.ok.injEq] at h
      have h2 := (h1.tail (.mapIter _)).trans (dblLookups_steps W d (W.mapOrder (dblFrom W src chk c).2.trace.length (dblFrom W src chk c).1) false _)
      rw [h] at h2
      exact h2

theorem evalOpt_steps (W : World) (tr : TransR) (k : OKind) (o : Opts) (c : Ctx) : ESteps W c (evalOpt W tr k o c).2 := by
  unfold evalOpt
  cases k with
  | dns => exact .refl
  | heloHas => exact .refl
  | fromHas => exact getAddrOpts_steps W _ c
  | toHas => exact getAddrOpts_steps W _ c

mutual
theorem eval_steps {W : World} {tr : TransR} : ∀ (e : Expr) {c c' : Ctx} {b : Bool}, eval W tr e c = .ok (b, c') → ESteps W c c'
  | .andL ns, c, c', b, h => by rw [eval] at h; exact evalAnd_steps ns h
  | .notN e, c, c', b, h => by
    rw [eval] at h
    cases he : eval W tr e c with
    | error p => rw [he] at h; cases h
    | ok r => rw [he] at h; cases h; exact eval_steps e he
  | .orN l r, c, c', b, h => by
    rw [eval] at h
    cases he : eval W tr l c with
    | error p => rw [he] at h; cases h
    | ok x =>
      obtain ⟨b1, c1⟩ := x
      rw [he] at h
      cases b1 with
      | true => cases h; exact eval_steps l he
      | false =>
        simp only [bind, Except.bind, Bool.false_eq_true, if_false] at h
        exact (eval_steps l he).trans (eval_steps r h)
  | .all, c, c', b, h => by rw [eval] at h; cases h; exact .refl
  | .tls on, c, c', b, h => by rw [eval] at h; cases h; exact .refl
  | .dnsbl d, c, c', b, h => by
    rw [eval] at h
    have := evalDnsbl_steps W tr d c
    simp only [Except.ok.injEq] at h
    rw [h] at this; exact this
  | .matchN k a, c, c', b, h => by rw [eval] at h; exact evalMatch_steps h
  | .source a, c, c', b, h => by rw [eval] at h; exact evalSource_steps h
  | .dbl s d, c, c', b, h => by rw [eval] at h; exact evalDbl_steps h
  | .optN k o, c, c', b, h => by
    rw [eval] at h
    have := evalOpt_steps W tr k o c
    simp only [Except.ok.injEq] at h
    rw [h] at this; exact this
theorem evalAnd_steps {W : World} {tr : TransR} : ∀ (es : List Expr) {c c' : Ctx} {b : Bool},
    evalAnd W tr es c = .ok (b, c') → ESteps W c c'
  | [], c, c', b, h => by rw [evalAnd] at h; cases h; exact .refl
  | e :: es, c, c', b, h => by
    rw [evalAnd] at h
    cases he : eval W tr e c with
    | error p => rw [he] at h; cases h
    | ok x =>
      obtain ⟨b1, c1⟩ := x
      rw [he] at h
      cases b1 with
      | false => cases h; exact eval_steps e he
      | true =>
        simp only [bind, Except.bind, if_true] at h
        exact (eval_steps e he).trans (evalAnd_steps es h)
end

/-- What evaluation never touches, in any world. -/
theorem EStep.core {W : World} {c c' : Ctx} (h : EStep W c c') : c'.core = c.core := by
  cases h with
  | lookup n =>
    unfold getDnsblRes
    split
    · rfl
    · simp only; split <;> rfl
  | hit _ => unfold addDnsblHit; split <;> rfl
  | valid d => unfold Ctx.validDomain; split <;> rfl
  | load _ => rfl
  | domerr => rfl
  | miss => rfl
  | mapIter => rfl

theorem ESteps.core {W : World} {c c' : Ctx} (h : ESteps W c c') : c'.core = c.core := by
  induction h with
  | refl => rfl
  | tail _ h ih => exact h.core.trans ih

theorem EStep.rulemiss {W : World} {c c' : Ctx} (h : EStep W c c') (hm : c.rulemiss = true) : c'.rulemiss = true := by
  cases h with
  | lookup n =>
    unfold getDnsblRes
    split
    · exact hm
    · simp only; split <;> exact hm
  | hit _ => unfold addDnsblHit; split <;> exact hm
  | valid d => unfold Ctx.validDomain; split <;> exact hm
  | load _ => exact hm
  | domerr => exact hm
  | miss => rfl
  | mapIter => exact hm

theorem ESteps.rulemiss {W : World} {c c' : Ctx} (h : ESteps W c c') (hm : c.rulemiss = true) : c'.rulemiss = true := by
  induction h with
  | refl => exact hm
  | tail _ h ih => exact h.rulemiss ih

/-! ## Whole decisions -/

/-- The elementary changes made while the rules are run. -/
inductive RStep (W : World) : Ctx → Ctx → Prop
  | eval {c c'} : EStep W c c' → RStep W c c'
  | with (w : Withs) (c) : RStep W c { c with withprops := w }
  | rcpt (x : Str) (c) : RStep W c { c with rcptto := x }
  | reset (c) : RStep W c { c with rulemiss := false }

abbrev RSteps (W : World) : Ctx → Ctx → Prop := ReflTransGen (RStep W)

theorem ESteps.rsteps {W : World} {c c' : Ctx} (h : ESteps W c c') : RSteps W c c' := by
  induction h with
  | refl => exact .refl
  | tail _ h ih => exact ih.tail (.eval h)

theorem checkClauses_steps {W : World} {tr : TransR} : ∀ {cs : List RClause} {c c' : Ctx} {b : Bool},
    checkClauses W tr cs c = .ok (b, c') → RSteps W c c' := by
  intro cs
  induction cs with
  | nil => intro c c' b h; cases h; exact .refl
  | cons rc rcs ih =>
    intro c c' b h
    rw [checkClauses] at h
    cases he : eval W tr rc.expr c with
    | error p => rw [he] at h; cases h
    | ok r =>
      obtain ⟨b1, c1⟩ := r
      rw [he] at h
      simp only [bind, Except.bind, pure, Except.pure] at h
      have h1 := (eval_steps _ he).rsteps
      split at h
      · cases h; exact h1
      · split at h
        · exact h1.trans (ih h)
        · cases h; exact h1.tail (.with _ _)

theorem check_steps {W : World} {tr : TransR} {r : Rule} {c c' : Ctx} {b : Bool} (h : r.check W tr c = .ok (b, c')) :
    RSteps W c c' := (ReflTransGen.single (.reset c)).trans (checkClauses_steps h)

theorem ruleForEachRcpt_steps {W : World} {tr : TransR} {r : Rule} : ∀ {as : List Str} {c c' : Ctx} {b : Bool},
    ruleForEachRcpt W tr r as c = .ok (b, c') → RSteps W c c' := by
  intro as
  induction as with
  | nil => intro c c' b h; cases h; exact .refl
  | cons a as ih =>
    intro c c' b h
    rw [ruleForEachRcpt] at h
    cases he : r.check W tr { c with rcptto := a } with
    | error p => rw [he] at h; cases h
    | ok x =>
      obtain ⟨b1, c1⟩ := x
      rw [he] at h
      simp only [bind, Except.bind, pure, Except.pure] at h
      have h1 := (ReflTransGen.single (.rcpt a c)).trans (check_steps he)
      split at h
      · cases h; exact h1
      · split at h
        · cases h; exact h1
        · exact h1.trans (ih h)

theorem runRule_steps {W : World} {tr : TransR} {ph : Phase} {r : Rule} {c c' : Ctx} {b : Bool}
    (h : runRule W tr ph r c = .ok (b, c')) : RSteps W c c' := by
  unfold runRule at h
  simp only at h
  split at h
  · exact (ReflTransGen.single (.reset c)).trans (ruleForEachRcpt_steps h)
  · exact (ReflTransGen.single (.reset c)).trans (check_steps h)

theorem ruleLoop_steps {W : World} {tr : TransR} {ph : Phase} : ∀ {rs : List Rule} {c c' : Ctx} {a : Action},
    ruleLoop W tr ph rs c = .ok (a, c') → RSteps W c c' := by
  intro rs
  induction rs with
  | nil => intro c c' a h; cases h; exact .refl
  | cons r rs ih =>
    intro c c' a h
    rw [ruleLoop] at h
    split at h
    · exact ih h
    · cases he : runRule W tr ph r c with
      | error p => rw [he] at h; cases h
      | ok x =>
        obtain ⟨b1, c1⟩ := x
        rw [he] at h
        simp only [bind, Except.bind, pure, Except.pure] at h
        have h1 := runRule_steps he
        split at h
        · exact h1.trans (ih h)
        · split at h
          · cases h; exact h1
          · exact h1.trans (ih h)

theorem RStep.frame {W : World} {c c' : Ctx} (h : RStep W c c') : c'.frame = c.frame := by
  cases h with
  | eval h => exact Ctx.frame_of_core h.core
  | «with» => rfl
  | rcpt => rfl
  | reset => rfl

theorem RSteps.frame {W : World} {c c' : Ctx} (h : RSteps W c c') : c'.frame = c.frame := by
  induction h with
  | refl => rfl
  | tail _ h ih => exact h.frame.trans ih

/-- The context in which the rules of a decision are run. -/
def begun (ph : Phase) (e : Evt) (c : Ctx) : Ctx :=
  { shadow ph e c with dnsblhit := [], withprops := {}, domerr := none }

/-- The three ways a decision can end. -/
inductive DecideEnd (W : World) (tr : TransR) (ph : Phase) (e : Evt) (c : Ctx) : Action → Ctx → Prop
  | pending : (shadow ph e c).defresult ≥ .accept →
      DecideEnd W tr ph e c (shadow ph e c).defresult
        { begun ph e c with dnsblhit := (shadow ph e c).defdnsblhit, withprops := (shadow ph e c).defprops }
  | plain {a c'} : ¬ (shadow ph e c).defresult ≥ .accept → ruleLoop W tr ph c.ruleset (begun ph e c) = .ok (a, c') →
      ¬ (ph = .mfrom ∧ e.arg = [] ∧ a > .accept) → DecideEnd W tr ph e c a c'
  | defer {a c'} : ¬ (shadow ph e c).defresult ≥ .accept → ruleLoop W tr ph c.ruleset (begun ph e c) = .ok (a, c') →
      ph = .mfrom → e.arg = [] → a > .accept →
      DecideEnd W tr ph e c .accept { c' with defresult := a, defprops := c'.withprops, defdnsblhit := c'.dnsblhit, withprops := {} }

theorem decide_end {W : World} {tr : TransR} {ph : Phase} {e : Evt} {c c' : Ctx} {a : Action}
    (h : Decide W tr ph e c = .ok (a, c')) : DecideEnd W tr ph e c a c' := by
  unfold Decide at h
  simp only [bind, Except.bind, pure, Except.pure] at h
  split at h
  · rename_i hp; cases h; exact .pending hp
  · rename_i hp
    split at h
    · cases h
    · rename_i x hl
      obtain ⟨ret, c3⟩ := x
      have hl : ruleLoop W tr ph c.ruleset (begun ph e c) = .ok (ret, c3) := by
        rw [← shadow_ruleset ph e c]; exact hl
      simp only at h
      have hf := (ruleLoop_steps hl).frame
      have hfrom : ph = .mfrom → c3.from_ = e.arg := by
        rintro rfl; exact Ctx.from_of_frame hf
      split at h
      · rename_i hn
        cases h
        exact .defer hp hl hn.1 (by rw [← hfrom hn.1]; exact hn.2.1) hn.2.2
      · rename_i hn
        cases h
        exact .plain hp hl (fun ⟨h1, h2, h3⟩ => hn ⟨h1, by rw [hfrom h1]; exact h2, h3⟩)

end Sink
