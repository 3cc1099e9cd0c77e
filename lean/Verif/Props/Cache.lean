import Mathlib.Data.List.Nodup
import Verif.Props.Decide

/-!
# Pattern file snapshots and blocklist answers (C19, C20)
-/

namespace Sink
open Spec Relation

/-! ## C19 -/

/-- The same world, but with pattern files that never change. -/
def World.withFiles (W : World) (F : Str → FileRead) : World := { W with files := fun _ => F }

/-- `F` has the contents of every file opened between `t0` and `t` as of the moment it was opened. -/
def Snap (W : World) (F : Str → FileRead) (t0 t : Trace) : Prop :=
  ∀ f s, (.openFile f :: s) <:+ t → t0 <:+ s → F f = W.files s.length f

theorem Snap.sub {W : World} {F : Str → FileRead} {t0 t t0' t' : Trace} (h : Snap W F t0 t) (h0 : t0 <:+ t0') (h1 : t' <:+ t) :
    Snap W F t0' t' := fun f s h2 h3 => h f s (h2.trans h1) (h0.trans h3)

section Congr
variable {W : World} {F : Str → FileRead} {tr : TransR}

theorem snap_getMatchList {a : Str} {c c' : Ctx} {l : List Str} (h : getMatchList W a c = .ok (l, c'))
    (hF : Snap W F c.trace c'.trace) : getMatchList (W.withFiles F) a c = .ok (l, c') := by
  unfold getMatchList at h ⊢
  cases hm : matchFile a with
  | error p => rw [hm] at h; cases h
  | ok r =>
    rw [hm] at h
    cases r with
    | none => exact h
    | some f =>
      simp only at h ⊢
      cases hf : c.files f with
      | some l' => rw [hf] at h; exact h
      | none =>
        rw [hf] at h
        have key : loadList (W.withFiles F) f c.trace = loadList W f c.trace := by
          by_cases he : f = []
          · unfold loadList; rw [if_pos he, if_pos he]
          · have hopen : (.openFile f :: c.trace) <:+ c'.trace := by
              simp only [Except.ok.injEq, Prod.mk.injEq] at h
              rw [← h.2]
              simp only [loadList, if_neg he]
              split
              · exact List.suffix_refl _
              · exact List.suffix_cons _ _
              · exact List.suffix_cons _ _
              · exact List.suffix_refl _
            have := hF f c.trace hopen (List.suffix_refl _)
            unfold loadList
            rw [if_neg he, if_neg he]
            have e : (W.withFiles F).files c.trace.length f = W.files c.trace.length f := this
            simp only [e]
            rfl
        simp only [key]
        exact h

theorem snap_evalMatch {k : MKind} {a : Str} {c c' : Ctx} {b : Bool} (h : evalMatch W tr k a c = .ok (b, c'))
    (hF : Snap W F c.trace c'.trace) : evalMatch (W.withFiles F) tr k a c = .ok (b, c') := by
  unfold evalMatch at h ⊢
  cases hm : getMatchList W a c with
  | error p => rw [hm] at h; cases h
  | ok r =>
    obtain ⟨l, c1⟩ := r
    rw [hm] at h
    have ht : c'.trace = c1.trace := by
      simp only [bind, Except.bind, pure, Except.pure] at h
      split at h
      · cases h; rfl
      · split at h
        · cases h
        · cases h; rfl
    rw [snap_getMatchList hm (ht ▸ hF)]
    exact h

theorem snap_evalSource {a : Str} {c c' : Ctx} {b : Bool} (h : evalSource W tr a c = .ok (b, c'))
    (hF : Snap W F c.trace c'.trace) : evalSource (W.withFiles F) tr a c = .ok (b, c') := by
  unfold evalSource at h ⊢
  cases h1 : evalMatch W tr .host a c with
  | error p => rw [h1] at h; cases h
  | ok r =>
    obtain ⟨b1, c1⟩ := r
    rw [h1] at h
    have s1 := (evalMatch_steps h1).trace
    simp only [bind, Except.bind, pure, Except.pure] at h ⊢
    cases b1 with
    | true =>
      simp only [if_true] at h
      cases h
      rw [snap_evalMatch h1 hF]; rfl
    | false =>
      simp only [Bool.false_eq_true, if_false] at h
      cases h2 : evalMatch W tr .helo a c1 with
      | error p => rw [h2] at h; cases h
      | ok r =>
        obtain ⟨b2, c2⟩ := r
        rw [h2] at h
        have s2 := (evalMatch_steps h2).trace
        cases b2 with
        | true =>
          simp only [if_true] at h
          cases h
          rw [snap_evalMatch h1 (hF.sub (List.suffix_refl _) s2)]
          simp only [Bool.false_eq_true, if_false]
          rw [snap_evalMatch h2 (hF.sub s1 (List.suffix_refl _))]; rfl
        | false =>
          simp only [Bool.false_eq_true, if_false] at h
          have s3 := (evalMatch_steps h).trace
          rw [snap_evalMatch h1 (hF.sub (List.suffix_refl _) (s2.trans s3))]
          simp only [Bool.false_eq_true, if_false]
          rw [snap_evalMatch h2 (hF.sub s1 s3)]
          simp only [Bool.false_eq_true, if_false]
          exact snap_evalMatch h (hF.sub (s1.trans s2) (List.suffix_refl _))

theorem withFiles_lookup (n : Str) (c : Ctx) : getDnsblRes (W.withFiles F) n c = getDnsblRes W n c := rfl

theorem withFiles_dblLookups (d : Str) : ∀ (l : List Str) (r : Bool) (c : Ctx),
    dblLookups (W.withFiles F) d l r c = dblLookups W d l r c := by
  intro l
  induction l with
  | nil => intro r c; rfl
  | cons s ss ih => intro r c; simp only [dblLookups, withFiles_lookup, ih]

theorem withFiles_checkIP (d : Str) (t : Trace) : checkIP (W.withFiles F) d t = checkIP W d t := by
  have : ∀ l, checkAddrs (W.withFiles F) d l = checkAddrs W d l := by
    intro l
    induction l with
    | nil => rfl
    | cons i is ih => simp only [checkAddrs, ih]; rfl
  unfold checkIP
  simp only [this]
  rfl

theorem withFiles_mxLoop (d : Str) : ∀ (l : List MX) (b : DnsRes × Option Str) (t : Trace),
    mxLoop (W.withFiles F) d l b t = mxLoop W d l b t := by
  intro l
  induction l with
  | nil => intro b t; rfl
  | cons m ms ih => intro b t; simp only [mxLoop, withFiles_checkIP, ih]; rfl

theorem withFiles_valid (d : Str) (c : Ctx) : c.validDomain (W.withFiles F) d = c.validDomain W d := by
  have : Sink.validDomain (W.withFiles F) d c.trace = Sink.validDomain W d c.trace := by
    unfold Sink.validDomain
    simp only [withFiles_checkIP, withFiles_mxLoop]
    rfl
  unfold Ctx.validDomain
  rw [this]

theorem withFiles_addrOpts (a : Str) (c : Ctx) : getAddrOpts (W.withFiles F) a c = getAddrOpts W a c := by
  unfold getAddrOpts
  simp only [withFiles_valid]

theorem withFiles_dbl (src : Opts) (d : Str) (c : Ctx) : evalDbl (W.withFiles F) tr src d c = evalDbl W tr src d c := by
  have : ∀ chk, dblFrom (W.withFiles F) src chk c = dblFrom W src chk c := by
    intro chk
    unfold dblFrom
    simp only [withFiles_addrOpts]
  unfold evalDbl
  simp only [this, withFiles_dblLookups]
  rfl

theorem withFiles_opt (k : OKind) (o : Opts) (c : Ctx) : evalOpt (W.withFiles F) tr k o c = evalOpt W tr k o c := by
  unfold evalOpt
  cases k <;> simp only [OKind.get, withFiles_addrOpts] <;> rfl

mutual
theorem snap_eval : ∀ (e : Expr) {c c' : Ctx} {b : Bool}, eval W tr e c = .ok (b, c') → Snap W F c.trace c'.trace →
    eval (W.withFiles F) tr e c = .ok (b, c')
  | .andL es, c, c', b, h, hF => by
    rw [eval] at h ⊢
    exact snap_evalAnd es h hF
  | .notN e, c, c', b, h, hF => by
    rw [eval] at h ⊢
    cases he : eval W tr e c with
    | error p => rw [he] at h; cases h
    | ok r =>
      obtain ⟨b1, c1⟩ := r
      rw [he] at h
      cases h
      rw [snap_eval e he hF]; rfl
  | .orN l r, c, c', b, h, hF => by
    rw [eval] at h ⊢
    cases he : eval W tr l c with
    | error p => rw [he] at h; cases h
    | ok x =>
      obtain ⟨b1, c1⟩ := x
      rw [he] at h
      simp only [bind, Except.bind, pure, Except.pure] at h ⊢
      cases b1 with
      | true =>
        simp only [if_true] at h
        cases h
        rw [snap_eval l he hF]; rfl
      | false =>
        simp only [Bool.false_eq_true, if_false] at h
        rw [snap_eval l he (hF.sub (List.suffix_refl _) (eval_steps r h).trace)]
        simp only [Bool.false_eq_true, if_false]
        exact snap_eval r h (hF.sub (eval_steps l he).trace (List.suffix_refl _))
  | .all, c, c', b, h, hF => by rw [eval] at h ⊢; exact h
  | .tls on, c, c', b, h, hF => by rw [eval] at h ⊢; exact h
  | .dnsbl d, c, c', b, h, hF => by rw [eval] at h ⊢; exact h
  | .matchN k a, c, c', b, h, hF => by rw [eval] at h ⊢; exact snap_evalMatch h hF
  | .source a, c, c', b, h, hF => by rw [eval] at h ⊢; exact snap_evalSource h hF
  | .dbl s d, c, c', b, h, hF => by rw [eval] at h ⊢; rw [withFiles_dbl]; exact h
  | .optN k o, c, c', b, h, hF => by rw [eval] at h ⊢; rw [withFiles_opt]; exact h
theorem snap_evalAnd : ∀ (es : List Expr) {c c' : Ctx} {b : Bool}, evalAnd W tr es c = .ok (b, c') → Snap W F c.trace c'.trace →
    evalAnd (W.withFiles F) tr es c = .ok (b, c')
  | [], c, c', b, h, hF => by rw [evalAnd] at h ⊢; exact h
  | e :: es, c, c', b, h, hF => by
    rw [evalAnd] at h ⊢
    cases he : eval W tr e c with
    | error p => rw [he] at h; cases h
    | ok x =>
      obtain ⟨b1, c1⟩ := x
      rw [he] at h
      simp only [bind, Except.bind, pure, Except.pure] at h ⊢
      cases b1 with
      | false =>
        simp only [Bool.false_eq_true, if_false] at h
        cases h
        rw [snap_eval e he hF]; rfl
      | true =>
        simp only [if_true] at h
        rw [snap_eval e he (hF.sub (List.suffix_refl _) (evalAnd_steps es h).trace)]
        simp only [if_true]
        exact snap_evalAnd es h (hF.sub (eval_steps e he).trace (List.suffix_refl _))
end

theorem snap_checkClauses : ∀ {cs : List RClause} {c c' : Ctx} {b : Bool}, checkClauses W tr cs c = .ok (b, c') →
    Snap W F c.trace c'.trace → checkClauses (W.withFiles F) tr cs c = .ok (b, c') := by
  intro cs
  induction cs with
  | nil => intro c c' b h _; exact h
  | cons rc rcs ih =>
    intro c c' b h hF
    rw [checkClauses] at h ⊢
    cases he : eval W tr rc.expr c with
    | error p => rw [he] at h; cases h
    | ok r =>
      obtain ⟨b1, c1⟩ := r
      rw [he] at h
      simp only [bind, Except.bind, pure, Except.pure] at h ⊢
      have s1 := (eval_steps _ he).trace
      have s2 : c1.trace <:+ c'.trace := by
        split at h
        · cases h; exact List.suffix_refl _
        · split at h
          · exact (checkClauses_steps h).trace
          · cases h; exact List.suffix_refl _
      rw [snap_eval _ he (hF.sub (List.suffix_refl _) s2)]
      simp only
      split at h
      · rename_i h1; rw [if_pos h1]; exact h
      · rename_i h1
        rw [if_neg h1]
        split at h
        · rename_i h2; rw [if_pos h2]; exact ih h (hF.sub s1 (List.suffix_refl _))
        · rename_i h2; rw [if_neg h2]; exact h

theorem snap_check {r : Rule} {c c' : Ctx} {b : Bool} (h : r.check W tr c = .ok (b, c')) (hF : Snap W F c.trace c'.trace) :
    r.check (W.withFiles F) tr c = .ok (b, c') := snap_checkClauses (c := { c with rulemiss := false }) h hF

theorem snap_ruleForEachRcpt {r : Rule} : ∀ {as : List Str} {c c' : Ctx} {b : Bool}, ruleForEachRcpt W tr r as c = .ok (b, c') →
    Snap W F c.trace c'.trace → ruleForEachRcpt (W.withFiles F) tr r as c = .ok (b, c') := by
  intro as
  induction as with
  | nil => intro c c' b h _; exact h
  | cons a as ih =>
    intro c c' b h hF
    rw [ruleForEachRcpt] at h ⊢
    cases he : r.check W tr { c with rcptto := a } with
    | error p => rw [he] at h; cases h
    | ok x =>
      obtain ⟨b1, c1⟩ := x
      rw [he] at h
      simp only [bind, Except.bind, pure, Except.pure] at h ⊢
      have s1 : c.trace <:+ c1.trace := (check_steps he).trace
      have s2 : c1.trace <:+ c'.trace := by
        split at h
        · cases h; exact List.suffix_refl _
        · split at h
          · cases h; exact List.suffix_refl _
          · exact (ruleForEachRcpt_steps h).trace
      rw [snap_check (c := { c with rcptto := a }) he (hF.sub (List.suffix_refl _) s2)]
      simp only
      split at h
      · rename_i h1; rw [if_pos h1]; exact h
      · rename_i h1
        rw [if_neg h1]
        split at h
        · rename_i h2; rw [if_pos h2]; exact h
        · rename_i h2; rw [if_neg h2]; exact ih h (hF.sub s1 (List.suffix_refl _))

theorem snap_runRule {ph : Phase} {r : Rule} {c c' : Ctx} {b : Bool} (h : runRule W tr ph r c = .ok (b, c'))
    (hF : Snap W F c.trace c'.trace) : runRule (W.withFiles F) tr ph r c = .ok (b, c') := by
  unfold runRule at h ⊢
  simp only at h ⊢
  split at h
  · rename_i h1; rw [if_pos h1]; exact snap_ruleForEachRcpt (c := { c with rulemiss := false }) h hF
  · rename_i h1; rw [if_neg h1]; exact snap_check (c := { c with rulemiss := false }) h hF

theorem snap_ruleLoop {ph : Phase} : ∀ {rs : List Rule} {c c' : Ctx} {a : Action}, ruleLoop W tr ph rs c = .ok (a, c') →
    Snap W F c.trace c'.trace → ruleLoop (W.withFiles F) tr ph rs c = .ok (a, c') := by
  intro rs
  induction rs with
  | nil => intro c c' b h _; exact h
  | cons r rs ih =>
    intro c c' a h hF
    rw [ruleLoop] at h ⊢
    split at h
    · rename_i h0; rw [if_pos h0]; exact ih h hF
    · rename_i h0
      rw [if_neg h0]
      cases he : runRule W tr ph r c with
      | error p => rw [he] at h; cases h
      | ok x =>
        obtain ⟨b1, c1⟩ := x
        rw [he] at h
        simp only [bind, Except.bind, pure, Except.pure] at h ⊢
        have s1 : c.trace <:+ c1.trace := (runRule_steps he).trace
        have s2 : c1.trace <:+ c'.trace := by
          split at h
          · exact (ruleLoop_steps h).trace
          · split at h
            · cases h; exact List.suffix_refl _
            · exact (ruleLoop_steps h).trace
        rw [snap_runRule he (hF.sub (List.suffix_refl _) s2)]
        simp only
        split at h
        · rename_i h1; rw [if_pos h1]; exact ih h (hF.sub s1 (List.suffix_refl _))
        · rename_i h1
          rw [if_neg h1]
          split at h
          · rename_i h2; rw [if_pos h2]; exact h
          · rename_i h2; rw [if_neg h2]; exact ih h (hF.sub s1 (List.suffix_refl _))

theorem begun_trace (ph : Phase) (e : Evt) (c : Ctx) : (begun ph e c).trace = c.trace := by cases ph <;> rfl
theorem begun_files (ph : Phase) (e : Evt) (c : Ctx) : (begun ph e c).files = c.files := by cases ph <;> rfl
theorem begun_dnsbl (ph : Phase) (e : Evt) (c : Ctx) : (begun ph e c).dnsbl = c.dnsbl := by cases ph <;> rfl

theorem snap_Decide {ph : Phase} {e : Evt} {c c' : Ctx} {a : Action} (h : Decide W tr ph e c = .ok (a, c'))
    (hF : Snap W F c.trace c'.trace) : Decide (W.withFiles F) tr ph e c = .ok (a, c') := by
  rw [Decide_eq] at h ⊢
  split at h
  · rename_i h1; rw [if_pos h1]; exact h
  · rename_i h1
    rw [if_neg h1]
    cases he : ruleLoop W tr ph (shadow ph e c).ruleset (begun ph e c) with
    | error p => rw [he] at h; cases h
    | ok x =>
      rw [he] at h
      have ht : c'.trace = x.2.trace := by
        simp only [bind, Except.bind] at h
        split at h <;> cases h <;> rfl
      rw [snap_ruleLoop he (by rw [begun_trace]; exact ht ▸ hF)]
      exact h

end Congr

/-- A connection's history as far as rules are concerned: decisions, each with the transaction data at the time. -/
abbrev History := List (TransR × Phase × Evt)

/-- All decisions of a history: for each the result, the with options and the blocklist hits. -/
def runAll (W : World) : History → Ctx → Except Panic (List (Action × Withs × List Str) × Ctx)
  | [], c => .ok ([], c)
  | (tr, ph, e) :: hs, c => do
    let (a, c) ← Decide W tr ph e c
    let (l, c1) ← runAll W hs c
    return ((a, c.withprops, c.dnsblhit) :: l, c1)

/-- One decision, on any data. -/
def DStep (W : World) (c c' : Ctx) : Prop := ∃ tr ph e a, Decide W tr ph e c = .ok (a, c')

theorem runAll_steps {W : World} : ∀ {hs : History} {c c' : Ctx} {l}, runAll W hs c = .ok (l, c') → ReflTransGen (DStep W) c c' := by
  intro hs
  induction hs with
  | nil => intro c c' l h; cases h; exact .refl
  | cons x hs ih =>
    obtain ⟨tr, ph, e⟩ := x
    intro c c' l h
    rw [runAll] at h
    cases hd : Decide W tr ph e c with
    | error p => rw [hd] at h; cases h
    | ok y =>
      obtain ⟨a, c1⟩ := y
      rw [hd] at h
      simp only [bind, Except.bind, pure, Except.pure] at h
      cases hr : runAll W hs c1 with
      | error p => rw [hr] at h; cases h
      | ok z =>
        obtain ⟨l1, c2⟩ := z
        rw [hr] at h
        cases h
        exact .head ⟨tr, ph, e, a, hd⟩ (ih hr)

/-- What a decision changes in the caches and the trace is changed by evaluation steps. -/
theorem DStep.rsteps {W : World} {c c' : Ctx} (h : DStep W c c') : ∃ b e, RSteps W b e ∧ b.trace = c.trace ∧ b.files = c.files ∧
    b.dnsbl = c.dnsbl ∧ e.trace = c'.trace ∧ e.files = c'.files ∧ e.dnsbl = c'.dnsbl := by
  obtain ⟨tr, ph, e, a, h⟩ := h
  cases decide_end h with
  | pending => exact ⟨begun ph e c, _, .refl, begun_trace .., begun_files .., begun_dnsbl .., rfl, rfl, rfl⟩
  | plain _ hl _ => exact ⟨_, _, ruleLoop_steps hl, begun_trace .., begun_files .., begun_dnsbl .., rfl, rfl, rfl⟩
  | defer _ hl => exact ⟨_, _, ruleLoop_steps hl, begun_trace .., begun_files .., begun_dnsbl .., rfl, rfl, rfl⟩

theorem DStep.trace {W : World} {c c' : Ctx} (h : DStep W c c') : c.trace <:+ c'.trace := by
  obtain ⟨b, e, h, h1, -, -, h2, -⟩ := h.rsteps
  rw [← h1, ← h2]; exact h.trace

theorem DSteps.trace {W : World} {c c' : Ctx} (h : ReflTransGen (DStep W) c c') : c.trace <:+ c'.trace := by
  induction h with
  | refl => exact List.suffix_refl _
  | tail _ h ih => exact ih.trans h.trace

/-- How often a file has been opened, plus one if it may still be. -/
def opens (f : Str) (c : Ctx) : Nat := c.trace.count (.openFile f) + if c.files f = none then 1 else 0

theorem count_validDomain (W : World) (d f : Str) (t : Trace) : (validDomain W d t).2.count (.openFile f) = t.count (.openFile f) := by
  obtain ⟨evs, h1, h2⟩ := validDomain_trace W d t
  rw [h1, List.count_append]
  have : evs.count (.openFile f) = 0 := by
    rw [List.count_eq_zero]
    intro hm
    rcases h2 _ hm with h | h | ⟨_, _, _, _, h⟩ <;> cases h
  omega

theorem EStep.opens {W : World} {c c' : Ctx} (h : EStep W c c') (f : Str) : opens f c' ≤ opens f c := by
  cases h with
  | lookup n =>
    unfold getDnsblRes
    split
    · exact Nat.le_refl _
    · split <;> simp [Sink.opens]
  | hit h =>
    unfold addDnsblHit
    split <;> exact Nat.le_refl _
  | valid d =>
    unfold Ctx.validDomain
    split
    · exact Nat.le_refl _
    · simp [Sink.opens, count_validDomain]
  | @load g c hg =>
    unfold Sink.opens
    simp only
    by_cases hf : f = g
    · subst hf
      have h1 : (upd c.files f (loadList W f c.trace).1) f = some (loadList W f c.trace).1 := by simp [upd]
      simp only [h1, hg, reduceCtorEq, if_false, if_true]
      unfold loadList
      split
      · simp
      · simp only
        split <;> simp
    · have h1 : (upd c.files g (loadList W g c.trace).1) f = c.files f := by simp [upd, hf]
      simp only [h1]
      have h2 : (loadList W g c.trace).2.count (.openFile f) = c.trace.count (.openFile f) := by
        have hne : (Ev.openFile g == Ev.openFile f) = false := by
          rw [beq_eq_false_iff_ne]; intro h; cases h; exact hf rfl
        unfold loadList
        split
        · rfl
        · simp only
          split <;> simp [List.count_cons, hne]
      omega
  | domerr => exact Nat.le_refl _
  | miss => exact Nat.le_refl _
  | mapIter => simp [Sink.opens]

theorem RSteps.opens {W : World} {c c' : Ctx} (h : RSteps W c c') (f : Str) : Sink.opens f c' ≤ Sink.opens f c := by
  induction h with
  | refl => exact Nat.le_refl _
  | tail _ h ih =>
    cases h with
    | eval h => exact Nat.le_trans (h.opens f) ih
    | «with» => exact ih
    | rcpt => exact ih
    | reset => exact ih

theorem DSteps.opens {W : World} {c c' : Ctx} (h : ReflTransGen (DStep W) c c') (f : Str) : Sink.opens f c' ≤ Sink.opens f c := by
  induction h with
  | refl => exact Nat.le_refl _
  | tail _ h ih =>
    obtain ⟨b, e, hr, h1, h2, -, h3, h4, -⟩ := h.rsteps
    refine Nat.le_trans ?_ ih
    have := hr.opens f
    unfold Sink.opens at this ⊢
    rw [← h1, ← h2, ← h3, ← h4]; exact this

/-- **C19.** In any world, over any history of decisions, a pattern file is opened at most once; never again if it has
been loaded. -/
theorem C19_once {W : World} {hs : History} {c c' : Ctx} {l} (h : runAll W hs c = .ok (l, c')) (f : Str) :
    c'.trace.count (.openFile f) ≤ c.trace.count (.openFile f) + (if c.files f = none then 1 else 0) := by
  have := DSteps.opens (runAll_steps h) f
  unfold opens at this
  omega

theorem opened_once {W : World} {c c' : Ctx} (h : ReflTransGen (DStep W) c c') {f : Str} {s s' : Trace}
    (h1 : (.openFile f :: s) <:+ c'.trace) (h2 : c.trace <:+ s) (h1' : (.openFile f :: s') <:+ c'.trace) (h2' : c.trace <:+ s') :
    s = s' := by
  have key : ∀ {s s' : Trace}, (.openFile f :: s) <:+ c'.trace → c.trace <:+ s → (.openFile f :: s') <:+ c'.trace → s.length < s'.length → False := by
    intro s s' h1 h2 h1' hlt
    have hsub : (.openFile f :: s) <:+ s' := by
      refine List.suffix_of_suffix_length_le h1 ((List.suffix_cons _ _).trans h1') ?_
      exact hlt
    have c1 := h2.sublist.count_le (Ev.openFile f)
    have c2 := hsub.sublist.count_le (Ev.openFile f)
    have c3 := h1'.sublist.count_le (Ev.openFile f)
    have c4 := DSteps.opens h f
    unfold opens at c4
    rw [List.count_cons_self] at c2 c3
    split at c4 <;> split at c4 <;> omega
  rcases Nat.lt_trichotomy s.length s'.length with hlt | he | hlt
  · exact (key h1 h2 h1' hlt).elim
  · have h3 := (List.suffix_cons _ _).trans h1
    have h3' := (List.suffix_cons _ _).trans h1'
    exact (List.suffix_of_suffix_length_le h3 h3' (Nat.le_of_eq he)).eq_of_length he
  · exact (key h1' h2' h1 hlt).elim

theorem snap_runAll {W : World} {F : Str → FileRead} : ∀ {hs : History} {c c' : Ctx} {l}, runAll W hs c = .ok (l, c') →
    Snap W F c.trace c'.trace → runAll (W.withFiles F) hs c = .ok (l, c') := by
  intro hs
  induction hs with
  | nil => intro c c' l h _; exact h
  | cons x hs ih =>
    obtain ⟨tr, ph, e⟩ := x
    intro c c' l h hF
    rw [runAll] at h ⊢
    cases hd : Decide W tr ph e c with
    | error p => rw [hd] at h; cases h
    | ok y =>
      obtain ⟨a, c1⟩ := y
      rw [hd] at h
      simp only [bind, Except.bind, pure, Except.pure] at h ⊢
      cases hr : runAll W hs c1 with
      | error p => rw [hr] at h; cases h
      | ok z =>
        obtain ⟨l1, c2⟩ := z
        rw [hr] at h
        cases h
        have s1 : c.trace <:+ c1.trace := DStep.trace ⟨tr, ph, e, a, hd⟩
        have s2 := DSteps.trace (runAll_steps hr)
        rw [snap_Decide hd (hF.sub (List.suffix_refl _) s2)]
        simp only
        rw [ih hr (hF.sub s1 (List.suffix_refl _))]

/-- **C19.** In a world where pattern files change at any time, every history of decisions goes exactly as in a world
where they do not: there are fixed contents `F`, the contents of each file when it was opened, with which all results, with
options, hits and the whole context come out the same. -/
theorem C19_snapshot {W : World} {hs : History} {c c' : Ctx} {l} (h : runAll W hs c = .ok (l, c')) :
    ∃ F : Str → FileRead, (∀ f s, (.openFile f :: s) <:+ c'.trace → c.trace <:+ s → F f = W.files s.length f) ∧
      runAll { W with files := fun _ => F } hs c = .ok (l, c') := by
  classical
  let F : Str → FileRead := fun f =>
    if hx : ∃ s, (.openFile f :: s) <:+ c'.trace ∧ c.trace <:+ s then W.files hx.choose.length f else W.files 0 f
  have hF : Snap W F c.trace c'.trace := by
    intro f s h1 h2
    have hx : ∃ s, (.openFile f :: s) <:+ c'.trace ∧ c.trace <:+ s := ⟨s, h1, h2⟩
    have : F f = W.files hx.choose.length f := dif_pos hx
    rw [this, opened_once (runAll_steps h) hx.choose_spec.1 hx.choose_spec.2 h1 h2]
  exact ⟨F, hF, snap_runAll h hF⟩

/-- A world in which the pattern file changes every time it is looked at. -/
def changing : World := { demoWorld with files := fun n _ => .data (if n % 2 = 0 then b!"joe@example.com\n" else b!"other\n") }

example : (runAll changing [(demoTrans, .mfrom, ⟨false, b!"joe@example.com"⟩), (demoTrans, .rto, ⟨false, b!"x@y.z"⟩)]
    (newContext [⟨[⟨.matchN .from_ b!"/list", {}⟩], .reject, .mfrom, .any⟩] [])).map (fun x => (x.1.map (·.1), x.2.trace)) =
    .ok ([.reject, .reject], [.openFile b!"/list"]) := by decide +kernel

/-! ## C20 -/

/-- What is known about blocklists in context `c`, having started from `c0`: known answers stay, new ones come from a
lookup made since, and the hits are distinct and have a positive answer. -/
structure HitsOK (W : World) (c0 c : Ctx) (hits : List Str) : Prop where
  keep : ∀ n v, c0.dnsbl n = some v → c.dnsbl n = some v
  backed : ∀ n v, c.dnsbl n = some v → c0.dnsbl n = some v ∨
    ∃ s ips, (.lookupIP n :: s) <:+ c.trace ∧ c0.trace <:+ s ∧ W.lookupIP s.length n = .ok ips ∧ v = decide (ips ≠ [])
  nodup : hits.Nodup
  listed : ∀ d ∈ hits, ∃ n, c.dnsbl (n ++ b!"." ++ d) = some true

theorem HitsOK.of_eq {W : World} {c0 c c' : Ctx} {hits : List Str} (h : HitsOK W c0 c hits) (h1 : c'.dnsbl = c.dnsbl)
    (h2 : c.trace <:+ c'.trace) : HitsOK W c0 c' hits := by
  refine ⟨fun n v => h1 ▸ h.keep n v, fun n v hv => ?_, h.nodup, fun d hd => h1 ▸ h.listed d hd⟩
  rcases h.backed n v (h1 ▸ hv) with h | ⟨s, ips, h3, h4⟩
  · exact Or.inl h
  · exact Or.inr ⟨s, ips, h3.trans h2, h4⟩

/-- The step case, for the hits of the decision and any other list of earlier hits. -/
theorem EStep.hits {W : World} {c0 c c' : Ctx} (ht : c0.trace <:+ c.trace) (h : EStep W c c')
    (hc : HitsOK W c0 c c.dnsblhit) : HitsOK W c0 c' c'.dnsblhit := by
  have hsuf := h.trace
  cases h with
  | lookup n =>
    unfold getDnsblRes at hsuf ⊢
    split at hsuf
    · exact hc
    · rename_i hn
      simp only
      split
      · exact hc.of_eq rfl (List.suffix_cons _ _)
      · rename_i ips hl
        refine ⟨fun m v hm => ?_, fun m v hm => ?_, hc.nodup, fun d hd => ?_⟩
        · have := hc.keep m v hm
          simp only [upd]
          split
          · rename_i he; subst he; rw [hn] at this; cases this
          · exact this
        · simp only [upd] at hm
          split at hm
          · rename_i he
            subst he
            refine Or.inr ⟨c.trace, ips, List.suffix_refl _, ht, hl, ?_⟩
            simp only [Option.some.injEq] at hm
            rw [← hm]
            cases ips <;> rfl
          · rcases hc.backed m v hm with h | ⟨s, ips, h3, h4⟩
            · exact Or.inl h
            · exact Or.inr ⟨s, ips, h3.trans (List.suffix_cons _ _), h4⟩
        · obtain ⟨m, hm⟩ := hc.listed d hd
          refine ⟨m, ?_⟩
          simp only [upd]
          split
          · rename_i he; rw [he, hn] at hm; cases hm
          · exact hm
  | @hit n d c hd =>
    unfold addDnsblHit
    split
    · exact hc
    · rename_i hnew
      refine ⟨hc.keep, hc.backed, ?_, ?_⟩
      · rw [List.nodup_append]
        refine ⟨hc.nodup, by simp, ?_⟩
        intro a ha b hb hab
        simp only [List.mem_singleton] at hb
        subst hb hab
        exact hnew (List.any_eq_true.mpr ⟨a, ha, by simp⟩)
      · intro x hx
        rcases List.mem_append.mp hx with hx | hx
        · exact hc.listed x hx
        · simp only [List.mem_singleton] at hx
          subst hx
          exact ⟨n, hd⟩
  | valid d =>
    unfold Ctx.validDomain at hsuf ⊢
    split at hsuf
    · exact hc
    · exact hc.of_eq rfl hsuf
  | load hf => exact hc.of_eq rfl hsuf
  | domerr => exact hc.of_eq rfl hsuf
  | miss => exact hc.of_eq rfl hsuf
  | mapIter => exact hc.of_eq rfl hsuf

theorem RSteps.hits {W : World} {c0 c c' : Ctx} (ht : c0.trace <:+ c.trace) (h : RSteps W c c')
    (hc : HitsOK W c0 c c.dnsblhit) : HitsOK W c0 c' c'.dnsblhit := by
  induction h with
  | refl => exact hc
  | tail h1 h ih =>
    have ht' : c0.trace <:+ _ := ht.trans (RSteps.trace h1)
    cases h with
    | eval h => exact h.hits ht' ih
    | «with» => exact ih.of_eq rfl (List.suffix_refl _)
    | rcpt => exact ih.of_eq rfl (List.suffix_refl _)
    | reset => exact ih.of_eq rfl (List.suffix_refl _)

/-- The invariant of a whole connection: also the hits of a refusal that was put off are in order. -/
structure BlockOK (W : World) (c0 c : Ctx) : Prop where
  now : HitsOK W c0 c c.dnsblhit
  deferred : HitsOK W c0 c c.defdnsblhit

theorem RSteps.dnsbl {W : World} {c c' : Ctx} (h : RSteps W c c') : ∀ n v, c.dnsbl n = some v → c'.dnsbl n = some v := by
  have h0 : HitsOK W { c with dnsblhit := [] } { c with dnsblhit := [] } [] := ⟨fun _ _ h => h, fun _ _ h => Or.inl h, List.nodup_nil, by simp⟩
  induction h with
  | refl => exact fun _ _ h => h
  | tail _ h ih =>
    intro n v hn
    have hn := ih n v hn
    cases h with
    | «with» => exact hn
    | rcpt => exact hn
    | reset => exact hn
    | eval h =>
      cases h with
      | lookup m =>
        unfold getDnsblRes
        split
        · exact hn
        · rename_i hm
          simp only
          split
          · exact hn
          · simp only [upd]
            split
            · rename_i he; subst he; rw [hm] at hn; cases hn
            · exact hn
      | hit => unfold addDnsblHit; split <;> exact hn
      | valid => unfold Ctx.validDomain; split <;> exact hn
      | load => exact hn
      | domerr => exact hn
      | miss => exact hn
      | mapIter => exact hn

theorem HitsOK.later {W : World} {c0 c c' : Ctx} {hits hits' : List Str} (h : HitsOK W c0 c hits) (h' : HitsOK W c0 c' hits')
    (hk : ∀ n v, c.dnsbl n = some v → c'.dnsbl n = some v) : HitsOK W c0 c' hits :=
  ⟨h'.keep, h'.backed, h.nodup, fun d hd => (h.listed d hd).imp fun _ hn => hk _ _ hn⟩

theorem begun_hits {W : World} {c0 c : Ctx} {hits : List Str} (ph : Phase) (e : Evt) (h : HitsOK W c0 c hits) :
    HitsOK W c0 (begun ph e c) hits := h.of_eq (begun_dnsbl ph e c) (by rw [begun_trace]; exact List.suffix_refl _)

theorem BlockOK.step {W : World} {c0 c c' : Ctx} (ht : c0.trace <:+ c.trace) (hc : BlockOK W c0 c) (h : DStep W c c') : BlockOK W c0 c' := by
  obtain ⟨tr, ph, e, a, h⟩ := h
  have hd : (begun ph e c).defdnsblhit = c.defdnsblhit := by cases ph <;> rfl
  have hd' : (shadow ph e c).defdnsblhit = c.defdnsblhit := by cases ph <;> rfl
  have hh : (begun ph e c).dnsblhit = [] := rfl
  have nil : HitsOK W c0 (begun ph e c) (begun ph e c).dnsblhit := by
    have := begun_hits ph e hc.now
    exact ⟨this.keep, this.backed, hh ▸ List.nodup_nil, by simp [hh]⟩
  have ht' : c0.trace <:+ (begun ph e c).trace := by rw [begun_trace]; exact ht
  have run : ∀ {a c'}, ruleLoop W tr ph c.ruleset (begun ph e c) = .ok (a, c') → HitsOK W c0 c' c'.dnsblhit ∧ HitsOK W c0 c' c'.defdnsblhit := by
    intro a c' hl
    have hr := ruleLoop_steps hl
    have h1 := RSteps.hits ht' hr nil
    have h2 : c'.defdnsblhit = c.defdnsblhit := by
      have := congrArg Ctx.defdnsblhit hr.frame
      exact this.trans hd
    refine ⟨h1, ?_⟩
    rw [h2]
    exact (begun_hits ph e hc.deferred).later h1 hr.dnsbl
  cases decide_end h with
  | pending =>
    have := begun_hits ph e hc.deferred
    constructor
    · show HitsOK W c0 _ (shadow ph e c).defdnsblhit
      rw [hd']
      exact this.of_eq rfl (List.suffix_refl _)
    · show HitsOK W c0 _ (begun ph e c).defdnsblhit
      rw [hd]
      exact this.of_eq rfl (List.suffix_refl _)
  | plain _ hl _ => exact ⟨(run hl).1, (run hl).2⟩
  | defer _ hl =>
    exact ⟨(run hl).1.of_eq rfl (List.suffix_refl _), (run hl).1.of_eq rfl (List.suffix_refl _)⟩

theorem BlockOK.steps {W : World} {c0 c c' : Ctx} (ht : c0.trace <:+ c.trace) (hc : BlockOK W c0 c) (h : ReflTransGen (DStep W) c c') :
    BlockOK W c0 c' := by
  induction h with
  | refl => exact hc
  | tail h1 h2 ih => exact ih.step (ht.trans (DSteps.trace h1)) h2

/-- **C20.** In any world (also if the DNS changes its mind): an answer known about a name stays for all later decisions of
the connection, and asking again gives that answer without a lookup. -/
theorem C20_sticky {W : World} {hs : History} {c c' : Ctx} {l} (h : runAll W hs c = .ok (l, c')) {n : Str} {v : Bool}
    (hn : c.dnsbl n = some v) : c'.dnsbl n = some v ∧ getDnsblRes W n c' = (v, c') := by
  have key : c'.dnsbl n = some v := by
    have := runAll_steps h
    clear h
    induction this with
    | refl => exact hn
    | tail _ h ih =>
      obtain ⟨b, e, hr, -, -, h1, -, -, h2⟩ := h.rsteps
      rw [← h2]
      exact hr.dnsbl n v (h1 ▸ ih)
  refine ⟨key, ?_⟩
  unfold getDnsblRes
  rw [key]

/-- C20: a lookup that succeeds (with or without addresses) makes its answer known; see C20_sticky. -/
theorem C20_known {W : World} {n : Str} {c : Ctx} (hc : c.dnsbl n = none) {ips : List IP} (h : W.lookupIP c.trace.length n = .ok ips) :
    (getDnsblRes W n c).1 = decide (ips ≠ []) ∧ (getDnsblRes W n c).2.dnsbl n = some (decide (ips ≠ [])) := by
  unfold getDnsblRes
  simp only [hc, h]
  cases ips <;> simp [upd]

/-- The hits of each decision of a history. -/
def hitsOf (l : List (Action × Withs × List Str)) : List (List Str) := l.map (·.2.2)

/-- **C20.** On a connection (from a new context), in any world: the hits reported with each decision are free of
duplicates, and each reported list `d` was answered positively, by a lookup of some name under `d` made on this
connection. -/
theorem C20_hits {W : World} {rules : List Rule} {t : Trace} : ∀ {hs : History} {c' : Ctx} {l},
    runAll W hs (newContext rules t) = .ok (l, c') → ∀ hits ∈ hitsOf l, hits.Nodup ∧
      ∀ d ∈ hits, ∃ n s ips, (.lookupIP (n ++ b!"." ++ d) :: s) <:+ c'.trace ∧ t <:+ s ∧
        W.lookupIP s.length (n ++ b!"." ++ d) = .ok ips ∧ ips ≠ [] := by
  have main : ∀ {hs : History} {c c' : Ctx} {l}, t <:+ c.trace → BlockOK W (newContext rules t) c → runAll W hs c = .ok (l, c') →
      ∀ hits ∈ hitsOf l, hits.Nodup ∧
      ∀ d ∈ hits, ∃ n s ips, (.lookupIP (n ++ b!"." ++ d) :: s) <:+ c'.trace ∧ t <:+ s ∧
        W.lookupIP s.length (n ++ b!"." ++ d) = .ok ips ∧ ips ≠ [] := by
    intro hs
    induction hs with
    | nil => intro c c' l _ _ h; cases h; simp [hitsOf]
    | cons x hs ih =>
      obtain ⟨tr, ph, e⟩ := x
      intro c c' l ht hc h
      rw [runAll] at h
      cases hd : Decide W tr ph e c with
      | error p => rw [hd] at h; cases h
      | ok y =>
        obtain ⟨a, c1⟩ := y
        rw [hd] at h
        simp only [bind, Except.bind, pure, Except.pure] at h
        cases hr : runAll W hs c1 with
        | error p => rw [hr] at h; cases h
        | ok z =>
          obtain ⟨l1, c2⟩ := z
          rw [hr] at h
          cases h
          have hst : DStep W c c1 := ⟨tr, ph, e, a, hd⟩
          have ht1 := ht.trans hst.trace
          have hc1 := hc.step ht hst
          intro hits hm
          rcases List.mem_cons.mp hm with rfl | hm
          · refine ⟨hc1.now.nodup, fun d hdm => ?_⟩
            obtain ⟨n, hn⟩ := hc1.now.listed d hdm
            rcases hc1.now.backed _ _ hn with h | ⟨s, ips, h1, h2, h3, h4⟩
            · cases h
            · refine ⟨n, s, ips, h1.trans (DSteps.trace (runAll_steps hr)), h2, h3, ?_⟩
              simpa using h4
          · exact ih ht1 hc1 hr hits hm
  intro hs c' l h
  have h0 : HitsOK W (newContext rules t) (newContext rules t) [] := ⟨fun _ _ h => h, fun _ _ h => Or.inl h, List.nodup_nil, by simp⟩
  exact main (c := newContext rules t) (List.suffix_refl _) ⟨h0, h0⟩ h

/-- A world in which every second lookup succeeds. -/
def flipping : World := { demoWorld with lookupIP := fun n _ => if n % 2 = 0 then .ok [.v4 0x7f000002#32] else .ok [] }

example : (runAll flipping [(demoTrans, .connect, {}), (demoTrans, .helo, ⟨false, b!"x"⟩), (demoTrans, .mfrom, ⟨false, []⟩),
      (demoTrans, .rto, ⟨false, b!"x@y.z"⟩)]
    (newContext [⟨[⟨.dnsbl b!"no.list.", { note := some b!"n" }⟩, ⟨.dnsbl b!"bl.example.", {}⟩], .reject, .any, .any⟩] [.mapIter])).map
      (fun x => (x.1.map (fun y => (y.1, y.2.2)), x.2.trace.length)) =
    .ok ([(.reject, [b!"bl.example."]), (.reject, [b!"bl.example."]), (.accept, [b!"bl.example."]), (.reject, [b!"bl.example."])], 3) := by
  decide +kernel

end Sink
