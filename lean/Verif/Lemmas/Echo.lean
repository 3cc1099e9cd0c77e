import Verif.Lemmas.Snapshot
import Verif.Spec.Echo

/-!
# The same answers give the same run

If another world gives the same answers to the questions that were asked, the same happens in it.
-/

namespace Sink
open Spec

theorem Spec.Echo.sub {W W0 : World} {t t' : Trace} (h : Echo W W0 t) (hs : t' <:+ t) : Echo W W0 t' :=
  ⟨h.lib, h.ipStr, h.order, h.ip, h.txt, fun f u hu => h.files f u (hu.trans hs), fun n u hu => h.mx n u (hu.trans hs),
    fun a u hu => h.addr a u (hu.trans hs)⟩

section
variable {W W0 : World}

theorem Spec.Echo.checkIP {t0 : Trace} (h : Echo W W0 t0) (d : Str) (t : Trace) : checkIP W0 d t = checkIP W d t := by
  have e : ∀ l, checkAddrs W0 d l = checkAddrs W d l := by
    intro l
    induction l with
    | nil => rfl
    | cons i is ih => simp only [checkAddrs, h.ipStr, ih]
  unfold Sink.checkIP
  simp only [h.ip, e]

theorem Spec.Echo.mxLoop {t0 : Trace} (h : Echo W W0 t0) (d : Str) : ∀ (l : List MX) (b : DnsRes × Option Str) (t : Trace),
    mxLoop W0 d l b t = mxLoop W d l b t := by
  intro l
  induction l with
  | nil => intro b t; rfl
  | cons m ms ih => intro b t; simp only [Sink.mxLoop, h.lib, h.checkIP, ih]

theorem validDomain_asks (W : World) (d : Str) (t : Trace) : (.lookupMX (d ++ b!".") :: t) <:+ (validDomain W d t).2 := by
  unfold validDomain
  simp only
  split
  · split
    · exact List.suffix_refl _
    · rw [checkIP_trace]; exact List.suffix_cons _ _
  · rename_i mxs _
    obtain ⟨evs, h1, -⟩ := mxLoop_trace W d mxs (.undef, none) (.lookupMX (d ++ b!".") :: t)
    exact ⟨evs, h1.symm⟩

theorem Spec.Echo.validDomain {d : Str} {t : Trace} (h : Echo W W0 (validDomain W d t).2) : Sink.validDomain W0 d t = Sink.validDomain W d t := by
  have hm := h.mx _ _ (validDomain_asks W d t)
  unfold Sink.validDomain
  simp only [hm, h.checkIP, h.mxLoop]

theorem Spec.Echo.rdnsLoop {t0 : Trace} (h : Echo W W0 t0) (ip : Option IP) : ∀ (names : List Str) (r : RDNS) (t : Trace),
    rdnsLoop W0 ip names r t = rdnsLoop W ip names r t := by
  intro names
  induction names with
  | nil => intro r t; rfl
  | cons n names ih => intro r t; simp only [Sink.rdnsLoop, h.ip, ih]

theorem Spec.Echo.lookupAddrVerified {ip : Str} {t : Trace} (h : Echo W W0 (lookupAddrVerified W ip t).2) :
    Sink.lookupAddrVerified W0 ip t = Sink.lookupAddrVerified W ip t := by
  by_cases hi : ip = []
  · unfold Sink.lookupAddrVerified; rw [if_pos hi, if_pos hi]
  · have hs : (.lookupAddr ip :: t) <:+ (Sink.lookupAddrVerified W ip t).2 := by
      rcases lookupAddrVerified_trace W ip t with ⟨h1, -⟩ | ⟨evs, h1, -⟩
      · exact absurd h1 hi
      · exact ⟨evs, h1.symm⟩
    have ha := h.addr _ _ hs
    unfold Sink.lookupAddrVerified
    simp only [ha, h.rdnsLoop, h.lib]

theorem Spec.Echo.getDnsblRes {t0 : Trace} (h : Echo W W0 t0) (n : Str) (c : Ctx) : getDnsblRes W0 n c = getDnsblRes W n c := by
  unfold Sink.getDnsblRes
  rw [h.ip]

theorem Spec.Echo.loadList {f : Str} {t : Trace} (h : Echo W W0 (loadList W f t).2) : Sink.loadList W0 f t = Sink.loadList W f t := by
  by_cases hf : f = []
  · unfold Sink.loadList; rw [if_pos hf, if_pos hf]
  · have hs : (.openFile f :: t) <:+ (Sink.loadList W f t).2 := by
      unfold Sink.loadList
      rw [if_neg hf]
      simp only
      split
      all_goals first | exact List.suffix_refl _ | exact List.suffix_cons _ _
    have ha := h.files _ _ hs
    unfold Sink.loadList
    simp only [ha, h.lib]

theorem Spec.Echo.ctxValid {d : Str} {c : Ctx} (h : Echo W W0 (c.validDomain W d).2.trace) : c.validDomain W0 d = c.validDomain W d := by
  unfold Ctx.validDomain at h ⊢
  split
  · rfl
  · rename_i hn
    rw [hn] at h
    simp only at h ⊢
    rw [Echo.validDomain h]

theorem Spec.Echo.getAddrOpts {a : Str} {c : Ctx} (h : Echo W W0 (getAddrOpts W a c).2.trace) : Sink.getAddrOpts W0 a c = Sink.getAddrOpts W a c := by
  unfold Sink.getAddrOpts at h ⊢
  split
  · rfl
  · rename_i ha
    rw [if_neg ha] at h
    simp only at h ⊢
    split
    · rename_i ho
      rw [if_pos ho] at h
      have hv : ∀ d, Echo W W0 (match (c.validDomain W d).1.1 with
          | .good => (addrShape a ||| oDomainValid, (c.validDomain W d).2)
          | .bad => (addrShape a ||| oDomainInvalid, { (c.validDomain W d).2 with domerr := some (b!"domain " ++ d ++ b!": " ++ errText (c.validDomain W d).1.2) })
          | .tempfail => (addrShape a ||| oDomainTempfail, { (c.validDomain W d).2 with domerr := some (b!"domain " ++ d ++ b!": " ++ errText (c.validDomain W d).1.2) })
          | .undef => (addrShape a, (c.validDomain W d).2) : Opts × Ctx).2.trace → c.validDomain W0 d = c.validDomain W d := by
        intro d hd
        apply Echo.ctxValid
        revert hd
        generalize c.validDomain W d = r
        cases r.1.1 <;> exact id
      cases hi : indexByte a c!"@" with
      | none => simp only [hi] at h ⊢; rw [hv _ h]
      | some idx => simp only [hi] at h ⊢; rw [hv _ h]
    · rfl

theorem Spec.Echo.getMatchList {a : Str} {c c' : Ctx} {l : List Str} (hg : getMatchList W a c = .ok (l, c')) (h : Echo W W0 c'.trace) :
    Sink.getMatchList W0 a c = .ok (l, c') := by
  unfold Sink.getMatchList at hg ⊢
  cases hm : matchFile a with
  | error p => rw [hm] at hg; cases hg
  | ok o =>
    rw [hm] at hg
    cases o with
    | none => simp only at hg ⊢; rw [h.lib]; exact hg
    | some f =>
      simp only at hg ⊢
      cases hf : c.files f with
      | some l' => rw [hf] at hg; exact hg
      | none =>
        rw [hf] at hg
        simp only [Except.ok.injEq, Prod.mk.injEq] at hg ⊢
        obtain ⟨rfl, rfl⟩ := hg
        rw [Echo.loadList h]
        exact ⟨rfl, rfl⟩

theorem Spec.Echo.evalMatch {tr : TransR} {k : MKind} {a : Str} {c c' : Ctx} {b : Bool} (hg : evalMatch W tr k a c = .ok (b, c')) (h : Echo W W0 c'.trace) :
    Sink.evalMatch W0 tr k a c = .ok (b, c') := by
  unfold Sink.evalMatch at hg ⊢
  cases hl : Sink.getMatchList W a c with
  | error p => rw [hl] at hg; cases hg
  | ok x =>
    obtain ⟨l, c1⟩ := x
    rw [hl] at hg
    simp only [bind, Except.bind, pure, Except.pure] at hg
    have hc : c'.trace = c1.trace := by
      split at hg
      · cases hg; rfl
      · cases hp : matchPats (k.matcher W.lib) (k.names tr c1) l with
        | error p => rw [hp] at hg; cases hg
        | ok r => rw [hp] at hg; cases hg; rfl
    rw [hc] at h
    rw [h.getMatchList hl]
    simp only [bind, Except.bind, pure, Except.pure, h.lib]
    exact hg

theorem Spec.Echo.evalSource {tr : TransR} {a : Str} {c c' : Ctx} {b : Bool} (hg : evalSource W tr a c = .ok (b, c')) (h : Echo W W0 c'.trace) :
    Sink.evalSource W0 tr a c = .ok (b, c') := by
  unfold Sink.evalSource at hg ⊢
  cases h1 : Sink.evalMatch W tr .host a c with
  | error p => rw [h1] at hg; cases hg
  | ok r1 =>
    obtain ⟨b1, c1⟩ := r1
    rw [h1] at hg
    cases b1 with
    | true =>
      cases hg
      rw [h.evalMatch h1]; rfl
    | false =>
      simp only [bind, Except.bind, Bool.false_eq_true, if_false] at hg
      cases h2 : Sink.evalMatch W tr .helo a c1 with
      | error p => rw [h2] at hg; cases hg
      | ok r2 =>
        obtain ⟨b2, c2⟩ := r2
        rw [h2] at hg
        have s2 := (evalMatch_steps h2).trace
        cases b2 with
        | true =>
          cases hg
          rw [(h.sub s2).evalMatch h1]
          simp only [bind, Except.bind, Bool.false_eq_true, if_false]
          rw [h.evalMatch h2]; rfl
        | false =>
          simp only [Bool.false_eq_true, if_false] at hg
          have s3 := (evalMatch_steps hg).trace
          rw [(h.sub (s2.trans s3)).evalMatch h1]
          simp only [bind, Except.bind, Bool.false_eq_true, if_false]
          rw [(h.sub s3).evalMatch h2]
          simp only [Bool.false_eq_true, if_false]
          exact h.evalMatch hg

theorem Spec.Echo.evalDnsbl {t0 : Trace} (h : Echo W W0 t0) (tr : TransR) (d : Str) (c : Ctx) : evalDnsbl W0 tr d c = evalDnsbl W tr d c := by
  unfold Sink.evalDnsbl
  simp only [h.getDnsblRes]

theorem Spec.Echo.dblLookups {t0 : Trace} (h : Echo W W0 t0) (d : Str) : ∀ (l : List Str) (r : Bool) (c : Ctx),
    dblLookups W0 d l r c = dblLookups W d l r c := by
  intro l
  induction l with
  | nil => intro r c; rfl
  | cons s ss ih => intro r c; simp only [Sink.dblLookups, h.getDnsblRes, ih]

theorem Spec.Echo.dblFrom {src : Opts} {chk : List Str} {c : Ctx} (h : Echo W W0 (dblFrom W src chk c).2.trace) :
    Sink.dblFrom W0 src chk c = Sink.dblFrom W src chk c := by
  unfold Sink.dblFrom at h ⊢
  split
  · rename_i hc
    rw [if_pos hc] at h
    simp only at h ⊢
    have hg : Echo W W0 (Sink.getAddrOpts W c.from_ c).2.trace := by
      revert h
      split
      · split <;> exact id
      · exact id
    rw [hg.getAddrOpts]
  · rfl

theorem Spec.Echo.evalDbl {tr : TransR} {src : Opts} {d : Str} {c c' : Ctx} {b : Bool} (hg : evalDbl W tr src d c = .ok (b, c')) (h : Echo W W0 c'.trace) :
    Sink.evalDbl W0 tr src d c = .ok (b, c') := by
  unfold Sink.evalDbl at hg ⊢
  cases hx : dblNames tr src c with
  | error p => rw [hx] at hg; cases hg
  | ok chk =>
    rw [hx] at hg
    simp only [bind, Except.bind, pure, Except.pure] at hg ⊢
    have hs : (Sink.dblFrom W src chk c).2.trace <:+ c'.trace := by
      split at hg
      · cases hg; exact List.suffix_refl _
      · simp only [Except.ok.injEq] at hg
        have h2 := (dblLookups_steps W d (W.mapOrder (Sink.dblFrom W src chk c).2.trace.length (Sink.dblFrom W src chk c).1) false
          { (Sink.dblFrom W src chk c).2 with trace := .mapIter :: (Sink.dblFrom W src chk c).2.trace }).trace
        rw [hg] at h2
        exact (List.suffix_cons _ _).trans h2
    rw [(h.sub hs).dblFrom]
    simp only [h.order, h.dblLookups]
    exact hg

theorem Spec.Echo.evalOpt {tr : TransR} {k : OKind} {o : Opts} {c : Ctx} (h : Echo W W0 (evalOpt W tr k o c).2.trace) :
    Sink.evalOpt W0 tr k o c = Sink.evalOpt W tr k o c := by
  have hk : k.get W0 tr c = k.get W tr c := by
    cases k with
    | dns => rfl
    | heloHas => show (heloGetter W0.lib tr c, c) = _; rw [h.lib]; rfl
    | fromHas => exact Echo.getAddrOpts h
    | toHas => exact Echo.getAddrOpts h
  unfold Sink.evalOpt
  simp only [hk]

mutual
theorem Spec.Echo.eval {tr : TransR} : ∀ (e : Expr) {c c' : Ctx} {b : Bool}, eval W tr e c = .ok (b, c') → Echo W W0 c'.trace → Sink.eval W0 tr e c = .ok (b, c')
  | .andL ns, c, c', b, hg, h => by rw [Sink.eval] at hg ⊢; exact Echo.evalAnd ns hg h
  | .notN e, c, c', b, hg, h => by
    rw [Sink.eval] at hg ⊢
    cases he : Sink.eval W tr e c with
    | error p => rw [he] at hg; cases hg
    | ok r => rw [he] at hg; cases hg; rw [Echo.eval e he h]; rfl
  | .orN l r, c, c', b, hg, h => by
    rw [Sink.eval] at hg ⊢
    cases he : Sink.eval W tr l c with
    | error p => rw [he] at hg; cases hg
    | ok x =>
      obtain ⟨b1, c1⟩ := x
      rw [he] at hg
      cases b1 with
      | true => cases hg; rw [Echo.eval l he h]; rfl
      | false =>
        simp only [bind, Except.bind, Bool.false_eq_true, if_false] at hg
        rw [Echo.eval l he (h.sub (eval_steps r hg).trace)]
        simp only [bind, Except.bind, Bool.false_eq_true, if_false]
        exact Echo.eval r hg h
  | .all, c, c', b, hg, h => by rw [Sink.eval] at hg ⊢; exact hg
  | .tls on, c, c', b, hg, h => by rw [Sink.eval] at hg ⊢; exact hg
  | .dnsbl d, c, c', b, hg, h => by rw [Sink.eval] at hg ⊢; rw [h.evalDnsbl]; exact hg
  | .matchN k a, c, c', b, hg, h => by rw [Sink.eval] at hg ⊢; exact h.evalMatch hg
  | .source a, c, c', b, hg, h => by rw [Sink.eval] at hg ⊢; exact h.evalSource hg
  | .dbl s d, c, c', b, hg, h => by rw [Sink.eval] at hg ⊢; exact h.evalDbl hg
  | .optN k o, c, c', b, hg, h => by
    rw [Sink.eval] at hg ⊢
    have e : (Sink.evalOpt W tr k o c).2 = c' := by simp only [Except.ok.injEq] at hg; rw [hg]
    rw [Echo.evalOpt (by rw [e]; exact h)]
    exact hg
theorem Spec.Echo.evalAnd {tr : TransR} : ∀ (es : List Expr) {c c' : Ctx} {b : Bool}, evalAnd W tr es c = .ok (b, c') → Echo W W0 c'.trace →
    Sink.evalAnd W0 tr es c = .ok (b, c')
  | [], c, c', b, hg, h => by rw [Sink.evalAnd] at hg ⊢; exact hg
  | e :: es, c, c', b, hg, h => by
    rw [Sink.evalAnd] at hg ⊢
    cases he : Sink.eval W tr e c with
    | error p => rw [he] at hg; cases hg
    | ok x =>
      obtain ⟨b1, c1⟩ := x
      rw [he] at hg
      cases b1 with
      | false => cases hg; rw [Echo.eval e he h]; rfl
      | true =>
        simp only [bind, Except.bind, if_true] at hg
        rw [Echo.eval e he (h.sub (evalAnd_steps es hg).trace)]
        simp only [bind, Except.bind, if_true]
        exact Echo.evalAnd es hg h
end

theorem Spec.Echo.checkClauses {tr : TransR} : ∀ {cs : List RClause} {c c' : Ctx} {b : Bool}, checkClauses W tr cs c = .ok (b, c') → Echo W W0 c'.trace →
    Sink.checkClauses W0 tr cs c = .ok (b, c') := by
  intro cs
  induction cs with
  | nil => intro c c' b hg h; exact hg
  | cons rc cs ih =>
    intro c c' b hg h
    rw [Sink.checkClauses] at hg ⊢
    cases he : Sink.eval W tr rc.expr c with
    | error p => rw [he] at hg; cases hg
    | ok x =>
      obtain ⟨b1, c1⟩ := x
      rw [he] at hg
      simp only [bind, Except.bind, pure, Except.pure] at hg
      have hs : c1.trace <:+ c'.trace := by
        split at hg
        · cases hg; exact List.suffix_refl _
        · split at hg
          · exact (checkClauses_steps hg).trace
          · cases hg; exact List.suffix_refl _
      rw [Echo.eval _ he (h.sub hs)]
      simp only [bind, Except.bind, pure, Except.pure]
      split at hg
      · rename_i h1; rw [if_pos h1]; exact hg
      · rename_i h1
        rw [if_neg h1]
        split at hg
        · rename_i h2; rw [if_pos h2]; exact ih hg h
        · rename_i h2; rw [if_neg h2]; exact hg

theorem Spec.Echo.check {tr : TransR} {r : Rule} {c c' : Ctx} {b : Bool} (hg : r.check W tr c = .ok (b, c')) (h : Echo W W0 c'.trace) :
    r.check W0 tr c = .ok (b, c') := Echo.checkClauses hg h

theorem Spec.Echo.ruleForEachRcpt {tr : TransR} {r : Rule} : ∀ {as : List Str} {c c' : Ctx} {b : Bool},
    ruleForEachRcpt W tr r as c = .ok (b, c') → Echo W W0 c'.trace → Sink.ruleForEachRcpt W0 tr r as c = .ok (b, c') := by
  intro as
  induction as with
  | nil => intro c c' b hg h; exact hg
  | cons a as ih =>
    intro c c' b hg h
    rw [Sink.ruleForEachRcpt] at hg ⊢
    cases he : r.check W tr { c with rcptto := a } with
    | error p => rw [he] at hg; cases hg
    | ok x =>
      obtain ⟨b1, c1⟩ := x
      rw [he] at hg
      simp only [bind, Except.bind, pure, Except.pure] at hg
      have hs : c1.trace <:+ c'.trace := by
        split at hg
        · cases hg; exact List.suffix_refl _
        · split at hg
          · cases hg; exact List.suffix_refl _
          · exact (ruleForEachRcpt_steps hg).trace
      rw [Echo.check he (h.sub hs)]
      simp only [bind, Except.bind, pure, Except.pure]
      split at hg
      · rename_i h1; rw [if_pos h1]; exact hg
      · rename_i h1
        rw [if_neg h1]
        split at hg
        · rename_i h2; rw [if_pos h2]; exact hg
        · rename_i h2; rw [if_neg h2]; exact ih hg h

theorem Spec.Echo.runRule {tr : TransR} {ph : Phase} {r : Rule} {c c' : Ctx} {b : Bool} (hg : runRule W tr ph r c = .ok (b, c')) (h : Echo W W0 c'.trace) :
    Sink.runRule W0 tr ph r c = .ok (b, c') := by
  unfold Sink.runRule at hg ⊢
  simp only at hg ⊢
  split at hg
  · rename_i h1; rw [if_pos h1]; exact Echo.ruleForEachRcpt hg h
  · rename_i h1; rw [if_neg h1]; exact Echo.check hg h

theorem Spec.Echo.ruleLoop {tr : TransR} {ph : Phase} : ∀ {rs : List Rule} {c c' : Ctx} {a : Action},
    ruleLoop W tr ph rs c = .ok (a, c') → Echo W W0 c'.trace → Sink.ruleLoop W0 tr ph rs c = .ok (a, c') := by
  intro rs
  induction rs with
  | nil => intro c c' a hg h; exact hg
  | cons r rs ih =>
    intro c c' a hg h
    rw [Sink.ruleLoop] at hg ⊢
    split at hg
    · rename_i h1; rw [if_pos h1]; exact ih hg h
    · rename_i h1
      rw [if_neg h1]
      cases he : Sink.runRule W tr ph r c with
      | error p => rw [he] at hg; cases hg
      | ok x =>
        obtain ⟨b1, c1⟩ := x
        rw [he] at hg
        simp only [bind, Except.bind, pure, Except.pure] at hg
        have hs : c1.trace <:+ c'.trace := by
          split at hg
          · exact (ruleLoop_steps hg).trace
          · split at hg
            · cases hg; exact List.suffix_refl _
            · exact (ruleLoop_steps hg).trace
        rw [Echo.runRule he (h.sub hs)]
        simp only [bind, Except.bind, pure, Except.pure]
        split at hg
        · rename_i h2; rw [if_pos h2]; exact ih hg h
        · rename_i h2
          rw [if_neg h2]
          split at hg
          · rename_i h3; rw [if_pos h3]; exact hg
          · rename_i h3; rw [if_neg h3]; exact ih hg h

theorem Spec.Echo.Decide {tr : TransR} {ph : Phase} {e : Evt} {c c' : Ctx} {a : Action} (hg : Decide W tr ph e c = .ok (a, c')) (h : Echo W W0 c'.trace) :
    Sink.Decide W0 tr ph e c = .ok (a, c') := by
  unfold Sink.Decide at hg ⊢
  simp only [bind, Except.bind, pure, Except.pure] at hg ⊢
  split at hg
  · rename_i h1; rw [if_pos h1]; exact hg
  · rename_i h1
    rw [if_neg h1]
    split at hg
    · cases hg
    · rename_i x hx
      obtain ⟨ret, c1⟩ := x
      have ht : c1.trace = c'.trace := by
        simp only at hg
        split at hg <;> cases hg <;> rfl
      rw [Echo.ruleLoop hx (by rw [ht]; exact h)]
      exact hg

/-! ## The session -/

theorem Spec.Echo.getSBLHits {t0 : Trace} (h : Echo W W0 t0) (rip : Str) (t : Trace) : getSBLHits W0 rip t = getSBLHits W rip t := by
  unfold Sink.getSBLHits
  simp only [h.txt]

theorem Spec.Echo.logSbls {t0 : Trace} (h : Echo W W0 t0) (rip : Str) : ∀ (hits : List Str) (t : Trace), logSbls W0 rip hits t = logSbls W rip hits t := by
  intro hits
  induction hits with
  | nil => intro t; rfl
  | cons x hs ih => intro t; simp only [Sink.logSbls, h.getSBLHits, ih]

theorem Spec.Echo.logDnsbls {t0 : Trace} (h : Echo W W0 t0) (t : Trans) (c : Ctx) : logDnsbls W0 t c = logDnsbls W t c := by
  unfold Sink.logDnsbls
  simp only [h.logSbls]

end

theorem Spec.Echo.decider {E : Env} {W0 : World} {ph : Phase} {e : Evt} {id : Str} {s s' : Sess} {r : Bool} {o : List Out}
    (hg : decider E ph e id s = .ok (r, s', o)) (h : Echo E.W W0 s'.c.trace) : Sink.decider { E with W := W0 } ph e id s = .ok (r, s', o) := by
  unfold Sink.decider at hg ⊢
  cases hd : Sink.Decide E.W s.trans.r ph e s.c with
  | error p => rw [hd] at hg; cases hg
  | ok x =>
    obtain ⟨res, c1⟩ := x
    rw [hd] at hg
    simp only [bind, Except.bind] at hg
    cases hl : Sink.logDnsbls E.W s.trans c1 with
    | error p => rw [hl] at hg; cases hg
    | ok y =>
      obtain ⟨t, c2, o1⟩ := y
      rw [hl] at hg
      have hc : s'.c = c2 := by
        simp only [pure, Except.pure] at hg
        split at hg
        · cases hg
        · split at hg
          · cases hg; rfl
          · split at hg
            · cases hg; rfl
            · split at hg
              · cases hg; rfl
              · cases hg; rfl
              · cases hg
      have hs : c1.trace <:+ c2.trace := by
        obtain ⟨d, evs, h1, -⟩ := logDnsbls_trace hl
        rw [h1]
        exact List.suffix_append _ _
      rw [hc] at h
      show ((Sink.Decide W0 s.trans.r ph e s.c).bind _) = _
      rw [Echo.Decide hd (h.sub hs)]
      simp only [bind, Except.bind, h.logDnsbls, hl]
      exact hg

/-- What follows a decision does not ask. -/
theorem Spec.Echo.after {E : Env} {W0 : World} {ph : Phase} {e : Evt} {id : Str} {s s2 : Sess} {sh' : Shared} {o2 : List Out}
    {k : Bool × Sess × List Out → SRes} (hg : (Sink.decider E ph e id s).bind k = .ok (s2, sh', o2))
    (hk : ∀ r s1 o, k (r, s1, o) = .ok (s2, sh', o2) → s2.c.trace = s1.c.trace) (h : Echo E.W W0 s2.c.trace) :
    (Sink.decider { E with W := W0 } ph e id s).bind k = .ok (s2, sh', o2) := by
  cases hd : Sink.decider E ph e id s with
  | error p => rw [hd] at hg; cases hg
  | ok x =>
    obtain ⟨r, s1, o⟩ := x
    rw [hd] at hg
    rw [hk r s1 o hg] at h
    rw [Echo.decider hd h]
    exact hg

theorem decide_asks {W : World} {tr : TransR} {ph : Phase} {e : Evt} {c c' : Ctx} {a : Action} (h : Decide W tr ph e c = .ok (a, c')) :
    c.trace <:+ c'.trace := by
  have h1 : (begun ph e c).trace = c.trace := by cases ph <;> rfl
  cases decide_end h with
  | pending => exact ⟨[], by rw [← h1]; rfl⟩
  | plain _ hl => rw [← h1]; exact (ruleLoop_steps hl).trace
  | defer _ hl => rw [← h1]; exact (ruleLoop_steps hl).trace

theorem sstep_asks {cf : Conf} {E : Env} {s s' : Sess} {sh sh' : Shared} {i : Inp} {o : List Out} (h : sstep cf E s sh i = .ok (s', sh', o)) :
    s.c.trace <:+ s'.c.trace ∧ (s.pc = .connect → (lookupAddrVerified E.W s.trans.rip s.c.trace).2 <:+ s'.c.trace) := by
  cases (sstep_did h).move with
  | quiet h1 h2 h3 h4 => exact ⟨⟨[], by rw [h1]; rfl⟩, fun hx => absurd hx h3⟩
  | connect h1 h2 h3 h4 h5 h6 =>
    have k := decide_asks h4
    have k2 : (lookupAddrVerified E.W s.trans.rip s.c.trace).2 <:+ s'.c.trace := by
      rw [h5]; exact k.trans (List.suffix_append _ _)
    refine ⟨?_, fun _ => k2⟩
    refine List.IsSuffix.trans ?_ k2
    rcases lookupAddrVerified_trace E.W s.trans.rip s.c.trace with ⟨-, hx⟩ | ⟨evs, hx, -⟩
    · rw [hx]; exact List.suffix_refl _
    · rw [hx]; exact (List.suffix_cons _ _).trans (List.suffix_append _ _)
  | asked h1 h2 h3 h4 h5 h6 =>
    refine ⟨?_, fun hx => absurd (Or.inr hx) h1⟩
    rw [h5]; exact (decide_asks h4).trans (List.suffix_append _ _)

theorem Spec.Echo.sstep {cf : Conf} {E : Env} {W0 : World} {s s2 : Sess} {sh sh' : Shared} {i : Inp} {o2 : List Out}
    (hg : sstep cf E s sh i = .ok (s2, sh', o2)) (h : Echo E.W W0 s2.c.trace) : Sink.sstep cf { E with W := W0 } s sh i = .ok (s2, sh', o2) := by
  have hs := (sstep_asks hg).2
  unfold Sink.sstep at hg ⊢
  split at hg
  · exact hg
  · rename_i hpc
    replace hs := hs hpc
    unfold connectStep at hg ⊢
    have hk : ∀ r s1 o, (fun x : Bool × Sess × List Out => (if x.1 then
        .ok ({ x.2.1 with pc := .closed }, sh, x.2.2 ++ (if x.2.1.stall then [] else
          writeLog x.2.1.trans (b!"! " ++ x.2.1.trans.rip ++ b!" dropped on connect due to rule at " ++ i.nowText ++ b!"\n")))
        else .ok ({ x.2.1 with pc := .ready }, sh, x.2.2) : SRes)) (r, s1, o) = .ok (s2, sh', o2) → s2.c.trace = s1.c.trace := by
      intro r s1 o hx
      simp only at hx
      split at hx <;> cases hx <;> rfl
    simp only at hg ⊢
    rw [Echo.lookupAddrVerified (h.sub hs)]
    exact Echo.after hg hk h
  · unfold eventStep at hg ⊢
    split at hg
    · unfold heloStep at hg ⊢
      refine Echo.after hg ?_ h
      intro r s1 o hx
      simp only [pure, Except.pure] at hx
      split at hx
      · cases hx; rfl
      · split at hx <;> cases hx <;> rfl
    · unfold mailStep at hg ⊢
      refine Echo.after hg ?_ h
      intro r s1 o hx
      simp only [pure, Except.pure, mailDone] at hx
      split at hx
      · cases hx; rfl
      · split at hx
        · split at hx <;> cases hx <;> rfl
        · cases hx; rfl
    · unfold rcptStep at hg ⊢
      refine Echo.after hg ?_ h
      intro r s1 o hx
      simp only [pure, Except.pure] at hx
      split at hx <;> cases hx <;> rfl
    · unfold dataStep at hg ⊢
      refine Echo.after hg ?_ h
      intro r s1 o hx
      simp only [pure, Except.pure] at hx
      split at hx <;> cases hx <;> rfl
    · exact hg
    · exact hg
    · exact hg
    · exact hg
    · exact hg
  · exact hg
  · exact hg
  · exact hg
  · exact hg
  · unfold answerStep at hg ⊢
    split at hg
    · rename_i hf; rw [if_pos hf]; exact hg
    · rename_i hf
      rw [if_neg hf]
      refine Echo.after hg ?_ h
      intro r s1 o hx
      simp only [pure, Except.pure] at hx
      split at hx <;> cases hx <;> rfl
  · exact hg

theorem Spec.Echo.run {cf : Conf} {E : Env} {W0 : World} {s0 s : Sess} {l : List Step} (hr : Run cf E s0 l s) (h : Echo E.W W0 s.c.trace) :
    Run cf { E with W := W0 } s0 l s := by
  induction hr with
  | nil => exact .nil _
  | snoc hr hst ih => exact .snoc (ih (h.sub (sstep_asks hst).1)) (Echo.sstep hst h)

theorem run_asks {cf : Conf} {E : Env} {s0 s : Sess} {l : List Step} (hr : Run cf E s0 l s) : s0.c.trace <:+ s.c.trace := by
  induction hr with
  | nil => exact List.suffix_refl _
  | snoc hr hst ih => exact ih.trans (sstep_asks hst).1

/-- The questions of `serverName`. -/
theorem serverName_asks {cf : Conf} {E : Env} {t t' : Trace} {n : Str} (h : serverName cf E t = .ok (n, t')) :
    t' = t ∨ cf.srvname = [] ∧ t' = .lookupAddr E.lip :: t := by
  unfold serverName at h
  split at h
  · cases h; exact .inl rfl
  · rename_i hn
    refine .inr ⟨by simpa using hn, ?_⟩
    split at h
    · cases h; rfl
    · cases h; rfl
    · split at h <;> cases h; rfl

theorem Spec.Echo.serverName {cf : Conf} {E : Env} {W0 : World} {t t' : Trace} {n : Str} (hg : Sink.serverName cf E t = .ok (n, t'))
    (h : Echo E.W W0 t') : Sink.serverName cf { E with W := W0 } t = .ok (n, t') := by
  rcases serverName_asks hg with rfl | ⟨h1, rfl⟩
  · unfold Sink.serverName at hg ⊢
    split at hg
    · rename_i hx; rw [if_pos hx]; exact hg
    · exfalso
      have hl : ∀ (ev : Ev) (t : Trace), ev :: t ≠ t := fun ev t hx => absurd (congrArg List.length hx) (by simp)
      split at hg
      · injection hg with hg; injection hg with _ hg; exact hl _ _ hg
      · injection hg with hg; injection hg with _ hg; exact hl _ _ hg
      · split at hg
        · cases hg
        · injection hg with hg; injection hg with _ hg; exact hl _ _ hg
  · unfold Sink.serverName at hg ⊢
    simp only [h.addr _ _ (List.suffix_refl _)]
    exact hg

/-- The questions of `connParams`. -/
theorem connParams_asks (cf : Conf) (E : Env) (n : Str) (t : Trace) :
    cf.connfile = [] ∧ (connParams cf E n t).2.2.1 = t ∨ cf.connfile ≠ [] ∧ (connParams cf E n t).2.2.1 = .openFile cf.connfile :: t := by
  unfold connParams
  split
  · rename_i h; exact .inl ⟨h, rfl⟩
  · rename_i h
    refine .inr ⟨h, ?_⟩
    simp only
    split
    · rfl
    · split <;> rfl

theorem Spec.Echo.connParams {cf : Conf} {E : Env} {W0 : World} {t : Trace} {n : Str} (h : Echo E.W W0 (Sink.connParams cf E n t).2.2.1) :
    Sink.connParams cf { E with W := W0 } n t = Sink.connParams cf E n t := by
  rcases connParams_asks cf E n t with ⟨h1, h2⟩ | ⟨h1, h2⟩
  · unfold Sink.connParams; rw [if_pos h1, if_pos h1]
  · rw [h2] at h
    unfold Sink.connParams
    simp only [h.files _ _ (List.suffix_refl _), h.lib]

theorem Spec.Echo.startSess {cf : Conf} {E : Env} {W0 : World} {sh sh' : Shared} {i : Inp} {s : Sess} {o : List Out}
    (hg : Sink.startSess cf E sh i = .ok (s, sh', o)) (h : Echo E.W W0 s.c.trace) : Sink.startSess cf { E with W := W0 } sh i = .ok (s, sh', o) := by
  unfold Sink.startSess at hg ⊢
  simp only [h.lib]
  cases h1 : setupRules E.W.lib E.fs E.fds cf.stallall cf.base cf.rulefiles with
  | error p => rw [h1] at hg; cases hg
  | ok x =>
    rw [h1] at hg
    cases h2 : Sink.serverName cf E [] with
    | error p => rw [h2] at hg; cases hg
    | ok y =>
      obtain ⟨n, t⟩ := y
      rw [h2] at hg
      have ht : s.c.trace = (Sink.connParams cf E n t).2.2.1 := by cases hg; rfl
      rw [ht] at h
      have hs : t <:+ (Sink.connParams cf E n t).2.2.1 := by
        rcases connParams_asks cf E n t with ⟨_, h2⟩ | ⟨_, h2⟩ <;> rw [h2]
        · exact List.suffix_refl _
        · exact List.suffix_cons _ _
      rw [Echo.serverName h2 (h.sub hs)]
      have hc := Echo.connParams h
      simp only [bind, Except.bind] at hg ⊢
      rw [hc]
      exact hg

/-- What is asked before the first step. -/
theorem startSess_asks {cf : Conf} {E : Env} {sh sh' : Shared} {i : Inp} {s : Sess} {o : List Out} (hg : startSess cf E sh i = .ok (s, sh', o)) :
    ∀ ev ∈ s.c.trace, ev = .openFile cf.connfile ∧ cf.connfile ≠ [] ∨ ev = .lookupAddr E.lip ∧ cf.srvname = [] := by
  unfold Sink.startSess at hg
  cases h1 : setupRules E.W.lib E.fs E.fds cf.stallall cf.base cf.rulefiles with
  | error p => rw [h1] at hg; cases hg
  | ok x =>
    rw [h1] at hg
    cases h2 : Sink.serverName cf E [] with
    | error p => rw [h2] at hg; cases hg
    | ok y =>
      obtain ⟨n, t⟩ := y
      rw [h2] at hg
      have ht : s.c.trace = (Sink.connParams cf E n t).2.2.1 := by cases hg; rfl
      rw [ht]
      have h3 := serverName_asks h2
      intro ev hev
      rcases connParams_asks cf E n t with ⟨_, hc⟩ | ⟨hne, hc⟩ <;> rw [hc] at hev
      · rcases h3 with rfl | ⟨hs, rfl⟩
        · simp at hev
        · exact .inr ⟨by simpa using hev, hs⟩
      · rcases List.mem_cons.1 hev with rfl | hev
        · exact .inl ⟨rfl, hne⟩
        · rcases h3 with rfl | ⟨hs, rfl⟩
          · simp at hev
          · exact .inr ⟨by simpa using hev, hs⟩

/-- The connection lives the same life in a world that stands still. -/
theorem life_echo {cf : Conf} {E : Env} {l : List Step} {s : Sess} (hl : Life cf E l s) (hip : ∀ t n, E.W.lookupIP t n = E.W.lookupIP 0 n)
    (htxt : ∀ t n, E.W.lookupTXT t n = E.W.lookupTXT 0 n) (hcf : cf.connfile ≠ [] → ∀ t, E.W.files t cf.connfile = E.W.files 0 cf.connfile)
    (hlip : cf.srvname = [] → ∀ t, E.W.lookupAddr t E.lip = E.W.lookupAddr 0 E.lip) :
    ∃ W0, W0.Static ∧ Echo E.W W0 s.c.trace ∧ Life cf { E with W := W0 } l s := by
  obtain ⟨sh, i, s0, sh0, o, hst, hr⟩ := hl
  obtain ⟨k, hk, hB⟩ : ∃ k ≤ 1, Backed E.W s0.c.trace k s.c := by
    obtain ⟨h1, h2⟩ := run_backed hst hr
    by_cases h : Early s
    · exact ⟨0, by omega, h1 h⟩
    · exact ⟨1, by omega, (h2 h).1⟩
  have hS := hB.snapshot hk
  have hE : Echo E.W (E.W.found s0.c.trace s.c.trace) s.c.trace := by
    have split : ∀ {ev : Ev} {u : Trace}, (ev :: u) <:+ s.c.trace → s0.c.trace <:+ u ∨ ev ∈ s0.c.trace := by
      intro ev u hu
      rcases Nat.lt_or_ge u.length s0.c.trace.length with hlt | hge
      · exact .inr ((List.suffix_of_suffix_length_le hu hB.suf (Nat.succ_le_of_lt hlt)).subset (by simp))
      · exact .inl (List.suffix_of_suffix_length_le hB.suf ((List.suffix_cons _ _).trans hu) hge)
    refine ⟨rfl, rfl, rfl, ?_, ?_, ?_, ?_, ?_⟩
    · funext t n; exact (hip t n).symm
    · funext t n; exact (htxt t n).symm
    · intro f u hu
      rcases split hu with h | h
      · rw [hS.static.files, hS.files f u h hu]
      · rcases startSess_asks hst _ h with ⟨h1, h2⟩ | ⟨h1, h2⟩
        · injection h1 with h1
          subst h1
          rw [hcf h2 u.length]
          exact hcf h2 _
        · cases h1
    · intro n u hu
      rcases split hu with h | h
      · rw [hS.static.lookupMX, hS.lookupMX n u h hu]
      · rcases startSess_asks hst _ h with ⟨h1, h2⟩ | ⟨h1, h2⟩ <;> cases h1
    · intro a u hu
      rcases split hu with h | h
      · rw [hS.static.lookupAddr, hS.lookupAddr a u h hu]
      · rcases startSess_asks hst _ h with ⟨h1, h2⟩ | ⟨h1, h2⟩
        · cases h1
        · injection h1 with h1
          subst h1
          rw [hlip h2 u.length]
          exact hlip h2 _
  exact ⟨_, hS.static, hE, sh, i, s0, sh0, o, Echo.startSess hst (hE.sub (run_asks hr)), Echo.run hr hE⟩

end Sink
