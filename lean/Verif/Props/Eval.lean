import Verif.Lemmas.Trace
import Verif.Props.Match
import Verif.Spec.DemoWorld

/-!
# Match expressions (C17, C18, C31, C32)
-/

namespace Sink
open Spec

/-! ## C17 -/

/-- **C17.** In a world that does not change, an expression evaluates to true iff it holds in the declarative semantics,
where a series is a conjunction, `or` a disjunction and `not` a negation, as long as no empty pattern file was
consulted. -/
theorem C17_semantics {W : World} (hs : W.Static) {tr : TransR} {e : Expr} {c c' : Ctx} {b : Bool} (hc : CacheOK W c)
    (h : eval W tr e c = .ok (b, c')) (hm : c'.rulemiss = false) : b = true ↔ Holds W tr c.mail e := by
  have k := eval_spec hs e hc h
  refine k.val fun hmm => ?_
  rw [k.miss.mpr (Or.inr hmm)] at hm
  cases hm

/-- C17: what was asked for of the context is true in every context a connection can get into, and stays true. -/
theorem C17_contexts {W : World} (hs : W.Static) {rules : List Rule} {c : Ctx} (h : Reached W rules c) :
    CacheOK W c ∧ ∀ tr e b c', eval W tr e c = .ok (b, c') → CacheOK W c' :=
  ⟨(h.ok hs).1, fun _ e _ _ he => (eval_spec hs e (h.ok hs).1 he).cache⟩

/-- An operator: not a series, `or` or `not`. -/
def IsOp : Expr → Prop
  | .andL _ | .notN _ | .orN _ _ => False
  | _ => True

mutual
/-- `IsBool v e b`: `b` is the value of the Boolean formula `e` when its operators have the values `v`. -/
inductive IsBool (v : Expr → Bool) : Expr → Bool → Prop
  | op {e} : IsOp e → IsBool v e (v e)
  | not_ {e b} : IsBool v e b → IsBool v (.notN e) (!b)
  | or {l r b b'} : IsBool v l b → IsBool v r b' → IsBool v (.orN l r) (b || b')
  | and {es b} : IsBools v es b → IsBool v (.andL es) b
inductive IsBools (v : Expr → Bool) : List Expr → Bool → Prop
  | nil : IsBools v [] true
  | cons {e es b b'} : IsBool v e b → IsBools v es b' → IsBools v (e :: es) (b && b')
end

mutual
/-- The operators of an expression. -/
inductive SubOp (o : Expr) : Expr → Prop
  | op : IsOp o → SubOp o o
  | not_ {e} : SubOp o e → SubOp o (.notN e)
  | orL {l r} : SubOp o l → SubOp o (.orN l r)
  | orR {l r} : SubOp o r → SubOp o (.orN l r)
  | and {es} : OpInL o es → SubOp o (.andL es)
inductive OpInL (o : Expr) : List Expr → Prop
  | head {e es} : SubOp o e → OpInL o (e :: es)
  | tail {e es} : OpInL o es → OpInL o (e :: es)
end

mutual
theorem isBool_holds {W : World} {tr : TransR} {m : Mail} {v : Expr → Bool} : ∀ (e : Expr) (b : Bool), IsBool v e b →
    (∀ o, SubOp o e → (v o = true ↔ Holds W tr m o) ∧ ¬ Misses W tr m o) →
    (b = true ↔ Holds W tr m e) ∧ ¬ Misses W tr m e
  | .andL es, b, h, hv => by
    cases h with
    | op h => exact h.elim
    | and h =>
      rw [Holds, Misses]
      exact isBools_holds es b h fun o ho => hv o (.and ho)
  | .notN e, b, h, hv => by
    cases h with
    | op h => exact h.elim
    | not_ h =>
      rename_i b
      obtain ⟨h1, h2⟩ := isBool_holds e b h fun o ho => hv o (.not_ ho)
      rw [Holds, Misses, ← h1]
      exact ⟨by simp, h2⟩
  | .orN l r, b, h, hv => by
    cases h with
    | op h => exact h.elim
    | or h h' =>
      rename_i b b'
      obtain ⟨h1, h2⟩ := isBool_holds l b h fun o ho => hv o (.orL ho)
      obtain ⟨h3, h4⟩ := isBool_holds r b' h' fun o ho => hv o (.orR ho)
      rw [Holds, Misses, ← h1, ← h3]
      exact ⟨by simp, by tauto⟩
  | .all, b, h, hv => by cases h with | op h => exact hv _ (.op h)
  | .tls _, b, h, hv => by cases h with | op h => exact hv _ (.op h)
  | .dnsbl _, b, h, hv => by cases h with | op h => exact hv _ (.op h)
  | .matchN _ _, b, h, hv => by cases h with | op h => exact hv _ (.op h)
  | .source _, b, h, hv => by cases h with | op h => exact hv _ (.op h)
  | .dbl _ _, b, h, hv => by cases h with | op h => exact hv _ (.op h)
  | .optN _ _, b, h, hv => by cases h with | op h => exact hv _ (.op h)
theorem isBools_holds {W : World} {tr : TransR} {m : Mail} {v : Expr → Bool} : ∀ (es : List Expr) (b : Bool), IsBools v es b →
    (∀ o, OpInL o es → (v o = true ↔ Holds W tr m o) ∧ ¬ Misses W tr m o) →
    (b = true ↔ HoldsAll W tr m es) ∧ ¬ MissesAll W tr m es
  | [], b, h, hv => by
    cases h
    rw [HoldsAll, MissesAll]
    simp
  | e :: es, b, h, hv => by
    cases h with
    | cons h h' =>
      rename_i b b'
      obtain ⟨h1, h2⟩ := isBool_holds e b h fun o ho => hv o (.head ho)
      obtain ⟨h3, h4⟩ := isBools_holds es b' h' fun o ho => hv o (.tail ho)
      rw [HoldsAll, MissesAll, ← h1, ← h3]
      exact ⟨by simp, by tauto⟩
end

/-- **C17.** The value of an expression is that of the Boolean formula over the values its operators have when evaluated
on their own from the same context, whatever the short-circuiting skips. -/
theorem C17_boolean {W : World} (hs : W.Static) {tr : TransR} {e : Expr} {c c' : Ctx} {b b' : Bool} {v : Expr → Bool}
    (hc : CacheOK W c) (hv : ∀ o, SubOp o e → ∃ c1, eval W tr o c = .ok (v o, c1) ∧ c1.rulemiss = false)
    (hb : IsBool v e b) (h : eval W tr e c = .ok (b', c')) : b' = b ∧ (c.rulemiss = false → c'.rulemiss = false) := by
  have key := isBool_holds (W := W) (tr := tr) (m := c.mail) e b hb (fun o ho => by
    obtain ⟨c1, h1, h2⟩ := hv o ho
    have k := eval_spec hs o hc h1
    have hm : ¬ Misses W tr c.mail o := fun hm => by
      have := k.miss.mpr (Or.inr hm); rw [h2] at this; cases this
    exact ⟨k.val hm, hm⟩)
  have k := eval_spec hs e hc h
  refine ⟨?_, fun hr => ?_⟩
  · rw [Bool.eq_iff_iff, k.val key.2, key.1]
  · rw [Bool.eq_false_iff, ne_eq, k.miss, hr]
    simp [key.2]

/-- C17: `not`, `or` and series in terms of the evaluations of their parts. -/
theorem C17_parts {W : World} (hs : W.Static) {tr : TransR} {l r : Expr} {c c1 c2 c3 c4 c5 : Ctx} {bl br bo ba bn : Bool}
    (hc : CacheOK W c) (hl : eval W tr l c = .ok (bl, c1)) (hr : eval W tr r c = .ok (br, c2))
    (hm1 : c1.rulemiss = false) (hm2 : c2.rulemiss = false)
    (ho : eval W tr (.orN l r) c = .ok (bo, c3)) (ha : eval W tr (.andL [l, r]) c = .ok (ba, c4))
    (hn : eval W tr (.notN l) c = .ok (bn, c5)) : bo = (bl || br) ∧ ba = (bl && br) ∧ bn = !bl := by
  have kl := eval_spec hs l hc hl
  have kr := eval_spec hs r hc hr
  have ml : ¬ Misses W tr c.mail l := fun hm => by have := kl.miss.mpr (Or.inr hm); rw [hm1] at this; cases this
  have mr : ¬ Misses W tr c.mail r := fun hm => by have := kr.miss.mpr (Or.inr hm); rw [hm2] at this; cases this
  have vl := kl.val ml
  have vr := kr.val mr
  refine ⟨?_, ?_, ?_⟩
  · have k := eval_spec hs _ hc ho
    rw [Bool.eq_iff_iff, k.val (by rw [Misses]; tauto), Holds, ← vl, ← vr, Bool.or_eq_true]
  · have k := eval_spec hs _ hc ha
    rw [Bool.eq_iff_iff, k.val (by rw [Misses, MissesAll, MissesAll, MissesAll]; tauto), Holds, HoldsAll, HoldsAll, HoldsAll, ← vl, ← vr,
      Bool.and_eq_true]
    simp
  · have k := eval_spec hs _ hc hn
    rw [Bool.eq_iff_iff, k.val (by rw [Misses]; exact ml), Holds, ← vl]
    simp

/-- A client for examples. -/
def demoTrans : TransR :=
  ⟨b!"1.2.3.4", b!"5.6.7.8", ⟨[b!"mail.evil.com."], [], [b!"other.example."]⟩, [b!"a@example.com", b!"b@example.com"], true⟩

/-- A context for examples: EHLO evil.com, MAIL FROM:<joe@example.com>. -/
def demoCtx : Ctx := { newContext [] [] with heloname := b!"evil.com", from_ := b!"joe@example.com" }

/-- Result and rule-miss flag only. -/
def short (r : Except Panic (Bool × Ctx)) : Except Panic (Bool × Bool) := r.map fun x => (x.1, x.2.rulemiss)

example : short (eval demoWorld demoTrans (.andL [.notN (.matchN .from_ b!"@.evil.com"), .orN (.tls false) (.matchN .helo b!"EVIL.com")])
    demoCtx) = .ok (true, false) := by decide +kernel
example : CacheOK demoWorld demoCtx := ⟨by simp [demoCtx, newContext], by simp [demoCtx, newContext], by simp [demoCtx, newContext]⟩

/-! ## C18 -/

mutual
/-- `Consults W tr e c`: evaluating `e` from `c` comes to look at a pattern argument for which there are no patterns (an
empty, missing or unreadable file).  Valid in a changing world. -/
inductive Consults (W : World) (tr : TransR) : Expr → Ctx → Prop
  | matchN {k a c c1} : getMatchList W a c = .ok ([], c1) → Consults W tr (.matchN k a) c
  | source {a c c1} : getMatchList W a c = .ok ([], c1) → Consults W tr (.source a) c
  | not_ {e c} : Consults W tr e c → Consults W tr (.notN e) c
  | orL {l r c} : Consults W tr l c → Consults W tr (.orN l r) c
  | orR {l r c c1} : eval W tr l c = .ok (false, c1) → Consults W tr r c1 → Consults W tr (.orN l r) c
  | and {es c} : ConsultsL W tr es c → Consults W tr (.andL es) c
inductive ConsultsL (W : World) (tr : TransR) : List Expr → Ctx → Prop
  | head {e es c} : Consults W tr e c → ConsultsL W tr (e :: es) c
  | tail {e es c c1} : eval W tr e c = .ok (true, c1) → ConsultsL W tr es c1 → ConsultsL W tr (e :: es) c
end

theorem getMatchList_nil_again {W : World} {a : Str} {c c1 c2 : Ctx} {l : List Str} (h : getMatchList W a c = .ok (l, c1))
    (hf : c2.files = c1.files) : getMatchList W a c2 = .ok (l, c2) := by
  unfold getMatchList at h ⊢
  cases hm : matchFile a with
  | error p => rw [hm] at h; cases h
  | ok r =>
    rw [hm] at h
    cases r with
    | none => simp only [Except.ok.injEq, Prod.mk.injEq] at h ⊢; exact ⟨h.1, trivial⟩
    | some f =>
      simp only at h ⊢
      cases hcf : c.files f with
      | some l' =>
        rw [hcf] at h; cases h
        rw [hf, hcf]
      | none =>
        rw [hcf] at h; cases h
        rw [hf]
        simp [upd]

theorem evalMatch_consults {W : World} {tr : TransR} {k : MKind} {a : Str} {c c' : Ctx} {b : Bool}
    (h : evalMatch W tr k a c = .ok (b, c')) (hm : c.rulemiss = false) :
    (c'.rulemiss = true ↔ ∃ c1, getMatchList W a c = .ok ([], c1)) ∧ (∃ l c1, getMatchList W a c = .ok (l, c1) ∧ c'.files = c1.files) := by
  unfold evalMatch at h
  cases hl : getMatchList W a c with
  | error p => rw [hl] at h; cases h
  | ok x =>
    obtain ⟨l, c1⟩ := x
    rw [hl] at h
    simp only [bind, Except.bind, pure, Except.pure] at h
    have hm1 : c1.rulemiss = c.rulemiss := by
      unfold getMatchList at hl
      cases hf : matchFile a with
      | error p => rw [hf] at hl; cases hl
      | ok r =>
        rw [hf] at hl
        cases r with
        | none => cases hl; rfl
        | some f =>
          simp only at hl
          cases hcf : c.files f <;> (rw [hcf] at hl; cases hl; rfl)
    cases l with
    | nil => cases h; exact ⟨by simp, [], _, rfl, rfl⟩
    | cons p ps =>
      simp only [List.length_cons, Nat.add_eq_zero_iff, one_ne_zero, and_false, if_false] at h
      cases hp : matchPats (k.matcher W.lib) (k.names tr c1) (p :: ps) with
      | error p => rw [hp] at h; cases h
      | ok r => rw [hp] at h; cases h; exact ⟨by simp [hm1, hm], _, _, rfl, rfl⟩

theorem evalSource_consults {W : World} {tr : TransR} {a : Str} {c c' : Ctx} {b : Bool}
    (h : evalSource W tr a c = .ok (b, c')) (hm : c.rulemiss = false) :
    c'.rulemiss = true ↔ ∃ c1, getMatchList W a c = .ok ([], c1) := by
  unfold evalSource at h
  cases h1 : evalMatch W tr .host a c with
  | error p => rw [h1] at h; cases h
  | ok r1 =>
    obtain ⟨b1, c1⟩ := r1
    rw [h1] at h
    obtain ⟨i1, l, d1, hd1, hf1⟩ := evalMatch_consults h1 hm
    -- a second look gives the same list
    have again : ∀ c2 : Ctx, c2.files = c1.files → getMatchList W a c2 = .ok (l, c2) :=
      fun c2 h2 => getMatchList_nil_again hd1 (h2.trans hf1)
    have inv : (∃ x, getMatchList W a c = .ok ([], x)) ↔ l = [] := by
      rw [hd1]; simp
    have step : ∀ {k : MKind} {c2 c3 : Ctx} {b3 : Bool}, c2.files = c1.files → (c2.rulemiss = true ↔ l = []) →
        evalMatch W tr k a c2 = .ok (b3, c3) → c3.files = c1.files ∧ (c3.rulemiss = true ↔ l = []) := by
      intro k c2 c3 b3 hf hr h3
      cases hrm : c2.rulemiss with
      | true =>
        have hl := hr.mp hrm
        subst hl
        have h4 := again c2 hf
        unfold evalMatch at h3
        rw [h4] at h3
        cases h3
        exact ⟨hf, by simp⟩
      | false =>
        obtain ⟨i3, l3, d3, hd3, hf3⟩ := evalMatch_consults h3 hrm
        rw [again c2 hf] at hd3 i3
        cases hd3
        refine ⟨hf3.trans hf, ?_⟩
        rw [i3]; simp
    rw [inv]
    cases b1 with
    | true => cases h; rw [i1, inv]
    | false =>
      simp only [bind, Except.bind, Bool.false_eq_true, if_false] at h
      cases h2 : evalMatch W tr .helo a c1 with
      | error p => rw [h2] at h; cases h
      | ok r2 =>
        obtain ⟨b2, c2⟩ := r2
        rw [h2] at h
        obtain ⟨g1, g2⟩ := step rfl (i1.trans inv) h2
        cases b2 with
        | true => cases h; exact g2
        | false =>
          simp only [Bool.false_eq_true, if_false] at h
          exact (step g1 g2 h).2

theorem getDnsblRes_miss (W : World) (n : Str) (c : Ctx) : (getDnsblRes W n c).2.rulemiss = c.rulemiss := by
  unfold getDnsblRes
  split
  · rfl
  · simp only; split <;> rfl

theorem addDnsblHit_miss (d : Str) (c : Ctx) : (addDnsblHit d c).rulemiss = c.rulemiss := by
  unfold addDnsblHit; split <;> rfl

theorem validDomain_miss (W : World) (d : Str) (c : Ctx) : (c.validDomain W d).2.rulemiss = c.rulemiss := by
  unfold Ctx.validDomain; split <;> rfl

theorem getAddrOpts_miss (W : World) (a : Str) (c : Ctx) : (getAddrOpts W a c).2.rulemiss = c.rulemiss := by
  unfold getAddrOpts
  split
  · rfl
  · simp only
    split
    · split <;> exact validDomain_miss W _ c
    · rfl

theorem evalDnsbl_miss (W : World) (tr : TransR) (d : Str) (c : Ctx) : (evalDnsbl W tr d c).2.rulemiss = c.rulemiss := by
  unfold evalDnsbl
  split
  · rfl
  · split
    · simp only
      split
      · exact (addDnsblHit_miss _ _).trans (getDnsblRes_miss _ _ _)
      · exact getDnsblRes_miss _ _ _
    · rfl

theorem dblLookups_miss (W : World) (d : Str) : ∀ (l : List Str) (ret : Bool) (c : Ctx),
    (dblLookups W d l ret c).2.rulemiss = c.rulemiss := by
  intro l
  induction l with
  | nil => intro ret c; rfl
  | cons s ss ih =>
    intro ret c
    rw [dblLookups]
    split
    · rw [ih, addDnsblHit_miss, getDnsblRes_miss]
    · rw [ih, getDnsblRes_miss]

theorem evalDbl_miss {W : World} {tr : TransR} {src : Opts} {d : Str} {c c' : Ctx} {b : Bool}
    (h : evalDbl W tr src d c = .ok (b, c')) : c'.rulemiss = c.rulemiss := by
  have hf : ∀ chk, (dblFrom W src chk c).2.rulemiss = c.rulemiss := by
    intro chk
    unfold dblFrom
    split
    · simp only
      split
      · split <;> exact getAddrOpts_miss W _ c
      · exact getAddrOpts_miss W _ c
    · rfl
  unfold evalDbl at h
  cases hx : dblNames tr src c with
  | error p => rw [hx] at h; cases h
  | ok chk =>
    rw [hx] at h
    simp only [bind, Except.bind, pure, Except.pure] at h
    split at h
    · cases h; exact hf chk
    · simp only [Except.ok.injEq] at h
      have h2 := dblLookups_miss W d (W.mapOrder (dblFrom W src chk c).2.trace.length (dblFrom W src chk c).1) false
        { (dblFrom W src chk c).2 with trace := .mapIter :: (dblFrom W src chk c).2.trace }
      rw [h] at h2
      exact h2.trans (hf chk)

theorem evalOpt_miss (W : World) (tr : TransR) (k : OKind) (o : Opts) (c : Ctx) : (evalOpt W tr k o c).2.rulemiss = c.rulemiss := by
  unfold evalOpt
  cases k with
  | dns => rfl
  | heloHas => rfl
  | fromHas => exact getAddrOpts_miss W _ c
  | toHas => exact getAddrOpts_miss W _ c

mutual
theorem consults_iff {W : World} {tr : TransR} : ∀ (e : Expr) {c c' : Ctx} {b : Bool}, eval W tr e c = .ok (b, c') →
    c.rulemiss = false → (c'.rulemiss = true ↔ Consults W tr e c)
  | .andL es, c, c', b, h, hm => by
    rw [eval] at h
    rw [consultsL_iff es h hm]
    exact ⟨.and, fun h => by cases h; assumption⟩
  | .notN e, c, c', b, h, hm => by
    rw [eval] at h
    cases he : eval W tr e c with
    | error p => rw [he] at h; cases h
    | ok r =>
      rw [he] at h; cases h
      rw [consults_iff e he hm]
      exact ⟨.not_, fun h => by cases h; assumption⟩
  | .orN l r, c, c', b, h, hm => by
    rw [eval] at h
    cases he : eval W tr l c with
    | error p => rw [he] at h; cases h
    | ok x =>
      obtain ⟨b1, c1⟩ := x
      rw [he] at h
      have i1 := consults_iff l he hm
      cases b1 with
      | true =>
        cases h
        rw [i1]
        refine ⟨.orL, fun h => ?_⟩
        cases h with
        | orL h => exact h
        | orR h _ => rw [he] at h; cases h
      | false =>
        simp only [bind, Except.bind, Bool.false_eq_true, if_false] at h
        cases hr : c1.rulemiss with
        | true =>
          exact iff_of_true ((eval_steps r h).rulemiss hr) (.orL (i1.mp hr))
        | false =>
          rw [consults_iff r h hr]
          refine ⟨.orR he, fun h => ?_⟩
          cases h with
          | orL h => rw [i1.mpr h] at hr; cases hr
          | orR h h2 => rw [he] at h; cases h; exact h2
  | .all, c, c', b, h, hm => by
    rw [eval] at h; cases h
    exact iff_of_false (by simp [hm]) (fun h => nomatch h)
  | .tls on, c, c', b, h, hm => by
    rw [eval] at h; cases h
    exact iff_of_false (by simp [hm]) (fun h => nomatch h)
  | .dnsbl d, c, c', b, h, hm => by
    rw [eval] at h
    have := evalDnsbl_miss W tr d c
    simp only [Except.ok.injEq] at h
    rw [h] at this; simp only at this
    exact iff_of_false (by simp [this, hm]) (fun h => nomatch h)
  | .matchN k a, c, c', b, h, hm => by
    rw [eval] at h
    rw [(evalMatch_consults h hm).1]
    exact ⟨fun ⟨_, h⟩ => .matchN h, fun h => by cases h with | matchN h => exact ⟨_, h⟩⟩
  | .source a, c, c', b, h, hm => by
    rw [eval] at h
    rw [evalSource_consults h hm]
    exact ⟨fun ⟨_, h⟩ => .source h, fun h => by cases h with | source h => exact ⟨_, h⟩⟩
  | .dbl s d, c, c', b, h, hm => by
    rw [eval] at h
    have := evalDbl_miss h
    exact iff_of_false (by simp [this, hm]) (fun h => nomatch h)
  | .optN k o, c, c', b, h, hm => by
    rw [eval] at h
    have := evalOpt_miss W tr k o c
    simp only [Except.ok.injEq] at h
    rw [h] at this; simp only at this
    exact iff_of_false (by simp [this, hm]) (fun h => nomatch h)
theorem consultsL_iff {W : World} {tr : TransR} : ∀ (es : List Expr) {c c' : Ctx} {b : Bool},
    evalAnd W tr es c = .ok (b, c') → c.rulemiss = false → (c'.rulemiss = true ↔ ConsultsL W tr es c)
  | [], c, c', b, h, hm => by
    rw [evalAnd] at h; cases h
    exact iff_of_false (by simp [hm]) (fun h => nomatch h)
  | e :: es, c, c', b, h, hm => by
    rw [evalAnd] at h
    cases he : eval W tr e c with
    | error p => rw [he] at h; cases h
    | ok x =>
      obtain ⟨b1, c1⟩ := x
      rw [he] at h
      have i1 := consults_iff e he hm
      cases b1 with
      | false =>
        cases h
        rw [i1]
        refine ⟨.head, fun h => ?_⟩
        cases h with
        | head h => exact h
        | tail h _ => rw [he] at h; cases h
      | true =>
        simp only [bind, Except.bind, if_true] at h
        cases hr : c1.rulemiss with
        | true => exact iff_of_true ((evalAnd_steps es h).rulemiss hr) (.head (i1.mp hr))
        | false =>
          rw [consultsL_iff es h hr]
          refine ⟨.tail he, fun h => ?_⟩
          cases h with
          | head h => rw [i1.mpr h] at hr; cases hr
          | tail h h2 => rw [he] at h; cases h; exact h2
end

/-- **C18.** An expression leaves the mark for "rule does nothing" exactly if it consults an empty, missing or unreadable
pattern file, wherever the operator is under `not`, `or` and series.  Holds in a changing world too. -/
theorem C18_mark {W : World} {tr : TransR} {e : Expr} {c c' : Ctx} {b : Bool} (h : eval W tr e c = .ok (b, c'))
    (hm : c.rulemiss = false) : c'.rulemiss = true ↔ Consults W tr e c := consults_iff e h hm

/-- Trying clauses in turn, an empty pattern file is consulted. -/
inductive ClausesConsult (W : World) (tr : TransR) : List RClause → Ctx → Prop
  | here {rc rcs c} : Consults W tr rc.expr c → ClausesConsult W tr (rc :: rcs) c
  | next {rc rcs c c1} : eval W tr rc.expr c = .ok (false, c1) → ClausesConsult W tr rcs c1 → ClausesConsult W tr (rc :: rcs) c

/-- Trying recipients in turn, an empty pattern file is consulted. -/
inductive RcptsConsult (W : World) (tr : TransR) (r : Rule) : List Str → Ctx → Prop
  | here {a as c} : ClausesConsult W tr r.clauses { c with rcptto := a, rulemiss := false } → RcptsConsult W tr r (a :: as) c
  | next {a as c c1} : r.check W tr { c with rcptto := a } = .ok (false, c1) → RcptsConsult W tr r as c1 →
      RcptsConsult W tr r (a :: as) c

/-- Running the rule in a phase consults an empty pattern file. -/
def RuleConsults (W : World) (tr : TransR) (ph : Phase) (r : Rule) (c : Ctx) : Prop :=
  if ph > .rto ∧ r.requires ≥ .rto then RcptsConsult W tr r tr.rcptto c
  else ClausesConsult W tr r.clauses { c with rulemiss := false }

theorem checkClauses_consult {W : World} {tr : TransR} : ∀ {cs : List RClause} {c c' : Ctx} {b : Bool},
    checkClauses W tr cs c = .ok (b, c') → c.rulemiss = false →
    (c'.rulemiss = true ↔ ClausesConsult W tr cs c) ∧ (c'.rulemiss = true → b = false ∧ c'.withprops = c.withprops) := by
  intro cs
  induction cs with
  | nil =>
    intro c c' b h hm
    cases h
    exact ⟨iff_of_false (by simp [hm]) (fun h => nomatch h), fun h => by rw [hm] at h; cases h⟩
  | cons rc rcs ih =>
    intro c c' b h hm
    rw [checkClauses] at h
    cases he : eval W tr rc.expr c with
    | error p => rw [he] at h; cases h
    | ok r =>
      obtain ⟨b1, c1⟩ := r
      rw [he] at h
      simp only [bind, Except.bind, pure, Except.pure] at h
      have i1 := consults_iff _ he hm
      have hw : c1.withprops = c.withprops := Ctx.withprops_of_core (eval_steps _ he).core
      split at h
      · rename_i hr
        cases h
        exact ⟨iff_of_true hr (.here (i1.mp hr)), fun _ => ⟨rfl, hw⟩⟩
      · rename_i hr
        rw [Bool.not_eq_true] at hr
        have hn : ¬ Consults W tr rc.expr c := fun h => by rw [i1.mpr h] at hr; cases hr
        cases b1 with
        | false =>
          simp only [Bool.not_false, if_true] at h
          obtain ⟨g1, g2⟩ := ih h hr
          refine ⟨?_, fun h => ⟨(g2 h).1, (g2 h).2.trans hw⟩⟩
          rw [g1]
          refine ⟨.next he, fun h => ?_⟩
          cases h with
          | here h => exact absurd h hn
          | next h h2 => rw [he] at h; cases h; exact h2
        | true =>
          simp only [Bool.not_true, Bool.false_eq_true, if_false] at h
          cases h
          refine ⟨iff_of_false (by simp [hr]) fun h => ?_, fun h => by simp [hr] at h⟩
          cases h with
          | here h => exact absurd h hn
          | next h _ => rw [he] at h; cases h

theorem checkClauses_false_withs {W : World} {tr : TransR} : ∀ {cs : List RClause} {c c' : Ctx},
    checkClauses W tr cs c = .ok (false, c') → c'.withprops = c.withprops := by
  intro cs
  induction cs with
  | nil => intro c c' h; cases h; rfl
  | cons rc rcs ih =>
    intro c c' h
    rw [checkClauses] at h
    cases he : eval W tr rc.expr c with
    | error p => rw [he] at h; cases h
    | ok r =>
      obtain ⟨b1, c1⟩ := r
      rw [he] at h
      simp only [bind, Except.bind, pure, Except.pure] at h
      have hw : c1.withprops = c.withprops := Ctx.withprops_of_core (eval_steps _ he).core
      split at h
      · cases h; exact hw
      · split at h
        · exact (ih h).trans hw
        · cases h

theorem rcptsConsult_reset {W : World} {tr : TransR} {r : Rule} {as : List Str} {c : Ctx} (h : RcptsConsult W tr r as c) :
    RcptsConsult W tr r as { c with rulemiss := false } := by
  cases h with
  | here h => exact .here h
  | next h h2 => exact .next h h2

theorem ruleForEachRcpt_consult {W : World} {tr : TransR} {r : Rule} : ∀ {as : List Str} {c c' : Ctx} {b : Bool},
    ruleForEachRcpt W tr r as c = .ok (b, c') → c.rulemiss = false →
    (c'.rulemiss = true ↔ RcptsConsult W tr r as c) ∧ (c'.rulemiss = true → b = false ∧ c'.withprops = c.withprops) := by
  intro as
  induction as with
  | nil =>
    intro c c' b h hm
    cases h
    exact ⟨iff_of_false (by simp [hm]) (fun h => nomatch h), fun h => by rw [hm] at h; cases h⟩
  | cons a as ih =>
    intro c c' b h hm
    rw [ruleForEachRcpt] at h
    cases he : r.check W tr { c with rcptto := a } with
    | error p => rw [he] at h; cases h
    | ok x =>
      obtain ⟨b1, c1⟩ := x
      rw [he] at h
      obtain ⟨i1, i2⟩ := checkClauses_consult (c := { c with rcptto := a, rulemiss := false }) he rfl
      simp only [bind, Except.bind, pure, Except.pure] at h
      cases b1 with
      | true =>
        cases h
        cases hr : c'.rulemiss with
        | true => exact absurd (i2 hr).1 (by simp)
        | false =>
          refine ⟨iff_of_false (by simp) fun h => ?_, fun h => nomatch h⟩
          cases h with
          | here h => rw [i1.mpr h] at hr; cases hr
          | next h _ => rw [he] at h; cases h
      | false =>
        simp only [Bool.false_eq_true, if_false] at h
        cases hr : c1.rulemiss with
        | true =>
          rw [hr] at h; cases h
          exact ⟨iff_of_true hr (.here (i1.mp hr)), fun _ => ⟨rfl, (i2 hr).2⟩⟩
        | false =>
          rw [hr] at h
          simp only [Bool.false_eq_true, if_false] at h
          obtain ⟨g1, g2⟩ := ih h hr
          have hw : c1.withprops = c.withprops := checkClauses_false_withs (c := { c with rcptto := a, rulemiss := false }) he
          refine ⟨?_, fun h => ⟨(g2 h).1, (g2 h).2.trans hw⟩⟩
          rw [g1]
          refine ⟨.next he, fun h => ?_⟩
          cases h with
          | here h => rw [i1.mpr h] at hr; cases hr
          | next h h2 => rw [he] at h; cases h; exact h2

/-- **C18.** If running a rule consults an empty, missing or unreadable pattern file then, in any world, the decision goes
on with the remaining rules as if the rule had not been there: same with options, same data about the client, no result;
and the rule does not match. -/
theorem C18_rule_skipped {W : World} {tr : TransR} {ph : Phase} {r : Rule} {c c' : Ctx} {b : Bool}
    (h : runRule W tr ph r c = .ok (b, c')) (hc : RuleConsults W tr ph r c) :
    b = false ∧ c'.withprops = c.withprops ∧ c'.frame = c.frame ∧
      ∀ rs, skipRule ph r = false → ruleLoop W tr ph (r :: rs) c = ruleLoop W tr ph rs c' := by
  have hfr := (runRule_steps h).frame
  have key : c'.rulemiss = true ∧ b = false ∧ c'.withprops = c.withprops := by
    unfold runRule at h
    unfold RuleConsults at hc
    simp only at h
    split at h
    · rename_i hp
      rw [if_pos hp] at hc
      obtain ⟨g1, g2⟩ := ruleForEachRcpt_consult h rfl
      have := g1.mpr (rcptsConsult_reset hc)
      exact ⟨this, (g2 this).1, (g2 this).2⟩
    · rename_i hp
      rw [if_neg hp] at hc
      obtain ⟨g1, g2⟩ := checkClauses_consult (c := { c with rulemiss := false }) h rfl
      have := g1.mpr hc
      exact ⟨this, (g2 this).1, (g2 this).2⟩
  refine ⟨key.2.1, key.2.2, hfr, fun rs hs => ?_⟩
  rw [ruleLoop, hs]
  simp only [Bool.false_eq_true, if_false, h, bind, Except.bind, key.1, if_true]

/-- C18, in a world that does not change: an expression that consults a file without patterns is one for which `Misses`
holds, which only speaks about file contents and truth values. -/
theorem C18_static {W : World} (hs : W.Static) {tr : TransR} {e : Expr} {c c' : Ctx} {b : Bool} (hc : CacheOK W c)
    (h : eval W tr e c = .ok (b, c')) (hm : c.rulemiss = false) : Consults W tr e c ↔ Misses W tr c.mail e := by
  rw [← consults_iff e h hm, (eval_spec hs e hc h).miss, hm]
  simp

/-- A rule for the examples: reject unless the sender is in an empty file. -/
def demoMiss : Rule := ⟨[⟨.orN (.tls false) (.notN (.matchN .from_ b!"/empty")), { message := some b!"no" }⟩], .reject, .mfrom, .any⟩

example : short (runRule demoWorld demoTrans .mfrom demoMiss demoCtx) = .ok (false, true) := by decide +kernel
example : Consults demoWorld demoTrans (.orN (.tls false) (.notN (.matchN .from_ b!"/empty"))) demoCtx :=
  .orR rfl (.not_ (.matchN rfl))
example : patterns demoWorld b!"/empty" = [] ∧ patterns demoWorld b!"/nosuchfile" = [] ∧ patterns demoWorld b!"/noread" = [] := by
  decide +kernel

/-! ## C31 -/

/-- The lower-cased sender `a` is in domain `p`: its domain is `p`, or `p` is `.t` and its domain is `t` or ends in `.t`.
(A sender that is literally `@p` counts too.) -/
def FromDomain (a p : Str) : Prop :=
  (∃ l d, IsAddr a l d ∧ (p = d ∨ ∃ t, TailOf t d ∧ p = b!"." ++ t)) ∨ a = b!"@" ++ p

theorem addrMatch_at {a p : Str} (hp : p ≠ []) : AddrMatch a (b!"@" ++ p) ↔ FromDomain a p := by
  constructor
  · generalize hq : b!"@" ++ p = q
    intro h
    cases h with
    | self => exact Or.inr hq.symm
    | null => simp at hq
    | name h1 h2 =>
      cases a with
      | nil => exact absurd rfl h1
      | cons x a =>
        simp only [List.cons_append, List.nil_append, List.cons.injEq] at hq
        rw [← hq.1] at h2; simp at h2
    | local_ h =>
      rename_i l d
      obtain ⟨-, h2, h3, -⟩ := h
      cases l with
      | nil => exact absurd rfl h3
      | cons x l =>
        simp only [List.cons_append, List.nil_append, List.cons.injEq] at hq
        rw [← hq.1] at h2; simp at h2
    | domain h =>
      rename_i l d
      simp only [List.cons_append, List.nil_append, List.cons.injEq, true_and] at hq
      subst hq
      exact Or.inl ⟨l, p, h, Or.inl rfl⟩
    | any h =>
      simp only [List.cons_append, List.nil_append, List.cons.injEq, true_and] at hq
      exact absurd hq hp
    | tail h ht =>
      rename_i l d t
      simp only [List.cons_append, List.nil_append, List.cons.injEq, true_and] at hq
      subst hq
      exact Or.inl ⟨l, d, h, Or.inr ⟨t, ht, rfl⟩⟩
  · rintro (⟨l, d, h, rfl | ⟨t, ht, rfl⟩⟩ | rfl)
    · exact .domain h
    · exact .tail h ht
    · exact .self _

theorem patterns_ne {W : World} {tr : TransR} {k : MKind} {a : Str} {c c' : Ctx} {b : Bool}
    (h : evalMatch W tr k a c = .ok (b, c')) : ∀ p ∈ patterns W a, p ≠ [] := by
  have hne : a ≠ [] := by
    rintro rfl
    unfold evalMatch getMatchList matchFile at h
    cases h
  unfold patterns
  cases argFile a with
  | none =>
    simp only [List.mem_singleton, forall_eq]
    exact lower_ne W.lib hne
  | some f =>
    simp only
    unfold fileEntries
    split
    · simp
    · split
      · exact C16_no_empty_entry W.lib _
      · simp

/-- **C31.** `source A` is true iff for some pattern of `A` (literal, or an entry of the file) a verified host name, the
EHLO name or the domain of the sender matches it. -/
theorem C31_source {W : World} (hs : W.Static) {tr : TransR} {a : Str} {c c' : Ctx} {b : Bool} (hc : CacheOK W c)
    (h : eval W tr (.source a) c = .ok (b, c')) (hm : c'.rulemiss = false) :
    b = true ↔ ∃ p ∈ patterns W a, (∃ n ∈ tr.rdns.verified, HostMatch (W.lib.lower n) p) ∨
      HostMatch (W.lib.lower c.heloname) p ∨ FromDomain (W.lib.lower c.from_) p := by
  have hne : ∀ p ∈ patterns W a, p ≠ [] := by
    rw [eval, evalSource] at h
    cases h1 : evalMatch W tr .host a c with
    | error p => rw [h1] at h; cases h
    | ok x => obtain ⟨b1, c1⟩ := x; exact patterns_ne h1
  rw [C17_semantics hs hc h hm, Holds]
  simp only [MatchHolds, subjects, PatMatch, List.mem_singleton, exists_eq_left, Ctx.mail]
  constructor
  · rintro (⟨p, hp, h⟩ | ⟨p, hp, h⟩ | ⟨p, hp, h⟩)
    · exact ⟨p, hp, Or.inl h⟩
    · exact ⟨p, hp, Or.inr (Or.inl h)⟩
    · exact ⟨p, hp, Or.inr (Or.inr ((addrMatch_at (hne p hp)).mp h))⟩
  · rintro ⟨p, hp, h | h | h⟩
    · exact Or.inl ⟨p, hp, h⟩
    · exact Or.inr (Or.inl ⟨p, hp, h⟩)
    · exact Or.inr (Or.inr ⟨p, hp, (addrMatch_at (hne p hp)).mpr h⟩)

/-- C31: for a sender with a domain not ending in a dot, its domain is treated exactly as a host name. -/
theorem C31_domain_like_host {a l d p : Str} (ha : IsAddr a l d) (hd : d.getLast? ≠ some c!".") :
    FromDomain a p ↔ HostMatch d p := by
  have hs : stripFor d p = d := by simp [stripFor, hd]
  unfold HostMatch
  rw [hs]
  constructor
  · rintro (⟨l', d', h, h2⟩ | rfl)
    · have : d' = d := by
        obtain ⟨e, h1, -, -⟩ := ha
        obtain ⟨e', h1', -, -⟩ := h
        rw [e] at e'
        exact (split_unique e' h1 h1').2.symm
      subst this
      exact h2
    · obtain ⟨e, h1, h3, -⟩ := ha
      cases l with
      | nil => exact absurd rfl h3
      | cons x l =>
        simp only [List.cons_append, List.nil_append, List.cons.injEq] at e
        rw [← e.1] at h1; simp at h1
  · exact fun h => Or.inl ⟨l, d, ha, h⟩

example : short (eval demoWorld demoTrans (.source b!"/bad") demoCtx) = .ok (true, false) := by decide +kernel
example : short (eval demoWorld demoTrans (.source b!".EXAMPLE.com") demoCtx) = .ok (true, false) := by decide +kernel
example : short (eval demoWorld demoTrans (.source b!"mail.example.com") demoCtx) = .ok (false, false) := by decide +kernel

/-! ## C32 -/

/-- **C32.** `dbl SRCS D` is true iff one of the names drawn from the sources is listed in `D`. -/
theorem C32_dbl {W : World} (hs : W.Static) {tr : TransR} {src : Opts} {d : Str} {c c' : Ctx} {b : Bool} (hc : CacheOK W c)
    (h : eval W tr (.dbl src d) c = .ok (b, c')) :
    b = true ↔ ∃ n, DblName W tr c.mail src n ∧ ∃ ips, W.lookupIP 0 (n ++ b!"." ++ d) = .ok ips ∧ ips ≠ [] := by
  rw [eval] at h
  exact (evalDbl_spec hs hc h).2

/-- C32: the order in which names are looked up does not matter. -/
theorem C32_order {W W' : World} (hs : W.Static) (hw : W' = { W with mapOrder := W'.mapOrder, mapOrder_perm := W'.mapOrder_perm })
    {tr : TransR} {src : Opts} {d : Str} {c c1 c2 : Ctx} {b1 b2 : Bool} (hc : CacheOK W c)
    (h1 : eval W tr (.dbl src d) c = .ok (b1, c1)) (h2 : eval W' tr (.dbl src d) c = .ok (b2, c2)) : b1 = b2 := by
  have hs' : W'.Static := by
    rw [hw]; exact ⟨hs.files, hs.lookupIP, hs.lookupMX, hs.lookupAddr, hs.lookupTXT⟩
  have hc' : CacheOK W' c := by
    rw [hw]; exact ⟨hc.files, hc.dnsbl, hc.domvalid⟩
  rw [Bool.eq_iff_iff, C32_dbl hs hc h1, C32_dbl hs' hc' h2]
  have e1 : W'.lookupIP = W.lookupIP := by rw [hw]
  have e2 : ∀ n, DblName W' tr c.mail src n ↔ DblName W tr c.mail src n := by
    intro n
    rw [dblName_iff, dblName_iff]
    have : NoMX W' n ↔ NoMX W n := by rw [hw]; exact Iff.rfl
    rw [this]
  simp only [e1, e2]

/-- The names of the sources written in the rule, in any world. -/
def SrcName (tr : TransR) (c : Ctx) (src : Opts) (n : Str) : Prop :=
  (src &&& (oEhlo ||| oHelo) ≠ 0 ∧ n = c.heloname) ∨
  (src &&& oHost = oHost ∧ ∃ s ∈ tr.rdns.verified ++ tr.rdns.nofwd ++ tr.rdns.inconsist, n = s.dropLast) ∨
  (src &&& oFrom = oFrom ∧ ∃ l, c.from_ = l ++ c!"@" :: n)

theorem dblLookups_trace (W : World) (d : Str) : ∀ (l : List Str) (ret : Bool) (c : Ctx),
    ∃ evs, (dblLookups W d l ret c).2.trace = evs ++ c.trace ∧ ∀ ev ∈ evs, ∃ n ∈ l, ev = .lookupIP (n ++ b!"." ++ d) := by
  intro l
  induction l with
  | nil => intro ret c; exact ⟨[], rfl, by simp⟩
  | cons s ss ih =>
    intro ret c
    have h0 : (getDnsblRes W (s ++ b!"." ++ d) c).2.trace = c.trace ∨
        (getDnsblRes W (s ++ b!"." ++ d) c).2.trace = [.lookupIP (s ++ b!"." ++ d)] ++ c.trace := by
      unfold getDnsblRes
      split
      · exact Or.inl rfl
      · simp only; split <;> exact Or.inr rfl
    have h1 : (addDnsblHit d (getDnsblRes W (s ++ b!"." ++ d) c).2).trace = (getDnsblRes W (s ++ b!"." ++ d) c).2.trace := by
      unfold addDnsblHit; split <;> rfl
    have fin : ∀ ret c1, c1.trace = (getDnsblRes W (s ++ b!"." ++ d) c).2.trace →
        ∃ evs, (dblLookups W d ss ret c1).2.trace = evs ++ c.trace ∧ ∀ ev ∈ evs, ∃ n ∈ s :: ss, ev = .lookupIP (n ++ b!"." ++ d) := by
      intro ret c1 hc1
      obtain ⟨evs, g1, g2⟩ := ih ret c1
      rcases h0 with h0 | h0
      · exact ⟨evs, by rw [g1, hc1, h0], fun ev hev => by
          obtain ⟨n, hn, he⟩ := g2 ev hev; exact ⟨n, List.mem_cons_of_mem _ hn, he⟩⟩
      · refine ⟨evs ++ [.lookupIP (s ++ b!"." ++ d)], by rw [g1, hc1, h0, ← List.append_assoc], fun ev hev => ?_⟩
        rcases List.mem_append.mp hev with hev | hev
        · obtain ⟨n, hn, he⟩ := g2 ev hev; exact ⟨n, List.mem_cons_of_mem _ hn, he⟩
        · exact ⟨s, by simp, by simpa using hev⟩
    rw [dblLookups]
    split
    · exact fin _ _ h1
    · exact fin _ _ rfl

theorem getAddrOpts_trace (W : World) (a : Str) (c : Ctx) :
    ∃ evs, (getAddrOpts W a c).2.trace = evs ++ c.trace ∧
      (evs ≠ [] → ∃ l n, a = l ++ c!"@" :: n ∧ ∀ ev ∈ evs, MailLookup W n c.trace ev) := by
  obtain ⟨P, -, ⟨-, -, h⟩ | ⟨d, hd, -, h⟩⟩ := getAddrOpts_dyn W a c
  · exact ⟨[], by rw [h]; rfl, by simp⟩
  · rw [h]
    unfold Ctx.validDomain
    split
    · exact ⟨[], rfl, by simp⟩
    · obtain ⟨evs, h1, h2⟩ := validDomain_trace W d c.trace
      obtain ⟨⟨l, he, -⟩, -⟩ := hd
      exact ⟨evs, h1, fun _ => ⟨l, d, he, h2⟩⟩

/-- **C32.** In any world, evaluating `dbl SRCS D` looks up nothing but names of the written sources under `D`, and, when
`from` is one of the sources, whether the sender's domain can receive mail. -/
theorem C32_only_named_sources {W : World} {tr : TransR} {src : Opts} {d : Str} {c c' : Ctx} {b : Bool}
    (h : eval W tr (.dbl src d) c = .ok (b, c')) :
    ∃ evs, c'.trace = evs ++ c.trace ∧ ∀ ev ∈ evs, ev = .mapIter ∨ (∃ n, SrcName tr c src n ∧ ev = .lookupIP (n ++ b!"." ++ d)) ∨
      (src &&& oFrom = oFrom ∧ ∃ l n, c.from_ = l ++ c!"@" :: n ∧ MailLookup W n c.trace ev) := by
  rw [eval] at h
  unfold evalDbl at h
  cases hx : dblNames tr src c with
  | error p => rw [hx] at h; cases h
  | ok chk =>
    rw [hx] at h
    have m1 : ∀ x ∈ chk, SrcName tr c src x := by
      intro x hxm
      unfold dblNames at hx
      simp only at hx
      have h0 : ∀ y, y ∈ (if src &&& (oEhlo ||| oHelo) ≠ 0 ∧ c.heloname ≠ [] then [c.heloname] else []) → SrcName tr c src y := by
        intro y hy
        split at hy
        · rename_i hc; exact Or.inl ⟨hc.1, by simpa using hy⟩
        · simp at hy
      split at hx
      · rename_i hh
        rcases (dblHosts_spec hx x).mp hxm with hm | hm
        · exact h0 x hm
        · exact Or.inr (Or.inl ⟨hh, hm⟩)
      · cases hx; exact h0 x hxm
    -- the sender
    have m2 : (∀ x ∈ (dblFrom W src chk c).1, SrcName tr c src x) ∧ ∃ evs, (dblFrom W src chk c).2.trace = evs ++ c.trace ∧
        ∀ ev ∈ evs, src &&& oFrom = oFrom ∧ ∃ l n, c.from_ = l ++ c!"@" :: n ∧ MailLookup W n c.trace ev := by
      unfold dblFrom
      split
      · rename_i hf
        simp only
        obtain ⟨evs, g1, g2⟩ := getAddrOpts_trace W c.from_ c
        have g3 : ∀ ev ∈ evs, src &&& oFrom = oFrom ∧ ∃ l n, c.from_ = l ++ c!"@" :: n ∧ MailLookup W n c.trace ev := by
          intro ev hev
          obtain ⟨l, n, e1, e2⟩ := g2 (List.ne_nil_of_mem hev)
          exact ⟨hf.1, l, n, e1, e2 ev hev⟩
        split
        · rename_i hmask
          cases hi : indexByte c.from_ c!"@" with
          | some idx =>
            refine ⟨?_, evs, g1, g3⟩
            obtain ⟨l, n, h1, h2, h3⟩ := indexByte_some.mp hi
            intro x hxm
            rcases mem_addKey.mp hxm with rfl | hm
            rotate_left
            · exact m1 x hm
            · refine Or.inr (Or.inr ⟨hf.1, l, ?_⟩)
              have : c.from_.drop (idx + 1) = n := by rw [h1, ← h3]; simp
              rw [this]; exact h1
          | none =>
            exfalso
            have hnd : ∀ d, ¬ HasDomain c.from_ d := by
              rintro d ⟨⟨l, he, -⟩, -⟩
              apply indexByte_none.mp hi
              rw [he]; simp
            obtain ⟨P, hP, ⟨-, hsh, -⟩ | ⟨d, hd, -⟩⟩ := getAddrOpts_dyn W c.from_ c
            · rw [BitVec.and_comm] at hmask
              obtain ⟨x, hx, ho⟩ := (hP _).mp hmask
              rw [hsh] at hx
              cases x <;> first | exact hx | exact ho (by decide +kernel)
            · exact hnd d hd
        · exact ⟨m1, evs, g1, g3⟩
      · exact ⟨m1, [], rfl, by simp⟩
    obtain ⟨m3, evs, g1, g2⟩ := m2
    simp only [bind, Except.bind, pure, Except.pure] at h
    split at h
    · cases h; exact ⟨evs, g1, fun ev hev => Or.inr (Or.inr (g2 ev hev))⟩
    · simp only [Except.ok.injEq] at h
      obtain ⟨evs2, k1, k2⟩ := dblLookups_trace W d (W.mapOrder (dblFrom W src chk c).2.trace.length (dblFrom W src chk c).1) false
        { (dblFrom W src chk c).2 with trace := .mapIter :: (dblFrom W src chk c).2.trace }
      rw [h] at k1
      refine ⟨evs2 ++ .mapIter :: evs, by rw [k1]; simp [g1], ?_⟩
      intro ev hev
      rcases List.mem_append.mp hev with hev | hev
      · obtain ⟨n, hn, he⟩ := k2 ev hev
        exact Or.inr (Or.inl ⟨n, m3 n ((W.mapOrder_perm _ _).mem_iff.mp hn), he⟩)
      · rcases List.mem_cons.mp hev with rfl | hev
        · exact Or.inl rfl
        · exact Or.inr (Or.inr (g2 ev hev))

example : short (eval demoWorld demoTrans (.dbl (oEhlo ||| oFrom) b!"dbl.example.") demoCtx) = .ok (true, false) := by decide +kernel
example : short (eval demoWorld demoTrans (.dbl (oHost ||| oFrom) b!"dbl.example.") demoCtx) = .ok (false, false) := by decide +kernel
example : DblName demoWorld demoTrans demoCtx.mail (oEhlo ||| oFrom) b!"evil.com" := .helo (by decide) (by decide)

end Sink
