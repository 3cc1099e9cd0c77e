import Verif.Lemmas.Eval
import Verif.Lemmas.Parse

/-!
# Clauses, rules and decisions follow Spec/Sem.lean
-/

namespace Sink
open Spec
open Gram (later needs needsL needsC opNeeds)

/-! ## Which data an expression looks at -/

theorem later_lt {a b p : Phase} (h : later a b < p) : a < p ∧ b < p := by
  unfold later at h
  split at h
  · rename_i hab; exact ⟨Nat.lt_trans hab h, h⟩
  · rename_i hab; exact ⟨h, Nat.lt_of_le_of_lt (Nat.le_of_not_lt hab) h⟩

theorem later_le {a b p : Phase} (h : later a b ≤ p) : a ≤ p ∧ b ≤ p := by
  unfold later at h
  split at h
  · rename_i hab; exact ⟨Nat.le_trans (Nat.le_of_lt hab) h, h⟩
  · rename_i hab; exact ⟨h, Nat.le_trans (Nat.le_of_not_lt hab) h⟩

theorem matchHolds_rcpt {W : World} {tr : TransR} {m : Mail} {x : Str} {k : MKind} {a : Str} (h : k ≠ .to) :
    MatchHolds W tr { m with rcptto := x } k a ↔ MatchHolds W tr m k a := by
  cases k <;> first | rfl | exact absurd rfl h

mutual
theorem holds_rcpt {W : World} {tr : TransR} {m : Mail} {x : Str} : ∀ e : Expr, needs e < .rto →
    (Holds W tr { m with rcptto := x } e ↔ Holds W tr m e)
  | .andL es, h => by rw [Holds, Holds]; exact holdsAll_rcpt es (by rwa [needs] at h)
  | .notN e, h => by rw [Holds, Holds, holds_rcpt e (by rwa [needs] at h)]
  | .orN l r, h => by
    rw [needs] at h
    rw [Holds, Holds, holds_rcpt l (later_lt h).1, holds_rcpt r (later_lt h).2]
  | .all, _ => by rw [Holds, Holds]
  | .tls _, _ => by rw [Holds, Holds]
  | .dnsbl _, _ => by rw [Holds, Holds]
  | .matchN k a, h => by
    rw [Holds, Holds]
    refine matchHolds_rcpt ?_
    rintro rfl; revert h; simp only [needs, opNeeds]; decide
  | .source a, _ => by
    rw [Holds, Holds, matchHolds_rcpt (k := .host) (by decide), matchHolds_rcpt (k := .helo) (by decide),
      matchHolds_rcpt (k := .sourceFrom) (by decide)]
  | .dbl s d, _ => by
    rw [Holds, Holds]
    unfold DblHolds
    simp only [dblName_iff]
  | .optN k o, h => by
    rw [Holds, Holds]
    cases k with
    | toHas => simp only [needs, opNeeds] at h; exact absurd h (by decide)
    | _ => rfl
theorem holdsAll_rcpt {W : World} {tr : TransR} {m : Mail} {x : Str} : ∀ es : List Expr, needsL es < .rto →
    (HoldsAll W tr { m with rcptto := x } es ↔ HoldsAll W tr m es)
  | [], _ => by rw [HoldsAll, HoldsAll]
  | e :: es, h => by
    rw [needsL] at h
    rw [HoldsAll, HoldsAll, holds_rcpt e (later_lt h).1, holdsAll_rcpt es (later_lt h).2]
end

mutual
theorem misses_rcpt {W : World} {tr : TransR} {m : Mail} {x : Str} : ∀ e : Expr, needs e < .rto →
    (Misses W tr { m with rcptto := x } e ↔ Misses W tr m e)
  | .andL es, h => by rw [Misses, Misses]; exact missesAll_rcpt es (by rwa [needs] at h)
  | .notN e, h => by rw [Misses, Misses, misses_rcpt e (by rwa [needs] at h)]
  | .orN l r, h => by
    rw [needs] at h
    rw [Misses, Misses, misses_rcpt l (later_lt h).1, misses_rcpt r (later_lt h).2, holds_rcpt l (later_lt h).1]
  | .all, _ => by rw [Misses, Misses]
  | .tls _, _ => by rw [Misses, Misses]
  | .dnsbl _, _ => by rw [Misses, Misses]
  | .matchN k a, h => by rw [Misses, Misses]
  | .source a, _ => by rw [Misses, Misses]
  | .dbl s d, _ => by rw [Misses, Misses]
  | .optN k o, h => by rw [Misses, Misses]
theorem missesAll_rcpt {W : World} {tr : TransR} {m : Mail} {x : Str} : ∀ es : List Expr, needsL es < .rto →
    (MissesAll W tr { m with rcptto := x } es ↔ MissesAll W tr m es)
  | [], _ => by rw [MissesAll, MissesAll]
  | e :: es, h => by
    rw [needsL] at h
    rw [MissesAll, MissesAll, misses_rcpt e (later_lt h).1, missesAll_rcpt es (later_lt h).2, holds_rcpt e (later_lt h).1]
end

theorem clausesTo_rcpt {W : World} {tr : TransR} {m : Mail} {x : Str} {cs : List RClause} {o : Outcome}
    (hn : needsC cs < .rto) (h : ClausesTo W tr { m with rcptto := x } cs o) : ClausesTo W tr m cs o := by
  generalize hm : ({ m with rcptto := x } : Mail) = m' at h
  induction h with
  | nil => exact .nil
  | miss h1 =>
    rw [needsC] at hn; subst hm
    exact .miss ((misses_rcpt _ (later_lt hn).1).mp h1)
  | hit h1 h2 =>
    rw [needsC] at hn; subst hm
    exact .hit ((misses_rcpt _ (later_lt hn).1).not.mp h1) ((holds_rcpt _ (later_lt hn).1).mp h2)
  | next h1 h2 _ ih =>
    rw [needsC] at hn
    have ih' := ih (later_lt hn).2
    subst hm
    exact .next ((misses_rcpt _ (later_lt hn).1).not.mp h1) ((holds_rcpt _ (later_lt hn).1).not.mp h2) ih'

/-! ## Outcomes are unique -/

theorem Spec.ClausesTo.unique {W : World} {tr : TransR} {m : Mail} {cs : List RClause} {o o' : Outcome}
    (h : ClausesTo W tr m cs o) (h' : ClausesTo W tr m cs o') : o = o' := by
  induction h with
  | nil => cases h'; rfl
  | miss h1 => cases h' <;> first | rfl | contradiction
  | hit h1 h2 => cases h' <;> first | rfl | contradiction
  | next h1 h2 _ ih =>
    cases h' with
    | miss => contradiction
    | hit => contradiction
    | next _ _ h => exact ih h

theorem Spec.RcptsTo.unique {W : World} {tr : TransR} {m : Mail} {r : Rule} {as : List Str} {o o' : Outcome}
    (h : RcptsTo W tr m r as o) (h' : RcptsTo W tr m r as o') : o = o' := by
  induction h with
  | nil => cases h'; rfl
  | stop h1 h2 =>
    cases h' with
    | stop g1 _ => exact h1.unique g1
    | next g1 _ => exact absurd (h1.unique g1) h2
  | next h1 _ ih =>
    cases h' with
    | stop g1 g2 => exact absurd (g1.unique h1) g2
    | next _ g => exact ih g

theorem Spec.RuleTo.unique {W : World} {tr : TransR} {m : Mail} {ph : Phase} {r : Rule} {o o' : Outcome}
    (h : RuleTo W tr m ph r o) (h' : RuleTo W tr m ph r o') : o = o' := by
  unfold RuleTo at h h'
  split at h
  · rename_i hc; rw [if_pos hc] at h'; exact RcptsTo.unique h h'
  · rename_i hc; rw [if_neg hc] at h'; exact ClausesTo.unique h h'

/-! ## Clauses and rules -/

/-- The context without the parts that running a rule may change. -/
def Ctx.frame (c : Ctx) : Ctx := { c.core with rcptto := [], withprops := {} }

theorem Ctx.frame_of_core {c c' : Ctx} (h : c'.core = c.core) : c'.frame = c.frame := by
  unfold Ctx.frame; rw [h]

theorem Ctx.withprops_of_core {c c' : Ctx} (h : c'.core = c.core) : c'.withprops = c.withprops := by
  have := congrArg Ctx.withprops h; exact this
theorem Ctx.rcptto_of_core {c c' : Ctx} (h : c'.core = c.core) : c'.rcptto = c.rcptto := by
  have := congrArg Ctx.rcptto h; exact this
theorem Ctx.isHelo_of_frame {c c' : Ctx} (h : c'.frame = c.frame) : c'.isHelo = c.isHelo := by
  have := congrArg Ctx.isHelo h; exact this
theorem Ctx.heloname_of_frame {c c' : Ctx} (h : c'.frame = c.frame) : c'.heloname = c.heloname := by
  have := congrArg Ctx.heloname h; exact this
theorem Ctx.from_of_frame {c c' : Ctx} (h : c'.frame = c.frame) : c'.from_ = c.from_ := by
  have := congrArg Ctx.from_ h; exact this
theorem Ctx.ruleset_of_frame {c c' : Ctx} (h : c'.frame = c.frame) : c'.ruleset = c.ruleset := by
  have := congrArg Ctx.ruleset h; exact this

/-- What running a rule does to the context. -/
structure Effect (W : World) (c c' : Ctx) (b : Bool) (o : Outcome) : Prop where
  cache : CacheOK W c'
  frame : c'.frame = c.frame
  out : match o with
    | .hit w => b = true ∧ c'.rulemiss = false ∧ c'.withprops = c.withprops.merge w
    | .no => b = false ∧ c'.rulemiss = false ∧ c'.withprops = c.withprops
    | .miss => b = false ∧ c'.rulemiss = true ∧ c'.withprops = c.withprops

theorem checkClauses_spec {W : World} (hs : W.Static) {tr : TransR} : ∀ {cs : List RClause} {c c' : Ctx} {b : Bool},
    CacheOK W c → c.rulemiss = false → checkClauses W tr cs c = .ok (b, c') →
    ∃ o, ClausesTo W tr c.mail cs o ∧ Effect W c c' b o ∧ c'.rcptto = c.rcptto := by
  intro cs
  induction cs with
  | nil =>
    intro c c' b hc hm h
    cases h
    exact ⟨.no, .nil, ⟨hc, rfl, rfl, hm, rfl⟩, rfl⟩
  | cons rc rcs ih =>
    intro c c' b hc hm h
    rw [checkClauses] at h
    cases he : eval W tr rc.expr c with
    | error p => rw [he] at h; cases h
    | ok r =>
      obtain ⟨b1, c1⟩ := r
      rw [he] at h
      simp only [bind, Except.bind, pure, Except.pure] at h
      have k := eval_spec hs rc.expr hc he
      have kr : c1.rcptto = c.rcptto := Ctx.rcptto_of_core k.core
      split at h
      · rename_i hmiss
        cases h
        refine ⟨.miss, .miss ?_, ⟨k.cache, Ctx.frame_of_core k.core, rfl, hmiss, Ctx.withprops_of_core k.core⟩, kr⟩
        have := k.miss.mp hmiss
        simpa [hm] using this
      · rename_i hmiss
        have hnm : ¬ Misses W tr c.mail rc.expr := fun hx => hmiss (k.miss.mpr (Or.inr hx))
        have hv := k.val hnm
        simp only [Bool.not_eq_true] at hmiss
        cases b1 with
        | false =>
          simp only [Bool.not_false, if_true] at h
          obtain ⟨o, h1, h2, h3⟩ := ih k.cache hmiss h
          rw [k.mail] at h1
          refine ⟨o, .next hnm (by rw [← hv]; simp) h1, ⟨h2.cache, h2.frame.trans (Ctx.frame_of_core k.core), ?_⟩, h3.trans kr⟩
          have := h2.out
          rw [Ctx.withprops_of_core k.core] at this
          exact this
        | true =>
          simp only [Bool.not_true, Bool.false_eq_true, if_false] at h
          cases h
          refine ⟨.hit rc.withs, .hit hnm (hv.mp rfl), ⟨⟨k.cache.files, k.cache.dnsbl, k.cache.domvalid⟩, ?_, rfl, hmiss, ?_⟩, kr⟩
          · have := Ctx.frame_of_core k.core; exact this
          · rw [← Ctx.withprops_of_core k.core]

theorem check_spec {W : World} (hs : W.Static) {tr : TransR} {r : Rule} {c c' : Ctx} {b : Bool} (hc : CacheOK W c)
    (h : r.check W tr c = .ok (b, c')) :
    ∃ o, ClausesTo W tr c.mail r.clauses o ∧ Effect W c c' b o ∧ c'.rcptto = c.rcptto := by
  unfold Rule.check at h
  obtain ⟨o, h1, h2, h3⟩ := checkClauses_spec hs (c := { c with rulemiss := false }) ⟨hc.files, hc.dnsbl, hc.domvalid⟩ rfl h
  exact ⟨o, h1, ⟨h2.cache, h2.frame, h2.out⟩, h3⟩

theorem Effect.mailR {W : World} {c c' : Ctx} {b : Bool} {o : Outcome} (h : Effect W c c' b o) (x : Str) :
    { c'.mail with rcptto := x } = { c.mail with rcptto := x } := by
  have h1 : c'.isHelo = c.isHelo := Ctx.isHelo_of_frame h.frame
  have h2 : c'.heloname = c.heloname := Ctx.heloname_of_frame h.frame
  have h3 : c'.from_ = c.from_ := Ctx.from_of_frame h.frame
  simp [Ctx.mail, h1, h2, h3]

theorem ruleForEachRcpt_spec {W : World} (hs : W.Static) {tr : TransR} {r : Rule} : ∀ {as : List Str} {c c' : Ctx} {b : Bool},
    CacheOK W c → c.rulemiss = false → ruleForEachRcpt W tr r as c = .ok (b, c') →
    ∃ o, RcptsTo W tr c.mail r as o ∧ Effect W c c' b o := by
  intro as
  induction as with
  | nil =>
    intro c c' b hc hm h
    cases h
    exact ⟨.no, .nil, ⟨hc, rfl, rfl, hm, rfl⟩⟩
  | cons a as ih =>
    intro c c' b hc hm h
    rw [ruleForEachRcpt] at h
    have hc2 : CacheOK W { c with rcptto := a } := ⟨hc.files, hc.dnsbl, hc.domvalid⟩
    cases he : r.check W tr { c with rcptto := a } with
    | error p => rw [he] at h; cases h
    | ok r1 =>
      obtain ⟨b1, c1⟩ := r1
      rw [he] at h
      simp only [bind, Except.bind, pure, Except.pure] at h
      obtain ⟨o, h1, h2, h3⟩ := check_spec hs hc2 he
      have h1' : ClausesTo W tr { c.mail with rcptto := a } r.clauses o := h1
      have hout := h2.out
      cases o with
      | hit w =>
        obtain ⟨rfl, hm1, hw⟩ := hout
        cases h
        exact ⟨.hit w, .stop h1' (by simp), ⟨h2.cache, h2.frame, rfl, hm1, hw⟩⟩
      | miss =>
        obtain ⟨rfl, hm1, hw⟩ := hout
        simp only [Bool.false_eq_true, if_false, hm1, if_true] at h
        cases h
        exact ⟨.miss, .stop h1' (by simp), ⟨h2.cache, h2.frame, rfl, hm1, hw⟩⟩
      | no =>
        obtain ⟨rfl, hm1, hw⟩ := hout
        simp only [Bool.false_eq_true, if_false, hm1] at h
        obtain ⟨o2, g1, g2⟩ := ih h2.cache hm1 h
        have hmail : ∀ x, { c1.mail with rcptto := x } = { c.mail with rcptto := x } := h2.mailR
        refine ⟨o2, .next h1' ?_, ⟨g2.cache, g2.frame.trans h2.frame, ?_⟩⟩
        · clear h ih g2
          generalize hmm : c1.mail = m1 at g1
          induction g1 with
          | nil => exact .nil
          | stop g1 g2 =>
            subst hmm
            rw [hmail] at g1
            exact .stop g1 g2
          | next g1 _ ih =>
            subst hmm
            rw [hmail] at g1
            exact .next g1 ih
        · have := g2.out
          rw [hw] at this
          exact this

/-- The context agrees with what the client said; after RCPT TO the recipient in it does not matter. -/
structure Agrees (ph : Phase) (m : Mail) (c : Ctx) : Prop where
  isHelo : c.isHelo = m.isHelo
  heloname : c.heloname = m.heloname
  from_ : c.from_ = m.from_
  rcptto : ph ≤ .rto → c.rcptto = m.rcptto

theorem Agrees.mail {ph : Phase} {m : Mail} {c : Ctx} (h : Agrees ph m c) : c.mail = { m with rcptto := c.rcptto } := by
  obtain ⟨h1, h2, h3, -⟩ := h
  simp [Ctx.mail, h1, h2, h3]

theorem Agrees.frame {ph : Phase} {m : Mail} {c c' : Ctx} (h : Agrees ph m c) (hf : c'.frame = c.frame)
    (hr : ph ≤ .rto → c'.rcptto = c.rcptto) : Agrees ph m c' :=
  ⟨(Ctx.isHelo_of_frame hf).trans h.isHelo, (Ctx.heloname_of_frame hf).trans h.heloname,
    (Ctx.from_of_frame hf).trans h.from_, fun hp => (hr hp).trans (h.rcptto hp)⟩

theorem rcptsTo_rcpt {W : World} {tr : TransR} {m : Mail} {x : Str} {r : Rule} {as : List Str} {o : Outcome}
    (h : RcptsTo W tr { m with rcptto := x } r as o) : RcptsTo W tr m r as o := by
  generalize hm : ({ m with rcptto := x } : Mail) = m' at h
  induction h with
  | nil => exact .nil
  | stop h1 h2 => subst hm; exact .stop h1 h2
  | next h1 _ ih => subst hm; exact .next h1 ih

theorem runRule_spec {W : World} (hs : W.Static) {tr : TransR} {ph : Phase} {m : Mail} {r : Rule} {c c' : Ctx} {b : Bool}
    (hc : CacheOK W c) (ha : Agrees ph m c) (hr : needsC r.clauses ≤ r.requires)
    (h : runRule W tr ph r c = .ok (b, c')) :
    ∃ o, RuleTo W tr m ph r o ∧ Effect W c c' b o ∧ Agrees ph m c' := by
  unfold runRule at h
  simp only at h
  unfold RuleTo
  have hc2 : CacheOK W { c with rulemiss := false } := ⟨hc.files, hc.dnsbl, hc.domvalid⟩
  have hmail : ({ c with rulemiss := false } : Ctx).mail = { m with rcptto := c.rcptto } := ha.mail
  split at h
  · rename_i hcond
    simp only [if_pos hcond]
    obtain ⟨o, h1, h2⟩ := ruleForEachRcpt_spec hs hc2 rfl h
    rw [hmail] at h1
    refine ⟨o, rcptsTo_rcpt h1, ⟨h2.cache, h2.frame, h2.out⟩, ha.frame h2.frame ?_⟩
    intro hp
    exact absurd hp (Nat.not_le_of_lt hcond.1)
  · rename_i hcond
    simp only [if_neg hcond]
    obtain ⟨o, h1, h2, h3⟩ := check_spec hs hc2 h
    rw [hmail] at h1
    refine ⟨o, ?_, ⟨h2.cache, h2.frame, h2.out⟩, ha.frame h2.frame fun _ => h3⟩
    by_cases hp : ph ≤ .rto
    · have : ({ m with rcptto := c.rcptto } : Mail) = m := by rw [ha.rcptto hp]
      rw [this] at h1; exact h1
    · have hlt : r.requires < .rto := by
        rw [not_and_or] at hcond
        rcases hcond with hx | hx
        · exact absurd (Nat.lt_of_not_le hp) hx
        · exact Nat.lt_of_not_le hx
      exact clausesTo_rcpt (Nat.lt_of_le_of_lt hr hlt) h1

/-! ## The rule loop -/

theorem Phase.num_inj {a b : Phase} (h : a.num = b.num) : a = b := by
  cases a <;> cases b <;> first | rfl | cases h

theorem skipRule_iff {ph : Phase} (hp : ph ≠ .any) {r : Rule} : skipRule ph r = false ↔ Eligible ph r := by
  unfold skipRule Eligible
  simp only [Bool.or_eq_false_iff, decide_eq_false_iff_not, Bool.and_eq_false_iff, decide_eq_false_iff_not]
  have e : ∀ a b : Phase, (a > b) = (b.num < a.num) := fun _ _ => rfl
  have e2 : ∀ a b : Phase, (a < b) = (a.num < b.num) := fun _ _ => rfl
  have e3 : ∀ a b : Phase, (a ≤ b) = (a.num ≤ b.num) := fun _ _ => rfl
  rw [e, e, e2, e3]
  constructor
  · rintro ⟨⟨h1, h2⟩, h3⟩
    refine ⟨by omega, ?_⟩
    rcases h3 with h3 | h3
    · exact Or.inl (by simpa using h3)
    · exact Or.inr (Phase.num_inj (by omega))
  · rintro ⟨h1, h2 | h2⟩
    · refine ⟨⟨by omega, ?_⟩, Or.inl (by simpa using h2)⟩
      rw [h2]; exact Nat.not_lt_zero _
    · refine ⟨⟨by omega, ?_⟩, Or.inr ?_⟩ <;> rw [h2] <;> exact Nat.lt_irrefl _

theorem decides_iff {r : Rule} : r.result ≥ .accept ↔ Decides r := by
  unfold Decides
  cases r.result <;> decide

/-- What the loop over the rules did: `used` are the rules looked at. -/
structure LoopOK (W : World) (tr : TransR) (ph : Phase) (m : Mail) (rs : List Rule) (a : Action) (wp wp' : Withs) : Prop where
  /-- With options: each key has its last given value, or the one from before. -/
  spec : ∃ used post, rs = used ++ post ∧
    (∀ k : WKey, ∃ v, LastGiven W tr m ph k used v ∧ k.of wp' = (v <|> k.of wp)) ∧
    ((a = .noresult ∧ post = [] ∧ ∀ q ∈ used, Decides q → ∀ w, ¬ Hits W tr m ph q w) ∨
     (∃ pre r w, used = pre ++ [r] ∧ Decides r ∧ Hits W tr m ph r w ∧ a = r.result ∧
       ∀ q ∈ pre, Decides q → ∀ w, ¬ Hits W tr m ph q w))

theorem merge_of (k : WKey) (a b : Withs) : k.of (a.merge b) = (k.of b <|> k.of a) := by cases k <;> rfl

theorem lastGiven_cons_none {W : World} {tr : TransR} {m : Mail} {ph : Phase} {k : WKey} {r : Rule} {rs : List Rule}
    {v : Option Str} (hn : ∀ w, Hits W tr m ph r w → k.of w = none) (h : LastGiven W tr m ph k rs v) :
    LastGiven W tr m ph k (r :: rs) v := by
  rcases h with ⟨pre, q, post, w, x, rfl, h1, h2, h3, h4⟩ | ⟨rfl, h⟩
  · exact Or.inl ⟨r :: pre, q, post, w, x, rfl, h1, h2, h3, h4⟩
  · refine Or.inr ⟨rfl, ?_⟩
    intro q hq
    rcases List.mem_cons.mp hq with rfl | hq
    · exact hn
    · exact h q hq

theorem hits_unique {W : World} {tr : TransR} {m : Mail} {ph : Phase} {r : Rule} {w w' : Withs} (h : Hits W tr m ph r w)
    (h' : Hits W tr m ph r w') : w = w' := by
  have := RuleTo.unique h.2 h'.2
  cases this; rfl

theorem lastGiven_cons_hit {W : World} {tr : TransR} {m : Mail} {ph : Phase} {k : WKey} {r : Rule} {rs : List Rule}
    {v : Option Str} {w : Withs} (hw : Hits W tr m ph r w) (h : LastGiven W tr m ph k rs v) :
    LastGiven W tr m ph k (r :: rs) (v <|> k.of w) := by
  rcases h with ⟨pre, q, post, w', x, rfl, h1, h2, rfl, h4⟩ | ⟨rfl, h⟩
  · exact Or.inl ⟨r :: pre, q, post, w', x, rfl, h1, h2, by simp, h4⟩
  · cases hk : k.of w with
    | none =>
      refine Or.inr ⟨by simp, ?_⟩
      intro q hq w' hw'
      rcases List.mem_cons.mp hq with rfl | hq
      · rw [hits_unique hw' hw]; exact hk
      · exact h q hq w' hw'
    | some x => exact Or.inl ⟨[], r, rs, w, x, rfl, hw, hk, by simp, h⟩

theorem LoopOK.cons_none {W : World} {tr : TransR} {ph : Phase} {m : Mail} {r : Rule} {rs : List Rule} {a : Action} {wp wp' : Withs}
    (hn : ∀ w, ¬ Hits W tr m ph r w) (h : LoopOK W tr ph m rs a wp wp') : LoopOK W tr ph m (r :: rs) a wp wp' := by
  obtain ⟨used, post, rfl, h1, h2⟩ := h
  refine ⟨r :: used, post, rfl, ?_, ?_⟩
  · intro k
    obtain ⟨v, hv, he⟩ := h1 k
    exact ⟨v, lastGiven_cons_none (fun w hw => absurd hw (hn w)) hv, he⟩
  · rcases h2 with ⟨h3, h4, h5⟩ | ⟨pre, q, w, rfl, h3, h4, h5, h6⟩
    · refine Or.inl ⟨h3, h4, ?_⟩
      intro q hq hd
      rcases List.mem_cons.mp hq with rfl | hq
      · exact hn
      · exact h5 q hq hd
    · refine Or.inr ⟨r :: pre, q, w, rfl, h3, h4, h5, ?_⟩
      intro q hq hd
      rcases List.mem_cons.mp hq with rfl | hq
      · exact hn
      · exact h6 q hq hd

theorem LoopOK.cons_with {W : World} {tr : TransR} {ph : Phase} {m : Mail} {r : Rule} {rs : List Rule} {a : Action} {wp wp' w : Withs}
    (hw : Hits W tr m ph r w) (hd : ¬ Decides r) (h : LoopOK W tr ph m rs a (wp.merge w) wp') :
    LoopOK W tr ph m (r :: rs) a wp wp' := by
  obtain ⟨used, post, rfl, h1, h2⟩ := h
  refine ⟨r :: used, post, rfl, ?_, ?_⟩
  · intro k
    obtain ⟨v, hv, he⟩ := h1 k
    refine ⟨_, lastGiven_cons_hit hw hv, ?_⟩
    rw [he, merge_of]
    cases v <;> simp
  · rcases h2 with ⟨h3, h4, h5⟩ | ⟨pre, q, w, rfl, h3, h4, h5, h6⟩
    · refine Or.inl ⟨h3, h4, ?_⟩
      intro q hq hd'
      rcases List.mem_cons.mp hq with rfl | hq
      · exact absurd hd' hd
      · exact h5 q hq hd'
    · refine Or.inr ⟨r :: pre, q, w, rfl, h3, h4, h5, ?_⟩
      intro q hq hd'
      rcases List.mem_cons.mp hq with rfl | hq
      · exact absurd hd' hd
      · exact h6 q hq hd'

theorem ruleLoop_spec {W : World} (hs : W.Static) {tr : TransR} {ph : Phase} (hph : ph ≠ .any) {m : Mail} :
    ∀ {rs : List Rule} {c c' : Ctx} {a : Action}, (∀ r ∈ rs, needsC r.clauses ≤ r.requires) → CacheOK W c → Agrees ph m c →
    ruleLoop W tr ph rs c = .ok (a, c') →
    CacheOK W c' ∧ c'.frame = c.frame ∧ LoopOK W tr ph m rs a c.withprops c'.withprops := by
  intro rs
  induction rs with
  | nil =>
    intro c c' a _ hc _ h
    cases h
    exact ⟨hc, rfl, [], [], rfl, fun k => ⟨none, Or.inr ⟨rfl, by simp⟩, by simp⟩, Or.inl ⟨rfl, rfl, by simp⟩⟩
  | cons r rs ih =>
    intro c c' a hreq hc ha h
    rw [ruleLoop] at h
    have hreq' : ∀ q ∈ rs, needsC q.clauses ≤ q.requires := fun q hq => hreq q (by simp [hq])
    split at h
    · rename_i hskip
      obtain ⟨h1, h2, h3⟩ := ih hreq' hc ha h
      refine ⟨h1, h2, h3.cons_none ?_⟩
      rintro w ⟨he, -⟩
      rw [← skipRule_iff hph, hskip] at he
      cases he
    · rename_i hskip
      have hel : Eligible ph r := (skipRule_iff hph).mp (by simpa using hskip)
      cases he : runRule W tr ph r c with
      | error p => rw [he] at h; cases h
      | ok x =>
        obtain ⟨b, c1⟩ := x
        rw [he] at h
        simp only [bind, Except.bind, pure, Except.pure] at h
        obtain ⟨o, h1, h2, h3⟩ := runRule_spec hs hc ha (hreq r (by simp)) he
        have hout := h2.out
        cases o with
        | miss =>
          obtain ⟨rfl, hm, hw⟩ := hout
          simp only [hm, if_true] at h
          obtain ⟨g1, g2, g3⟩ := ih hreq' h2.cache h3 h
          rw [hw] at g3
          refine ⟨g1, g2.trans h2.frame, g3.cons_none ?_⟩
          rintro w ⟨-, hx⟩
          cases RuleTo.unique hx h1
        | no =>
          obtain ⟨rfl, hm, hw⟩ := hout
          simp only [hm, Bool.false_eq_true, if_false, false_and] at h
          obtain ⟨g1, g2, g3⟩ := ih hreq' h2.cache h3 h
          rw [hw] at g3
          refine ⟨g1, g2.trans h2.frame, g3.cons_none ?_⟩
          rintro w ⟨-, hx⟩
          cases RuleTo.unique hx h1
        | hit w =>
          obtain ⟨rfl, hm, hw⟩ := hout
          have hh : Hits W tr m ph r w := ⟨hel, h1⟩
          simp only [hm, Bool.false_eq_true, if_false, true_and] at h
          split at h
          · rename_i hdec
            cases h
            refine ⟨h2.cache, h2.frame, [r], rs, rfl, ?_, Or.inr ⟨[], r, w, rfl, decides_iff.mp hdec, hh, rfl, by simp⟩⟩
            intro k
            refine ⟨_, lastGiven_cons_hit hh (Or.inr ⟨rfl, by simp⟩), ?_⟩
            rw [hw, merge_of]; simp
          · rename_i hdec
            obtain ⟨g1, g2, g3⟩ := ih hreq' h2.cache h3 h
            rw [hw] at g3
            exact ⟨g1, g2.trans h2.frame, g3.cons_with hh (fun hd => hdec (decides_iff.mpr hd))⟩

/-! ## Decide -/

theorem shadow_mail (ph : Phase) (e : Evt) (c : Ctx) : (shadow ph e c).mail = c.mail.said ph e := by
  cases ph <;> rfl

theorem shadow_agrees (ph : Phase) (e : Evt) (c : Ctx) : Agrees ph (c.mail.said ph e) (shadow ph e c) := by
  rw [← shadow_mail]; exact ⟨rfl, rfl, rfl, fun _ => rfl⟩

theorem shadow_cache {W : World} {c : Ctx} (ph : Phase) (e : Evt) (h : CacheOK W c) : CacheOK W (shadow ph e c) := by
  cases ph <;> exact ⟨h.files, h.dnsbl, h.domvalid⟩

theorem shadow_ruleset (ph : Phase) (e : Evt) (c : Ctx) : (shadow ph e c).ruleset = c.ruleset := by cases ph <;> rfl

/-- Decide, when no refusal is pending. -/
theorem decide_spec {W : World} (hs : W.Static) {tr : TransR} {ph : Phase} (hph : ph ≠ .any) {e : Evt} {c c' : Ctx} {a : Action}
    (hreq : ∀ r ∈ c.ruleset, needsC r.clauses ≤ r.requires) (hc : CacheOK W c)
    (hpend : ¬ (shadow ph e c).defresult ≥ .accept) (h : Decide W tr ph e c = .ok (a, c')) :
    ∃ ret wp, LoopOK W tr ph (c.mail.said ph e) c.ruleset ret {} wp ∧ CacheOK W c' ∧
      ((¬ (ph = .mfrom ∧ e.arg = [] ∧ ret > .accept) ∧ a = ret ∧ c'.withprops = wp ∧ c'.frame = (shadow ph e c).frame) ∨
       (ph = .mfrom ∧ e.arg = [] ∧ ret > .accept ∧ a = .accept ∧ c'.withprops = {} ∧ c'.defprops = wp ∧ c'.defresult = ret)) := by
  unfold Decide at h
  simp only [if_neg hpend, bind, Except.bind, pure, Except.pure] at h
  generalize hc2 : ({ shadow ph e c with dnsblhit := [], withprops := {}, domerr := none } : Ctx) = c2 at h
  have hcache : CacheOK W c2 := by
    have := shadow_cache ph e hc
    rw [← hc2]; exact ⟨this.files, this.dnsbl, this.domvalid⟩
  have hagree : Agrees ph (c.mail.said ph e) c2 := by
    have := shadow_agrees ph e c
    rw [← hc2]; exact ⟨this.isHelo, this.heloname, this.from_, this.rcptto⟩
  have hwp : c2.withprops = {} := by rw [← hc2]
  have hfr : c2.frame = (shadow ph e c).frame := by rw [← hc2]; rfl
  have hrs : (shadow ph e c).ruleset = c.ruleset := shadow_ruleset ph e c
  rw [hrs] at h
  cases hl : ruleLoop W tr ph c.ruleset c2 with
  | error p => rw [hl] at h; cases h
  | ok x =>
    obtain ⟨ret, c3⟩ := x
    rw [hl] at h
    simp only at h
    obtain ⟨h1, h2, h3⟩ := ruleLoop_spec hs hph hreq hcache hagree hl
    rw [hwp] at h3
    have hfrom : ph = .mfrom → c3.from_ = e.arg := by
      rintro rfl
      exact (Ctx.from_of_frame h2).trans hagree.from_
    refine ⟨ret, c3.withprops, h3, ?_⟩
    split at h
    · rename_i hn
      cases h
      refine ⟨⟨h1.files, h1.dnsbl, h1.domvalid⟩, Or.inr ⟨hn.1, ?_, hn.2.2, rfl, rfl, rfl, rfl⟩⟩
      rw [← hfrom hn.1]; exact hn.2.1
    · rename_i hn
      cases h
      refine ⟨h1, Or.inl ⟨?_, rfl, rfl, h2.trans hfr⟩⟩
      rintro ⟨hp, he, hr⟩
      exact hn ⟨hp, by rw [hfrom hp]; exact he, hr⟩

theorem runRule_cache {W : World} (hs : W.Static) {tr : TransR} {ph : Phase} {r : Rule} {c c' : Ctx} {b : Bool}
    (hc : CacheOK W c) (h : runRule W tr ph r c = .ok (b, c')) : CacheOK W c' ∧ c'.ruleset = c.ruleset := by
  unfold runRule at h
  simp only at h
  have hc2 : CacheOK W { c with rulemiss := false } := ⟨hc.files, hc.dnsbl, hc.domvalid⟩
  split at h
  · obtain ⟨o, -, h2⟩ := ruleForEachRcpt_spec hs hc2 rfl h
    exact ⟨h2.cache, Ctx.ruleset_of_frame h2.frame⟩
  · obtain ⟨o, -, h2, -⟩ := check_spec hs hc2 h
    exact ⟨h2.cache, Ctx.ruleset_of_frame h2.frame⟩

theorem ruleLoop_cache {W : World} (hs : W.Static) {tr : TransR} {ph : Phase} : ∀ {rs : List Rule} {c c' : Ctx} {a : Action},
    CacheOK W c → ruleLoop W tr ph rs c = .ok (a, c') → CacheOK W c' ∧ c'.ruleset = c.ruleset := by
  intro rs
  induction rs with
  | nil => intro c c' a hc h; cases h; exact ⟨hc, rfl⟩
  | cons r rs ih =>
    intro c c' a hc h
    rw [ruleLoop] at h
    split at h
    · exact ih hc h
    · cases he : runRule W tr ph r c with
      | error p => rw [he] at h; cases h
      | ok x =>
        obtain ⟨b, c1⟩ := x
        rw [he] at h
        simp only [bind, Except.bind, pure, Except.pure] at h
        obtain ⟨h1, h2⟩ := runRule_cache hs hc he
        split at h
        · obtain ⟨g1, g2⟩ := ih h1 h; exact ⟨g1, g2.trans h2⟩
        · split at h
          · cases h; exact ⟨h1, h2⟩
          · obtain ⟨g1, g2⟩ := ih h1 h; exact ⟨g1, g2.trans h2⟩

theorem decide_cache {W : World} (hs : W.Static) {tr : TransR} {ph : Phase} {e : Evt} {c c' : Ctx} {a : Action}
    (hc : CacheOK W c) (h : Decide W tr ph e c = .ok (a, c')) : CacheOK W c' ∧ c'.ruleset = c.ruleset := by
  unfold Decide at h
  simp only [bind, Except.bind, pure, Except.pure] at h
  have hsh := shadow_cache ph e hc
  split at h
  · cases h; exact ⟨⟨hsh.files, hsh.dnsbl, hsh.domvalid⟩, shadow_ruleset ph e c⟩
  · generalize hc2 : ({ shadow ph e c with dnsblhit := [], withprops := {}, domerr := none } : Ctx) = c2 at h
    have hcache : CacheOK W c2 := by rw [← hc2]; exact ⟨hsh.files, hsh.dnsbl, hsh.domvalid⟩
    have hrs : c2.ruleset = c.ruleset := by rw [← hc2]; exact shadow_ruleset ph e c
    cases hl : ruleLoop W tr ph (shadow ph e c).ruleset c2 with
    | error p => rw [hl] at h; cases h
    | ok x =>
      obtain ⟨ret, c3⟩ := x
      rw [hl] at h
      simp only at h
      obtain ⟨h1, h2⟩ := ruleLoop_cache hs hcache hl
      split at h
      · cases h; exact ⟨⟨h1.files, h1.dnsbl, h1.domvalid⟩, h2.trans hrs⟩
      · cases h; exact ⟨h1, h2.trans hrs⟩

theorem Spec.Reached.ok {W : World} (hs : W.Static) {rules : List Rule} {c : Ctx} (h : Reached W rules c) :
    CacheOK W c ∧ c.ruleset = rules := by
  induction h with
  | new t => exact ⟨⟨by simp [newContext], by simp [newContext], by simp [newContext]⟩, rfl⟩
  | step _ h ih =>
    obtain ⟨h1, h2⟩ := decide_cache hs ih.1 h
    exact ⟨h1, h2.trans ih.2⟩

end Sink
