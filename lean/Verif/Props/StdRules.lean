import Verif.Props.SessionRules
import Verif.Props.Attr

/-!
# C68: what the standard rules guarantee
-/

namespace Sink
namespace Spec

/-- An address that is not one: no `@`, a source route, no dot in the domain, or garbage. -/
def Malformed (a : Str) : Prop := IsNoat a ∨ IsRoute a ∨ IsUnqualified a ∨ IsGarbage a

end Spec
open Spec

/-- A rejecting rule with one option that is true without looking anything up. -/
theorem ruleLoop_opt {W : World} {tr : TransR} {ph : Phase} {k : OKind} {op : Opts} {r : Rule} {rest : List Rule} {c c' : Ctx} {a : Action}
    (hcl : r.clauses = [⟨.optN k op, {}⟩]) (hres : r.result = .reject) (hskip : skipRule ph r = false) (hph : ph ≤ .rto)
    (hev : evalOpt W tr k op { c with rulemiss := false } = (true, { c with rulemiss := false }))
    (h : ruleLoop W tr ph (r :: rest) c = .ok (a, c')) : a = .reject := by
  rw [ruleLoop, hskip] at h
  simp only [Bool.false_eq_true, if_false] at h
  have hrun : runRule W tr ph r c = checkClauses W tr r.clauses { c with rulemiss := false } := by
    unfold runRule Rule.check
    rw [if_neg]
    rintro ⟨h1, -⟩
    exact absurd h1 (Nat.not_lt.mpr hph)
  rw [hrun, hcl, checkClauses, eval, hev] at h
  simp only [bind, Except.bind, pure, Except.pure, Bool.false_eq_true, if_false, Bool.not_true, true_and] at h
  rw [hres, if_pos (by decide)] at h
  cases h
  rfl

theorem malformed_ne {a : Str} (h : Malformed a) : a ≠ [] := by
  rintro rfl
  rcases h with ⟨h, _⟩ | ⟨r, h, _⟩ | ⟨l, d, h, _⟩ | h
  · exact h rfl
  · cases h
  · simp at h
  · rcases h with ⟨r, h, _⟩ | ⟨l, h, _⟩ | h | ⟨c, h, _⟩ | ⟨x, y, h⟩ | ⟨x, y, h⟩
    · cases h
    · simp at h
    · simp at h
    · simp at h
    · simp at h
    · simp at h

theorem malformed_opts {W : World} {tr : TransR} {k : OKind} (hk : k = .fromHas ∨ k = .toHas) {c : Ctx} (h : Malformed (addrOf c k)) :
    evalOpt W tr k (oBad ||| oRoute) c = (true, c) := by
  obtain ⟨P, hP, hd⟩ := getAddrOpts_dyn W (addrOf c k) c
  have hno : ∀ d, ¬ HasDomain (addrOf c k) d := by
    rintro d ⟨⟨l, h1, h2⟩, h3, h4, h5⟩
    rcases h with h | h | h | h
    · exact h.2 (by rw [h1]; simp)
    · exact h5 h
    · exact h3 h
    · exact h4 h
  rcases hd with ⟨-, hP', hc⟩ | ⟨d, hd, -⟩
  · have h1 : (oBad ||| oRoute) &&& (getAddrOpts W (addrOf c k) c).1 ≠ 0 := by
      rw [hP]
      rcases h with h | h | h | h
      · exact ⟨.noat, (hP' _).2 h, by decide +kernel⟩
      · exact ⟨.route, (hP' _).2 h, by decide +kernel⟩
      · exact ⟨.unqualified, (hP' _).2 h, by decide +kernel⟩
      · exact ⟨.garbage, (hP' _).2 h, by decide +kernel⟩
    rcases hk with rfl | rfl
    · exact Prod.ext (decide_eq_true h1) hc
    · exact Prod.ext (decide_eq_true h1) hc
  · exact absurd hd (hno d)

theorem nohelo_opts {W : World} {tr : TransR} {c : Ctx} (h : c.heloname = []) : evalOpt W tr .heloHas oNone c = (true, c) := by
  have : Says W tr c .heloHas .none := (C29_consistent W tr c).2.2.2.2.2 h
  rw [Says, says_opts] at this
  exact Prod.ext (decide_eq_true this) rfl

/-- A decision that a standard rule rejects. -/
theorem std_reject {o : BaseOpts} {cf : Conf} (hc : Built o cf) {E : Env} {s : Sess} (hok : LifeOK cf E s) {r : Rule} {k : OKind} {op : Opts}
    (hrd : r ∈ documentedRules o.stdrules o.failgotdata none none none)
    (hcl : r.clauses = [⟨.optN k op, {}⟩]) {ph : Phase} (hph : ph ≤ .rto) (hskip : skipRule ph r = false) {e : Evt} (hne : ¬ (ph = .mfrom ∧ e.arg = []))
    (hev : ∀ tr c2, RSteps E.W (begun ph e s.c) c2 → (c2.rcptto = (begun ph e s.c).rcptto) →
      evalOpt E.W tr k op { c2 with rulemiss := false } = (true, { c2 with rulemiss := false }))
    {tr : TransR} {a : Action} {c' : Ctx} (h : Decide E.W tr ph e s.c = .ok (a, c')) : a = .reject ∨ a = .stall := by
  rcases hok.rules with h1 | ⟨more, h1⟩
  · rw [hc.stall_eq] at h1
    rcases decide_stallAll hok.defOK h1 h with h2 | h2
    · exact h2
    · exact absurd h2 hne
  · obtain ⟨pr, po, hpr, hb⟩ := documented_split hrd
    obtain ⟨rest, hb2⟩ := hc.base_first
    rw [hb2, hb, List.append_assoc, List.append_assoc] at h1
    rcases decide_reach hok.defOK h1 hpr h with h2 | ⟨h2, h3, -⟩ | ⟨c2, hs, hq, h2⟩
    · exact h2
    · exact absurd ⟨h2, h3⟩ hne
    · exact .inl (ruleLoop_opt hcl (documented_reject r hrd) hskip hph (hev tr c2 hs (hq hph)) h2)

theorem DecR.refused_of {E : Env} {ph : Phase} {evt : Evt} {id : Str} {s s' : Sess} {ref : Bool} {o : List Out} {res : Action} {c1 : Ctx}
    (h : DecR E ph evt id s ref s' o res c1) (hp : ph ≠ .connect) (hr : res = .reject ∨ res = .stall) : ref = true := by
  have := h.ref_iff
  rw [if_neg hp] at this
  rw [this]
  rcases hr with rfl | rfl <;> rfl

/-- **C68.** With the standard rules (no `-nostdrules`), on any connection and whatever the rule files say: a MAIL FROM or RCPT TO with
a malformed address is refused, and so is an EHLO or HELO without a name. -/
theorem C68_std {o : BaseOpts} {cf : Conf} (hc : Built o cf) (hstd : o.stdrules = true) {E : Env} {l : List Step} {s : Sess}
    (h : Life cf E l s) {st : Step} (hst : st ∈ l)
    (hev : (∃ a, st.event = some (.mailfrom a) ∧ Malformed a) ∨ (∃ a, st.event = some (.rcptto a) ∧ Malformed a) ∨
      ∃ b, st.event = some (.helo b [])) :
    replies st.out = [.rejected] ∨ replies st.out = [.deferred] := by
  obtain ⟨sh0, i0, s0, sh1, o1, hs0, hr⟩ := h
  obtain ⟨l1, hr1, hd⟩ := hr.mem hst
  have hok := life_ok hs0 hr1
  obtain ⟨pre, i, sh, post, sh', out⟩ := st
  simp only [Step.event] at hd hok hev ⊢
  by_cases hp : pre.pc = .ready
  · simp only [hp, if_true, Option.some.injEq] at hev
    have km : ∀ {a ref s1 oo res c1}, i.ev = .mailfrom a → DecR E .mfrom ⟨false, a⟩ [] pre ref s1 oo res c1 → ref = true := by
      intro a ref s1 oo res c1 he hdec
      refine hdec.refused_of (by decide) ?_
      have hm : Malformed a := by
        rcases hev with ⟨x, h1, h2⟩ | ⟨x, h1, _⟩ | ⟨x, h1⟩ <;> rw [he] at h1 <;> cases h1
        exact h2
      exact std_reject hc hok (r := ⟨[⟨.optN .fromHas (oBad ||| oRoute), {}⟩], .reject, .mfrom, .any⟩)
        (by simp [documentedRules, hstd]) rfl (by decide) rfl (fun h => malformed_ne hm h.2)
        (fun tr c2 hs _ => malformed_opts (.inl rfl) (by
          show Malformed c2.from_
          rw [Ctx.from_of_frame hs.frame]
          exact hm)) hdec.dec
    have kr : ∀ {a ref s1 oo res c1}, i.ev = .rcptto a → DecR E .rto ⟨false, a⟩ [] pre ref s1 oo res c1 → ref = true := by
      intro a ref s1 oo res c1 he hdec
      refine hdec.refused_of (by decide) ?_
      have hm : Malformed a := by
        rcases hev with ⟨x, h1, h2⟩ | ⟨x, h1, h2⟩ | ⟨x, h1⟩ <;> rw [he] at h1 <;> cases h1
        exact h2
      exact std_reject hc hok (r := ⟨[⟨.optN .toHas (oBad ||| oRoute), {}⟩], .reject, .rto, .any⟩)
        (by simp [documentedRules, hstd]) rfl (by decide) rfl (fun h => by cases h.1)
        (fun tr c2 hs hq => malformed_opts (.inr rfl) (by
          show Malformed c2.rcptto
          rw [hq]
          exact hm)) hdec.dec
    have kh : ∀ {b a ref s1 oo res c1}, i.ev = .helo b a → DecR E .helo ⟨b, a⟩ [] pre ref s1 oo res c1 → ref = true := by
      intro b a ref s1 oo res c1 he hdec
      refine hdec.refused_of (by decide) ?_
      have hm : a = [] := by
        rcases hev with ⟨x, h1, h2⟩ | ⟨x, h1, h2⟩ | ⟨x, h1⟩ <;> rw [he] at h1 <;> cases h1
        rfl
      exact std_reject hc hok (r := ⟨[⟨.optN .heloHas oNone, {}⟩], .reject, .helo, .any⟩)
        (by simp [documentedRules, hstd]) rfl (by decide) rfl (fun h => by cases h.1)
        (fun tr c2 hs hq => nohelo_opts (by
          show c2.heloname = []
          rw [Ctx.heloname_of_frame hs.frame]
          exact hm)) hdec.dec
    cases hd with
    | heloRef _ he hd | mailRef _ he hd | rcptRef _ he hd => exact hd.refused (by decide)
    | heloAcc _ he hd => cases kh he hd
    | mailAcc _ he hd | mailCount _ he hd | mailDrop _ he hd => cases km he hd
    | rcptAcc _ he hd => cases kr he hd
    | dataRef _ he | dataAcc _ he | gotKeep _ he | gotSave _ he | tlserror _ he | other _ he =>
      rcases hev with ⟨x, h1, h2⟩ | ⟨x, h1, h2⟩ | ⟨x, h1⟩ <;> rw [he] at h1 <;> cases h1
    | finish _ he =>
      rcases he with ⟨he, _⟩ | ⟨he, _⟩ <;> rcases hev with ⟨x, h1, h2⟩ | ⟨x, h1, h2⟩ | ⟨x, h1⟩ <;> rw [he] at h1 <;> cases h1
    | tls hp' | drop hp' | connect hp' | save hp' | answerFail hp' | answerRef hp' | answerAcc hp' | closed hp' => rw [hp] at hp'; cases hp'
  · simp [hp] at hev

/-- Standard rules only. -/
example : Configured ⟨true, false, [], [], []⟩ demoConf :=
  ⟨⟨cleanNil, cleanNil, cleanNil⟩,
   ⟨demoLib, fun _ _ => .notExist [], 5, C11_base_rules _ _ _ _ cleanNil cleanNil cleanNil⟩,
   ⟨demoLib, fun _ _ => .notExist [], 5, C11_stall_rules _ _ _⟩⟩
example : Malformed b!"joe" ∧ Malformed b!"@relay.com:joe@example.com" ∧ Malformed b!"joe@host" ∧ Malformed b!"joe@a..com" :=
  ⟨.inl ⟨by decide, by decide⟩, .inr (.inl ⟨_, rfl, by decide⟩), .inr (.inr (.inl ⟨b!"joe", b!"host", rfl, by decide, by decide⟩)),
   .inr (.inr (.inr (.inr (.inr (.inr (.inr (.inl ⟨b!"joe@a", b!"com", rfl⟩)))))))⟩
/-- Even if the rule files accept everything. -/
example : seen (fun l _ _ => (l.drop 2).map fun st => replies st.out) (driveAll demoConf { demoEnv with fs := fun _ => tbl (.notExist b!"no such file") [
    (b!"/rules", .data b!"accept all\n")] } {} {} (events
    [.helo false [], .helo false b!"x", .mailfrom b!"joe", .mailfrom b!"@relay.com:joe@example.com", .mailfrom b!"joe@example.com",
     .rcptto b!"joe@host", .rcptto b!"joe@a..com", .rcptto b!"joe@a.com"])) =
    .ok [[.rejected], [], [.rejected], [.rejected], [.accepted], [.rejected], [.rejected], [.accepted]] := by
  decide +kernel

end Sink
