/-
C86, continued: why the addresses of host names have to stay the same.
-/
import Verif.Props.Changing
import Verif.Props.Rewrite

namespace Sink

open Spec

/-! ## Addresses that change -/

/-- Two domains with the same mail exchanger, which has an address only for a while. -/
def fleeting : World := { demoWorld with
  lookupMX := fun _ _ => .ok [⟨b!"mx.example.net.", 0⟩]
  lookupIP := fun n _ => if n < 6 then .ok [.v4 0xc6336401#32] else .error (demoErr false) }

def fleetingEnv : Env := { demoEnv with W := fleeting, fs := fun _ => tbl (.notExist b!"no such file") [
  (b!"/c", .data b!"reject from-has baddom\n")] }

def fleetingConf : Conf := { demoConf with base := [], rulefiles := [b!"/c"] }

theorem bad_alike {W : World} {c d : Str} {mxs : List MX} (hc : W.lookupMX 0 (c ++ b!".") = .ok mxs) (hd : W.lookupMX 0 (d ++ b!".") = .ok mxs) :
    DomainBad W c ↔ DomainBad W d := by
  simp only [DomainBad, DomainValid, DomainUnknown, NoMX, hc, hd, reduceCtorEq, false_and, exists_false, or_false]

theorem baddom_holds {W : World} {tr : TransR} {m : Mail} {d : Str} (h : HasDomain m.from_ d) :
    Holds W tr m (.optN .fromHas oDomainInvalid) ↔ DomainBad W d := by
  rw [Holds]
  constructor
  · rintro ⟨x, h1, h2⟩
    cases x <;> first
      | exact absurd (by decide) h2
      | (obtain ⟨d', h3, h4⟩ := h1
         obtain ⟨⟨l, he, hl⟩, hr⟩ := h
         rw [he] at h3
         obtain ⟨rfl, -⟩ := (hasDomain_iff hl d').1 h3
         exact h4)
  · exact fun hd => ⟨.baddom, ⟨d, h, hd⟩, by decide⟩

theorem plain_domain {l d : Str} (hl : c!"@" ∉ l)
    (h : addrShape (l ++ c!"@" :: d) &&& (oNoat ||| oUnqualified ||| oGarbage ||| oRoute) = 0) : HasDomain (l ++ c!"@" :: d) d := by
  classical
  rw [addrShape_eq (by simp) (f := fun x => decide (ShapeAttr (l ++ c!"@" :: d) x)) (fun x => by simp)] at h
  have hm := bad_mask (fun x => decide (ShapeAttr (l ++ c!"@" :: d) x))
  simp only [decide_eq_false_iff_not] at hm
  obtain ⟨-, h2, h3, h4⟩ := hm.mp h
  exact ⟨⟨l, rfl, hl⟩, h2, h3, h4⟩

set_option synthInstance.maxSize 1024 in
/-- C86 does not hold without that supposition: in the course of a connection an address goes away, and of two senders whose domains have the same
mail exchanger one is accepted and the other is refused as one without a working domain.  No single state of the DNS gives both answers. -/
theorem C86_addresses_needed : ∃ (o : BaseOpts) (cf : Conf) (E : Env) (l : List Step) (s : Sess), Built o cf ∧ Life cf E l s ∧
    (∀ t n, E.W.files t n = E.W.files 0 n ∧ E.W.lookupMX t n = E.W.lookupMX 0 n ∧ E.W.lookupAddr t n = E.W.lookupAddr 0 n) ∧
    ¬ ∃ W0 : World, (∀ n, W0.lookupMX 0 n = E.W.lookupMX 0 n) ∧ ∃ rules, Loaded cf E s.stall rules ∧
      ∀ l1 st l2 ph e id, l = l1 ++ st :: l2 → st.asked = some (ph, e, id) →
        ∃ a w, Ruling { E with W := W0 } rules l1 ph e a w ∧
          (sent st.out = answerTo ph a (w.message.getD []) id (envelope l1).rcpts ∧ st.post.pc = .ready ∨
           (a = .noresult ∨ a = .accept) ∧ st.rsetDrop) := by
  have key : seen (fun (l : List Step) s _ => (l.map fun st => (st.asked, sent st.out), s.stall)) (driveAll fleetingConf fleetingEnv {} {} (events
      [.mailfrom b!"a@one.com", .mailfrom b!"a@two.com"])) = .ok ([(none, []), (none, []), (some (.mfrom, ⟨false, b!"a@one.com"⟩, []), [.accept]),
        (some (.mfrom, ⟨false, b!"a@two.com"⟩, []), [.reject])], false) := by
    decide +kernel
  have hrules : accumAll fleetingEnv.W.lib fleetingEnv.fs fleetingEnv.fds 0 fleetingConf.base fleetingConf.rulefiles =
      .ok [⟨[⟨.optN .fromHas oDomainInvalid, {}⟩], .reject, .mfrom, .any⟩] := by decide +kernel
  unfold seen at key
  generalize hd : driveAll _ _ _ _ _ = d at key
  cases d with
  | error p => cases key
  | ok x =>
    obtain ⟨l, s, sh⟩ := x
    injection key with key
    simp only [Prod.mk.injEq] at key
    obtain ⟨hm, hst⟩ := key
    simp only [List.map_eq_cons_iff, List.map_eq_nil_iff] at hm
    obtain ⟨s1, _, rfl, -, s2, _, rfl, -, s3, _, rfl, h3, s4, _, rfl, h4, rfl⟩ := hm
    simp only [Prod.mk.injEq] at h3 h4
    refine ⟨⟨false, false, [], [], []⟩, fleetingConf, fleetingEnv, _, s, ⟨⟨demoLib, fun _ _ => .notExist [], 5, by decide +kernel⟩,
      ⟨demoLib, fun _ _ => .notExist [], 5, by decide +kernel⟩⟩, driveAll_life hd, fun t n => ⟨rfl, rfl, rfl⟩, ?_⟩
    rintro ⟨W0, hmx, rules, hl, hx⟩
    rw [hst] at hl
    have hr : rules = [⟨[⟨.optN .fromHas oDomainInvalid, {}⟩], .reject, .mfrom, .any⟩] := by
      rcases hl with ⟨h, -⟩ | ⟨-, h⟩ | ⟨-, ⟨f, m, h⟩, -⟩
      · cases h
      · rw [hrules] at h; cases h; rfl
      · rw [hrules] at h; cases h
    subst hr
    -- What the rule says about a sender.
    have judge : ∀ (l1 : List Step) (x : Str) (a : Action) (w : Withs) (d : Str), HasDomain x d → x ≠ [] →
        Ruling { fleetingEnv with W := W0 } [⟨[⟨.optN .fromHas oDomainInvalid, {}⟩], .reject, .mfrom, .any⟩] l1 .mfrom ⟨false, x⟩ a w →
        (a = .reject ↔ DomainBad W0 d) := by
      intro l1 x a w d hdom hne hrul
      have hsay : Says1 { fleetingEnv with W := W0 } [⟨[⟨.optN .fromHas oDomainInvalid, {}⟩], .reject, .mfrom, .any⟩] l1 .mfrom ⟨false, x⟩ a w := by
        cases hrul with
        | late _ h _ => exact absurd rfl h
        | null _ h => exact absurd h hne
        | plain _ h _ => exact h
      have hit : ∀ y, Hits W0 (facts { fleetingEnv with W := W0 } l1) ((heard l1).said .mfrom ⟨false, x⟩) .mfrom
          ⟨[⟨.optN .fromHas oDomainInvalid, {}⟩], .reject, .mfrom, .any⟩ y ↔ y = {} ∧ DomainBad W0 d := by
        intro y
        have := hits_one (W := W0) (tr := facts { fleetingEnv with W := W0 } l1) (m := (heard l1).said .mfrom ⟨false, x⟩) (ph := .mfrom) (d := .any)
          (a := .reject) (e := .optN .fromHas oDomainInvalid) (by simp [NoFile]) (w := {}) (x := y)
        rw [AtHand, if_neg (by decide), baddom_holds (d := d) hdom] at this
        rw [show (⟨[⟨.optN .fromHas oDomainInvalid, {}⟩], .reject, .mfrom, .any⟩ : Rule) = ruleOf .any .reject [⟨.optN .fromHas oDomainInvalid, {}⟩] from by
          decide +kernel, this]
        exact ⟨fun h => h.2, fun h => ⟨⟨by decide, Or.inl rfl⟩, h⟩⟩
      have hg := says1_goes.1 hsay
      cases hg with
      | skip h1 h2 =>
        cases h2
        exact ⟨fun h => (nomatch h), fun h => absurd ((hit _).2 ⟨rfl, h⟩) (h1 _)⟩
      | set _ h2 => exact absurd ⟨by simp, by simp⟩ h2
      | stop h1 => exact ⟨fun _ => ((hit _).1 h1).2, fun _ => rfl⟩
    have d1 : HasDomain b!"a@one.com" b!"one.com" := plain_domain (l := b!"a") (by decide) (by decide +kernel)
    have d2 : HasDomain b!"a@two.com" b!"two.com" := plain_domain (l := b!"a") (by decide) (by decide +kernel)
    obtain ⟨a1, w1, r1, o1⟩ := hx [s1, s2] s3 [s4] _ _ _ rfl h3.1
    obtain ⟨a2, w2, r2, o2⟩ := hx [s1, s2, s3] s4 [] _ _ _ rfl h4.1
    have j1 := judge _ _ _ _ _ d1 (by decide) r1
    have j2 := judge _ _ _ _ _ d2 (by decide) r2
    have n1 : a1 ≠ .reject := by
      rintro rfl
      rcases o1 with ⟨h, -⟩ | ⟨h | h, -⟩
      · rw [h3.2] at h
        unfold answerTo at h
        simp only [reduceCtorEq, or_self, if_false] at h
        split at h <;> cases h
      · cases h
      · cases h
    have n2 : a2 = .reject := by
      rcases o2 with ⟨h, -⟩ | ⟨-, h⟩
      · rw [h4.2] at h
        unfold answerTo at h
        cases a2 <;> simp only [reduceCtorEq, ne_eq, not_true_eq_false, if_false] at h
        all_goals (first | rfl | (split at h <;> cases h))
      · have := h.2.2
        rw [h4.2] at this
        cases this
    exact n1 (j1.2 ((bad_alike (mxs := [⟨b!"mx.example.net.", 0⟩]) (hmx _) (hmx _)).2 (j2.1 n2)))

end Sink
