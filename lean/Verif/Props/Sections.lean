import Verif.Props.OneFile

/-!
# C124: rules can be sorted by phases

A rule without a phase is one rule for each phase in which it can be checked, and rules of different phases have nothing to do with each other.  So
every list of rules can be written in sections, one for each phase, without any difference to the answers.
-/

namespace Sink
namespace Spec

/-- The rules for a phase: those that are checked in it, in their order, each with the phase in front. -/
def sectionOf (p : Phase) (rs : List Rule) : List Rule :=
  (rs.filter fun r => decide (r.requires ≤ p ∧ (r.deferto = .any ∨ r.deferto = p))).map fun r => { r with deferto := p }

/-- The rules in sections, `@connect` first and `@message` last. -/
def sections (rs : List Rule) : List Rule :=
  sectionOf .connect rs ++ sectionOf .helo rs ++ sectionOf .mfrom rs ++ sectionOf .rto rs ++ sectionOf .data rs ++ sectionOf .message rs

end Spec
open Spec

section
variable {W : World} {tr : TransR} {m : Mail} {ph p : Phase} {rs ts : List Rule} {w w' : Withs} {a : Action}

theorem goes_none (h : ∀ r ∈ rs, ∀ x, ¬ Hits W tr m ph r x) : Goes (Hits W tr m ph) rs w a w' ↔ a = .noresult ∧ w' = w := by
  induction rs with
  | nil =>
    constructor
    · intro h; cases h; exact ⟨rfl, rfl⟩
    · rintro ⟨rfl, rfl⟩; exact .nil
  | cons r rs ih =>
    have ih := ih fun r hr => h r (by simp [hr])
    rw [← ih]
    constructor
    · intro hg
      cases hg with
      | skip _ hg => exact hg
      | set hx => exact absurd hx (h r (by simp) _)
      | stop hx => exact absurd hx (h r (by simp) _)
    · exact .skip (h r (by simp))

theorem goes_before (h : ∀ r ∈ rs, ∀ x, ¬ Hits W tr m ph r x) : Goes (Hits W tr m ph) (rs ++ ts) w a w' ↔ Goes (Hits W tr m ph) ts w a w' := by
  rw [goes_append]
  simp only [goes_none h]
  constructor
  · rintro (⟨w1, ⟨-, rfl⟩, h2⟩ | ⟨h1, rfl, -⟩)
    · exact h2
    · exact absurd rfl h1
  · exact fun h => .inl ⟨w, ⟨trivial, rfl⟩, h⟩

theorem goes_after (h : ∀ r ∈ ts, ∀ x, ¬ Hits W tr m ph r x) : Goes (Hits W tr m ph) (rs ++ ts) w a w' ↔ Goes (Hits W tr m ph) rs w a w' := by
  rw [goes_append]
  simp only [goes_none h]
  constructor
  · rintro (⟨w1, h1, rfl, rfl⟩ | ⟨-, h2⟩)
    · exact h1
    · exact h2
  · intro h
    by_cases ha : a = .noresult
    · subst ha; exact .inl ⟨w', h, rfl, rfl⟩
    · exact .inr ⟨ha, h⟩

theorem section_mem {r : Rule} (h : r ∈ sectionOf p rs) : ∃ q ∈ rs, r = { q with deferto := p } ∧ q.requires ≤ p := by
  obtain ⟨q, hq, rfl⟩ := List.mem_map.1 h
  have := List.mem_filter.1 hq
  exact ⟨q, this.1, rfl, (of_decide_eq_true this.2).1⟩

/-- The rules of another section do nothing. -/
theorem section_other (hp : p ≠ .any) (h : p ≠ ph) : ∀ r ∈ sectionOf p rs, ∀ x, ¬ Hits W tr m ph r x := by
  intro r hr x hx
  obtain ⟨q, -, rfl, -⟩ := section_mem hr
  rcases hx.1.2 with h1 | h1
  · exact hp h1
  · exact h h1

theorem rcptsTo_copy {r : Rule} {as : List Str} {o : Outcome} (h : RcptsTo W tr m r as o) (p : Phase) : RcptsTo W tr m { r with deferto := p } as o := by
  induction h with
  | nil => exact .nil
  | next h1 _ ih => exact .next h1 ih
  | stop h1 h2 => exact .stop h1 h2

theorem ruleTo_copy {r : Rule} {o : Outcome} (p : Phase) : RuleTo W tr m ph { r with deferto := p } o ↔ RuleTo W tr m ph r o := by
  unfold RuleTo
  refine ⟨fun h => ?_, fun h => ?_⟩ <;> split at h <;> rename_i hc
  · rw [if_pos hc]; exact rcptsTo_copy h r.deferto
  · rw [if_neg hc]; exact h
  · rw [if_pos hc]; exact rcptsTo_copy h p
  · rw [if_neg hc]; exact h

theorem hits_copy {r : Rule} {x : Withs} (h : Eligible ph r) : Hits W tr m ph { r with deferto := ph } x ↔ Hits W tr m ph r x :=
  ⟨fun hx => ⟨h, (ruleTo_copy _).1 hx.2⟩, fun hx => ⟨⟨h.1, .inr rfl⟩, (ruleTo_copy _).2 hx.2⟩⟩

theorem goes_section : Goes (Hits W tr m ph) rs w a w' ↔ Goes (Hits W tr m ph) (sectionOf ph rs) w a w' := by
  induction rs generalizing w with
  | nil => exact Iff.rfl
  | cons r rs ih =>
    by_cases he : r.requires ≤ ph ∧ (r.deferto = .any ∨ r.deferto = ph)
    · have e : sectionOf ph (r :: rs) = { r with deferto := ph } :: sectionOf ph rs := by
        unfold sectionOf; rw [List.filter_cons_of_pos (by simpa using he)]; rfl
      rw [e]
      have hd : Decides { r with deferto := ph } ↔ Decides r := Iff.rfl
      constructor
      · intro h
        cases h with
        | skip hn h => exact .skip (fun x hx => hn x ((hits_copy he).1 hx)) (ih.1 h)
        | set hx hd' h => exact .set ((hits_copy he).2 hx) hd' (ih.1 h)
        | stop hx hd' => exact Goes.stop (r := { r with deferto := ph }) ((hits_copy he).2 hx) hd'
      · intro h
        cases h with
        | skip hn h => exact .skip (fun x hx => hn x ((hits_copy he).2 hx)) (ih.2 h)
        | set hx hd' h => exact .set ((hits_copy he).1 hx) hd' (ih.2 h)
        | stop hx hd' => exact Goes.stop (r := r) ((hits_copy he).1 hx) hd'
    · have e : sectionOf ph (r :: rs) = sectionOf ph rs := by
        unfold sectionOf; rw [List.filter_cons_of_neg (by simpa using he)]
      rw [e, ← ih]
      constructor
      · intro h
        cases h with
        | skip _ h => exact h
        | set hx => exact absurd hx.1 he
        | stop hx => exact absurd hx.1 he
      · exact .skip fun x hx => he hx.1

theorem goes_sections (hph : ph ≠ .any) : Goes (Hits W tr m ph) rs w a w' ↔ Goes (Hits W tr m ph) (sections rs) w a w' := by
  have ho : ∀ p, p ≠ .any → p ≠ ph → ∀ r ∈ sectionOf p rs, ∀ x, ¬ Hits W tr m ph r x := fun p => section_other
  have two : ∀ {as bs : List Rule}, (∀ r ∈ as, ∀ x, ¬ Hits W tr m ph r x) → (∀ r ∈ bs, ∀ x, ¬ Hits W tr m ph r x) →
      ∀ r ∈ as ++ bs, ∀ x, ¬ Hits W tr m ph r x := by
    intro as bs h1 h2 r hr
    rcases List.mem_append.1 hr with hr | hr
    · exact h1 r hr
    · exact h2 r hr
  rw [goes_section]
  unfold sections
  cases ph with
  | any => exact absurd rfl hph
  | connect =>
    rw [goes_after (ho _ (by decide) (by decide)), goes_after (ho _ (by decide) (by decide)), goes_after (ho _ (by decide) (by decide)),
      goes_after (ho _ (by decide) (by decide)), goes_after (ho _ (by decide) (by decide))]
  | helo =>
    rw [goes_after (ho _ (by decide) (by decide)), goes_after (ho _ (by decide) (by decide)), goes_after (ho _ (by decide) (by decide)),
      goes_after (ho _ (by decide) (by decide)), goes_before (ho _ (by decide) (by decide))]
  | mfrom =>
    rw [goes_after (ho _ (by decide) (by decide)), goes_after (ho _ (by decide) (by decide)), goes_after (ho _ (by decide) (by decide)),
      goes_before (two (ho _ (by decide) (by decide)) (ho _ (by decide) (by decide)))]
  | rto =>
    rw [goes_after (ho _ (by decide) (by decide)), goes_after (ho _ (by decide) (by decide)),
      goes_before (two (two (ho _ (by decide) (by decide)) (ho _ (by decide) (by decide))) (ho _ (by decide) (by decide)))]
  | data =>
    rw [goes_after (ho _ (by decide) (by decide)),
      goes_before (two (two (two (ho _ (by decide) (by decide)) (ho _ (by decide) (by decide))) (ho _ (by decide) (by decide)))
        (ho _ (by decide) (by decide)))]
  | message =>
    rw [goes_before (two (two (two (two (ho _ (by decide) (by decide)) (ho _ (by decide) (by decide))) (ho _ (by decide) (by decide)))
        (ho _ (by decide) (by decide))) (ho _ (by decide) (by decide)))]

end

/-! ## The properties -/

section
variable {E : Env} {rs rs' : List Rule} {l : List Step} {ph : Phase} {e : Evt} {a : Action} {w : Withs}

/-- **C124.** What rules say in a phase is what those of its section say, and these are given the phase: other rules do not matter, nor where they
stand. -/
theorem C124_section : Says1 E rs l ph e a w ↔ Says1 E (sectionOf ph rs) l ph e a w := by
  rw [says1_goes, says1_goes]; exact goes_section

/-- **C124.** Two lists of rules whose sections are the same give the same rulings, after everything that was said. -/
theorem C124_same_sections (h : ∀ p, p ≠ .any → sectionOf p rs = sectionOf p rs') (hph : ph ≠ .any) :
    Ruling E rs l ph e a w ↔ Ruling E rs' l ph e a w := by
  have hs : ∀ {l ph e a w}, ph ≠ .any → (Says1 E rs l ph e a w ↔ Says1 E rs' l ph e a w) := by
    intro l ph e a w hp
    rw [C124_section, h ph hp, ← C124_section]
  have hw : ∀ {a w}, Waiting E rs l a w ↔ Waiting E rs' l a w := by
    intro a w
    unfold Waiting
    simp only [hs (show Phase.mfrom ≠ .any by decide)]
  constructor
  · intro hr
    cases hr with
    | late h1 h2 h3 => exact .late h1 h2 (hw.1 h3)
    | null h1 h2 h3 h4 => exact .null h1 h2 ((hs hph).1 h3) h4
    | plain h1 h2 h3 => exact .plain (by simpa only [hw] using h1) ((hs hph).1 h2) h3
  · intro hr
    cases hr with
    | late h1 h2 h3 => exact .late h1 h2 (hw.2 h3)
    | null h1 h2 h3 h4 => exact .null h1 h2 ((hs hph).2 h3) h4
    | plain h1 h2 h3 => exact .plain (by simpa only [hw] using h1) ((hs hph).2 h2) h3

/-- The sections of rules in sections are these sections. -/
theorem section_twice {p q : Phase} (hp : p ≠ .any) : sectionOf q (sectionOf p rs) = if p = q then sectionOf q rs else [] := by
  by_cases h : p = q
  · subst h
    rw [if_pos rfl]
    unfold sectionOf
    rw [List.filter_eq_self.2, List.map_map]
    · rfl
    · intro r hr
      obtain ⟨r', hr', rfl⟩ := List.mem_map.1 hr
      have := of_decide_eq_true (List.mem_filter.1 hr').2
      simp [this.1]
  · rw [if_neg h]
    unfold sectionOf
    rw [List.map_eq_nil_iff, List.filter_eq_nil_iff]
    intro r hr
    obtain ⟨r', -, rfl⟩ := List.mem_map.1 hr
    simp [hp, h]

theorem section_append (p : Phase) (as bs : List Rule) : sectionOf p (as ++ bs) = sectionOf p as ++ sectionOf p bs := by
  unfold sectionOf; rw [List.filter_append, List.map_append]

theorem sections_section {p : Phase} (hp : p ≠ .any) : sectionOf p (sections rs) = sectionOf p rs := by
  unfold sections
  simp only [section_append]
  rw [section_twice (by decide), section_twice (by decide), section_twice (by decide), section_twice (by decide), section_twice (by decide),
    section_twice (by decide)]
  cases p <;> first | exact absurd rfl hp | simp

/-- **C124.** Sorting rules into sections changes no ruling. -/
theorem C124_sorted (hph : ph ≠ .any) : Ruling E rs l ph e a w ↔ Ruling E (sections rs) l ph e a w :=
  C124_same_sections (fun _ hp => (sections_section hp).symm) hph

/-- **C124.** Nor does it change who is dropped when connecting. -/
theorem C124_sorted_connect (W : World) (tr : TransR) (m : Mail) : (∃ u, FirstMatch W tr m .connect rs u a) ↔
    ∃ u, FirstMatch W tr m .connect (sections rs) u a := by
  have key : ∀ {ts ts' : List Rule}, (∀ w a w', Goes (Hits W tr m .connect) ts w a w' → Goes (Hits W tr m .connect) ts' w a w') →
      (∃ u, FirstMatch W tr m .connect ts u a) → ∃ u, FirstMatch W tr m .connect ts' u a := by
    rintro ts ts' hi ⟨u, hu⟩
    obtain ⟨a', w', h'⟩ := goes_total (Hits W tr m .connect) ts {}
    have h0 : ∀ k : WKey, LastGiven W tr m .connect k [] (k.of {}) := fun k => Or.inr ⟨by cases k <;> rfl, by simp⟩
    obtain ⟨u1, h1, -⟩ := goes_match h' [] (by simp) h0
    obtain ⟨rfl, -⟩ := hu.unique h1
    obtain ⟨u2, h2, -⟩ := goes_match (hi _ _ _ h') [] (by simp) h0
    exact ⟨u2, h2⟩
  exact ⟨key fun _ _ _ => (goes_sections (by decide)).1, key fun _ _ _ => (goes_sections (by decide)).2⟩

end

theorem asked_ne_any {st : Step} {ph : Phase} {e : Evt} {id : Str} (ha : st.asked = some (ph, e, id)) : ph ≠ .any := by
  rcases asked_phase ha with rfl | rfl | rfl | rfl | rfl <;> decide

/-- **C124.** A server that is given all the rules of another in one file, sorted into sections and printed, answers by the other's rules: every
command, and the connection itself. -/
theorem C124_server {o : BaseOpts} {cf : Conf} (hbt : Built o cf) {E : Env} (hs : E.W.Static) {fs : Files} {d : Nat}
    (hb : buildRules E.W.lib fs d o = .ok cf.base) {rss : List (List Rule)} (hr : FilesGive E.W.lib E.fs E.fds 0 cf.rulefiles rss)
    (hp : ∀ r ∈ cf.base ++ rss.flatten, PlainRule r) (hfd : E.fds ≠ 0) {g : Str} (hg : g ≠ [])
    (ht : E.fs [0] g = .data (rulesText (sections (cf.base ++ rss.flatten)))) {l : List Step} {s : Sess}
    (h : Life (onlyFiles cf [g]) E l s) (hst : s.stall = false) :
    (∀ l1 st l2 ph e id, l = l1 ++ st :: l2 → st.asked = some (ph, e, id) → AsIf E (cf.base ++ rss.flatten) l1 st ph e id) ∧
    (∀ l1 st l2, l = l1 ++ st :: l2 → st.pre.pc = .connect → ∃ used a, FirstMatch E.W (facts E l1) (heard l1) .connect (cf.base ++ rss.flatten) used a ∧
      sent st.out = [] ∧ st.post.pc = if a = .reject then .closed else .ready) := by
  have ha : accumAll E.W.lib E.fs E.fds 0 cf.base cf.rulefiles = .ok (cf.base ++ rss.flatten) := accumAll_iff.2 ⟨rss, hr, rfl⟩
  have hm := accumAll_made (parse_made hb) ha
  generalize hR : cf.base ++ rss.flatten = R at *
  have hsm : ∀ r ∈ sections R, MadeRule E.W.lib r ∧ PlainRule r := by
    have key : ∀ p, ∀ r ∈ sectionOf p R, MadeRule E.W.lib r ∧ PlainRule r := by
      intro p r hr
      obtain ⟨q, hq, rfl, hle⟩ := section_mem hr
      have := hm q hq
      exact ⟨⟨this.ne, this.clauses, this.result, this.requires, .inr hle⟩, hp q hq⟩
    intro r hr
    unfold sections at hr
    simp only [List.mem_append] at hr
    rcases hr with ((((hr | hr) | hr) | hr) | hr) | hr <;> exact key _ r hr
  have hn : accumAll E.W.lib E.fs E.fds 0 [] [g] = .ok (sections R) := by
    obtain ⟨d', hd'⟩ := Nat.exists_eq_succ_of_ne_zero hfd
    rw [hd']
    unfold accumAll accumRules
    rw [if_neg hg]
    unfold loadRules
    simp only [ht, printed_parses (fun r hr => (hsm r hr).1) (fun r hr => (hsm r hr).2)]
    rfl
  have hload : ∀ {rules}, Spec.Loaded (onlyFiles cf [g]) E false rules → rules = sections R := by
    rintro rules (⟨h, -⟩ | ⟨-, h⟩ | ⟨-, ⟨f, m, h⟩, -⟩)
    · cases h
    · have h : accumAll E.W.lib E.fs E.fds 0 [] [g] = .ok rules := h
      rw [hn] at h; injection h with h; exact h.symm
    · have h : accumAll E.W.lib E.fs E.fds 0 [] [g] = .error (f, .err m) := h
      rw [hn] at h; cases h
  have hb' := onlyFiles_built hbt [g]
  constructor
  · intro l1 st l2 ph e id hl hk
    obtain ⟨rules, h1, h2⟩ := C76_answers hb' hs h
    rw [hst] at h1
    obtain rfl := hload h1
    obtain ⟨a, w, h3, -, h4⟩ := h2 l1 st l2 ph e id hl hk
    refine ⟨a, w, (C124_sorted (asked_ne_any hk)).2 h3, h4.imp And.left fun h => ⟨?_, h.2⟩⟩
    rcases h.1 with rfl | rfl <;> rintro (h | h) <;> cases h
  · intro l1 st l2 hl hpc
    obtain ⟨rules, h1, h2⟩ := C76_connect hb' hs h
    rw [hst] at h1
    obtain rfl := hload h1
    obtain ⟨used, a, h3, h4⟩ := h2 l1 st l2 hl hpc
    obtain ⟨u, hu⟩ := (C124_sorted_connect _ _ _).2 ⟨used, h3⟩
    exact ⟨u, a, hu, h4⟩

/-! ## A case -/

/-- The rules of the example of C123, in sections. -/
def sortedText : Str :=
  b!"@connect accept all with note \"hm\"\n@helo reject helo-has none\n@helo accept host .example.com\n@helo accept all with note \"hm\"\n" ++
  b!"@from reject from-has bad\n@from reject helo-has none\n@from accept all with note \"hm\"\n@to reject from-has bad\n@to reject to-has bad\n" ++
  b!"@to reject helo-has none\n@to reject not to file:/ok\n@to stall ( from a@ to b@ )\n@to accept all with note \"hm\"\n" ++
  b!"@data reject from-has bad\n@data reject to-has bad\n@data reject helo-has none\n@data reject not to file:/ok\n@data stall ( from a@ to b@ )\n" ++
  b!"@data accept all with note \"hm\"\n@message reject from-has bad\n@message reject to-has bad\n@message reject helo-has none\n" ++
  b!"@message reject not to file:/ok\n@message stall ( from a@ to b@ )\n@message accept all with note \"hm\"\n"

def sortedEnv : Env := { oneEnv with fs := fun _ => tbl (.notExist b!"no such file") [(b!"/s", .data sortedText)] }

example : rulesText (sections (oneConf.base ++ oneRules.flatten)) = sortedText := by decide +kernel

example : seen (fun l _ _ => (l.drop 2).map fun st => replies st.out) (driveAll (onlyFiles oneConf [b!"/s"]) sortedEnv {} {}
      (events (manualMail b!"a@example.com" b!"b@example.com"))) = .ok [[], [.accepted], [.deferred], [.accepted]] ∧
    seen (fun l _ _ => (l.drop 2).map fun st => replies st.out) (driveAll (onlyFiles oneConf [b!"/s"]) sortedEnv {} {}
      (events [.helo false b!"me", .mailfrom b!"x"])) = .ok [[], [.rejected]] := by
  decide +kernel

/-- Rules with different phases may change places; with the same phase they may not. -/
example : (∀ p, p ≠ .any → sectionOf p [ruleOf .data .reject [⟨.all, {}⟩], ruleOf .message .accept [⟨.all, {}⟩]] =
      sectionOf p [ruleOf .message .accept [⟨.all, {}⟩], ruleOf .data .reject [⟨.all, {}⟩]]) ∧
    sectionOf .data [ruleOf .data .reject [⟨.all, {}⟩], ruleOf .data .accept [⟨.all, {}⟩]] ≠
      sectionOf .data [ruleOf .data .accept [⟨.all, {}⟩], ruleOf .data .reject [⟨.all, {}⟩]] := by
  refine ⟨fun p hp => ?_, by decide⟩
  cases p <;> first | exact absurd rfl hp | decide

end Sink
