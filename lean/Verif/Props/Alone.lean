import Verif.Spec.Alone
import Verif.Props.Onlyreject
import Verif.Props.LineEnds
import Verif.Props.Manual

/-!
# C109: a server run from the command line alone does what its options say
-/

namespace Sink
open Spec Gram

/-! ## Files -/

theorem entries_mem {L : Lib} {lines es : List Str} (h : Entries L lines es) (p : Str) :
    p ∈ es ↔ ∃ l ∈ lines, ∃ t, Trimmed l t ∧ t ≠ [] ∧ t.head? ≠ some c!"#" ∧ p = L.lower t := by
  induction h with
  | nil => simp
  | skip ht hc _ ih =>
    rw [ih]
    constructor
    · rintro ⟨l, hl, h⟩; exact ⟨l, by simp [hl], h⟩
    · rintro ⟨l, hl, t, h1, h2, h3, h4⟩
      rcases List.mem_cons.1 hl with rfl | hl
      · cases ht.unique h1
        exact absurd hc (not_or.mpr ⟨h2, h3⟩)
      · exact ⟨l, hl, t, h1, h2, h3, h4⟩
  | keep ht k1 k2 _ ih =>
    rw [List.mem_cons, ih]
    constructor
    · rintro (rfl | ⟨l, hl, h⟩)
      · exact ⟨_, by simp, _, ht, k1, k2, rfl⟩
      · exact ⟨l, by simp [hl], h⟩
    · rintro ⟨l, hl, t, h1, h2, h3, h4⟩
      rcases List.mem_cons.1 hl with rfl | hl
      · cases ht.unique h1
        exact .inl h4
      · exact .inr ⟨l, hl, t, h1, h2, h3, h4⟩

theorem mem_patterns {W : World} {f : Str} (hf : f ≠ []) (p : Str) : p ∈ patterns W (b!"file:" ++ f) ↔ OnLine W f p := by
  have ha : argFile (b!"file:" ++ f) = some f := by
    unfold argFile
    rw [if_neg, if_pos (List.prefix_append _ _)]
    · rfl
    · rintro (h | h) <;> · have := List.IsPrefix.getElem h (i := 0) (by decide); revert this; simp
  unfold patterns OnLine
  rw [ha]
  simp only [fileEntries, if_neg hf]
  constructor
  · intro h
    split at h
    · rename_i b hb
      obtain ⟨lines, rest, ht⟩ := text_exists b
      obtain ⟨l, hl, t, h1⟩ := (entries_mem (readList_entries W.lib ht) p).1 h
      exact ⟨b, lines, rest, l, t, hb, ht, hl, h1⟩
    · simp at h
  · rintro ⟨b, lines, rest, l, t, hb, ht, hl, h1⟩
    rw [hb]
    exact (entries_mem (readList_entries W.lib ht) p).2 ⟨l, hl, t, h1⟩

/-! ## The rules of the options -/

/-- Like `hits_one`, for an expression that misses for no recipient. -/
theorem hits_sure {W : World} {tr : TransR} {m : Mail} {ph d n : Phase} {a : Action} {e : Expr} (he : ∀ m, ¬ Misses W tr m e) {w x : Withs} :
    Hits W tr m ph ⟨[⟨e, w⟩], a, n, d⟩ x ↔ (n ≤ ph ∧ (d = .any ∨ d = ph)) ∧ x = w ∧ AtHand tr m ph n fun m => Holds W tr m e := by
  have one : ∀ {m o}, ClausesTo W tr m [⟨e, w⟩] o ↔ (Holds W tr m e ∧ o = .hit w) ∨ (¬ Holds W tr m e ∧ o = .no) := by
    intro m o
    constructor
    · intro h
      cases h with
      | miss h1 => exact absurd h1 (he _)
      | hit h1 h2 => exact Or.inl ⟨h2, rfl⟩
      | next h1 h2 h => cases h; exact Or.inr ⟨h2, rfl⟩
    · rintro (⟨h, rfl⟩ | ⟨h, rfl⟩)
      · exact .hit (he _) h
      · exact .next (he _) h .nil
  unfold Hits Eligible RuleTo AtHand
  dsimp only
  refine and_congr_right fun _ => ?_
  split
  · generalize tr.rcptto = as
    induction as with
    | nil =>
      constructor
      · intro h; cases h
      · rintro ⟨-, y, hy, -⟩; cases hy
    | cons y as ih =>
      constructor
      · intro h
        cases h with
        | stop h1 h2 =>
          rcases one.1 h1 with ⟨h3, h4⟩ | ⟨-, h4⟩
          · cases h4; exact ⟨rfl, y, by simp, h3⟩
          · cases h4
        | next h1 h2 =>
          obtain ⟨h3, z, hz, h4⟩ := ih.1 h2
          exact ⟨h3, z, by simp [hz], h4⟩
      · rintro ⟨rfl, z, hz, h4⟩
        by_cases hy : Holds W tr { m with rcptto := y } e
        · exact .stop (one.2 (Or.inl ⟨hy, rfl⟩)) (by simp)
        · refine .next (one.2 (Or.inr ⟨hy, rfl⟩)) (ih.2 ⟨rfl, z, ?_, h4⟩)
          rcases List.mem_cons.1 hz with rfl | hz
          · exact absurd h4 hy
          · exact hz
  · rw [one]
    constructor
    · rintro (⟨h, h'⟩ | ⟨-, h'⟩)
      · cases h'; exact ⟨rfl, h⟩
      · cases h'
    · rintro ⟨rfl, h⟩
      exact Or.inl ⟨h, rfl⟩

/-- A rule whose only condition looks at a list without lines does not match. -/
theorem hits_missing {W : World} {tr : TransR} {m : Mail} {ph d n : Phase} {a : Action} {e : Expr} (he : ∀ m, Misses W tr m e) {w x : Withs} :
    ¬ Hits W tr m ph ⟨[⟨e, w⟩], a, n, d⟩ x := by
  have one : ∀ {m o}, ClausesTo W tr m [⟨e, w⟩] o → o = .miss := by
    intro m o h
    cases h with
    | miss => rfl
    | hit h1 => exact absurd (he _) h1
    | next h1 => exact absurd (he _) h1
  rintro ⟨-, h⟩
  unfold RuleTo at h
  split at h
  · generalize tr.rcptto = as at h
    cases h with
    | stop h1 => cases one h1
    | next h1 => cases one h1
  · cases one h

/-- A rule with one file condition. -/
theorem hits_file {W : World} {tr : TransR} {m : Mail} {ph d n : Phase} {a : Action} {e : Expr} {ps : List Str}
    (he : ∀ m, Misses W tr m e ↔ ps = []) {w x : Withs} : Hits W tr m ph ⟨[⟨e, w⟩], a, n, d⟩ x ↔
      ps ≠ [] ∧ (n ≤ ph ∧ (d = .any ∨ d = ph)) ∧ x = w ∧ AtHand tr m ph n fun m => Holds W tr m e := by
  by_cases hp : ps = []
  · exact ⟨fun h => absurd h (hits_missing fun m => (he m).2 hp), fun h => absurd hp h.1⟩
  · rw [hits_sure (fun m h => hp ((he m).1 h))]
    exact ⟨fun h => ⟨hp, h⟩, fun h => h.2⟩

theorem bad_attr {W : World} {tr : TransR} {m : Mail} {k : OKind} {a : Str} (hk : HasAttr W tr m k = AddrAttr W a) :
    (∃ x : Attr, HasAttr W tr m k x ∧ (oBad ||| oRoute) &&& x.bit ≠ 0) ↔ Malformed a := by
  rw [hk]
  constructor
  · rintro ⟨x, h1, h2⟩
    cases x <;> first
      | exact absurd rfl h2
      | exact absurd (by decide) h2
      | exact .inl h1
      | exact .inr (.inl h1)
      | exact .inr (.inr (.inl h1))
      | exact .inr (.inr (.inr h1))
  · rintro (h | h | h | h)
    · exact ⟨.noat, h, by decide⟩
    · exact ⟨.route, h, by decide⟩
    · exact ⟨.unqualified, h, by decide⟩
    · exact ⟨.garbage, h, by decide⟩

theorem none_attr {W : World} {tr : TransR} {m : Mail} :
    (∃ x : Attr, HasAttr W tr m .heloHas x ∧ oNone &&& x.bit ≠ 0) ↔ m.heloname = [] := by
  constructor
  · rintro ⟨x, h1, h2⟩
    cases x <;> first
      | exact absurd (by decide) h2
      | exact h1
  · exact fun h => ⟨.none, h, by decide⟩

/-- All rules reject: the ruling is whether one matches. -/
theorem goes_reject {H : Rule → Withs → Prop} {rs : List Rule} (hr : ∀ r ∈ rs, r.result = .reject) (hw : ∀ r ∈ rs, ∀ x, H r x → x = {})
    {w0 : Withs} (hw0 : w0 = {}) {a : Action} {w : Withs} (h : Goes H rs w0 a w) :
    w = {} ∧ (a = .reject ∧ (∃ r ∈ rs, H r {}) ∨ a = .noresult ∧ ∀ r ∈ rs, ¬ H r {}) := by
  induction h with
  | nil => exact ⟨hw0, .inr ⟨rfl, by simp⟩⟩
  | skip h1 _ ih =>
    obtain ⟨k1, k2⟩ := ih (fun r h => hr r (by simp [h])) (fun r h => hw r (by simp [h])) hw0
    refine ⟨k1, ?_⟩
    rcases k2 with ⟨k2, r, k3, k4⟩ | ⟨k2, k3⟩
    · exact .inl ⟨k2, r, by simp [k3], k4⟩
    · refine .inr ⟨k2, ?_⟩
      intro r hm
      rcases List.mem_cons.1 hm with rfl | hm
      · exact h1 _
      · exact k3 r hm
  | set _ h2 => exact absurd ⟨by rw [hr _ (by simp)]; simp, by rw [hr _ (by simp)]; simp⟩ h2
  | stop h1 _ =>
    subst hw0
    cases hw _ (by simp) _ h1
    exact ⟨rfl, .inl ⟨hr _ (by simp), _, by simp, h1⟩⟩

/-- What the rules of the options come to. -/
theorem options_hit {o : BaseOpts} {W : World} {tr : TransR} {m : Mail} {ph : Phase} (hph : ph ≥ .helo) :
    (∀ r ∈ documentedRules o.stdrules o.failgotdata (given o.fromreject) (given o.toaccept) (given o.heloreject), ∀ x, Hits W tr m ph r x → x = {}) ∧
    ((∃ r ∈ documentedRules o.stdrules o.failgotdata (given o.fromreject) (given o.toaccept) (given o.heloreject), Hits W tr m ph r {}) ↔
      Minds o W tr.rcptto m ph) := by
  have r1 : ∀ x, Hits W tr m ph ⟨[⟨.optN .fromHas (oBad ||| oRoute), {}⟩], .reject, .mfrom, .any⟩ x ↔
      ph ≥ .mfrom ∧ x = {} ∧ Malformed m.from_ := by
    intro x
    rw [hits_sure (fun m h => by simp [Misses] at h)]
    simp only [AtHand, Holds, true_or, and_true, show ¬ (Phase.mfrom ≥ .rto) by decide, and_false, if_false]
    rw [bad_attr (a := m.from_) rfl]
  have r2 : ∀ x, Hits W tr m ph ⟨[⟨.optN .toHas (oBad ||| oRoute), {}⟩], .reject, .rto, .any⟩ x ↔
      ph ≥ .rto ∧ x = {} ∧ AtHand tr m ph .rto fun m => Malformed m.rcptto := by
    intro x
    rw [hits_sure (fun m h => by simp [Misses] at h)]
    simp only [Holds, true_or, and_true]
    refine and_congr_right fun _ => and_congr_right fun _ => ?_
    unfold AtHand
    simp only [bad_attr (k := .toHas) rfl]
  have r3 : ∀ x, Hits W tr m ph ⟨[⟨.optN .heloHas oNone, {}⟩], .reject, .helo, .any⟩ x ↔ x = {} ∧ m.heloname = [] := by
    intro x
    rw [hits_sure (fun m h => by simp [Misses] at h)]
    simp only [AtHand, Holds, true_or, and_true, show ¬ (Phase.helo ≥ .rto) by decide, and_false, if_false]
    rw [none_attr]
    exact ⟨fun h => h.2, fun h => ⟨hph, h⟩⟩
  have r4 : ∀ x, Hits W tr m ph ⟨[⟨.all, {}⟩], .reject, .any, .message⟩ x ↔ x = {} ∧ ph = .message := by
    intro x
    rw [hits_sure (fun m h => by simp [Misses] at h)]
    simp only [AtHand, Holds, show ¬ (Phase.any ≥ .rto) by decide, and_false, if_false, and_true]
    refine ⟨fun h => ⟨h.2, ?_⟩, ?_⟩
    · rcases h.1.2 with h | h
      · cases h
      · exact h.symm
    · rintro ⟨rfl, rfl⟩
      exact ⟨⟨by decide, .inr rfl⟩, rfl⟩
  have ne : ∀ {f : Str}, f ≠ [] → (patterns W (b!"file:" ++ f) ≠ [] ↔ ∃ p, OnLine W f p) := by
    intro f hf
    simp only [← mem_patterns hf]
    exact ⟨List.exists_mem_of_ne_nil _, fun ⟨p, hp⟩ => List.ne_nil_of_mem hp⟩
  have r5 : ∀ f, f ≠ [] → ∀ x, Hits W tr m ph ⟨[⟨.matchN .from_ (b!"file:" ++ f), {}⟩], .reject, .mfrom, .any⟩ x ↔
      ph ≥ .mfrom ∧ x = {} ∧ AddrOn W f m.from_ := by
    intro f hf x
    rw [hits_file (ps := patterns W (b!"file:" ++ f)) (fun m => by rw [Misses]), ne hf]
    simp only [AtHand, Holds, MatchHolds, subjects, PatMatch, List.mem_singleton, exists_eq_left, true_or, and_true,
      show ¬ (Phase.mfrom ≥ .rto) by decide, and_false, if_false, mem_patterns hf]
    exact ⟨fun h => h.2, fun h => ⟨let ⟨p, hp⟩ := h.2.2; ⟨p, hp.1⟩, h⟩⟩
  have r6 : ∀ f, f ≠ [] → ∀ x, Hits W tr m ph ⟨[⟨.notN (.matchN .to (b!"file:" ++ f)), {}⟩], .reject, .rto, .any⟩ x ↔
      ph ≥ .rto ∧ x = {} ∧ AtHand tr m ph .rto fun m => (∃ p, OnLine W f p) ∧ ¬ AddrOn W f m.rcptto := by
    intro f hf x
    rw [hits_file (ps := patterns W (b!"file:" ++ f)) (fun m => by rw [Misses, Misses]), ne hf]
    simp only [Holds, MatchHolds, subjects, PatMatch, List.mem_singleton, exists_eq_left, true_or, and_true, mem_patterns hf]
    unfold AtHand
    split
    · exact ⟨fun ⟨h1, h2, h3, y, h4, h5⟩ => ⟨h2, h3, y, h4, h1, h5⟩, fun ⟨h2, h3, y, h4, h1, h5⟩ => ⟨h1, h2, h3, y, h4, h5⟩⟩
    · exact ⟨fun ⟨h1, h2, h3, h5⟩ => ⟨h2, h3, h1, h5⟩, fun ⟨h2, h3, h1, h5⟩ => ⟨h1, h2, h3, h5⟩⟩
  have r7 : ∀ f, f ≠ [] → ∀ x, Hits W tr m ph ⟨[⟨.matchN .helo (b!"file:" ++ f), {}⟩], .reject, .helo, .mfrom⟩ x ↔
      ph = .mfrom ∧ x = {} ∧ HostOn W f m.heloname := by
    intro f hf x
    rw [hits_file (ps := patterns W (b!"file:" ++ f)) (fun m => by rw [Misses]), ne hf]
    simp only [AtHand, Holds, MatchHolds, subjects, PatMatch, List.mem_singleton, exists_eq_left,
      show ¬ (Phase.helo ≥ .rto) by decide, and_false, if_false, mem_patterns hf]
    constructor
    · rintro ⟨-, ⟨-, h | h⟩, h2⟩
      · cases h
      · exact ⟨h.symm, h2⟩
    · rintro ⟨rfl, h2⟩
      exact ⟨let ⟨p, hp⟩ := h2.2; ⟨p, hp.1⟩, ⟨by decide, .inr rfl⟩, h2⟩
  have all : ∀ P : Rule → Prop, (∃ r ∈ documentedRules o.stdrules o.failgotdata (given o.fromreject) (given o.toaccept) (given o.heloreject), P r) ↔
      (o.stdrules = true ∧ (P ⟨[⟨.optN .fromHas (oBad ||| oRoute), {}⟩], .reject, .mfrom, .any⟩ ∨
        P ⟨[⟨.optN .toHas (oBad ||| oRoute), {}⟩], .reject, .rto, .any⟩ ∨ P ⟨[⟨.optN .heloHas oNone, {}⟩], .reject, .helo, .any⟩)) ∨
      (o.failgotdata = true ∧ P ⟨[⟨.all, {}⟩], .reject, .any, .message⟩) ∨
      (o.fromreject ≠ [] ∧ P ⟨[⟨.matchN .from_ (b!"file:" ++ o.fromreject), {}⟩], .reject, .mfrom, .any⟩) ∨
      (o.toaccept ≠ [] ∧ P ⟨[⟨.notN (.matchN .to (b!"file:" ++ o.toaccept)), {}⟩], .reject, .rto, .any⟩) ∨
      (o.heloreject ≠ [] ∧ P ⟨[⟨.matchN .helo (b!"file:" ++ o.heloreject), {}⟩], .reject, .helo, .mfrom⟩) := by
    intro P
    have g : ∀ (f : Str) (F : Str → Rule), (∃ r ∈ (given f).toList.map F, P r) ↔ f ≠ [] ∧ P (F f) := by
      intro f F
      unfold given
      by_cases hf : f = []
      · simp [hf]
      · simp [hf]
    have b : ∀ (c : Bool) (rs : List Rule), (∃ r ∈ (if c then rs else []), P r) ↔ c = true ∧ ∃ r ∈ rs, P r := by
      intro c rs; cases c <;> simp
    unfold documentedRules
    simp only [List.mem_append, or_and_right, exists_or, g, b]
    simp only [List.mem_cons, List.not_mem_nil, or_false, or_and_right, exists_or, exists_eq_left, or_assoc]
  constructor
  · intro r hr x hx
    by_contra hne
    have := (all fun r => Hits W tr m ph r x).1 ⟨r, hr, hx⟩
    rw [r1, r2, r3, r4] at this
    rcases this with ⟨-, h | h | h⟩ | ⟨-, h⟩ | ⟨h0, h⟩ | ⟨h0, h⟩ | ⟨h0, h⟩
    · exact hne h.2.1
    · exact hne h.2.1
    · exact hne h.1
    · exact hne h.1
    · exact hne ((r5 _ h0 _).1 h).2.1
    · exact hne ((r6 _ h0 _).1 h).2.1
    · exact hne ((r7 _ h0 _).1 h).2.1
  · rw [all, r1, r2, r3, r4, and_congr_right (fun h => r5 _ h _), and_congr_right (fun h => r6 _ h _), and_congr_right (fun h => r7 _ h _)]
    have dist : ∀ P Q : Str → Prop, (∃ r ∈ tr.rcptto, P r ∨ Q r) ↔ (∃ r ∈ tr.rcptto, P r) ∨ ∃ r ∈ tr.rcptto, Q r := by
      intro P Q; simp only [and_or_left, exists_or]
    have fac : ∀ (p : Prop) (Q : Str → Prop), (∃ r ∈ tr.rcptto, p ∧ Q r) ↔ p ∧ ∃ r ∈ tr.rcptto, Q r := by
      intro p Q
      exact ⟨fun ⟨r, h1, h2, h3⟩ => ⟨h2, r, h1, h3⟩, fun ⟨h2, r, h1, h3⟩ => ⟨r, h1, h2, h3⟩⟩
    cases ph <;> simp only [Minds, BadGreeting, BadSender, BadRcpt, AtHand, dist, fac,
      show ¬ (Phase.any ≥ .helo) by decide, show ¬ (Phase.connect ≥ .helo) by decide, show ¬ (Phase.helo ≥ .mfrom) by decide,
      show ¬ (Phase.helo ≥ .rto) by decide, show ¬ (Phase.mfrom ≥ .rto) by decide, show Phase.rto ≥ .rto by decide, show Phase.data ≥ .rto by decide,
      show Phase.message ≥ .rto by decide, show Phase.mfrom ≥ .mfrom by decide, show Phase.rto ≥ .mfrom by decide, show Phase.data ≥ .mfrom by decide,
      show Phase.message ≥ .mfrom by decide, show ¬ (Phase.rto > .rto) by decide, show Phase.data > .rto by decide, show Phase.message > .rto by decide,
      true_and, false_and, and_false, if_true, if_false, reduceCtorEq, or_false, false_or, and_true] at hph ⊢ <;> grind only

/-! ## Rulings -/

section
variable {o : BaseOpts} {E : Env}

/-- The rules of the options. -/
abbrev optionRules (o : BaseOpts) : List Rule :=
  documentedRules o.stdrules o.failgotdata (given o.fromreject) (given o.toaccept) (given o.heloreject)

theorem says1_alone {l : List Step} {ph : Phase} {e : Evt} {a : Action} {w : Withs} (hph : ph ≥ .helo) (h : Says1 E (optionRules o) l ph e a w) :
    w = {} ∧ (a = .reject ∧ Minds o E.W (envelope l).rcpts ((heard l).said ph e) ph ∨
      a = .noresult ∧ ¬ Minds o E.W (envelope l).rcpts ((heard l).said ph e) ph) := by
  obtain ⟨h1, h2⟩ := options_hit (o := o) (W := E.W) (tr := facts E l) (m := (heard l).said ph e) hph
  obtain ⟨h3, h4⟩ := goes_reject documented_reject h1 rfl (says1_goes.1 h)
  refine ⟨h3, h4.imp (And.imp_right h2.1) (And.imp_right fun h hm => ?_)⟩
  obtain ⟨r, k1, k2⟩ := h2.2 hm
  exact h r k1 k2

theorem waiting_alone {l : List Step} : (∀ a w, Waiting E (optionRules o) l a w → a = .reject ∧ w = {}) ∧
    ((∃ a w, Waiting E (optionRules o) l a w) ↔ Spared o E.W l) := by
  have key : ∀ a w, Waiting E (optionRules o) l a w → (a = .reject ∧ w = {}) ∧ Spared o E.W l := by
    rintro a w ⟨l1, st, l2, b, id, h1, h2, h3, h4, h5⟩
    obtain ⟨k1, ⟨k2, k3⟩ | ⟨rfl, -⟩⟩ := says1_alone (by decide) h3
    · exact ⟨⟨k2, k1⟩, l1, st, l2, b, id, h1, h2, k3, h5⟩
    · rcases h4 with h4 | h4 <;> cases h4
  refine ⟨fun a w h => (key a w h).1, fun ⟨a, w, h⟩ => (key a w h).2, ?_⟩
  rintro ⟨l1, st, l2, b, id, h1, h2, h3, h5⟩
  obtain ⟨a, w, h⟩ := goes_total (Hits E.W (facts E l1) ((heard l1).said .mfrom ⟨b, []⟩) .mfrom) (optionRules o) {}
  replace h := says1_goes.2 h
  obtain ⟨-, ⟨rfl, -⟩ | ⟨-, k⟩⟩ := says1_alone (by decide) h
  · exact ⟨_, _, l1, st, l2, b, id, h1, h2, h, .inl rfl, h5⟩
  · exact absurd h3 k

theorem ruling_alone {l : List Step} {ph : Phase} {e : Evt} {a : Action} {w : Withs} (hph : ph ≥ .helo) (h : Ruling E (optionRules o) l ph e a w) :
    w = {} ∧ (a = .reject ∧ Unwanted o E.W l ph e ∨ (a = .noresult ∨ a = .accept) ∧ ¬ Unwanted o E.W l ph e) := by
  obtain ⟨w1, w2⟩ := waiting_alone (o := o) (E := E) (l := l)
  cases h with
  | late h1 h2 h3 => exact ⟨(w1 _ _ h3).2, .inl ⟨(w1 _ _ h3).1, .inr ⟨h1, h2, w2.1 ⟨_, _, h3⟩⟩⟩⟩
  | null h1 h2 h3 h4 =>
    refine ⟨rfl, .inr ⟨.inr rfl, ?_⟩⟩
    rintro (h | h)
    · exact h.2 ⟨h1, h2⟩
    · exact h.2.1 h1
  | plain h1 h2 h3 =>
    obtain ⟨k1, k2⟩ := says1_alone hph h2
    refine ⟨k1, ?_⟩
    rcases k2 with ⟨rfl, k2⟩ | ⟨rfl, k2⟩
    · exact .inl ⟨rfl, .inl ⟨k2, fun h => h3 ⟨h.1, h.2, .inl rfl⟩⟩⟩
    · refine .inr ⟨.inl rfl, ?_⟩
      rintro (h | ⟨n1, n2, h⟩)
      · exact k2 h.1
      · rcases h1 with h1 | h1 | h1
        · exact n1 h1
        · exact n2 h1
        · obtain ⟨a, w, hw⟩ := w2.2 h
          exact h1 a w hw

end

theorem alone_loaded {o : BaseOpts} {cf : Conf} (hc : Configured o cf) (hf : cf.rulefiles = []) {E : Env} {rules : List Rule}
    (h : Loaded cf E false rules) : rules = optionRules o := by
  rcases h with ⟨h, -⟩ | ⟨-, h⟩ | ⟨-, ⟨f, m, h⟩, -⟩
  · cases h
  · rw [hf, accumAll] at h
    injection h with h
    rw [← h, hc.base_eq]
  · rw [hf, accumAll] at h
    cases h

theorem alone_answer {o : BaseOpts} {E : Env} {l1 : List Step} {st : Step} {ph : Phase} {e : Evt} {id : Str} (ha : st.asked = some (ph, e, id))
    {a : Action} {w : Withs} (h3 : Ruling E (optionRules o) l1 ph e a w)
    (h4 : sent st.out = answerTo ph a (w.message.getD []) id (envelope l1).rcpts ∧ st.post.pc = .ready ∨ (a = .noresult ∨ a = .accept) ∧ st.rsetDrop) :
    (Unwanted o E.W l1 ph e → sent st.out = answerTo ph .reject [] id (envelope l1).rcpts ∧ st.post.pc = .ready) ∧
    (¬ Unwanted o E.W l1 ph e → sent st.out = answerTo ph .accept [] id (envelope l1).rcpts ∧ st.post.pc = .ready ∨ st.rsetDrop) := by
  have hph : ph ≥ .helo := by rcases asked_phase ha with rfl | rfl | rfl | rfl | rfl <;> decide
  obtain ⟨rfl, ⟨rfl, k⟩ | ⟨k1, k⟩⟩ := ruling_alone hph h3
  · refine ⟨fun _ => ?_, fun h => absurd k h⟩
    rcases h4 with h4 | ⟨h4 | h4, -⟩
    · exact h4
    · cases h4
    · cases h4
  · refine ⟨fun h => absurd h k, fun _ => ?_⟩
    rcases h4 with h4 | h4
    · refine .inl ⟨h4.1.trans ?_, h4.2⟩
      rcases k1 with rfl | rfl <;> rfl
    · exact .inr h4.2

/-! ## The property -/

section
variable {o : BaseOpts} {cf : Conf} (hc : Configured o cf) (hf : cf.rulefiles = []) {E : Env} (hs : E.W.Static)
  {l : List Step} {s : Sess} (h : Life cf E l s) (hst : s.stall = false)
include hc hf hs h hst

/-- **C109.** Without rules files, and for clients that are not stalled: exactly the commands that the options are against are refused, for
good and with the standard texts; the others are accepted (or the session ends because of too many RSETs). -/
theorem C109_answers {l1 l2 : List Step} {st : Step} {ph : Phase} {e : Evt} {id : Str} (hl : l = l1 ++ st :: l2) (ha : st.asked = some (ph, e, id)) :
    (Unwanted o E.W l1 ph e → sent st.out = answerTo ph .reject [] id (envelope l1).rcpts ∧ st.post.pc = .ready) ∧
    (¬ Unwanted o E.W l1 ph e → sent st.out = answerTo ph .accept [] id (envelope l1).rcpts ∧ st.post.pc = .ready ∨ st.rsetDrop) := by
  obtain ⟨rules, h1, h2⟩ := C76_answers hc.built hs h
  rw [hst] at h1
  cases alone_loaded hc hf h1
  obtain ⟨a, w, h3, -, h4⟩ := h2 l1 st l2 ph e id hl ha
  exact alone_answer ha h3 h4

/-- **C109.** Every client is let in. -/
theorem C109_connect {l1 l2 : List Step} {st : Step} (hl : l = l1 ++ st :: l2) (hp : st.pre.pc = .connect) :
    sent st.out = [] ∧ st.post.pc = .ready := by
  obtain ⟨rules, h1, h2⟩ := C76_connect hc.built hs h
  rw [hst] at h1
  cases alone_loaded hc hf h1
  obtain ⟨used, a, h3, h4, h5⟩ := h2 l1 st l2 hl hp
  refine ⟨h4, ?_⟩
  rw [h5, if_neg]
  rintro rfl
  rcases h3 with ⟨h3, -⟩ | ⟨pre, r, post, w, h3, -, -, h6, -⟩
  · cases h3
  · have hr : r ∈ optionRules o := by rw [h3]; simp
    have he := h6.1
    unfold Eligible at he
    simp only [optionRules, documentedRules, List.mem_append, Option.mem_toList, List.mem_map] at hr
    rcases hr with (((hr | hr) | ⟨x, _, rfl⟩) | ⟨x, _, rfl⟩) | ⟨x, _, rfl⟩
    · split at hr
      · simp only [List.mem_cons, List.not_mem_nil, or_false] at hr
        rcases hr with rfl | rfl | rfl <;> exact absurd he.1 (by decide)
      · cases hr
    · split at hr
      · simp only [List.mem_cons, List.not_mem_nil, or_false] at hr
        subst hr
        exact absurd he.2 (by decide)
      · cases hr
    · exact absurd he.1 (show ¬ Phase.mfrom ≤ .connect by decide)
    · exact absurd he.1 (show ¬ Phase.rto ≤ .connect by decide)
    · exact absurd he.1 (show ¬ Phase.helo ≤ .connect by decide)

/-- What was accepted was not unwanted. -/
theorem alone_accepted {l1 l2 : List Step} {st : Step} {ph : Phase} {e : Evt} {id : Str} (hl : l = l1 ++ st :: l2) (ha : st.asked = some (ph, e, id))
    (hacc : st.accepted = true) : ¬ Unwanted o E.W l1 ph e := by
  obtain ⟨rules, h1, h2⟩ := C76_answers hc.built hs h
  rw [hst] at h1
  cases alone_loaded hc hf h1
  obtain ⟨a, w, h3, -, h4⟩ := h2 l1 st l2 ph e id hl ha
  have hph : ph ≥ .helo := by rcases asked_phase ha with rfl | rfl | rfl | rfl | rfl <;> decide
  obtain ⟨-, ⟨rfl, -⟩ | ⟨-, k⟩⟩ := ruling_alone hph h3
  · exact absurd (.inl rfl) (accepted_passed hacc h4)
  · exact k

theorem alone_replies {l1 l2 : List Step} {st : Step} {ph : Phase} {e : Evt} {id : Str} (hl : l = l1 ++ st :: l2) (ha : st.asked = some (ph, e, id))
    (h1 : ph ≠ .helo) (h2 : ph ≠ .mfrom) :
    (Unwanted o E.W l1 ph e → replies st.out = [.rejected]) ∧ (¬ Unwanted o E.W l1 ph e → replies st.out = [.accepted]) := by
  obtain ⟨k1, k2⟩ := C109_answers hc hf hs h hst hl ha
  constructor
  · intro hu
    rw [replies_answers, (k1 hu).1]
    simp only [answerTo, ne_eq, not_true_eq_false, if_false]
    split
    · rfl
    · split <;> rfl
  · intro hu
    rcases k2 hu with k | ⟨⟨x, k⟩, -⟩
    · rw [answer_yes k.1 (.inr rfl), if_neg h1]
    · rw [asked_of k] at ha
      cases ha
      exact absurd rfl h2

/-- **C109.** In a transaction that began with an accepted MAIL FROM with an address, exactly the recipients are refused that are not addresses
(if the standard rules are on) or not on the list (if there is one). -/
theorem C109_recipient {b t l2 : List Step} {m st : Step} {x y : Str} (hl : l = b ++ m :: t ++ st :: l2) (hm : Mailed (b ++ m :: t) b m t x)
    (hx : x ≠ []) (hy : st.event = some (.rcptto y)) :
    (BadRcpt o E.W y → replies st.out = [.rejected]) ∧ (¬ BadRcpt o E.W y → replies st.out = [.accepted]) := by
  have ha := asked_of hy
  obtain ⟨k1, k2⟩ := alone_replies hc hf hs h hst hl ha (by decide) (by decide)
  obtain ⟨i, id, hma⟩ := hm.2.1
  have hw := alone_accepted hc hf hs h hst (l1 := b) (l2 := t ++ st :: l2) (by rw [hl]; simp) hma hm.2.2.1
  have hn : ¬ Minds o E.W (envelope b).rcpts ((heard b).said .mfrom ⟨i, x⟩) .mfrom := fun hn => hw (.inl ⟨hn, fun h => hx h.2⟩)
  have hg : (heard (b ++ m :: t)).heloname = ((heard b).said .mfrom ⟨i, x⟩).heloname := hm.greeting.2
  have hfr : (heard (b ++ m :: t)).from_ = ((heard b).said .mfrom ⟨i, x⟩).from_ := hm.inMail.from_
  simp only [Minds, BadGreeting, BadSender, ← hg, ← hfr] at hn
  refine ⟨fun hb => k1 (.inl ⟨.inr (.inr hb), fun h => by cases h.1⟩), fun hb => k2 ?_⟩
  rintro (⟨hu, -⟩ | ⟨-, -, hu⟩)
  · rcases hu with hu | hu | hu
    · exact hn (.inl hu)
    · exact hn (.inr (.inl hu))
    · exact hb hu
  · obtain ⟨a, w, hw⟩ := (waiting_alone (E := E)).2.2 hu
    exact hx (hm.inMail.waiting.1 hw).1

/-- **C109.** In a transaction that began with an accepted MAIL FROM and has an accepted recipient, DATA is accepted, and a message is refused
exactly with `-M`. -/
theorem C109_message {b t l2 : List Step} {m st : Step} {x : Str} (hl : l = b ++ m :: t ++ st :: l2) (hm : Mailed (b ++ m :: t) b m t x)
    (hne : (envelope (b ++ m :: t)).rcpts ≠ []) {ph : Phase} {e : Evt} {id : Str} (ha : st.asked = some (ph, e, id)) (hph : ph = .data ∨ ph = .message) :
    replies st.out = if ph = .message ∧ o.failgotdata = true then [.rejected] else [.accepted] := by
  obtain ⟨k1, k2⟩ := alone_replies hc hf hs h hst hl ha (by rcases hph with rfl | rfl <;> decide) (by rcases hph with rfl | rfl <;> decide)
  -- What is known after an accepted recipient.
  have key : ∀ y ∈ (envelope (b ++ m :: t)).rcpts, ¬ BadGreeting o (heard (b ++ m :: t)) ∧ ¬ BadSender o E.W (heard (b ++ m :: t)) ∧
      ¬ BadRcpt o E.W y ∧ ¬ Spared o E.W (b ++ m :: t) := by
    intro y hy
    obtain ⟨t1, q, t2, rfl, h2, h3⟩ := hm.rcpts y hy
    have hm1 : Mailed (b ++ m :: t1) b m t1 x := ⟨rfl, hm.2.1, hm.2.2.1, fun q hq => hm.2.2.2 q (by simp [hq])⟩
    have hw := alone_accepted hc hf hs h hst (l1 := b ++ m :: t1) (l2 := t2 ++ st :: l2) (by rw [hl]; simp) (asked_of h2) h3
    have hn : ¬ Minds o E.W (envelope (b ++ m :: t1)).rcpts ((heard (b ++ m :: t1)).said .rto ⟨false, y⟩) .rto :=
      fun hn => hw (.inl ⟨hn, fun h => by cases h.1⟩)
    have hg : (heard (b ++ m :: (t1 ++ q :: t2))).heloname = ((heard (b ++ m :: t1)).said .rto ⟨false, y⟩).heloname :=
      hm.greeting.2.trans hm1.greeting.2.symm
    have hfr : (heard (b ++ m :: (t1 ++ q :: t2))).from_ = ((heard (b ++ m :: t1)).said .rto ⟨false, y⟩).from_ :=
      hm.inMail.from_.trans hm1.inMail.from_.symm
    simp only [Minds, BadGreeting, BadSender, ← hg, ← hfr, not_or] at hn
    refine ⟨hn.1, not_or.2 hn.2.1, hn.2.2, fun hsp => hw (.inr ⟨by decide, by decide, ?_⟩)⟩
    obtain ⟨a, w, hw⟩ := (waiting_alone (E := E)).2.2 hsp
    exact waiting_alone.2.1 ⟨a, w, hm1.inMail.waiting.2 (hm.inMail.waiting.1 hw)⟩
  obtain ⟨y0, hy0⟩ := List.exists_mem_of_ne_nil _ hne
  have h0 := key y0 hy0
  have none : ∀ {P : Prop}, (∃ r ∈ (envelope (b ++ m :: t)).rcpts, BadRcpt o E.W r) → P := fun ⟨r, h1, h2⟩ => absurd h2 (key r h1).2.2.1
  rcases hph with rfl | rfl
  · rw [if_neg (fun h => by cases h.1)]
    apply k2
    rintro (⟨hu | hu | hu, -⟩ | ⟨-, -, hu⟩)
    · exact h0.1 hu
    · exact h0.2.1 hu
    · exact none hu
    · exact h0.2.2.2 hu
  · by_cases hM : o.failgotdata = true
    · rw [if_pos ⟨rfl, hM⟩]
      exact k1 (.inl ⟨.inr (.inr (.inr hM)), fun h => by cases h.1⟩)
    · rw [if_neg (fun h => hM h.2)]
      apply k2
      rintro (⟨hu | hu | hu | hu, -⟩ | ⟨-, -, hu⟩)
      · exact h0.1 hu
      · exact h0.2.1 hu
      · exact none hu
      · exact hM hu
      · exact h0.2.2.2 hu

/-- **C109.** Without any of the options, everything is accepted. -/
theorem C109_open (h0 : o = ⟨false, false, [], [], []⟩) {l1 l2 : List Step} {st : Step} {ph : Phase} {e : Evt} {id : Str} (hl : l = l1 ++ st :: l2)
    (ha : st.asked = some (ph, e, id)) : sent st.out = answerTo ph .accept [] id (envelope l1).rcpts ∨ st.rsetDrop := by
  have hn : ∀ rcpts m ph, ¬ Minds o E.W rcpts m ph := by
    subst h0
    intro rcpts m ph
    cases ph <;> simp [Minds, BadGreeting, BadSender, BadRcpt]
  refine ((C109_answers hc hf hs h hst hl ha).2 ?_).imp And.left (fun h => h)
  rintro (⟨hu, -⟩ | ⟨-, -, _, _, _, _, _, -, -, hu, -⟩)
  · exact hn _ _ _ hu
  · exact hn _ _ _ hu

end

/-! ## An example -/

/-- `-M -fromreject /from -toaccept /to -heloreject /helo` and the standard rules. -/
def demoOptsAlone : BaseOpts := ⟨true, true, b!"/from", b!"/to", b!"/helo"⟩
def demoConfAlone : Conf := { demoConf with base := optionRules demoOptsAlone, rulefiles := [] }
def demoEnvAlone : Env := { demoEnv with W := { demoWorld with files := fun _ => tbl (.notExist b!"no such file") [
  (b!"/from", .data b!"# spammers\n @.EVIL.com\n<>\n"), (b!"/to", .data b!"postmaster@\n@example.com\nlost@x.com"),
  (b!"/helo", .data b!".evil.com\n")] } }

example : Configured demoOptsAlone demoConfAlone ∧ demoConfAlone.rulefiles = [] ∧ demoEnvAlone.W.Static := by
  have c1 : CleanName b!"/from" := by unfold CleanName; decide +kernel
  have c2 : CleanName b!"/to" := by unfold CleanName; decide +kernel
  have c3 : CleanName b!"/helo" := by unfold CleanName; decide +kernel
  exact ⟨⟨⟨c1, c2, c3⟩, ⟨demoLib, fun _ _ => .notExist [], 5, C11_base_rules _ _ _ _ c1 c2 c3⟩,
    ⟨demoLib, fun _ _ => .notExist [], 5, C11_stall_rules _ _ _⟩⟩, rfl,
    ⟨fun _ _ => rfl, fun _ _ => rfl, fun _ _ => rfl, fun _ _ => rfl, fun _ _ => rfl⟩⟩

/-- What is on the lists: white space, case and comments do not count, nor does a last line without its end. -/
example : OnLine demoEnvAlone.W b!"/from" b!"@.evil.com" ∧ AddrOn demoEnvAlone.W b!"/from" b!"Joe@mail.evil.com" ∧ ¬ AddrOn demoEnvAlone.W b!"/to" b!"lost@x.com" := by
  have h : OnLine demoEnvAlone.W b!"/from" b!"@.evil.com" := (mem_patterns (by decide) _).1 (by decide +kernel)
  refine ⟨h, ⟨_, h, .tail (l := b!"joe") (d := b!"mail.evil.com") (t := b!"evil.com") ⟨by decide +kernel, by decide, by decide, by decide⟩
    (.inr ⟨b!"mail", rfl⟩)⟩, ?_⟩
  rintro ⟨p, h1, h2⟩
  have : p ∈ [b!"postmaster@", b!"@example.com"] := by
    have := (mem_patterns (by decide) _).2 h1
    have e : patterns demoEnvAlone.W (b!"file:" ++ b!"/to") = [b!"postmaster@", b!"@example.com"] := by decide +kernel
    rwa [e] at this
  obtain ⟨c, k1, k2⟩ := C12_address_patterns demoEnvAlone.W.lib b!"lost@x.com" p
  rw [k2.2 h2] at k1
  revert k1
  rcases List.mem_cons.1 this with rfl | this
  · decide +kernel
  · cases List.mem_singleton.1 this; decide +kernel

/-- Each reason for a refusal, and the refusal of a null sender at its recipient. -/
example : seen (fun l _ _ => (l.drop 2).map fun st => replies st.out) (driveAll demoConfAlone demoEnvAlone {} {} (events
    [.helo false [], .helo false b!"mail.evil.com", .mailfrom b!"a@b.com", .helo false b!"me.com", .mailfrom b!"a@b", .mailfrom b!"A@x.Evil.com",
     .mailfrom b!"a@b.com", .rcptto b!"u@x.com", .rcptto b!"lost@x.com", .rcptto b!"u@Example.com", .rcptto b!"postmaster", .rcptto b!"postmaster@x.com",
     .data, .mailfrom [], .rcptto b!"u@example.com"])) =
    .ok [[.rejected], [], [.rejected], [], [.rejected], [.rejected], [.accepted], [.rejected], [.rejected], [.accepted], [.rejected], [.accepted],
      [.accepted], [.accepted], [.rejected]] := by
  decide +kernel

/-- A good message, which is stored and refused because of `-M`. -/
example : seen (fun l _ _ => (l.drop 2).map fun st => replies st.out) (driveAll demoConfAlone demoEnvAlone {} {} (events
    [.helo false b!"me.com", .mailfrom b!"a@b.com", .rcptto b!"u@example.com", .data, .gotdata b!"hi"] ++ List.replicate 5 ({} : Inp))) =
    .ok [[], [.accepted], [.accepted], [.accepted], [], [], [], [], [], [.rejected]] := by
  decide +kernel

end Sink
