import Verif.Props.Steady

/-!
# C85: rules that the manual calls equivalent can be exchanged

The laws are about the rules as written; what is compared is the ruling on every command of every connection.
-/

namespace Sink
open Spec Gram

/-! ## Going through the rules -/

/-- Later options override earlier ones of the same kind. -/
def Withs.over (x w : Withs) : Withs :=
  ⟨x.message <|> w.message, x.note <|> w.note, x.savedir <|> w.savedir, x.tlsOpt <|> w.tlsOpt, x.makeYakker <|> w.makeYakker⟩

theorem Withs.of_over (x w : Withs) (k : WKey) : k.of (x.over w) = (k.of x <|> k.of w) := by cases k <;> rfl

theorem Withs.over_self_over (x w : Withs) : x.over (x.over w) = x.over w := by
  apply Withs.ext_keys
  intro k
  rw [of_over, of_over]
  cases k.of x <;> simp

/-- Going through rules of which `H r x` says that `r` matches with options `x`: from options `w` to action and options. -/
inductive Goes (H : Rule → Withs → Prop) : List Rule → Withs → Action → Withs → Prop
  | nil {w} : Goes H [] w .noresult w
  | skip {r rs w a w'} : (∀ x, ¬ H r x) → Goes H rs w a w' → Goes H (r :: rs) w a w'
  | set {r rs w x a w'} : H r x → ¬ Decides r → Goes H rs (x.over w) a w' → Goes H (r :: rs) w a w'
  | stop {r rs w x} : H r x → Decides r → Goes H (r :: rs) w r.result (x.over w)

theorem goes_total (H : Rule → Withs → Prop) (rs : List Rule) : ∀ w, ∃ a w', Goes H rs w a w' := by
  induction rs with
  | nil => exact fun w => ⟨_, _, .nil⟩
  | cons r rs ih =>
    intro w
    by_cases h : ∃ x, H r x
    · obtain ⟨x, hx⟩ := h
      by_cases hd : Decides r
      · exact ⟨_, _, .stop hx hd⟩
      · obtain ⟨a, w', h'⟩ := ih (x.over w)
        exact ⟨a, w', .set hx hd h'⟩
    · obtain ⟨a, w', h'⟩ := ih w
      exact ⟨a, w', .skip (fun x hx => h ⟨x, hx⟩) h'⟩

theorem lastGiven_snoc_none {W : World} {tr : TransR} {m : Mail} {ph : Phase} {k : WKey} {rs : List Rule} {r : Rule} {v : Option Str}
    (hn : ∀ x, Hits W tr m ph r x → k.of x = none) (h : LastGiven W tr m ph k rs v) : LastGiven W tr m ph k (rs ++ [r]) v := by
  rcases h with ⟨pre, q, post, w, x, rfl, h1, h2, h3, h4⟩ | ⟨rfl, h⟩
  · refine Or.inl ⟨pre, q, post ++ [r], w, x, by simp, h1, h2, h3, ?_⟩
    intro q' hq
    rcases List.mem_append.1 hq with hq | hq
    · exact h4 q' hq
    · rw [List.mem_singleton.1 hq]; exact hn
  · refine Or.inr ⟨rfl, ?_⟩
    intro q' hq
    rcases List.mem_append.1 hq with hq | hq
    · exact h q' hq
    · rw [List.mem_singleton.1 hq]; exact hn

theorem lastGiven_snoc_hit {W : World} {tr : TransR} {m : Mail} {ph : Phase} {k : WKey} {rs : List Rule} {r : Rule} {v : Option Str}
    {x : Withs} (hx : Hits W tr m ph r x) (h : LastGiven W tr m ph k rs v) :
    LastGiven W tr m ph k (rs ++ [r]) (k.of x <|> v) := by
  cases hk : k.of x with
  | none =>
    have h' := lastGiven_snoc_none (r := r) (fun y hy => by rw [hits_unique hy hx]; exact hk) h
    simpa using h'
  | some y => exact Or.inl ⟨rs, r, [], x, y, rfl, hx, hk, rfl, by simp⟩

theorem goes_match {W : World} {tr : TransR} {m : Mail} {ph : Phase} {rs : List Rule} {w w' : Withs} {a : Action}
    (h : Goes (Hits W tr m ph) rs w a w') : ∀ done : List Rule, (∀ q ∈ done, Decides q → ∀ x, ¬ Hits W tr m ph q x) →
      (∀ k : WKey, LastGiven W tr m ph k done (k.of w)) →
      ∃ used, FirstMatch W tr m ph (done ++ rs) used a ∧ ∀ k : WKey, LastGiven W tr m ph k used (k.of w') := by
  induction h with
  | nil => exact fun done h1 h2 => ⟨done, Or.inl ⟨rfl, by simp, by simpa using h1⟩, h2⟩
  | @skip r rs w a w' hn _ ih =>
    intro done h1 h2
    obtain ⟨u, h3, h4⟩ := ih (done ++ [r]) (fun q hq hd => by
      rcases List.mem_append.1 hq with hq | hq
      · exact h1 q hq hd
      · rw [List.mem_singleton.1 hq]; exact hn) (fun k => lastGiven_snoc_none (fun x hx => absurd hx (hn x)) (h2 k))
    exact ⟨u, by simpa using h3, h4⟩
  | @set r rs w x a w' hx hd _ ih =>
    intro done h1 h2
    obtain ⟨u, h3, h4⟩ := ih (done ++ [r]) (fun q hq hd' => by
      rcases List.mem_append.1 hq with hq | hq
      · exact h1 q hq hd'
      · rw [List.mem_singleton.1 hq] at hd'; exact absurd hd' hd)
      (fun k => by rw [Withs.of_over]; exact lastGiven_snoc_hit hx (h2 k))
    exact ⟨u, by simpa using h3, h4⟩
  | @stop r rs w x hx hd =>
    intro done h1 h2
    exact ⟨done ++ [r], Or.inr ⟨done, r, rs, x, rfl, rfl, hd, hx, rfl, h1⟩,
      fun k => by rw [Withs.of_over]; exact lastGiven_snoc_hit hx (h2 k)⟩

/-- What the rules say is found by going through them. -/
theorem says1_goes {E : Env} {rules : List Rule} {l : List Step} {ph : Phase} {e : Evt} {a : Action} {w : Withs} :
    Says1 E rules l ph e a w ↔ Goes (Hits E.W (facts E l) ((heard l).said ph e) ph) rules {} a w := by
  have key : ∀ {a w}, Goes (Hits E.W (facts E l) ((heard l).said ph e) ph) rules {} a w → Says1 E rules l ph e a w := by
    intro a w h
    exact goes_match h [] (by simp) (fun k => Or.inr ⟨by cases k <;> rfl, by simp⟩)
  constructor
  · intro h
    obtain ⟨a', w', h'⟩ := goes_total (Hits E.W (facts E l) ((heard l).said ph e) ph) rules {}
    obtain ⟨rfl, rfl⟩ := h.unique (key h')
    exact h'
  · exact key

/-! ## Interchangeable rules -/

/-- In every situation: the same first match and the same options, from whatever was set before. -/
def Interchangeable (rs rs' : List Rule) : Prop :=
  ∀ W tr m ph w a w', Goes (Hits W tr m ph) rs w a w' ↔ Goes (Hits W tr m ph) rs' w a w'

theorem Interchangeable.refl (rs : List Rule) : Interchangeable rs rs := fun _ _ _ _ _ _ _ => Iff.rfl
theorem Interchangeable.symm {rs rs' : List Rule} (h : Interchangeable rs rs') : Interchangeable rs' rs :=
  fun W tr m ph w a w' => (h W tr m ph w a w').symm
theorem Interchangeable.trans {a b c : List Rule} (h : Interchangeable a b) (h' : Interchangeable b c) : Interchangeable a c :=
  fun W tr m ph w x w' => (h W tr m ph w x w').trans (h' W tr m ph w x w')

/-- Part of a list of rules goes as far as the end, or stops. -/
theorem goes_append {H : Rule → Withs → Prop} {rs ts : List Rule} {w : Withs} {a : Action} {w' : Withs} :
    Goes H (rs ++ ts) w a w' ↔ (∃ w1, Goes H rs w .noresult w1 ∧ Goes H ts w1 a w') ∨ (a ≠ .noresult ∧ Goes H rs w a w') := by
  constructor
  · intro h
    induction rs generalizing w with
    | nil => exact Or.inl ⟨w, .nil, h⟩
    | cons r rs ih =>
      cases h with
      | skip hn h =>
        rcases ih h with ⟨w1, h1, h2⟩ | ⟨h1, h2⟩
        · exact Or.inl ⟨w1, .skip hn h1, h2⟩
        · exact Or.inr ⟨h1, .skip hn h2⟩
      | set hx hd' h =>
        rcases ih h with ⟨w1, h1, h2⟩ | ⟨h1, h2⟩
        · exact Or.inl ⟨w1, .set hx hd' h1, h2⟩
        · exact Or.inr ⟨h1, .set hx hd' h2⟩
      | stop hx hd' => exact Or.inr ⟨hd'.1, .stop hx hd'⟩
  · intro h
    induction rs generalizing w with
    | nil =>
      rcases h with ⟨w1, h1, h2⟩ | ⟨h1, h2⟩
      · cases h1; exact h2
      · cases h2; exact absurd rfl h1
    | cons r rs ih =>
      rcases h with ⟨w1, h1, h2⟩ | ⟨h1, h2⟩
      · generalize hno : Action.noresult = no at h1
        cases h1 with
        | skip hn h => subst hno; exact .skip hn (ih (Or.inl ⟨w1, h, h2⟩))
        | set hx hd' h => subst hno; exact .set hx hd' (ih (Or.inl ⟨w1, h, h2⟩))
        | stop hx hd' => exact absurd hno.symm hd'.1
      · cases h2 with
        | skip hn h => exact .skip hn (ih (Or.inr ⟨h1, h⟩))
        | set hx hd' h => exact .set hx hd' (ih (Or.inr ⟨h1, h⟩))
        | stop hx hd' => exact .stop hx hd'

/-- They can be exchanged in any place among other rules. -/
theorem Interchangeable.among {rs rs' : List Rule} (h : Interchangeable rs rs') (pre post : List Rule) :
    Interchangeable (pre ++ rs ++ post) (pre ++ rs' ++ post) := by
  intro W tr m ph w a w'
  simp only [List.append_assoc]
  rw [goes_append, goes_append]
  have : ∀ w1, Goes (Hits W tr m ph) (rs ++ post) w1 a w' ↔ Goes (Hits W tr m ph) (rs' ++ post) w1 a w' := by
    intro w1
    rw [goes_append, goes_append, h W tr m ph w1 a w']
    simp only [h W tr m ph w1 .noresult]
  simp only [this]

theorem Interchangeable.says1 {rs rs' : List Rule} (h : Interchangeable rs rs') {E : Env} {l : List Step} {ph : Phase} {e : Evt}
    {a : Action} {w : Withs} : Says1 E rs l ph e a w ↔ Says1 E rs' l ph e a w := by
  rw [says1_goes, says1_goes]; exact h ..

theorem Interchangeable.waiting {rs rs' : List Rule} (h : Interchangeable rs rs') {E : Env} {l : List Step}
    {a : Action} {w : Withs} : Waiting E rs l a w ↔ Waiting E rs' l a w := by
  unfold Waiting
  simp only [h.says1]

theorem Interchangeable.ruling1 {rs rs' : List Rule} (h : Interchangeable rs rs') {E : Env} {l : List Step} {ph : Phase} {e : Evt}
    {a : Action} {w : Withs} (hr : Ruling E rs l ph e a w) : Ruling E rs' l ph e a w := by
  cases hr with
  | late h1 h2 h3 => exact .late h1 h2 (h.waiting.1 h3)
  | null h1 h2 h3 h4 => exact .null h1 h2 (h.says1.1 h3) h4
  | plain h1 h2 h3 =>
    refine .plain ?_ (h.says1.1 h2) h3
    simpa only [h.waiting] using h1

/-- **C85.** Exchanging interchangeable rules, in any place of the rules, leaves the ruling on every command the same. -/
theorem C85_exchange {rs rs' : List Rule} (h : Interchangeable rs rs') (pre post : List Rule) (E : Env) (l : List Step) (ph : Phase)
    (e : Evt) (a : Action) (w : Withs) : Ruling E (pre ++ rs ++ post) l ph e a w ↔ Ruling E (pre ++ rs' ++ post) l ph e a w :=
  ⟨(h.among pre post).ruling1, (h.among pre post).symm.ruling1⟩

/-- C85: at the connection too. -/
theorem C85_exchange_connect {rs rs' : List Rule} (h : Interchangeable rs rs') (pre post : List Rule) (W : World) (tr : TransR) (m : Mail)
    (ph : Phase) (a : Action) : (∃ u, FirstMatch W tr m ph (pre ++ rs ++ post) u a) ↔ ∃ u, FirstMatch W tr m ph (pre ++ rs' ++ post) u a := by
  have key : ∀ {ts ts' : List Rule}, Interchangeable ts ts' → (∃ u, FirstMatch W tr m ph ts u a) → ∃ u, FirstMatch W tr m ph ts' u a := by
    rintro ts ts' hi ⟨u, hu⟩
    obtain ⟨a', w', h'⟩ := goes_total (Hits W tr m ph) ts {}
    have h0 : ∀ k : WKey, LastGiven W tr m ph k [] (k.of {}) := fun k => Or.inr ⟨by cases k <;> rfl, by simp⟩
    obtain ⟨u1, h1, -⟩ := goes_match h' [] (by simp) h0
    obtain ⟨rfl, -⟩ := hu.unique h1
    obtain ⟨u2, h2, -⟩ := goes_match ((hi ..).1 h') [] (by simp) h0
    exact ⟨u2, h2⟩
  exact ⟨key (h.among pre post), key (h.among pre post).symm⟩

/-! ## Expressions -/

/-- In every situation both hold or neither, both consult an empty pattern file or neither; and they need the same data. -/
def Alike (e e' : Expr) : Prop :=
  needs e = needs e' ∧ ∀ W tr m, (Holds W tr m e ↔ Holds W tr m e') ∧ (Misses W tr m e ↔ Misses W tr m e')

theorem Alike.refl (e : Expr) : Alike e e := ⟨rfl, fun _ _ _ => ⟨Iff.rfl, Iff.rfl⟩⟩
theorem Alike.symm {e e' : Expr} (h : Alike e e') : Alike e' e := ⟨h.1.symm, fun W tr m => ⟨(h.2 W tr m).1.symm, (h.2 W tr m).2.symm⟩⟩
theorem Alike.trans {a b c : Expr} (h : Alike a b) (h' : Alike b c) : Alike a c :=
  ⟨h.1.trans h'.1, fun W tr m => ⟨(h.2 W tr m).1.trans (h'.2 W tr m).1, (h.2 W tr m).2.trans (h'.2 W tr m).2⟩⟩

/-- C85: parts of an expression can be replaced: of a `not`, ... -/
theorem C85_in_not {e e' : Expr} (h : Alike e e') : Alike (.notN e) (.notN e') := by
  refine ⟨by rw [needs, needs, h.1], fun W tr m => ?_⟩
  rw [Holds, Holds, Misses, Misses, (h.2 W tr m).1, (h.2 W tr m).2]
  exact ⟨Iff.rfl, Iff.rfl⟩

/-- C85: ... of an `or`, ... -/
theorem C85_in_or {a a' b b' : Expr} (h : Alike a a') (h' : Alike b b') : Alike (.orN a b) (.orN a' b') := by
  refine ⟨by rw [needs, needs, h.1, h'.1], fun W tr m => ?_⟩
  rw [Holds, Holds, Misses, Misses, (h.2 W tr m).1, (h.2 W tr m).2, (h'.2 W tr m).1, (h'.2 W tr m).2]
  exact ⟨Iff.rfl, Iff.rfl⟩

/-- C85: ... of an `and`. -/
theorem C85_in_and {es es' : List Expr} (h : List.Forall₂ Alike es es') : Alike (.andL es) (.andL es') := by
  refine ⟨?_, fun W tr m => ?_⟩
  · rw [needs, needs]
    induction h with
    | nil => rfl
    | cons h _ ih => rw [needsL, needsL, h.1, ih]
  · rw [Holds, Holds, Misses, Misses]
    induction h with
    | nil => exact ⟨Iff.rfl, Iff.rfl⟩
    | cons h _ ih =>
      rw [HoldsAll, HoldsAll, MissesAll, MissesAll, (h.2 W tr m).1, (h.2 W tr m).2, ih.1, ih.2]
      exact ⟨Iff.rfl, Iff.rfl⟩

theorem later_none (a : Phase) : later a .any = a := by cases a <;> rfl
theorem later_left (a b : Phase) : later a (later a b) = later a b := by rw [← later_assoc, later_self]

theorem needsL_append (es fs : List Expr) : needsL (es ++ fs) = later (needsL es) (needsL fs) := by
  induction es with
  | nil => rw [List.nil_append, needsL, any_later]
  | cons e es ih => rw [List.cons_append, needsL, needsL, ih, later_assoc]

theorem holdsAll_append {W : World} {tr : TransR} {m : Mail} (es fs : List Expr) :
    HoldsAll W tr m (es ++ fs) ↔ HoldsAll W tr m es ∧ HoldsAll W tr m fs := by
  induction es with
  | nil => simp [HoldsAll]
  | cons e es ih => rw [List.cons_append, HoldsAll, HoldsAll, ih, and_assoc]

theorem missesAll_append {W : World} {tr : TransR} {m : Mail} (es fs : List Expr) :
    MissesAll W tr m (es ++ fs) ↔ MissesAll W tr m es ∨ (HoldsAll W tr m es ∧ MissesAll W tr m fs) := by
  induction es with
  | nil => simp [HoldsAll, MissesAll]
  | cons e es ih => rw [List.cons_append, HoldsAll, MissesAll, MissesAll, ih]; tauto

/-- C85: `not not A` is `A`. -/
theorem C85_not_not (a : Expr) : Alike (.notN (.notN a)) a := by
  refine ⟨by rw [needs, needs], fun W tr m => ?_⟩
  rw [Holds, Holds, Misses, Misses]
  exact ⟨not_not, Iff.rfl⟩

/-- C85: `not (A or B)` is `not A not B`. -/
theorem C85_not_or (a b : Expr) : Alike (.notN (.orN a b)) (.andL [.notN a, .notN b]) := by
  refine ⟨by simp only [needs, needsL, later_none], fun W tr m => ?_⟩
  simp only [Holds, HoldsAll, Misses, MissesAll]
  constructor <;> tauto

/-- C85: `not (A B)` is `not A or not B`. -/
theorem C85_not_and (a b : Expr) : Alike (.notN (.andL [a, b])) (.orN (.notN a) (.notN b)) := by
  refine ⟨by simp only [needs, needsL, later_none], fun W tr m => ?_⟩
  simp only [Holds, HoldsAll, Misses, MissesAll]
  constructor <;> tauto

/-- C85: `(A or B) or C` is `A or (B or C)`. -/
theorem C85_or_assoc (a b c : Expr) : Alike (.orN (.orN a b) c) (.orN a (.orN b c)) := by
  refine ⟨by simp only [needs, later_assoc], fun W tr m => ?_⟩
  simp only [Holds, Misses]
  constructor <;> tauto

/-- C85: parentheses around terms that are anded, among others that are, do not matter. -/
theorem C85_and_parens (es fs gs : List Expr) : Alike (.andL (es ++ .andL fs :: gs)) (.andL (es ++ fs ++ gs)) := by
  refine ⟨by simp only [needs, needsL, needsL_append, later_assoc], fun W tr m => ?_⟩
  simp only [Holds, HoldsAll, Misses, MissesAll, holdsAll_append, missesAll_append]
  constructor <;> tauto

/-- C85: saying something twice is saying it once. -/
theorem C85_or_twice (a : Expr) : Alike (.orN a a) a := by
  refine ⟨by simp only [needs, later_self], fun W tr m => ?_⟩
  simp only [Holds, Misses]
  constructor <;> tauto

theorem C85_and_twice (a : Expr) (es : List Expr) : Alike (.andL (a :: a :: es)) (.andL (a :: es)) := by
  refine ⟨by simp only [needs, needsL, later_left], fun W tr m => ?_⟩
  simp only [Holds, HoldsAll, Misses, MissesAll]
  constructor <;> tauto

/-- C85: `A (B or C)` is `(A B) or (A C)`. -/
theorem C85_distribute (a b c : Expr) : Alike (.andL [a, .orN b c]) (.orN (.andL [a, b]) (.andL [a, c])) := by
  refine ⟨?_, fun W tr m => ?_⟩
  · simp only [needs, needsL, later_none]
    generalize needs a = x, needs b = y, needs c = z
    cases x <;> cases y <;> cases z <;> rfl
  · simp only [Holds, HoldsAll, Misses, MissesAll]
    constructor <;> tauto

/-! ## Operators -/

theorem argFile_at (a : Str) : argFile (b!"@" ++ a) = none := by
  unfold argFile
  have h1 : ¬ b!"/" <+: b!"@" ++ a := by rintro ⟨t, h⟩; cases h
  have h2 : ¬ b!"./" <+: b!"@" ++ a := by rintro ⟨t, h⟩; cases h
  have h3 : ¬ b!"file:" <+: b!"@" ++ a := by rintro ⟨t, h⟩; cases h
  simp [h1, h2, h3]

theorem lower_at (L : Lib) {a : Str} (h : isASCII a = true) : L.lower (b!"@" ++ a) = b!"@" ++ L.lower a := by
  have h' : isASCII (b!"@" ++ a) = true := by
    unfold isASCII at h ⊢
    rw [List.all_append, h]; decide
  unfold Lib.lower toLower
  rw [if_pos h, if_pos h', List.map_append]
  rfl

/-- C85: `source A` is `host A or ehlo A or from @A` (for a pattern in ASCII). -/
theorem C85_source {a : Str} (hf : argFile a = none) (ha : isASCII a = true) :
    Alike (.source a) (.orN (.matchN .host a) (.orN (.matchN .helo a) (.matchN .from_ (b!"@" ++ a)))) := by
  refine ⟨by simp only [needs, opNeeds]; rfl, fun W tr m => ?_⟩
  have h1 : patterns W a = [W.lib.lower a] := by unfold patterns; rw [hf]
  have h2 : patterns W (b!"@" ++ a) = [b!"@" ++ W.lib.lower a] := by unfold patterns; rw [argFile_at, lower_at _ ha]
  have h3 : MatchHolds W tr m .from_ (b!"@" ++ a) ↔ MatchHolds W tr m .sourceFrom a := by
    unfold MatchHolds
    rw [h1, h2]
    simp [subjects, PatMatch]
  simp only [Holds, Misses, h1, h2, h3]
  simp

/-- C85: a list of attributes is the `or` of its members. -/
theorem C85_attributes (k : OKind) (o o' : Opts) : Alike (.optN k (o ||| o')) (.orN (.optN k o) (.optN k o')) := by
  refine ⟨?_, fun W tr m => ?_⟩
  · simp only [needs]
    rw [show opNeeds (.optN k (o ||| o')) = opNeeds (.optN k o) by cases k <;> rfl,
      show opNeeds (.optN k o') = opNeeds (.optN k o) by cases k <;> rfl, later_self]
  · rw [Holds, Holds, Holds, Holds, Misses, Misses, Misses, Misses]
    refine ⟨?_, by simp⟩
    have key : ∀ x : Attr, (o ||| o') &&& x.bit ≠ 0 ↔ o &&& x.bit ≠ 0 ∨ o' &&& x.bit ≠ 0 := by
      intro x
      rw [BitVec.and_comm (o ||| o'), and_or_ne, BitVec.and_comm x.bit, BitVec.and_comm x.bit]
    simp only [key, and_or_left, exists_or]

/-- C85: `dns exists` is `not dns nodns`. -/
theorem C85_dns_exists : Alike (.optN .dns oExists) (.notN (.optN .dns oNodns)) := by
  refine ⟨by simp only [needs, opNeeds], fun W tr m => ?_⟩
  simp only [Holds, Misses]
  refine ⟨?_, by simp⟩
  have h1 : ∀ x : Attr, HasAttr W tr m .dns x → (oExists &&& x.bit ≠ 0 ↔ x = .exists_) := by
    intro x _; cases x <;> decide
  have h2 : ∀ x : Attr, HasAttr W tr m .dns x → (oNodns &&& x.bit ≠ 0 ↔ x = .nodns) := by
    intro x _; cases x <;> decide
  rw [exists_congr fun x => and_congr_right (h1 x), exists_congr fun x => and_congr_right (h2 x)]
  simp [HasAttr, DnsAttr]

/-- C85: `dns good` is `dns exists` and neither `inconsistent` nor `noforward`. -/
theorem C85_dns_good : Alike (.optN .dns oGood) (.notN (.optN .dns (oNodns ||| oInconsist ||| oNofwd))) := by
  refine ⟨by simp only [needs, opNeeds], fun W tr m => ?_⟩
  simp only [Holds, Misses]
  refine ⟨?_, by simp⟩
  have h1 : ∀ x : Attr, HasAttr W tr m .dns x → (oGood &&& x.bit ≠ 0 ↔ x = .good) := by
    intro x _; cases x <;> decide
  have h2 : ∀ x : Attr, HasAttr W tr m .dns x →
      ((oNodns ||| oInconsist ||| oNofwd) &&& x.bit ≠ 0 ↔ x = .nodns ∨ x = .inconsist ∨ x = .nofwd) := by
    intro x _; cases x <;> decide
  rw [exists_congr fun x => and_congr_right (h1 x), exists_congr fun x => and_congr_right (h2 x)]
  simp only [and_or_left, exists_or, exists_eq_right, HasAttr, DnsAttr]
  tauto

/-! ## Order -/

mutual
/-- No pattern of the expression is a file name. -/
def NoFile : Expr → Prop
  | .andL es => NoFileL es
  | .notN e => NoFile e
  | .orN a b => NoFile a ∧ NoFile b
  | .matchN _ a => argFile a = none
  | .source a => argFile a = none
  | .all | .tls _ | .dnsbl _ | .dbl _ _ | .optN _ _ => True
def NoFileL : List Expr → Prop
  | [] => True
  | e :: es => NoFile e ∧ NoFileL es
end

theorem patterns_ne_nil {W : World} {a : Str} (h : argFile a = none) : patterns W a ≠ [] := by
  unfold patterns; rw [h]; simp

mutual
theorem noFile_sure {W : World} {tr : TransR} {m : Mail} : ∀ e : Expr, NoFile e → ¬ Misses W tr m e
  | .andL es, h => by rw [Misses]; exact noFileL_sure es (by rwa [NoFile] at h)
  | .notN e, h => by rw [Misses]; exact noFile_sure e (by rwa [NoFile] at h)
  | .orN a b, h => by
    rw [NoFile] at h
    rw [Misses]
    rintro (hm | ⟨-, hm⟩)
    · exact noFile_sure a h.1 hm
    · exact noFile_sure b h.2 hm
  | .matchN k a, h => by rw [Misses]; exact patterns_ne_nil (by rwa [NoFile] at h)
  | .source a, h => by rw [Misses]; exact patterns_ne_nil (by rwa [NoFile] at h)
  | .all, _ => by rw [Misses]; exact id
  | .tls _, _ => by rw [Misses]; exact id
  | .dnsbl _, _ => by rw [Misses]; exact id
  | .dbl _ _, _ => by rw [Misses]; exact id
  | .optN _ _, _ => by rw [Misses]; exact id
theorem noFileL_sure {W : World} {tr : TransR} {m : Mail} : ∀ es : List Expr, NoFileL es → ¬ MissesAll W tr m es
  | [], _ => by rw [MissesAll]; exact id
  | e :: es, h => by
    rw [NoFileL] at h
    rw [MissesAll]
    rintro (hm | ⟨-, hm⟩)
    · exact noFile_sure e h.1 hm
    · exact noFileL_sure es h.2 hm
end

/-- C85: without pattern files, the order of the sides of an `or` does not matter. -/
theorem C85_or_comm {a b : Expr} (ha : NoFile a) (hb : NoFile b) : Alike (.orN a b) (.orN b a) := by
  refine ⟨by rw [needs, needs, later_comm], fun W tr m => ⟨by rw [Holds, Holds, or_comm], ?_⟩⟩
  have h1 : NoFile (.orN a b) := by rw [NoFile]; exact ⟨ha, hb⟩
  have h2 : NoFile (.orN b a) := by rw [NoFile]; exact ⟨hb, ha⟩
  exact iff_of_false (noFile_sure _ h1) (noFile_sure _ h2)

theorem noFileL_all {es : List Expr} : NoFileL es ↔ ∀ e ∈ es, NoFile e := by
  induction es with
  | nil => simp [NoFileL]
  | cons e es ih => simp [NoFileL, ih]

theorem holdsAll_all {W : World} {tr : TransR} {m : Mail} {es : List Expr} : HoldsAll W tr m es ↔ ∀ e ∈ es, Holds W tr m e := by
  induction es with
  | nil => simp [HoldsAll]
  | cons e es ih => simp [HoldsAll, ih]

/-- C85: without pattern files, the order of terms that are anded does not matter. -/
theorem C85_and_order {es es' : List Expr} (hn : ∀ e ∈ es, NoFile e) (hp : es.Perm es') : Alike (.andL es) (.andL es') := by
  refine ⟨?_, fun W tr m => ⟨?_, ?_⟩⟩
  · rw [needs, needs]
    clear hn
    induction hp with
    | nil => rfl
    | cons x _ ih => rw [needsL, needsL, ih]
    | swap x y l => rw [needsL, needsL, needsL, needsL, ← later_assoc, ← later_assoc, later_comm (needs x)]
    | trans _ _ h1 h2 => exact h1.trans h2
  · rw [Holds, Holds, holdsAll_all, holdsAll_all]
    exact ⟨fun h e he => h e (hp.mem_iff.2 he), fun h e he => h e (hp.mem_iff.1 he)⟩
  · have h1 : NoFile (.andL es) := by rw [NoFile, noFileL_all]; exact hn
    have h2 : NoFile (.andL es') := by rw [NoFile, noFileL_all]; exact fun e he => hn e (hp.mem_iff.2 he)
    exact iff_of_false (noFile_sure _ h1) (noFile_sure _ h2)

/-! ## Rules -/

/-- The rule with this phase (if any), action and clauses, as parsed (`FromParse.requires`). -/
def ruleOf (d : Phase) (a : Action) (cs : List RClause) : Rule := ⟨cs, a, needsC cs, d⟩

theorem interchangeable_one {r r' : Rule} (ha : r.result = r'.result) (hh : ∀ W tr m ph x, Hits W tr m ph r x ↔ Hits W tr m ph r' x) :
    Interchangeable [r] [r'] := by
  have key : ∀ {r r' : Rule}, r.result = r'.result → (∀ W tr m ph x, Hits W tr m ph r x ↔ Hits W tr m ph r' x) → ∀ {W tr m ph w a w'},
      Goes (Hits W tr m ph) [r] w a w' → Goes (Hits W tr m ph) [r'] w a w' := by
    intro r r' ha hh W tr m ph w a w' h
    have hd : Decides r ↔ Decides r' := by unfold Decides; rw [ha]
    cases h with
    | skip hn h => exact .skip (fun x => (hh ..).not.1 (hn x)) h
    | set hx hd' h => exact .set ((hh ..).1 hx) (hd.not.1 hd') h
    | stop hx hd' => rw [ha]; exact .stop ((hh ..).1 hx) (hd.1 hd')
  exact fun W tr m ph w a w' => ⟨key ha hh, key ha.symm fun W tr m ph x => (hh W tr m ph x).symm⟩

theorem ruleTo_congr {r r' : Rule} (hr : r.requires = r'.requires)
    (hc : ∀ W tr m o, ClausesTo W tr m r.clauses o ↔ ClausesTo W tr m r'.clauses o) (W : World) (tr : TransR) (m : Mail) (ph : Phase)
    (o : Outcome) : RuleTo W tr m ph r o ↔ RuleTo W tr m ph r' o := by
  unfold RuleTo
  rw [hr, hc]
  split
  · have key : ∀ {r r' : Rule} {as : List Str} {o}, (∀ W tr m o, ClausesTo W tr m r.clauses o ↔ ClausesTo W tr m r'.clauses o) →
        RcptsTo W tr m r as o → RcptsTo W tr m r' as o := by
      intro r r' as o hc h
      induction h with
      | nil => exact .nil
      | stop h1 h2 => exact .stop ((hc ..).1 h1) h2
      | next h1 _ ih => exact .next ((hc ..).1 h1) ih
    exact ⟨key hc, key fun W tr m o => (hc W tr m o).symm⟩
  · exact Iff.rfl

theorem hits_congr {d : Phase} {a : Action} {cs cs' : List RClause} (hn : needsC cs = needsC cs')
    (hc : ∀ W tr m o, ClausesTo W tr m cs o ↔ ClausesTo W tr m cs' o) : Interchangeable [ruleOf d a cs] [ruleOf d a cs'] := by
  refine interchangeable_one rfl fun W tr m ph x => ?_
  unfold Hits
  rw [ruleTo_congr (r := ruleOf d a cs) (r' := ruleOf d a cs') hn hc]
  unfold Eligible ruleOf
  rw [hn]

/-- C85: in a rule, expressions can be replaced by others like them. -/
theorem C85_in_rule (d : Phase) (a : Action) {cs cs' : List RClause}
    (h : List.Forall₂ (fun c c' => Alike c.expr c'.expr ∧ c.withs = c'.withs) cs cs') :
    Interchangeable [ruleOf d a cs] [ruleOf d a cs'] := by
  have h' : List.Forall₂ (fun c c' => Alike c.expr c'.expr ∧ c.withs = c'.withs) cs' cs :=
    h.flip.imp fun _ _ hx => ⟨hx.1.symm, hx.2.symm⟩
  have key : ∀ {cs cs' : List RClause}, List.Forall₂ (fun c c' => Alike c.expr c'.expr ∧ c.withs = c'.withs) cs cs' →
      ∀ {W tr m o}, ClausesTo W tr m cs o → ClausesTo W tr m cs' o := by
    intro cs cs' h W tr m o hc
    induction h with
    | nil => exact hc
    | cons hx _ ih =>
      have hx1 := hx.1.2 W tr m
      cases hc with
      | miss h1 => exact .miss (hx1.2.1 h1)
      | hit h1 h2 => rw [hx.2]; exact .hit (hx1.2.not.1 h1) (hx1.1.1 h2)
      | next h1 h2 h3 => exact .next (hx1.2.not.1 h1) (hx1.1.not.1 h2) (ih h3)
  refine hits_congr ?_ fun W tr m o => ⟨key h, key h'⟩
  clear h'
  induction h with
  | nil => rfl
  | cons hx _ ih => rw [needsC, needsC, hx.1.1, ih]

/-- C85: two clauses in a row with the same options are one with an `or`. -/
theorem C85_clauses_or (d : Phase) (a : Action) (e e' : Expr) (w : Withs) (pre post : List RClause) :
    Interchangeable [ruleOf d a (pre ++ ⟨e, w⟩ :: ⟨e', w⟩ :: post)] [ruleOf d a (pre ++ ⟨.orN e e', w⟩ :: post)] := by
  apply hits_congr
  · induction pre with
    | nil => simp only [List.nil_append, needsC, needs, later_assoc]
    | cons c pre ih => simp only [List.cons_append, needsC, ih]
  · intro W tr m o
    induction pre with
    | nil =>
      simp only [List.nil_append]
      constructor
      · intro h
        cases h with
        | miss h1 => exact .miss (by rw [Misses]; exact Or.inl h1)
        | hit h1 h2 => exact .hit (by rw [Misses]; tauto) (by rw [Holds]; exact Or.inl h2)
        | next h1 h2 h =>
          cases h with
          | miss h3 => exact .miss (by rw [Misses]; exact Or.inr ⟨h2, h3⟩)
          | hit h3 h4 => exact .hit (by rw [Misses]; tauto) (by rw [Holds]; exact Or.inr h4)
          | next h3 h4 h => exact .next (by rw [Misses]; tauto) (by rw [Holds]; tauto) h
      · intro h
        cases h with
        | miss h1 =>
          rw [Misses] at h1
          by_cases hm : Misses W tr m e
          · exact .miss hm
          · obtain ⟨h2, h3⟩ := h1.resolve_left hm
            exact .next hm h2 (.miss h3)
        | hit h1 h2 =>
          rw [Misses] at h1
          rw [Holds] at h2
          by_cases hh : Holds W tr m e
          · exact .hit (fun hm => h1 (Or.inl hm)) hh
          · exact .next (fun hm => h1 (Or.inl hm)) hh (.hit (fun hm => h1 (Or.inr ⟨hh, hm⟩)) (h2.resolve_left hh))
        | next h1 h2 h =>
          rw [Misses] at h1
          rw [Holds] at h2
          exact .next (fun hm => h1 (Or.inl hm)) (fun hh => h2 (Or.inl hh))
            (.next (fun hm => h1 (Or.inr ⟨fun hh => h2 (Or.inl hh), hm⟩)) (fun hh => h2 (Or.inr hh)) h)
    | cons c pre ih =>
      simp only [List.cons_append]
      constructor
      · intro h
        cases h with
        | miss h1 => exact .miss h1
        | hit h1 h2 => exact .hit h1 h2
        | next h1 h2 h => exact .next h1 h2 (ih.1 h)
      · intro h
        cases h with
        | miss h1 => exact .miss h1
        | hit h1 h2 => exact .hit h1 h2
        | next h1 h2 h => exact .next h1 h2 (ih.2 h)

theorem goes_unique {W : World} {tr : TransR} {m : Mail} {ph : Phase} {rs : List Rule} {w : Withs} {a a' : Action} {w1 w2 : Withs}
    (h : Goes (Hits W tr m ph) rs w a w1) (h' : Goes (Hits W tr m ph) rs w a' w2) : a = a' ∧ w1 = w2 := by
  induction h with
  | nil => cases h'; exact ⟨rfl, rfl⟩
  | skip hn _ ih =>
    cases h' with
    | skip _ h => exact ih h
    | set hx => exact absurd hx (hn _)
    | stop hx => exact absurd hx (hn _)
  | set hx hd _ ih =>
    cases h' with
    | skip hn => exact absurd hx (hn _)
    | set hx' _ h => rw [hits_unique hx' hx] at h; exact ih h
    | stop _ hd' => exact absurd hd' hd
  | stop hx hd =>
    cases h' with
    | skip hn => exact absurd hx (hn _)
    | set _ hd' => exact absurd hd hd'
    | stop hx' _ => rw [hits_unique hx' hx]; exact ⟨rfl, rfl⟩

theorem interchangeable_of {rs rs' : List Rule}
    (h : ∀ W tr m ph w a w', Goes (Hits W tr m ph) rs w a w' → Goes (Hits W tr m ph) rs' w a w') : Interchangeable rs rs' := by
  intro W tr m ph w a w'
  refine ⟨h W tr m ph w a w', fun h' => ?_⟩
  obtain ⟨b, w1, hb⟩ := goes_total (Hits W tr m ph) rs w
  obtain ⟨rfl, rfl⟩ := goes_unique (h _ _ _ _ _ _ _ hb) h'
  exact hb

/-- What a rule looks at: the recipients in turn, or what has been said. -/
def AtHand (tr : TransR) (m : Mail) (ph n : Phase) (P : Mail → Prop) : Prop :=
  if ph > .rto ∧ n ≥ .rto then ∃ y ∈ tr.rcptto, P { m with rcptto := y } else P m

theorem clausesTo_one {W : World} {tr : TransR} {m : Mail} {e : Expr} (he : NoFile e) {w : Withs} {o : Outcome} :
    ClausesTo W tr m [⟨e, w⟩] o ↔ (Holds W tr m e ∧ o = .hit w) ∨ (¬ Holds W tr m e ∧ o = .no) := by
  constructor
  · intro h
    cases h with
    | miss h1 => exact absurd h1 (noFile_sure e he)
    | hit h1 h2 => exact Or.inl ⟨h2, rfl⟩
    | next h1 h2 h => cases h; exact Or.inr ⟨h2, rfl⟩
  · rintro (⟨h, rfl⟩ | ⟨h, rfl⟩)
    · exact .hit (noFile_sure e he) h
    · exact .next (noFile_sure e he) h .nil

theorem hits_one {W : World} {tr : TransR} {m : Mail} {ph d : Phase} {a : Action} {e : Expr} (he : NoFile e) {w x : Withs} :
    Hits W tr m ph (ruleOf d a [⟨e, w⟩]) x ↔
      (needs e ≤ ph ∧ (d = .any ∨ d = ph)) ∧ x = w ∧ AtHand tr m ph (needs e) fun m => Holds W tr m e := by
  unfold Hits Eligible RuleTo AtHand
  simp only [ruleOf, needsC, later_none]
  refine and_congr_right fun _ => ?_
  split
  · generalize tr.rcptto = as
    induction as with
    | nil =>
      constructor
      · intro h; cases h
      · rintro ⟨-, y, hy, -⟩; cases hy
    | cons y as ih =>
      constructor
      · intro h
        cases h with
        | stop h1 h2 =>
          rcases (clausesTo_one he).1 h1 with ⟨h3, h4⟩ | ⟨-, h4⟩
          · cases h4; exact ⟨rfl, y, by simp, h3⟩
          · cases h4
        | next h1 h2 =>
          obtain ⟨h3, z, hz, h4⟩ := ih.1 h2
          exact ⟨h3, z, by simp [hz], h4⟩
      · rintro ⟨rfl, z, hz, h4⟩
        by_cases hy : Holds W tr { m with rcptto := y } e
        · exact .stop ((clausesTo_one he).2 (Or.inl ⟨hy, rfl⟩)) (by simp)
        · refine .next ((clausesTo_one he).2 (Or.inr ⟨hy, rfl⟩)) (ih.2 ⟨rfl, z, ?_, h4⟩)
          rcases List.mem_cons.1 hz with rfl | hz
          · exact absurd h4 hy
          · exact hz
  · rw [clausesTo_one he]
    constructor
    · rintro (⟨h, h'⟩ | ⟨-, h'⟩)
      · cases h'; exact ⟨rfl, h⟩
      · cases h'
    · rintro ⟨rfl, h⟩
      exact Or.inl ⟨h, rfl⟩

/-- C85: a rule with an `or` is two rules, if both sides need the same data and there are no pattern files. -/
theorem C85_or_rules (d : Phase) (a : Action) {e e' : Expr} (w : Withs) (hn : needs e = needs e') (he : NoFile e) (he' : NoFile e') :
    Interchangeable [ruleOf d a [⟨.orN e e', w⟩]] [ruleOf d a [⟨e, w⟩], ruleOf d a [⟨e', w⟩]] := by
  have hor : NoFile (.orN e e') := by rw [NoFile]; exact ⟨he, he'⟩
  have hP : ∀ (W : World) (tr : TransR) (m : Mail) (ph : Phase) (x : Withs), Hits W tr m ph (ruleOf d a [⟨.orN e e', w⟩]) x ↔
      Hits W tr m ph (ruleOf d a [⟨e, w⟩]) x ∨ Hits W tr m ph (ruleOf d a [⟨e', w⟩]) x := by
    intro W tr m ph x
    rw [hits_one hor, hits_one he, hits_one he']
    simp only [needs, hn, later_self, ← and_or_left, AtHand, Holds]
    refine and_congr_right fun _ => and_congr_right fun _ => ?_
    split
    · simp only [and_or_left, exists_or]
    · exact Iff.rfl
  have hw : ∀ {f : Expr} (_ : NoFile f) {W tr m ph x}, Hits W tr m ph (ruleOf d a [⟨f, w⟩]) x → x = w :=
    fun hf => fun h => ((hits_one hf).1 h).2.1
  apply interchangeable_of
  intro W tr m ph w0 b w' h
  cases h with
  | skip hx h =>
    have hx' := fun x => not_or.1 ((hP W tr m ph x).not.1 (hx x))
    exact .skip (fun x => (hx' x).1) (.skip (fun x => (hx' x).2) h)
  | @set _ _ _ x _ _ hx hd h =>
    cases hw hor hx
    cases h
    rcases (hP ..).1 hx with h1 | h1
    · by_cases h2 : Hits W tr m ph (ruleOf d a [⟨e', w⟩]) w
      · have := Goes.set (H := Hits W tr m ph) (rs := [ruleOf d a [⟨e', w⟩]]) (w := w0) h1 hd (.set h2 hd .nil)
        rwa [Withs.over_self_over] at this
      · exact .set h1 hd (.skip (fun x hx => h2 (by rw [hw he' hx] at hx; exact hx)) .nil)
    · by_cases h2 : Hits W tr m ph (ruleOf d a [⟨e, w⟩]) w
      · have := Goes.set (H := Hits W tr m ph) (rs := [ruleOf d a [⟨e', w⟩]]) (w := w0) h2 hd (.set h1 hd .nil)
        rwa [Withs.over_self_over] at this
      · exact .skip (fun x hx => h2 (by rw [hw he hx] at hx; exact hx)) (.set h1 hd .nil)
  | @stop _ _ _ x hx hd =>
    cases hw hor hx
    rcases (hP ..).1 hx with h1 | h1
    · exact .stop h1 hd
    · by_cases h2 : Hits W tr m ph (ruleOf d a [⟨e, w⟩]) w
      · exact .stop h2 hd
      · exact .skip (fun x hx => h2 (by rw [hw he hx] at hx; exact hx)) (.stop h1 hd)

theorem ruleTo_early {W : World} {tr : TransR} {m : Mail} {ph : Phase} {r : Rule} (h : r.requires < .rto) {o : Outcome} :
    RuleTo W tr m ph r o ↔ ClausesTo W tr m r.clauses o := by
  unfold RuleTo
  rw [if_neg]
  rintro ⟨-, h'⟩
  exact absurd h (Nat.not_lt.2 h')

/-- C85: a rule with clauses separated by `;` is as many rules, if it decides, is not about recipients, and all need the same data. -/
theorem C85_clauses_rules (d : Phase) {a : Action} (ha : a ≠ .noresult ∧ a ≠ .error) {c : RClause} {cs : List RClause}
    (hn : needs c.expr = needsC cs) (hr : needs c.expr < .rto) (hc : NoFile c.expr) :
    Interchangeable [ruleOf d a (c :: cs)] [ruleOf d a [c], ruleOf d a cs] := by
  have n1 : needsC (c :: cs) = needs c.expr := by rw [needsC, ← hn, later_self]
  have n2 : needsC [c] = needs c.expr := by rw [needsC, needsC, later_none]
  have e1 : ∀ {W tr m ph x}, Hits W tr m ph (ruleOf d a (c :: cs)) x ↔
      (needs c.expr ≤ ph ∧ (d = .any ∨ d = ph)) ∧ ClausesTo W tr m (c :: cs) (.hit x) := by
    intro W tr m ph x
    unfold Hits
    rw [ruleTo_early (r := ruleOf d a (c :: cs)) (show needsC (c :: cs) < .rto by rw [n1]; exact hr)]
    unfold Eligible ruleOf
    rw [n1]
  have e2 : ∀ {W tr m ph x}, Hits W tr m ph (ruleOf d a [c]) x ↔
      (needs c.expr ≤ ph ∧ (d = .any ∨ d = ph)) ∧ ClausesTo W tr m [c] (.hit x) := by
    intro W tr m ph x
    unfold Hits
    rw [ruleTo_early (r := ruleOf d a [c]) (show needsC [c] < .rto by rw [n2]; exact hr)]
    unfold Eligible ruleOf
    rw [n2]
  have e3 : ∀ {W tr m ph x}, Hits W tr m ph (ruleOf d a cs) x ↔
      (needs c.expr ≤ ph ∧ (d = .any ∨ d = ph)) ∧ ClausesTo W tr m cs (.hit x) := by
    intro W tr m ph x
    unfold Hits
    rw [ruleTo_early (r := ruleOf d a cs) (show needsC cs < .rto by rw [← hn]; exact hr)]
    unfold Eligible ruleOf
    rw [← hn]
  have hd : ∀ cs, Decides (ruleOf d a cs) := fun _ => ha
  apply interchangeable_of
  intro W tr m ph w0 b w' h
  cases h with
  | skip hx h =>
    refine .skip (fun x hh => ?_) (.skip (fun x hh => ?_) h)
    · obtain ⟨h1, h2⟩ := e2.1 hh
      cases h2 with
      | hit h3 h4 => exact hx _ (e1.2 ⟨h1, .hit h3 h4⟩)
      | next _ _ h5 => cases h5
    · obtain ⟨h1, h2⟩ := e3.1 hh
      by_cases hh : Holds W tr m c.expr
      · exact hx _ (e1.2 ⟨h1, .hit (noFile_sure _ hc) hh⟩)
      · exact hx _ (e1.2 ⟨h1, .next (noFile_sure _ hc) hh h2⟩)
  | set _ hd' => exact absurd (hd _) hd'
  | stop hx _ =>
    obtain ⟨h1, h2⟩ := e1.1 hx
    cases h2 with
    | hit h3 h4 => exact .stop (e2.2 ⟨h1, .hit h3 h4⟩) (hd _)
    | next h3 h4 h5 =>
      refine .skip (fun x hh => ?_) (.stop (e3.2 ⟨h1, h5⟩) (hd _))
      obtain ⟨-, h6⟩ := e2.1 hh
      cases h6 with
      | hit _ h7 => exact h4 h7
      | next _ _ h7 => cases h7

/-- C85: a rule that comes after one that decides whenever it would match can be left out. -/
theorem C85_covered {r r' : Rule} (hd : Decides r) (hc : ∀ W tr m ph x, Hits W tr m ph r' x → ∃ y, Hits W tr m ph r y) (mid : List Rule) :
    Interchangeable (r :: mid ++ [r']) (r :: mid) := by
  apply interchangeable_of
  intro W tr m ph w0 b w' h
  rw [List.cons_append] at h
  cases h with
  | set _ hd' => exact absurd hd hd'
  | stop hx _ => exact .stop hx hd
  | skip hx h =>
    refine .skip hx ?_
    rcases goes_append.1 h with ⟨w1, h1, h2⟩ | ⟨-, h1⟩
    · cases h2 with
      | skip _ h3 => cases h3; exact h1
      | set hx' => obtain ⟨y, hy⟩ := hc _ _ _ _ _ hx'; exact absurd hy (hx y)
      | stop hx' => obtain ⟨y, hy⟩ := hc _ _ _ _ _ hx'; exact absurd hy (hx y)
    · exact h1

/-- C85: so the second of two equal rules that decide can be left out. -/
theorem C85_twice {r : Rule} (hd : Decides r) (mid : List Rule) : Interchangeable (r :: mid ++ [r]) (r :: mid) :=
  C85_covered hd (fun _ _ _ _ x hx => ⟨x, hx⟩) mid

/-- C85: after `A` decided, a rule about `A` and more that needs no other data is not reached. -/
theorem C85_narrower {d : Phase} {a a' : Action} (ha : a ≠ .noresult ∧ a ≠ .error) {e : Expr} {es : List Expr} (w w' : Withs)
    (hn : needs e = needsL (e :: es)) (he : NoFile e) (hes : ∀ f ∈ es, NoFile f) (mid : List Rule) :
    Interchangeable (ruleOf d a [⟨e, w⟩] :: mid ++ [ruleOf d a' [⟨.andL (e :: es), w'⟩]]) (ruleOf d a [⟨e, w⟩] :: mid) := by
  refine C85_covered (show Decides (ruleOf d a [⟨e, w⟩]) from ha) (fun W tr m ph x hx => ⟨w, ?_⟩) mid
  have hl : NoFile (.andL (e :: es)) := by
    rw [NoFile, noFileL_all]
    intro f hf
    rcases List.mem_cons.1 hf with rfl | hf
    · exact he
    · exact hes f hf
  obtain ⟨h1, -, h2⟩ := (hits_one hl).1 hx
  rw [needs, ← hn] at h1 h2
  refine (hits_one he).2 ⟨h1, rfl, ?_⟩
  unfold AtHand at h2 ⊢
  simp only [Holds, HoldsAll] at h2
  split at h2
  · rename_i h3
    rw [if_pos h3]
    obtain ⟨y, hy, h4, -⟩ := h2
    exact ⟨y, hy, h4⟩
  · rename_i h3
    rw [if_neg h3]
    exact h2.1

/-- C85: a rule that never matches can be left out. -/
theorem C85_never {r : Rule} (h : ∀ W tr m ph x, ¬ Hits W tr m ph r x) : Interchangeable [r] [] := by
  apply interchangeable_of
  intro W tr m ph w0 b w' hg
  cases hg with
  | skip _ h => exact h
  | set hx => exact absurd hx (h _ _ _ _ _)
  | stop hx => exact absurd hx (h _ _ _ _ _)

theorem addrMatch_full {n p l d : Str} (hp : IsAddr p l d) (h : AddrMatch n p) : n = p := by
  obtain ⟨rfl, h1, h2, h3⟩ := hp
  have nod : ∀ {a : Str}, c!"@" ∉ a → l ++ c!"@" :: d ≠ a ++ b!"@" := fun ha he => h3 (split_unique he h1 ha).2
  have nol : ∀ {x : Str}, l ++ c!"@" :: d ≠ b!"@" ++ x := by
    intro x he
    cases l with
    | nil => exact h2 rfl
    | cons y l => simp at he; exact h1 (by simp [he.1])
  generalize hq : l ++ c!"@" :: d = q at h
  cases h with
  | self => rfl
  | null =>
    have : c!"@" ∈ b!"<>" := by rw [← hq]; simp
    exact absurd this (by decide)
  | name _ h => exact absurd hq (nod h)
  | local_ h => exact absurd hq (nod h.2.1)
  | domain _ => exact absurd hq nol
  | any _ => exact absurd hq (nol (x := []))
  | @tail _ _ _ t _ _ => exact absurd hq (nol (x := b!"." ++ t))

/-- C85: `to A to B` for two different addresses never matches (doc.go: all recipients are checked one by one), nor does `from A from B`. -/
theorem C85_two_addresses (d : Phase) (a : Action) {k : MKind} (hk : k = .to ∨ k = .from_) {x y l1 d1 l2 d2 : Str} (w : Withs)
    (hx : IsAddr (x.map lowerByte) l1 d1) (hy : IsAddr (y.map lowerByte) l2 d2) (hne : x.map lowerByte ≠ y.map lowerByte)
    (ax : isASCII x = true) (ay : isASCII y = true) (fx : argFile x = none) (fy : argFile y = none) :
    Interchangeable [ruleOf d a [⟨.andL [.matchN k x, .matchN k y], w⟩]] [] := by
  have hno : ∀ W tr m, ¬ Holds W tr m (.andL [.matchN k x, .matchN k y]) := by
    intro W tr m h
    simp only [Holds, HoldsAll, and_true] at h
    have lx : patterns W x = [x.map lowerByte] := by
      unfold patterns; rw [fx]; simp only [Lib.lower, toLower, ax, if_true]
    have ly : patterns W y = [y.map lowerByte] := by
      unfold patterns; rw [fy]; simp only [Lib.lower, toLower, ay, if_true]
    unfold MatchHolds at h
    rw [lx, ly] at h
    rcases hk with rfl | rfl <;>
      · simp only [subjects, PatMatch, List.mem_singleton, exists_eq_left] at h
        exact hne ((addrMatch_full hx h.1).symm.trans (addrMatch_full hy h.2))
  have hf : NoFile (.andL [.matchN k x, .matchN k y]) := by
    simp only [NoFile, NoFileL]; exact ⟨fx, fy, trivial⟩
  refine C85_never fun W tr m ph z hz => ?_
  obtain ⟨-, -, h⟩ := (hits_one hf).1 hz
  unfold AtHand at h
  split at h
  · obtain ⟨y, -, h⟩ := h
    exact hno _ _ _ h
  · exact hno _ _ _ h

theorem hits_withs {W : World} {tr : TransR} {m : Mail} {ph : Phase} {r : Rule} {x : Withs} (h : Hits W tr m ph r x) :
    ∃ c ∈ r.clauses, c.withs = x := by
  have key : ∀ {m : Mail} {cs : List RClause} {o}, ClausesTo W tr m cs o → o = .hit x → ∃ c ∈ cs, c.withs = x := by
    intro m cs o h
    induction h with
    | nil => intro h; cases h
    | miss => intro h; cases h
    | hit => intro h; cases h; exact ⟨_, by simp, rfl⟩
    | next _ _ _ ih => intro h; obtain ⟨c, hc, h⟩ := ih h; exact ⟨c, by simp [hc], h⟩
  obtain ⟨-, h⟩ := h
  unfold RuleTo at h
  split at h
  · generalize ho : Outcome.hit x = o, tr.rcptto = as at h
    induction h with
    | nil => cases ho
    | stop h1 _ => exact key h1 ho.symm
    | next _ _ ih => exact ih ho
  · exact key h rfl

/-- C85: rules with the same action and the same options (or none) can stand in any order. -/
theorem C85_order {a : Action} (ha : a ≠ .noresult ∧ a ≠ .error) {x : Withs} {rs rs' : List Rule}
    (h : ∀ r ∈ rs, r.result = a ∧ ∀ c ∈ r.clauses, c.withs = x) (hp : rs.Perm rs') : Interchangeable rs rs' := by
  have key : ∀ {rs : List Rule}, (∀ r ∈ rs, r.result = a ∧ ∀ c ∈ r.clauses, c.withs = x) → ∀ {W tr m ph w b w'},
      (Goes (Hits W tr m ph) rs w b w' ↔ ((∃ r ∈ rs, ∃ y, Hits W tr m ph r y) ∧ b = a ∧ w' = x.over w) ∨
        ((∀ r ∈ rs, ∀ y, ¬ Hits W tr m ph r y) ∧ b = .noresult ∧ w' = w)) := by
    intro rs h W tr m ph w b w'
    have hx : ∀ {r y}, r ∈ rs → Hits W tr m ph r y → y = x := by
      intro r y hr hy
      obtain ⟨c, hc, rfl⟩ := hits_withs hy
      exact (h r hr).2 c hc
    induction rs with
    | nil =>
      constructor
      · intro hg; cases hg; exact Or.inr ⟨by simp, rfl, rfl⟩
      · rintro (⟨⟨r, hr, -⟩, -⟩ | ⟨-, rfl, rfl⟩)
        · cases hr
        · exact .nil
    | cons r rs ih =>
      have ih := ih (fun q hq => h q (by simp [hq])) fun hr hy => hx (by simp [hr]) hy
      by_cases hr : ∃ y, Hits W tr m ph r y
      · obtain ⟨y, hy⟩ := hr
        cases hx (by simp) hy
        have hg : Goes (Hits W tr m ph) (r :: rs) w a (x.over w) := by
          have := Goes.stop (rs := rs) (w := w) hy (show Decides r by unfold Decides; rw [(h r (by simp)).1]; exact ha)
          rwa [(h r (by simp)).1] at this
        constructor
        · intro hg'
          obtain ⟨rfl, rfl⟩ := goes_unique hg hg'
          exact Or.inl ⟨⟨r, by simp, x, hy⟩, rfl, rfl⟩
        · rintro (⟨-, rfl, rfl⟩ | ⟨hn, -⟩)
          · exact hg
          · exact absurd hy (hn r (by simp) _)
      · have hr := not_exists.1 hr
        constructor
        · intro hg
          cases hg with
          | skip _ hg =>
            rcases ih.1 hg with ⟨⟨q, hq, hy⟩, h2⟩ | ⟨hn, h2⟩
            · exact Or.inl ⟨⟨q, by simp [hq], hy⟩, h2⟩
            · refine Or.inr ⟨fun q hq => ?_, h2⟩
              rcases List.mem_cons.1 hq with rfl | hq
              · exact hr
              · exact hn q hq
          | set hy => exact absurd hy (hr _)
          | stop hy => exact absurd hy (hr _)
        · rintro (⟨⟨q, hq, y, hy⟩, h2⟩ | ⟨hn, h2⟩)
          · rcases List.mem_cons.1 hq with rfl | hq
            · exact absurd hy (hr _)
            · exact .skip hr (ih.2 (Or.inl ⟨⟨q, hq, y, hy⟩, h2⟩))
          · exact .skip hr (ih.2 (Or.inr ⟨fun q hq => hn q (by simp [hq]), h2⟩))
  intro W tr m ph w b w'
  rw [key h, key fun r hr => h r (hp.mem_iff.2 hr)]
  simp only [hp.mem_iff]

/-! ## Connections -/

/-- **C85.** Every command of a connection is answered as the rules, written in any interchangeable way, say. -/
theorem C85_answers {o : BaseOpts} {cf : Conf} (hb : Built o cf) {E : Env} (hs : E.W.Static) {l : List Step} {s : Sess} (h : Life cf E l s) :
    ∃ rules, Loaded cf E s.stall rules ∧ ∀ rules', Interchangeable rules rules' → ∀ l1 st l2 ph e id, l = l1 ++ st :: l2 →
      st.asked = some (ph, e, id) → ∃ a w, Ruling E rules' l1 ph e a w ∧ st.post.c.withprops = w ∧
        (sent st.out = answerTo ph a (w.message.getD []) id (envelope l1).rcpts ∧ st.post.pc = .ready ∨
         (a = .noresult ∨ a = .accept) ∧ st.rsetDrop) := by
  obtain ⟨rules, h1, h2⟩ := C76_answers hb hs h
  refine ⟨rules, h1, fun rules' hi l1 st l2 ph e id hl ha => ?_⟩
  obtain ⟨a, w, h3, h4⟩ := h2 l1 st l2 ph e id hl ha
  exact ⟨a, w, hi.ruling1 h3, h4⟩

/-! ## Examples, and where the laws end -/

/-- The two ways of writing are what is parsed, and the law applies. -/
example : parse demoLib (fun _ _ => .notExist []) 5 [] b!"@data reject from a@x.com or not tls on with note n\n" =
      .ok [ruleOf .data .reject [⟨.orN (.matchN .from_ b!"a@x.com") (.notN (.tls true)), { note := some b!"n" }⟩]] ∧
    parse demoLib (fun _ _ => .notExist []) 5 [] b!"@data reject from a@x.com with note n\n@data reject not tls on with note n\n" =
      .ok [ruleOf .data .reject [⟨.matchN .from_ b!"a@x.com", { note := some b!"n" }⟩],
        ruleOf .data .reject [⟨.notN (.tls true), { note := some b!"n" }⟩]] ∧
    Interchangeable [ruleOf .data .reject [⟨.orN (.matchN .from_ b!"a@x.com") (.notN (.tls true)), { note := some b!"n" }⟩]]
      [ruleOf .data .reject [⟨.matchN .from_ b!"a@x.com", { note := some b!"n" }⟩],
        ruleOf .data .reject [⟨.notN (.tls true), { note := some b!"n" }⟩]] :=
  ⟨by decide +kernel, by decide +kernel, C85_or_rules _ _ _ (by decide) (by simp only [NoFile]; decide) (by simp only [NoFile])⟩

example : Interchangeable [ruleOf .any .reject [⟨.andL [.matchN .to b!"a@b.c", .matchN .to b!"D@b.c"], {}⟩]] [] :=
  C85_two_addresses (l1 := b!"a") (d1 := b!"b.c") (l2 := b!"d") (d2 := b!"b.c") _ _ (Or.inl rfl) _
    (by refine ⟨by decide, ?_, ?_, ?_⟩ <;> decide) (by refine ⟨by decide, ?_, ?_, ?_⟩ <;> decide) (by decide) (by decide) (by decide) (by decide) (by decide)

/-- C85: with pattern files the order does matter: with a file that is empty or missing `all or from FILE` holds, and a rule with
`from FILE or all` is skipped. -/
theorem C85_file_order {W : World} {f : Str} (hf : patterns W f = []) (tr : TransR) (m : Mail) :
    (Holds W tr m (.orN .all (.matchN .from_ f)) ∧ ¬ Misses W tr m (.orN .all (.matchN .from_ f))) ∧
    Misses W tr m (.orN (.matchN .from_ f) .all) := by
  simp [Holds, Misses, hf]

example : patterns demoWorld b!"/no/such/file" = [] := by decide +kernel

/-- C85: and a rule with an `or` of things known at different times is not two rules: for a sender without `@` the two rules
refuse MAIL FROM, the one does not yet. -/
theorem C85_phases_differ (W : World) (tr : TransR) :
    Goes (Hits W tr ⟨false, [], b!"x", []⟩ .mfrom)
      [ruleOf .any .reject [⟨.optN .fromHas oNoat, {}⟩], ruleOf .any .reject [⟨.optN .toHas oNoat, {}⟩]] {} .reject {} ∧
    Goes (Hits W tr ⟨false, [], b!"x", []⟩ .mfrom) [ruleOf .any .reject [⟨.orN (.optN .fromHas oNoat) (.optN .toHas oNoat), {}⟩]] {} .noresult {} := by
  constructor
  · have h1 : Hits W tr ⟨false, [], b!"x", []⟩ .mfrom (ruleOf .any .reject [⟨.optN .fromHas oNoat, {}⟩]) {} := by
      rw [hits_one (by simp only [NoFile])]
      refine ⟨⟨by decide, Or.inl rfl⟩, rfl, ?_⟩
      unfold AtHand
      rw [if_neg (by decide)]
      simp only [Holds]
      exact ⟨.noat, ⟨by decide, by decide⟩, by decide⟩
    exact .stop h1 ⟨by decide, by decide⟩
  · refine .skip (fun x hx => ?_) .nil
    exact absurd hx.1.1 (by decide)

/-- C85: nor is a `set-with` with two clauses two rules: the second clause counts only if the first does not match. -/
theorem C85_set_with_differs (W : World) (tr : TransR) (m : Mail) :
    Goes (Hits W tr m .connect) [ruleOf .any .noresult [⟨.all, { note := some b!"a" }⟩, ⟨.all, { note := some b!"b" }⟩]] {} .noresult
      { note := some b!"a" } ∧
    Goes (Hits W tr m .connect) [ruleOf .any .noresult [⟨.all, { note := some b!"a" }⟩], ruleOf .any .noresult [⟨.all, { note := some b!"b" }⟩]]
      {} .noresult { note := some b!"b" } := by
  have hm : ¬ Misses W tr m .all := by rw [Misses]; exact id
  have hh : Holds W tr m .all := by rw [Holds]; trivial
  have hit : ∀ (w : Withs) cs, needsC (⟨.all, w⟩ :: cs) ≤ .connect → Hits W tr m .connect (ruleOf .any .noresult (⟨.all, w⟩ :: cs)) w := by
    intro w cs hn
    refine ⟨⟨hn, Or.inl rfl⟩, ?_⟩
    unfold RuleTo
    rw [if_neg (fun h => absurd h.1 (by decide))]
    exact .hit hm hh
  have hd : ∀ cs, ¬ Decides (ruleOf .any .noresult cs) := fun cs h => h.1 rfl
  exact ⟨.set (hit _ _ (by decide)) (hd _) .nil, .set (hit _ _ (by decide)) (hd _) (.set (hit _ _ (by decide)) (hd _) .nil)⟩

end Sink
