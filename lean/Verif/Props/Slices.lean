import Verif.Model.Slices

/-!
# C53: connections do not disturb each other's rules
-/

namespace Sink
namespace Spec

/-- What connection `k` has loaded; the newest event comes first. -/
def loadedBy {α : Type} (k : Nat) : List (RuleEv α) → List α
  | [] => []
  | .begin _ :: h => loadedBy k h
  | .load j rs :: h => loadedBy k h ++ (if j = k then rs else [])
  | .fail _ :: h => loadedBy k h

/-- Loading failed on connection `k`. -/
def failed {α : Type} (k : Nat) (h : List (RuleEv α)) : Prop := .fail k ∈ h

/-- The rules connection `k` should have. -/
noncomputable def rulesOf {α : Type} (base stall : List α) (k : Nat) (h : List (RuleEv α)) : List α :=
  open Classical in if failed k h then stall else base ++ loadedBy k h

/-- No two connections have loaded different rules in the same one of the first `n` places. -/
def Agree {α : Type} (n : Nat) (h : List (RuleEv α)) : Prop :=
  ∀ k k' (i : Nat) x y, i < n → (loadedBy k h)[i]? = some x → (loadedBy k' h)[i]? = some y → x = y

end Spec
open Spec

theorem agree_tail {α : Type} {n : Nat} {e : RuleEv α} {h : List (RuleEv α)} (ha : Agree n (e :: h)) : Agree n h := by
  have ext : ∀ k (i : Nat) x, (loadedBy k h)[i]? = some x → (loadedBy k (e :: h))[i]? = some x := by
    intro k i x hx
    cases e with
    | begin j => exact hx
    | load j rs =>
      rw [loadedBy, List.getElem?_append_left]
      · exact hx
      · exact (List.getElem?_eq_some_iff.1 hx).1
    | fail j => exact hx
  exact fun k k' i x y hi hx hy => ha k k' i x y hi (ext k i x hx) (ext k' i y hy)

/-- Where the rules of a connection are, if loading has not failed. -/
inductive Lives {α : Type} (base : Sl) (bs : List α) (H : Heap α) (s : Sl) (l : List α) : Prop
  /-- In the array of the base rules. -/
  | shared : s.arr = base.arr → s.len ≤ (H.cells s.arr).length → s.len = bs.length + l.length →
      (∀ (i : Nat) x, l[i]? = some x → (H.cells base.arr)[bs.length + i]? = some (some x)) → Lives base bs H s l
  /-- In an array of its own. -/
  | own : s.arr ≠ base.arr → s.len ≤ (H.cells s.arr).length → s.len = bs.length + l.length →
      H.get s = (bs ++ l).map some → Lives base bs H s l

structure SlInv {α : Type} (base stall : Sl) (bs ss : List α) (cap : Nat) (h : List (RuleEv α)) (g : RuleSys α) : Prop where
  baseLt : base.arr < g.heap.next
  stallLt : stall.arr < g.heap.next
  ne : stall.arr ≠ base.arr
  baseLen : base.len = bs.length
  baseLe : base.len ≤ (g.heap.cells base.arr).length
  cap : (g.heap.cells base.arr).length = cap
  baseGet : g.heap.get base = bs.map some
  stallGet : g.heap.get stall = ss.map some
  none : ∀ k, g.conns k = none → loadedBy k h = [] ∧ ¬ failed k h
  broke : ∀ k s, g.conns k = some s → (s = stall ↔ failed k h)
  live : ∀ k s, g.conns k = some s → s ≠ stall → s.arr ≠ stall.arr ∧ s.arr < g.heap.next ∧ Lives base bs g.heap s (loadedBy k h)
  apart : ∀ j k s t, g.conns j = some s → g.conns k = some t → j ≠ k → s ≠ stall → t ≠ stall → s.arr = t.arr → s.arr = base.arr

theorem written_get {β : Type} (L : List β) (p : Nat) (ys : List β) (h : p + ys.length ≤ L.length) (i : Nat) :
    (L.take p ++ ys ++ L.drop (p + ys.length))[i]? =
      if i < p then L[i]? else if i < p + ys.length then ys[i - p]? else L[i]? := by
  have h1 : (L.take p).length = p := by rw [List.length_take]; omega
  by_cases a : i < p
  · rw [if_pos a, List.append_assoc, List.getElem?_append_left (by omega), List.getElem?_take, if_pos a]
  · rw [if_neg a, List.append_assoc, List.getElem?_append_right (by omega), h1]
    by_cases b : i < p + ys.length
    · rw [if_pos b, List.getElem?_append_left (by omega)]
    · rw [if_neg b, List.getElem?_append_right (by omega), List.getElem?_drop]
      congr 1
      omega

theorem written_length {β : Type} (L : List β) (p : Nat) (ys : List β) (h : p + ys.length ≤ L.length) :
    (L.take p ++ ys ++ L.drop (p + ys.length)).length = L.length := by
  simp only [List.length_append, List.length_take, List.length_drop]; omega

/-- What `append` does. -/
theorem append_does {α : Type} (H : Heap α) (s : Sl) (xs : List α) (more : Nat) (hlen : s.len ≤ (H.cells s.arr).length) (hlt : s.arr < H.next) :
    (∀ a, a < H.next → a ≠ s.arr → (H.append s xs more).1.cells a = H.cells a) ∧ H.next ≤ (H.append s xs more).1.next ∧
    (H.append s xs more).2.arr < (H.append s xs more).1.next ∧
    (H.append s xs more).2.len = s.len + xs.length ∧
    (H.append s xs more).1.get (H.append s xs more).2 = H.get s ++ xs.map some ∧
    (H.append s xs more).2.len ≤ ((H.append s xs more).1.cells (H.append s xs more).2.arr).length ∧
    (((H.append s xs more).2.arr = s.arr ∧ ((H.append s xs more).1.cells s.arr).length = (H.cells s.arr).length ∧
        ∀ i, ((H.append s xs more).1.cells s.arr)[i]? =
          if i < s.len then (H.cells s.arr)[i]? else if i < s.len + xs.length then (xs.map some)[i - s.len]? else (H.cells s.arr)[i]?) ∨
      ((H.append s xs more).2.arr = H.next ∧ (H.append s xs more).1.cells s.arr = H.cells s.arr)) := by
  have hm : (xs.map (some : α → Option α)).length = xs.length := List.length_map _
  unfold Heap.append
  split
  · rename_i hfit
    have hfit' : s.len + (xs.map (some : α → Option α)).length ≤ (H.cells s.arr).length := by rw [hm]; exact hfit
    have hw := written_get (H.cells s.arr) s.len (xs.map some) hfit'
    have hl := written_length (H.cells s.arr) s.len (xs.map some) hfit'
    rw [hm] at hw hl
    refine ⟨fun a _ ha => by simp [setAt, ha], Nat.le_refl _, hlt, rfl, ?_, ?_, .inl ⟨rfl, ?_, ?_⟩⟩
    · have h1 : ((H.cells s.arr).take s.len ++ xs.map some).length = s.len + xs.length := by
        rw [List.length_append, List.length_take, hm]; omega
      simp only [Heap.get, setAt, if_true]
      rw [List.take_append_of_le_length (by omega), List.take_of_length_le (by omega)]
    · simp only [setAt, if_true, hl]; exact hfit
    · simp only [setAt, if_true, hl]
    · intro i
      simp only [setAt, if_true]
      exact hw i
  · have hne : H.next ≠ s.arr := fun h => by omega
    have h1 : (H.get s ++ xs.map some).length = s.len + xs.length := by
      rw [Heap.get, List.length_append, List.length_take, hm]; omega
    refine ⟨fun a ha _ => ?_, Nat.le_succ _, Nat.lt_succ_self _, rfl, ?_, ?_, .inr ⟨rfl, ?_⟩⟩
    · simp only [setAt]; rw [if_neg (by omega)]
    · have : ∀ (L : List (Option α)), (⟨setAt H.cells H.next L, H.next + 1⟩ : Heap α).get ⟨H.next, s.len + xs.length⟩ = L.take (s.len + xs.length) := by
        intro L; simp [Heap.get, setAt]
      rw [this, List.take_append_of_le_length (by omega), List.take_of_length_le (by omega)]
    · simp only [setAt, if_true, List.length_append] at h1 ⊢; omega
    · simp only [setAt]; rw [if_neg (fun h => hne h.symm)]

/-- The rules of a connection can be read from its slice. -/
theorem Lives.get {α : Type} {base : Sl} {bs : List α} {H : Heap α} {s : Sl} {l : List α} (h : Lives base bs H s l) (hl : base.len = bs.length)
    (hb : H.get base = bs.map some) : H.get s = (bs ++ l).map some := by
  cases h with
  | own _ _ _ h => exact h
  | shared h1 h2 h3 h4 =>
    apply List.ext_getElem?
    intro i
    rw [Heap.get, List.getElem?_take, h1]
    by_cases hi : i < s.len
    · rw [if_pos hi, List.map_append]
      by_cases hi2 : i < bs.length
      · rw [List.getElem?_append_left (by simpa using hi2), ← hb, Heap.get, List.getElem?_take, if_pos (by omega)]
      · rw [List.getElem?_append_right (by simpa using hi2), List.length_map, List.getElem?_map]
        have hlt : i - bs.length < l.length := by omega
        have := h4 (i - bs.length) _ (List.getElem?_eq_getElem hlt)
        rw [show bs.length + (i - bs.length) = i by omega] at this
        rw [this, List.getElem?_eq_getElem hlt]
        rfl
    · rw [if_neg hi, List.getElem?_eq_none (by simp; omega)]

/-- The effect of `append` by connection `k` on everything else, and on its own rules. -/
theorem SlInv.append {α : Type} {base stall : Sl} {bs ss : List α} {cap : Nat} {h : List (RuleEv α)} {g : RuleSys α}
    (hv : SlInv base stall bs ss cap h g) {k : Nat} {s : Sl} (hk : g.conns k = some s) (hs : s ≠ stall) (xs : List α) (more : Nat)
    (ha : ∀ k', k' ≠ k → ∀ (i : Nat) x y, i < cap - base.len → (loadedBy k h ++ xs)[i]? = some x → (loadedBy k' h)[i]? = some y → x = y) :
    let H := (g.heap.append s xs more).1
    let s' := (g.heap.append s xs more).2
    base.arr < H.next ∧ stall.arr < H.next ∧ (H.cells base.arr).length = cap ∧ H.get base = bs.map some ∧ H.get stall = ss.map some ∧
    (∀ j t, j ≠ k → g.conns j = some t → t ≠ stall → t.arr < H.next ∧ Lives base bs H t (loadedBy j h) ∧ (t.arr = s'.arr → t.arr = base.arr)) ∧
    s'.arr ≠ stall.arr ∧ s'.arr < H.next ∧ Lives base bs H s' (loadedBy k h ++ xs) := by
  obtain ⟨hst, hlt, hli⟩ := hv.live k s hk hs
  have hlen : s.len ≤ (g.heap.cells s.arr).length := by cases hli <;> assumption
  have hle : s.len = bs.length + (loadedBy k h).length := by cases hli <;> assumption
  obtain ⟨d1, d2, d3, d4, d5, d6, d7⟩ := append_does g.heap s xs more hlen hlt
  intro H s'
  -- cells of the base array below `base.len`, and all its cells unless `s` is there
  have hcap : (H.cells base.arr).length = cap := by
    by_cases hb : base.arr = s.arr
    · rw [hb]
      rcases d7 with ⟨_, h2, _⟩ | ⟨_, h2⟩
      · show ((g.heap.append s xs more).1.cells s.arr).length = cap
        rw [h2, ← hb]; exact hv.cap
      · show ((g.heap.append s xs more).1.cells s.arr).length = cap
        rw [h2, ← hb]; exact hv.cap
    · show ((g.heap.append s xs more).1.cells base.arr).length = cap
      rw [d1 _ hv.baseLt hb]; exact hv.cap
  have hcell : ∀ i, i < s.len ∨ s'.len ≤ i ∨ base.arr ≠ s.arr → (H.cells base.arr)[i]? = (g.heap.cells base.arr)[i]? := by
    intro i hi
    by_cases hb : base.arr = s.arr
    · show ((g.heap.append s xs more).1.cells base.arr)[i]? = _
      rcases d7 with ⟨_, _, h2⟩ | ⟨_, h2⟩
      · rw [hb, h2 i]
        rcases hi with hi | hi | hi
        · rw [if_pos hi]
        · have : ¬ i < s.len + xs.length := by
            have : s'.len = s.len + xs.length := d4
            omega
          rw [if_neg (by omega), if_neg this]
        · exact absurd hb hi
      · rw [hb, h2]
    · show ((g.heap.append s xs more).1.cells base.arr)[i]? = _
      rw [d1 _ hv.baseLt hb]
  have hbase : H.get base = bs.map some := by
    rw [← hv.baseGet]
    apply List.ext_getElem?
    intro i
    rw [Heap.get, Heap.get, List.getElem?_take, List.getElem?_take]
    split
    · rename_i hi
      have := hv.baseLen
      exact hcell i (.inl (by omega))
    · rfl
  have hstall : H.get stall = ss.map some := by
    show (g.heap.append s xs more).1.get stall = _
    rw [Heap.get, d1 _ hv.stallLt (fun h => hst h.symm)]
    exact hv.stallGet
  -- the slice stays in the base array only if it was there
  have hsb : s'.arr = base.arr → s.arr = base.arr ∧ s'.arr = s.arr := by
    intro he
    rcases d7 with ⟨h1, _⟩ | ⟨h1, _⟩
    · exact ⟨by rw [← he]; exact h1.symm, h1⟩
    · have : s'.arr = g.heap.next := h1
      have := hv.baseLt
      omega
  -- the new rules are in the cells
  have hnew : s'.arr = base.arr → ∀ (i : Nat) x, (loadedBy k h ++ xs)[i]? = some x → (H.cells base.arr)[bs.length + i]? = some (some x) := by
    intro he i x hx
    obtain ⟨hsb1, hsb2⟩ := hsb he
    have hget := d5
    have hi : i < (loadedBy k h ++ xs).length := (List.getElem?_eq_some_iff.1 hx).1
    have : (H.get s')[bs.length + i]? = some (some x) := by
      show ((g.heap.append s xs more).1.get (g.heap.append s xs more).2)[bs.length + i]? = _
      rw [hget, hli.get hv.baseLen hv.baseGet, ← List.map_append, List.getElem?_map, List.append_assoc, List.getElem?_append_right (by omega),
        Nat.add_sub_cancel_left, hx]
      rfl
    rw [Heap.get, List.getElem?_take, he] at this
    split at this
    · exact this
    · cases this
  refine ⟨Nat.lt_of_lt_of_le hv.baseLt d2, Nat.lt_of_lt_of_le hv.stallLt d2, hcap, hbase, hstall, ?_, ?_, d3, ?_⟩
  · intro j t hj hjt ht
    obtain ⟨ht1, ht2, ht3⟩ := hv.live j t hjt ht
    refine ⟨Nat.lt_of_lt_of_le ht2 d2, ?_, ?_⟩
    · cases ht3 with
      | own g1 g2 g3 g4 =>
        have hne : t.arr ≠ s.arr := fun he => g1 (hv.apart j k t s hjt hk hj ht hs he)
        have hc : H.cells t.arr = g.heap.cells t.arr := d1 _ ht2 hne
        exact .own g1 (by rw [hc]; exact g2) g3 (by rw [Heap.get, hc]; exact g4)
      | shared g1 g2 g3 g4 =>
        refine .shared g1 (by rw [g1, hcap, ← hv.cap, ← g1]; exact g2) g3 fun i x hx => ?_
        by_cases hi : bs.length + i < s.len ∨ s'.len ≤ bs.length + i ∨ base.arr ≠ s.arr
        · rw [hcell _ hi]; exact g4 i x hx
        · simp only [not_or, Nat.not_lt, Nat.not_le, ne_eq, Decidable.not_not] at hi
          obtain ⟨hi1, hi2, hi3⟩ := hi
          by_cases he : s'.arr = base.arr
          · have hs'l : s'.len = s.len + xs.length := d4
            have hil : i < (loadedBy k h ++ xs).length := by rw [List.length_append]; omega
            have hn := hnew he i _ (List.getElem?_eq_getElem hil)
            have hbl := hv.baseLen
            have hic : i < cap - base.len := by
              have hh : s'.len ≤ (H.cells s'.arr).length := d6
              rw [he, hcap] at hh
              omega
            have := ha j hj i _ x hic (List.getElem?_eq_getElem hil) hx
            rw [hn, this]
          · rcases d7 with ⟨h1, _⟩ | ⟨_, h2⟩
            · exact absurd ((show s'.arr = s.arr from h1).trans hi3.symm) he
            · have : H.cells base.arr = g.heap.cells base.arr := by rw [hi3]; exact h2
              rw [this]; exact g4 i x hx
    · intro he
      rcases d7 with ⟨h1, _⟩ | ⟨h1, _⟩
      · exact hv.apart j k t s hjt hk hj ht hs (he.trans h1)
      · have : t.arr = g.heap.next := he.trans h1
        omega
  · rcases d7 with ⟨h1, _⟩ | ⟨h1, _⟩
    · show (g.heap.append s xs more).2.arr ≠ _
      rw [h1]; exact hst
    · show (g.heap.append s xs more).2.arr ≠ _
      have := hv.stallLt
      omega
  · have hl' : s'.len = bs.length + (loadedBy k h ++ xs).length := by
      show (g.heap.append s xs more).2.len = _
      rw [d4, hle, List.length_append]; omega
    by_cases he : s'.arr = base.arr
    · exact .shared he d6 hl' (hnew he)
    · refine .own he d6 hl' ?_
      show (g.heap.append s xs more).1.get _ = _
      rw [d5, hli.get hv.baseLen hv.baseGet]
      simp

theorem failed_cons {α : Type} {k : Nat} {e : RuleEv α} {h : List (RuleEv α)} : failed k (e :: h) ↔ e = .fail k ∨ failed k h := by
  unfold failed
  rw [List.mem_cons]
  exact or_congr_left ⟨Eq.symm, Eq.symm⟩

theorem RuleSys.Runs.inv {α : Type} {H0 : Heap α} {base stall : Sl} {bs ss : List α} (hb : H0.get base = bs.map some) (hbl : base.len = bs.length)
    (hs : H0.get stall = ss.map some) (hlt : base.arr < H0.next ∧ stall.arr < H0.next) (hne : stall.arr ≠ base.arr)
    {h : List (RuleEv α)} {g : RuleSys α} (hr : RuleSys.Runs H0 base stall h g) (ha : Agree (H0.spare base) h) :
    SlInv base stall bs ss (H0.cells base.arr).length h g := by
  have hble : base.len ≤ (H0.cells base.arr).length := by
    have := congrArg List.length hb
    rw [Heap.get, List.length_take, List.length_map] at this
    omega
  induction hr with
  | init =>
    exact ⟨hlt.1, hlt.2, hne, hbl, hble, rfl, hb, hs, fun k _ => ⟨rfl, fun h => nomatch h⟩, fun _ _ h => (nomatch h), fun _ _ h => (nomatch h),
      fun _ _ _ _ h => (nomatch h)⟩
  | @begin h g k _ hk ih =>
    have hv := ih (agree_tail ha)
    have hff : ∀ j, failed j (.begin k :: h) ↔ failed j h := fun j => by rw [failed_cons]; simp
    have hbs : base ≠ stall := fun he => hne (by rw [he])
    refine ⟨hv.baseLt, hv.stallLt, hne, hbl, hv.baseLe, hv.cap, hv.baseGet, hv.stallGet, fun j hj => ?_, fun j s hj => ?_, fun j s hj hjs => ?_, ?_⟩
    · simp only [setAt] at hj
      split at hj
      · cases hj
      · rw [hff]; exact hv.none j hj
    · simp only [setAt] at hj
      rw [hff]
      split at hj
      · rename_i he
        cases hj; subst he
        exact ⟨fun h => absurd h hbs, fun h => absurd h (hv.none j hk).2⟩
      · exact hv.broke j s hj
    · simp only [setAt] at hj
      split at hj
      · rename_i he
        cases hj; subst he
        refine ⟨fun h => hne h.symm, hv.baseLt, ?_⟩
        rw [loadedBy, (hv.none j hk).1]
        exact .shared rfl hv.baseLe (by simpa using hbl) (by simp)
      · exact hv.live j s hj hjs
    · intro i j s t hi hj hij his hjs he
      simp only [setAt] at hi hj
      split at hi
      · cases hi; rfl
      · split at hj
        · cases hj; exact he
        · exact hv.apart i j s t hi hj hij his hjs he
  | @load h g k s rules more _ hk hks ih =>
    have hv := ih (agree_tail ha)
    have hff : ∀ j, failed j (.load k rules :: h) ↔ failed j h := fun j => by rw [failed_cons]; simp
    have hlo : ∀ j, j ≠ k → loadedBy j (.load k rules :: h) = loadedBy j h := fun j hj => by
      rw [loadedBy, if_neg (fun h => hj h.symm), List.append_nil]
    have hlk : loadedBy k (.load k rules :: h) = loadedBy k h ++ rules := by rw [loadedBy, if_pos rfl]
    obtain ⟨a1, a2, a3, a4, a5, a6, a7, a8, a9⟩ := hv.append hk hks rules more (fun k' hk' i x y hi hx hy =>
      ha k k' i x y hi (by rw [hlk]; exact hx) (by rw [hlo k' hk']; exact hy))
    refine ⟨a1, a2, hne, hbl, by rw [a3]; exact hble, a3, a4, a5, fun j hj => ?_, fun j t hj => ?_, fun j t hj hjs => ?_, ?_⟩
    · simp only [setAt] at hj
      split at hj
      · cases hj
      · rename_i hjk
        rw [hff, hlo j hjk]; exact hv.none j hj
    · simp only [setAt] at hj
      rw [hff]
      split at hj
      · rename_i he
        cases hj; subst he
        have : ¬ failed j h := fun hf => hks ((hv.broke j s hk).2 hf)
        refine ⟨fun h => ?_, fun h => absurd h this⟩
        exact absurd (by rw [h]) a7
      · exact hv.broke j t hj
    · simp only [setAt] at hj
      split at hj
      · rename_i he
        cases hj; subst he
        rw [hlk]
        exact ⟨a7, a8, a9⟩
      · rename_i hjk
        rw [hlo j hjk]
        obtain ⟨b1, b2, _⟩ := a6 j t hjk hj hjs
        exact ⟨(hv.live j t hj hjs).1, b1, b2⟩
    · intro i j s1 t hi hj hij his hjs he
      simp only [setAt] at hi hj
      split at hi
      · rename_i hik
        cases hi
        rw [if_neg (fun h => hij (by rw [hik, h]))] at hj
        have := (a6 j t (fun h => hij (by rw [hik, h])) hj hjs).2.2 he.symm
        rw [he, this]
      · rename_i hik
        split at hj
        · cases hj
          exact (a6 i s1 hik hi his).2.2 he
        · exact hv.apart i j s1 t hi hj hij his hjs he
  | @fail h g k s _ hk hks ih =>
    have hv := ih (agree_tail ha)
    have hff : ∀ j, j ≠ k → (failed j (.fail k :: h) ↔ failed j h) := fun j hj => by
      rw [failed_cons]; simp; intro h; exact absurd h.symm hj
    refine ⟨hv.baseLt, hv.stallLt, hne, hbl, hv.baseLe, hv.cap, hv.baseGet, hv.stallGet, fun j hj => ?_, fun j t hj => ?_, fun j t hj hjs => ?_, ?_⟩
    · simp only [setAt] at hj
      split at hj
      · cases hj
      · rename_i hjk
        rw [hff j hjk]; exact hv.none j hj
    · simp only [setAt] at hj
      split at hj
      · rename_i he
        cases hj; subst he
        exact ⟨fun _ => List.mem_cons_self, fun _ => rfl⟩
      · rename_i hjk
        rw [hff j hjk]
        exact hv.broke j t hj
    · simp only [setAt] at hj
      split at hj
      · cases hj; exact absurd rfl hjs
      · exact hv.live j t hj hjs
    · intro i j s1 t hi hj hij his hjs he
      simp only [setAt] at hi hj
      split at hi
      · cases hi; exact absurd rfl his
      · split at hj
        · cases hj; exact absurd rfl hjs
        · exact hv.apart i j s1 t hi hj hij his hjs he

/-- **C53** (partial: needs agreement in the unused places of the array of the base rules).  If no two connections ever load
different rules into one of the places that the array of the base rules has to spare, then the rules of every connection are, at all
times and under every interleaving, the base rules followed by what the connection loaded itself, or the stall rules if loading
failed. -/
theorem C53_partial {α : Type} {H0 : Heap α} {base stall : Sl} {bs ss : List α} (hb : H0.get base = bs.map some) (hbl : base.len = bs.length)
    (hs : H0.get stall = ss.map some) (hlt : base.arr < H0.next ∧ stall.arr < H0.next) (hne : stall.arr ≠ base.arr)
    {h : List (RuleEv α)} {g : RuleSys α} (hr : RuleSys.Runs H0 base stall h g) (ha : Agree (H0.spare base) h) {k : Nat} {s : Sl}
    (hk : g.conns k = some s) : g.heap.get s = (rulesOf bs ss k h).map some := by
  have hv := hr.inv hb hbl hs hlt hne ha
  unfold rulesOf
  split
  · rename_i hf
    rw [(hv.broke k s hk).2 hf]
    exact hv.stallGet
  · rename_i hf
    exact (hv.live k s hk (fun h => hf ((hv.broke k s hk).1 h))).2.2.get hv.baseLen hv.baseGet

/-- **C53.** Without spare places in the array of the base rules (with Go's doubling: 0, 1, 2, 4 or 8 base rules, for example
`-nostdrules`, or the three standard rules and `-M`) this holds whatever the files contain. -/
theorem C53_no_spare {α : Type} {H0 : Heap α} {base stall : Sl} {bs ss : List α} (hb : H0.get base = bs.map some) (hbl : base.len = bs.length)
    (hs : H0.get stall = ss.map some) (hlt : base.arr < H0.next ∧ stall.arr < H0.next) (hne : stall.arr ≠ base.arr)
    (hsp : (H0.cells base.arr).length = base.len) {h : List (RuleEv α)} {g : RuleSys α} (hr : RuleSys.Runs H0 base stall h g) {k : Nat} {s : Sl}
    (hk : g.conns k = some s) : g.heap.get s = (rulesOf bs ss k h).map some :=
  C53_partial hb hbl hs hlt hne hr (fun _ _ i _ _ hi => by rw [Heap.spare, hsp, Nat.sub_self] at hi; omega) hk

/-- Building a slice one element at a time from nothing, as `pFile` does (rparse.go:673-695), with Go's doubling of the capacity
(runtime.growslice, up to 256 elements). -/
def pushAll {α : Type} : Heap α × Sl → List α → Heap α × Sl
  | r, [] => r
  | (H, s), x :: xs => pushAll (H.append s [x] (s.len - 1)) xs

/-- Three base rules 10, 11, 12: the array has four places. -/
def heap3 : Heap Nat × Sl := pushAll (⟨fun _ => [], 1⟩, ⟨0, 0⟩) [10, 11, 12]

example : heap3.1.get heap3.2 = [some 10, some 11, some 12] ∧ heap3.1.spare heap3.2 = 1 := by decide

/-- The stall rules are made next. -/
def heapS : Heap Nat × Sl := heap3.1.append ⟨0, 0⟩ [99] 0

/-- **C53** does not hold in general: with the three standard rules, a connection that has loaded the rule 1 works with rule 2 as soon
as another connection has loaded the changed file; also if that other connection then fails to load another file. -/
theorem C53_not_all : ∃ h g s, RuleSys.Runs heapS.1 heap3.2 heapS.2 h g ∧ g.conns 1 = some s ∧ loadedBy 1 h = [1] ∧ ¬ failed 1 h ∧
    g.heap.get s = [some 10, some 11, some 12, some 2] := by
  refine ⟨[.fail 2, .load 2 [2], .begin 2, .load 1 [1], .begin 1], _, _,
    RuleSys.Runs.fail (RuleSys.Runs.load (more := 0) (RuleSys.Runs.begin (RuleSys.Runs.load (more := 0) (RuleSys.Runs.begin .init rfl) rfl ?_) rfl) rfl ?_)
      rfl ?_, rfl, rfl, ?_, ?_⟩
  · decide
  · decide
  · decide
  · unfold failed; decide
  · decide

end Sink
