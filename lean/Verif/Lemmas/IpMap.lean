import Verif.Model.IpMap
import Verif.Spec.IpMap

/-!
# The tables of IP addresses implement counting
-/

namespace Sink
open Spec

theorem lookup_filter_ne {l : List (Str × IpEnt)} {a b : Str} (h : a ≠ b) :
    (l.filter (fun e => e.1 != b)).lookup a = l.lookup a := by
  induction l with
  | nil => rfl
  | cons x l ih =>
    obtain ⟨k, v⟩ := x
    by_cases hk : k = b
    · subst hk
      simp only [List.filter_cons, bne_self_eq_false, Bool.false_eq_true, if_false, ih]
      rw [List.lookup_cons]
      have : (a == k) = false := by simpa using h
      rw [this]
    · have : (k != b) = true := by simpa using hk
      simp only [List.filter_cons, this, if_true, List.lookup_cons, ih]

theorem lookup_filter_self (l : List (Str × IpEnt)) (b : Str) : (l.filter (fun e => e.1 != b)).lookup b = none := by
  induction l with
  | nil => rfl
  | cons x l ih =>
    obtain ⟨k, v⟩ := x
    by_cases hk : k = b
    · subst hk; simpa [List.filter_cons] using ih
    · have h1 : (k != b) = true := by simpa using hk
      have h2 : (b == k) = false := by simpa using fun h => hk h.symm
      simp only [List.filter_cons, h1, if_true, List.lookup_cons, h2, ih]

namespace IpMap

theorem get_erase (m : IpMap) (a b : Str) : (m.erase b).get a = if a = b then none else m.get a := by
  unfold get erase
  split
  · rename_i h; subst h; exact lookup_filter_self _ _
  · rename_i h; exact lookup_filter_ne h

theorem get_put (m : IpMap) (a b : Str) (e : IpEnt) : (m.put b e).get a = if a = b then some e else m.get a := by
  unfold get put
  simp only [List.lookup_cons]
  split
  · rename_i h
    rw [if_pos (by simpa using h)]
  · rename_i h
    have : a ≠ b := by simpa using h
    rw [if_neg this]
    exact lookup_filter_ne this

theorem get_stats (m : IpMap) (st : IpStats) (a : Str) : ({ m with stats := st } : IpMap).get a = m.get a := rfl

/-- The count on record at time `now`. -/
def live (m : IpMap) (ip : Str) (ttl now : Int) : Option Int :=
  match m.get ip with
  | none => none
  | some e => if now - e.when_ < ttl then some e.count else none

theorem fresh_fst (m : IpMap) (ip : Str) (ttl now : Int) : (m.fresh ip ttl now).1.count = (m.live ip ttl now).getD 0 := by
  unfold fresh live
  cases m.get ip with
  | none => rfl
  | some t =>
    simp only
    by_cases h : now - t.when_ ≥ ttl
    · rw [if_pos h, if_neg (by omega)]; rfl
    · rw [if_neg h, if_pos (by omega)]; rfl

theorem add_eq (m : IpMap) {ip : Str} (h : ip ≠ []) (ttl now : Int) :
    (m.add ip ttl now).1 = (m.live ip ttl now).getD 0 + 1 ∧
    ∀ a, (m.add ip ttl now).2.get a = if a = ip then some ⟨now, (m.live ip ttl now).getD 0 + 1⟩ else m.get a := by
  unfold add
  rw [if_neg h]
  simp only [fresh_fst]
  refine ⟨rfl, fun a => ?_⟩
  rw [get_stats, get_put]
  rfl

theorem set_eq (m : IpMap) {ip : Str} (h : ip ≠ []) (ttl cnt now : Int) :
    (m.set ip ttl cnt now).1 = (m.live ip ttl now).getD 0 ∧
    ∀ a, (m.set ip ttl cnt now).2.get a = if a = ip then some ⟨now, cnt⟩ else m.get a := by
  unfold set
  rw [if_neg h]
  simp only [fresh_fst]
  refine ⟨rfl, fun a => ?_⟩
  rw [get_stats, get_put]
  rfl

theorem del_eq (m : IpMap) {ip : Str} (h : ip ≠ []) (a : Str) : (m.del ip).get a = if a = ip then none else m.get a := by
  unfold del
  rw [if_neg h]
  split
  · rw [get_stats, get_erase]
  · rename_i hn
    split
    · rename_i he; subst he
      cases hg : m.get a with
      | none => rfl
      | some x => rw [hg] at hn; exact absurd rfl hn
    · rfl

theorem lookup_eq (m : IpMap) (ip : Str) (ttl now : Int) :
    (m.lookup ip ttl now).1 = ((m.live ip ttl now).isSome, (m.live ip ttl now).getD 0) ∧
    ∀ a, (m.lookup ip ttl now).2.get a = if a = ip ∧ m.live ip ttl now = none then none else m.get a := by
  unfold lookup live
  simp only [get_stats]
  cases hg : m.get ip with
  | none =>
    refine ⟨rfl, fun a => ?_⟩
    simp only [get_stats, and_true]
    split
    · rename_i h; rw [h, hg]
    · rfl
  | some t =>
    simp only
    by_cases h : now - t.when_ < ttl
    · simp only [if_pos h]
      exact ⟨rfl, fun a => by simp [get_stats]⟩
    · simp only [if_neg h]
      refine ⟨rfl, fun a => ?_⟩
      simp only [get_stats, get_erase, and_true]

theorem add_nil (m : IpMap) (ttl now : Int) : m.add [] ttl now = (0, m) := rfl
theorem set_nil (m : IpMap) (ttl cnt now : Int) : m.set [] ttl cnt now = (0, m) := rfl
theorem del_nil (m : IpMap) : m.del [] = m := rfl

end IpMap

/-- The table agrees with a history of the address, from time `now` on. -/
def IpAgrees (ttl : Int) (m : IpMap) (ip : Str) (now : Int) (h : List (Int × IpOp)) : Prop :=
  ∀ t, now ≤ t → m.live ip ttl t = value ttl t h

theorem IpAgrees.later {ttl : Int} {m : IpMap} {ip : Str} {now now' : Int} {h : List (Int × IpOp)} (ha : IpAgrees ttl m ip now h)
    (hn : now ≤ now') : IpAgrees ttl m ip now' h := fun t ht => ha t (by omega)

theorem IpAgrees.congr {ttl : Int} {m m' : IpMap} {ip : Str} {now : Int} {h : List (Int × IpOp)} (ha : IpAgrees ttl m ip now h)
    (hg : m'.get ip = m.get ip) : IpAgrees ttl m' ip now h := by
  intro t ht
  rw [← ha t ht]
  unfold IpMap.live
  rw [hg]

theorem IpAgrees.add {ttl : Int} {m : IpMap} {ip : Str} {now : Int} {h : List (Int × IpOp)} (ha : IpAgrees ttl m ip now h) (hi : ip ≠ []) :
    (m.add ip ttl now).1 = (value ttl now h).getD 0 + 1 ∧ IpAgrees ttl (m.add ip ttl now).2 ip now ((now, .add) :: h) := by
  obtain ⟨h1, h2⟩ := m.add_eq hi ttl now
  rw [ha now (by omega)] at h1 h2
  refine ⟨h1, fun t ht => ?_⟩
  unfold IpMap.live
  rw [h2 ip, if_pos rfl]
  simp only [value]

theorem IpAgrees.set {ttl : Int} {m : IpMap} {ip : Str} {now n : Int} {h : List (Int × IpOp)} (ha : IpAgrees ttl m ip now h) (hi : ip ≠ []) :
    (m.set ip ttl n now).1 = (value ttl now h).getD 0 ∧ IpAgrees ttl (m.set ip ttl n now).2 ip now ((now, .set n) :: h) := by
  obtain ⟨h1, h2⟩ := m.set_eq hi ttl n now
  rw [ha now (by omega)] at h1
  refine ⟨h1, fun t ht => ?_⟩
  unfold IpMap.live
  rw [h2 ip, if_pos rfl]
  simp only [value]

theorem IpAgrees.del {ttl : Int} {m : IpMap} {ip : Str} {now : Int} {h : List (Int × IpOp)} (_ : IpAgrees ttl m ip now h) (hi : ip ≠ []) :
    IpAgrees ttl (m.del ip) ip now ((now, .del) :: h) := by
  intro t ht
  unfold IpMap.live
  rw [m.del_eq hi, if_pos rfl]
  simp only [value]

theorem IpAgrees.lookup {ttl : Int} {m : IpMap} {ip : Str} {now : Int} {h : List (Int × IpOp)} (ha : IpAgrees ttl m ip now h) :
    (m.lookup ip ttl now).1 = ((value ttl now h).isSome, (value ttl now h).getD 0) ∧ IpAgrees ttl (m.lookup ip ttl now).2 ip now h := by
  obtain ⟨h1, h2⟩ := m.lookup_eq ip ttl now
  refine ⟨by rw [h1, ha now (by omega)], fun t ht => ?_⟩
  rw [← ha t ht]
  unfold IpMap.live
  rw [h2 ip]
  by_cases hl : m.live ip ttl now = none
  · simp only [hl, and_self, if_true]
    unfold IpMap.live at hl
    cases hg : m.get ip with
    | none => rfl
    | some e =>
      rw [hg] at hl
      simp only at hl ⊢
      split at hl
      · cases hl
      · rw [if_neg (by omega)]
  · simp only [hl, and_false, if_false]

end Sink
