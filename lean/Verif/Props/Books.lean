import Verif.Props.Mutex
import Verif.Props.Server
import Mathlib.Data.Finset.Card

/-!
# C82: the books of the IP tables balance

The statistics of `yakkers` and `notls` (`sizes` on the statistics page).
-/

namespace Sink
namespace Spec

/-- The numbers shown for a table with `n` records agree with each other: every record was new once and has been neither deleted nor
found too old since; a call makes or renews at most one record; a lookup finds a record, finds one too old, or finds none. -/
structure Balance (st : IpStats) (n : Nat) : Prop where
  size : n + st.dels + st.lookupExpired = st.addsNew
  made : st.addsNew + st.addsExpired ≤ st.adds + st.sets
  found : st.lookupHit + st.lookupExpired ≤ st.lookup

/-- The calls that are counted. -/
inductive Counted
  | add | set | lookup
  deriving DecidableEq

/-- Whether a call is one of these.  Calls about no address do nothing. -/
def Counted.is (c : Counted) : IpCall → Bool
  | .add ip _ => decide (c = .add ∧ ip ≠ [])
  | .set ip _ _ => decide (c = .set ∧ ip ≠ [])
  | .lookup _ _ => decide (c = .lookup)
  | _ => false

/-- The number shown for it. -/
def Counted.shown (c : Counted) (st : IpStats) : Nat :=
  match c with
  | .add => st.adds
  | .set => st.sets
  | .lookup => st.lookup

/-- A call of this sort. -/
def isCall {Op V : Type} (wt : Op → Bool) : Obs Op V → Bool
  | .call _ op => wt op
  | _ => false

/-- A return of this sort. -/
def isRet {Op V : Type} (wt : Op → V → Bool) : Obs Op V → Bool
  | .ret _ op v => wt op v
  | _ => false

/-- The number of calls made. -/
def callsMade (c : Counted) (l : List (Obs IpCall IpLoc)) : Nat := l.countP (isCall c.is)

/-- A lookup that reports a record. -/
def finds : IpCall → IpLoc → Bool
  | .lookup _ _, v => v.hit
  | _, _ => false

end Spec
open Spec

/-- What holds between calls. -/
structure Balanced (m : IpMap) : Prop where
  distinct : Distinct m
  keys : ∃ K : Finset Str, (∀ a, a ∈ K ↔ (m.get a).isSome = true) ∧ Balance m.stats K.card

theorem Balanced.new : Balanced {} :=
  ⟨List.nodup_nil, ∅, fun a => by simp [IpMap.get], rfl, Nat.le_refl _, Nat.le_refl _⟩

theorem one_true : one true = 1 := rfl
theorem one_false : one false = 0 := rfl
theorem one_le (b : Bool) : one b ≤ 1 := by cases b <;> decide

/-- Put a record. -/
theorem Balanced.put {m m' : IpMap} {ip : Str} {e : IpEnt} {ttl s : Int} (h : Balanced m) (hg : ∀ a, m'.get a = if a = ip then some e else m.get a)
    (hd : Distinct m') (hn : m'.stats.addsNew = m.stats.addsNew + one (m.get ip).isNone)
    (he : m'.stats.addsExpired = m.stats.addsExpired + one (stale m ip ttl s)) (hs : m'.stats.adds + m'.stats.sets = m.stats.adds + m.stats.sets + 1)
    (h1 : m'.stats.dels = m.stats.dels) (h2 : m'.stats.lookupExpired = m.stats.lookupExpired) (h3 : m'.stats.lookupHit = m.stats.lookupHit)
    (h4 : m'.stats.lookup = m.stats.lookup) : Balanced m' := by
  obtain ⟨-, K, hK, b1, b2, b3⟩ := h
  refine ⟨hd, insert ip K, fun a => ?_, ?_, ?_, by omega⟩
  · rw [Finset.mem_insert, hg a, hK a]
    by_cases ha : a = ip <;> simp [ha]
  · cases hm : m.get ip with
    | none =>
      rw [Finset.card_insert_of_notMem (by rw [hK, hm]; simp)]
      rw [hm] at hn
      simp only [Option.isNone_none, one_true] at hn
      omega
    | some x =>
      rw [Finset.insert_eq_of_mem (by rw [hK, hm]; rfl)]
      rw [hm] at hn
      simp only [Option.isNone_some, one_false] at hn
      omega
  · have : one (m.get ip).isNone + one (stale m ip ttl s) ≤ 1 := by
      unfold stale
      cases m.get ip with
      | none => simp [one]
      | some x => simp only [Option.isNone_some, one_false, Nat.zero_add]; exact one_le _
    omega

/-- Remove a record. -/
theorem Balanced.take {m m' : IpMap} {ip : Str} {b : Bool} (h : Balanced m) (hg : ∀ a, m'.get a = if a = ip ∧ b = true then none else m.get a)
    (hd : Distinct m') (hsz : m'.stats.dels + m'.stats.lookupExpired = m.stats.dels + m.stats.lookupExpired + one ((m.get ip).isSome && b))
    (h1 : m'.stats.addsNew = m.stats.addsNew) (h2 : m'.stats.addsExpired = m.stats.addsExpired)
    (h3 : m'.stats.adds = m.stats.adds) (h4 : m'.stats.sets = m.stats.sets)
    (hl : m'.stats.lookupHit + m'.stats.lookupExpired ≤ m'.stats.lookup) : Balanced m' := by
  obtain ⟨-, K, hK, b1, b2, b3⟩ := h
  refine ⟨hd, if b then K.erase ip else K, fun a => ?_, ?_, by omega, hl⟩
  · rw [hg a]
    cases b with
    | false => simp [hK a]
    | true =>
      simp only [if_true, Finset.mem_erase, hK a, and_true]
      by_cases ha : a = ip <;> simp [ha]
  · cases b with
    | false => simp [one] at hsz ⊢; omega
    | true =>
      simp only [Bool.and_true] at hsz
      simp only [if_true]
      by_cases hm : ip ∈ K
      · have := Finset.card_erase_add_one hm
        rw [(hK ip).1 hm, one_true] at hsz
        omega
      · rw [Finset.erase_eq_of_notMem hm]
        rw [hK, Bool.not_eq_true] at hm
        rw [hm, one_false] at hsz
        omega

theorem Balanced.does {op : IpCall} {s t : Int} {m m' : IpMap} {v : IpLoc} (h : Balanced m) (hd : IpDoes op s t m m' v) : Balanced m' := by
  cases op with
  | add ip ttl =>
    by_cases hip : ip = []
    · simp only [IpDoes, hip, if_true] at hd
      rw [hd.1]; exact h
    · simp only [IpDoes, hip, if_false] at hd
      obtain ⟨-, d2, d3, d4⟩ := hd
      exact h.put (ttl := ttl) (s := s) d2 (d3 h.distinct) (by rw [d4]) (by rw [d4]) (by rw [d4]; simp only; omega) (by rw [d4]) (by rw [d4]) (by rw [d4]) (by rw [d4])
  | set ip ttl n =>
    by_cases hip : ip = []
    · simp only [IpDoes, hip, if_true] at hd
      rw [hd.1]; exact h
    · simp only [IpDoes, hip, if_false] at hd
      obtain ⟨-, d2, d3, d4⟩ := hd
      exact h.put (ttl := ttl) (s := s) d2 (d3 h.distinct) (by rw [d4]) (by rw [d4]) (by rw [d4]; simp only; omega) (by rw [d4]) (by rw [d4]) (by rw [d4]) (by rw [d4])
  | del ip =>
    by_cases hip : ip = []
    · simp only [IpDoes, hip, if_true] at hd
      rw [hd]; exact h
    · simp only [IpDoes, hip, if_false] at hd
      obtain ⟨d2, d3, d4⟩ := hd
      have := h.keys.choose_spec.2.found
      exact h.take (ip := ip) (b := true) (by simpa using d2) (d3 h.distinct) (by rw [d4, Bool.and_true]; simp only; omega) (by rw [d4]) (by rw [d4]) (by rw [d4]) (by rw [d4])
        (by rw [d4]; simpa using this)
  | lookup ip ttl =>
    obtain ⟨-, -, d2, d3, d4⟩ := hd
    have hf := h.keys.choose_spec.2.found
    refine h.take (ip := ip) (b := (onRecord m ip ttl s).isNone) (by simpa using d2) (d3 h.distinct) (by rw [d4]; simp only [stale]; omega) (by rw [d4]) (by rw [d4]) (by rw [d4]) (by rw [d4]) ?_
    rw [d4]
    have : one (onRecord m ip ttl s).isSome + one (stale m ip ttl s) ≤ 1 := by
      unfold stale
      cases onRecord m ip ttl s with
      | none => simp only [Option.isSome_none, one_false, Nat.zero_add]; exact one_le _
      | some x => simp [one]
    simp only
    omega
  | stats => rw [hd.1]; exact h

/-- Whether a call that took effect counts as this. -/
def firedAs (c : Counted) (h : List (Fired IpCall IpLoc)) : Nat := h.countP fun f => c.is f.op

/-- Lookups that found a record. -/
def firedHits (h : List (Fired IpCall IpLoc)) : Nat := h.countP fun f => finds f.op f.v

/-- The numbers are those of the calls that took effect. -/
structure Totalled (a : ASys IpCall IpMap IpLoc) : Prop where
  bal : Balanced a.mem
  calls : ∀ c : Counted, c.shown a.mem.stats = firedAs c a.hist
  hits : a.mem.stats.lookupHit = firedHits a.hist
  told : ∀ k v, a.thr k = some (.stats, some v) → ∃ st n, v.stats = some (st, n) ∧ Balance st n

theorem Totalled.step {a a' : ASys IpCall IpMap IpLoc} {o : Option (Obs IpCall IpLoc)} (h : Totalled a) (hs : ASys.Step IpDoes a o a') : Totalled a' := by
  cases hs with
  | @call k op hk =>
    refine ⟨h.bal, h.calls, h.hits, fun j v hj => ?_⟩
    by_cases e : j = k
    · subst e; simp [setAt_self] at hj
    · simp only [setAt_ne _ _ e] at hj; exact h.told _ _ hj
  | @ret k op v hk =>
    refine ⟨h.bal, h.calls, h.hits, fun j v hj => ?_⟩
    by_cases e : j = k
    · subst e; simp [setAt_self] at hj
    · simp only [setAt_ne _ _ e] at hj; exact h.told _ _ hj
  | tick ht => exact ⟨h.bal, h.calls, h.hits, h.told⟩
  | @fire k op s t m' v hk h1 h2 h3 hd =>
    refine ⟨h.bal.does hd, fun c => ?_, ?_, fun j v' hj => ?_⟩
    · have hc := h.calls c
      simp only [firedAs, List.countP_cons] at hc ⊢
      rw [← hc]
      cases op with
      | add ip ttl =>
        by_cases hip : ip = []
        · simp only [IpDoes, hip, if_true] at hd; rw [hd.1]; simp [Counted.is, hip]
        · simp only [IpDoes, hip, if_false] at hd; rw [hd.2.2.2]; cases c <;> simp [Counted.is, Counted.shown, hip]
      | set ip ttl n =>
        by_cases hip : ip = []
        · simp only [IpDoes, hip, if_true] at hd; rw [hd.1]; simp [Counted.is, hip]
        · simp only [IpDoes, hip, if_false] at hd; rw [hd.2.2.2]; cases c <;> simp [Counted.is, Counted.shown, hip]
      | del ip =>
        by_cases hip : ip = []
        · simp only [IpDoes, hip, if_true] at hd; rw [hd]; simp [Counted.is]
        · simp only [IpDoes, hip, if_false] at hd; rw [hd.2.2]; cases c <;> simp [Counted.is, Counted.shown]
      | lookup ip ttl => rw [hd.2.2.2.2]; cases c <;> simp [Counted.is, Counted.shown]
      | stats => rw [hd.1]; simp [Counted.is]
    · have hc := h.hits
      simp only [firedHits, List.countP_cons] at hc ⊢
      rw [← hc]
      cases op with
      | add ip ttl =>
        by_cases hip : ip = []
        · simp only [IpDoes, hip, if_true] at hd; rw [hd.1]; simp [finds]
        · simp only [IpDoes, hip, if_false] at hd; rw [hd.2.2.2]; simp [finds]
      | set ip ttl n =>
        by_cases hip : ip = []
        · simp only [IpDoes, hip, if_true] at hd; rw [hd.1]; simp [finds]
        · simp only [IpDoes, hip, if_false] at hd; rw [hd.2.2.2]; simp [finds]
      | del ip =>
        by_cases hip : ip = []
        · simp only [IpDoes, hip, if_true] at hd; rw [hd]; simp [finds]
        · simp only [IpDoes, hip, if_false] at hd; rw [hd.2.2]; simp [finds]
      | lookup ip ttl => rw [hd.2.2.2.2, ← hd.1]; cases hv : v.hit <;> simp [one, finds, hv]
      | stats => rw [hd.1]; simp [finds]
    · by_cases e : j = k
      · subst e
        simp only [setAt_self, Option.some.injEq, Prod.mk.injEq] at hj
        obtain ⟨rfl, rfl⟩ := hj
        obtain ⟨-, keys, d1, d2, d3⟩ := hd
        obtain ⟨hdi, K, hK, hb⟩ := h.bal
        refine ⟨_, _, d3, ?_⟩
        have : keys.toFinset = K := by
          ext a; rw [List.mem_toFinset, d2, hK]
        rw [← List.toFinset_card_of_nodup (d1 hdi), this]
        exact hb
      · simp only [setAt_ne _ _ e] at hj; exact h.told _ _ hj

theorem totalled_run {t0 : Int} {l : List (Obs IpCall IpLoc)} {a : ASys IpCall IpMap IpLoc} (h : ASys.Runs IpDoes {} t0 l a) :
    Totalled a ∧ ∀ k v, .ret k .stats v ∈ l → ∃ st n, v.stats = some (st, n) ∧ Balance st n := by
  induction h with
  | init => exact ⟨⟨.new, fun c => by cases c <;> rfl, rfl, nofun⟩, nofun⟩
  | step hr hs ih =>
    obtain ⟨h1, h2⟩ := ih
    refine ⟨h1.step hs, fun k v hm => ?_⟩
    rw [List.mem_append] at hm
    rcases hm with hm | hm
    · exact h2 k v hm
    · cases hs with
      | call | tick | fire => simp at hm
      | ret hk =>
        simp only [Option.toList_some, List.mem_singleton, Obs.ret.injEq] at hm
        obtain ⟨rfl, rfl, rfl⟩ := hm
        exact h1.told _ _ hk

/-- **C82.** Whatever the goroutines do, every reading of the statistics of an IP table is consistent: the number of records is the
number ever made less those deleted and those thrown away because a lookup found them too old, and so on. -/
theorem C82_consistent {t0 : Int} {l : List (Obs IpCall IpLoc)} {s : Sys IpCall IpMap IpLoc} (h : Sys.Runs ipProg {} t0 l s)
    {k : Nat} {v : IpLoc} (hm : .ret k .stats v ∈ l) : ∃ st n, v.stats = some (st, n) ∧ Balance st n := by
  obtain ⟨a, h1, -⟩ := h.atomic ip_guarded ip_correct
  exact (totalled_run h1).2 k v hm

/-! ## Calls made and calls that took effect -/

/-- The weight of a call that did not yet take effect. -/
def pendingW {Op V : Type} (wt : Op → Bool) (r : Option (Op × Option V)) : Nat :=
  match r with
  | some (op, none) => one (wt op)
  | _ => 0

/-- Every call made took effect, or is going to. -/
theorem made_fired {Op M V : Type} {D : Op → Int → Int → M → M → V → Prop} {m : M} {t0 : Int} (wt : Op → Bool) {l : List (Obs Op V)}
    {a : ASys Op M V} (h : ASys.Runs D m t0 l a) :
    ∃ w : List Nat, w.Nodup ∧ (∀ k, (∃ op, a.thr k = some (op, none)) → k ∈ w) ∧
      l.countP (isCall wt) =
        a.hist.countP (fun f => wt f.op) + (w.map fun k => pendingW wt (a.thr k)).sum := by
  induction h with
  | init => exact ⟨[], List.nodup_nil, fun k hk => by simp at hk, rfl⟩
  | @step l a o a' hr hs ih =>
    obtain ⟨w, hw, h1, h2⟩ := ih
    have other : ∀ (k : Nat) (y : Option (Op × Option V)) (u : List Nat), k ∉ u →
        (u.map fun j => pendingW wt (setAt a.thr k y j)) = u.map fun j => pendingW wt (a.thr j) := by
      intro k y u hk
      refine List.map_congr_left fun j hj => ?_
      rw [setAt_ne]
      rintro rfl; exact hk hj
    have hone : ∀ b : Bool, (if b = true then 1 else 0) = one b := fun _ => rfl
    cases hs with
    | @call k op hk =>
      refine ⟨k :: w.erase k, ?_, fun j hj => ?_, ?_⟩
      · rw [List.nodup_cons]
        exact ⟨fun h => (List.Nodup.mem_erase_iff hw).1 h |>.1 rfl, hw.erase k⟩
      · by_cases e : j = k
        · subst e; simp
        · simp only [setAt_ne _ _ e] at hj
          exact List.mem_cons_of_mem _ ((List.mem_erase_of_ne e).2 (h1 j hj))
      · simp only [Option.toList_some, List.countP_append, h2, List.map_cons, List.sum_cons, setAt_self]
        rw [other _ _ _ (fun h => (List.Nodup.mem_erase_iff hw).1 h |>.1 rfl)]
        have hz : (w.map fun j => pendingW wt (a.thr j)).sum = ((w.erase k).map fun j => pendingW wt (a.thr j)).sum := by
          by_cases hm : k ∈ w
          · rw [((List.perm_cons_erase hm).map _).sum_nat]
            simp [hk, pendingW]
          · rw [List.erase_of_not_mem hm]
        rw [hz, List.countP_cons, List.countP_nil]
        have e : pendingW wt (some (op, (none : Option V))) = one (wt op) := rfl
        rw [e]
        cases hb : wt op <;> simp [isCall, one, hb] <;> omega
    | @fire k op s t m' v hk e1 e2 e3 hd =>
      have hm := h1 k ⟨op, hk⟩
      refine ⟨w.erase k, hw.erase k, fun j hj => ?_, ?_⟩
      · by_cases e : j = k
        · subst e; simp [setAt_self] at hj
        · simp only [setAt_ne _ _ e] at hj
          exact (List.mem_erase_of_ne e).2 (h1 j hj)
      · rw [other _ _ _ (fun h => (List.Nodup.mem_erase_iff hw).1 h |>.1 rfl)]
        simp only [Option.toList_none, List.append_nil, h2]
        rw [((List.perm_cons_erase hm).map _).sum_nat]
        have e : pendingW wt (some (op, (none : Option V))) = one (wt op) := rfl
        simp only [List.map_cons, List.sum_cons, hk, List.countP_cons, e]
        cases hb : wt op <;> simp [one] <;> omega
    | @ret k op v hk =>
      refine ⟨w, hw, fun j hj => ?_, ?_⟩
      · by_cases e : j = k
        · subst e; simp [setAt_self] at hj
        · simp only [setAt_ne _ _ e] at hj
          exact h1 j hj
      · have hz : (w.map fun j => pendingW wt (setAt a.thr k none j)) = w.map fun j => pendingW wt (a.thr j) := by
          refine List.map_congr_left fun j hj => ?_
          by_cases e : j = k
          · subst e; rw [setAt_self, hk]; simp [pendingW]
          · rw [setAt_ne _ _ e]
        rw [hz]
        simp [List.countP_append, h2, isCall]
    | @tick t ht =>
      refine ⟨w, hw, h1, ?_⟩
      simp [List.countP_append, h2, isCall]

/-- The weight of a call that took effect but did not yet return. -/
def doneW {Op V : Type} (wt : Op → V → Bool) (r : Option (Op × Option V)) : Nat :=
  match r with
  | some (op, some v) => one (wt op v)
  | _ => 0

/-- Every call that took effect returned, or is going to. -/
theorem fired_returned {Op M V : Type} {D : Op → Int → Int → M → M → V → Prop} {m : M} {t0 : Int} (wt : Op → V → Bool) {l : List (Obs Op V)}
    {a : ASys Op M V} (h : ASys.Runs D m t0 l a) :
    ∃ w : List Nat, w.Nodup ∧ (∀ k, (∃ op v, a.thr k = some (op, some v)) → k ∈ w) ∧
      a.hist.countP (fun f => wt f.op f.v) = l.countP (isRet wt) + (w.map fun k => doneW wt (a.thr k)).sum := by
  induction h with
  | init => exact ⟨[], List.nodup_nil, fun k hk => by simp at hk, rfl⟩
  | @step l a o a' hr hs ih =>
    obtain ⟨w, hw, h1, h2⟩ := ih
    have other : ∀ (k : Nat) (y : Option (Op × Option V)) (u : List Nat), k ∉ u →
        (u.map fun j => doneW wt (setAt a.thr k y j)) = u.map fun j => doneW wt (a.thr j) := by
      intro k y u hk
      refine List.map_congr_left fun j hj => ?_
      rw [setAt_ne]
      rintro rfl; exact hk hj
    have hone : ∀ b : Bool, (if b = true then 1 else 0) = one b := fun _ => rfl
    have idle : ∀ {k : Nat}, doneW wt (a.thr k) = 0 →
        (w.map fun j => doneW wt (a.thr j)).sum = ((w.erase k).map fun j => doneW wt (a.thr j)).sum := by
      intro k hk
      by_cases hm : k ∈ w
      · rw [((List.perm_cons_erase hm).map _).sum_nat, List.map_cons, List.sum_cons, hk, Nat.zero_add]
      · rw [List.erase_of_not_mem hm]
    cases hs with
    | @call k op hk =>
      refine ⟨w.erase k, hw.erase k, fun j hj => ?_, ?_⟩
      · by_cases e : j = k
        · subst e; simp [setAt_self] at hj
        · simp only [setAt_ne _ _ e] at hj
          exact (List.mem_erase_of_ne e).2 (h1 j hj)
      · rw [other _ _ _ (fun h => (List.Nodup.mem_erase_iff hw).1 h |>.1 rfl), ← idle (by rw [hk]; rfl)]
        simp [List.countP_append, h2, isRet]
    | @fire k op s t m' v hk e1 e2 e3 hd =>
      refine ⟨k :: w.erase k, ?_, fun j hj => ?_, ?_⟩
      · rw [List.nodup_cons]
        exact ⟨fun h => (List.Nodup.mem_erase_iff hw).1 h |>.1 rfl, hw.erase k⟩
      · by_cases e : j = k
        · subst e; simp
        · simp only [setAt_ne _ _ e] at hj
          exact List.mem_cons_of_mem _ ((List.mem_erase_of_ne e).2 (h1 j hj))
      · simp only [Option.toList_none, List.append_nil, List.map_cons, List.sum_cons, setAt_self, List.countP_cons, hone, h2]
        rw [other _ _ _ (fun h => (List.Nodup.mem_erase_iff hw).1 h |>.1 rfl), ← idle (by rw [hk]; rfl)]
        have e : doneW wt (some (op, some v)) = one (wt op v) := rfl
        rw [e]
        omega
    | @ret k op v hk =>
      have hm := h1 k ⟨op, v, hk⟩
      refine ⟨w.erase k, hw.erase k, fun j hj => ?_, ?_⟩
      · by_cases e : j = k
        · subst e; simp [setAt_self] at hj
        · simp only [setAt_ne _ _ e] at hj
          exact (List.mem_erase_of_ne e).2 (h1 j hj)
      · rw [other _ _ _ (fun h => (List.Nodup.mem_erase_iff hw).1 h |>.1 rfl)]
        simp only [h2, Option.toList_some, List.countP_append, List.countP_cons, List.countP_nil, isRet]
        rw [((List.perm_cons_erase hm).map _).sum_nat]
        have e : doneW wt (some (op, some v)) = one (wt op v) := rfl
        simp only [List.map_cons, List.sum_cons, hk, e]
        by_cases hb : wt op v = true <;> simp [one, hb] <;> omega
    | @tick t ht =>
      refine ⟨w, hw, h1, ?_⟩
      simp [List.countP_append, h2, isRet]

/-- **C82.** When all calls have returned, the numbers are those of the calls made, none is lost and none counted twice; the number of
hits is the number of lookups that reported a record; and they are consistent with the records there are. -/
theorem C82_total {t0 : Int} {l : List (Obs IpCall IpLoc)} {s : Sys IpCall IpMap IpLoc} (h : Sys.Runs ipProg {} t0 l s)
    (hq : ∀ k, s.thr k = none) :
    (∀ c : Counted, c.shown s.mem.stats = callsMade c l) ∧ s.mem.stats.lookupHit = l.countP (isRet finds) ∧
    ∃ K : Finset Str, (∀ a, a ∈ K ↔ (s.mem.get a).isSome = true) ∧ Balance s.mem.stats K.card := by
  obtain ⟨a, h1, h2⟩ := h.atomic ip_guarded ip_correct
  have hn : ∀ k, a.thr k = none := fun k => by
    have := h2.thr k
    rw [hq k] at this; exact this.1
  have hh : s.holder = none := by
    cases e : s.holder with
    | none => rfl
    | some k =>
      have := h2.thr k
      rw [hq k] at this; exact absurd e this.2
  have ht := (totalled_run h1).1
  rw [h2.mem hh]
  refine ⟨fun c => ?_, ?_, ht.bal.keys⟩
  · obtain ⟨w, -, -, h3⟩ := made_fired c.is h1
    rw [ht.calls c]
    have : (w.map fun k => pendingW c.is (a.thr k)) = w.map fun _ => 0 := List.map_congr_left fun k _ => by rw [hn k]; rfl
    rw [this, List.map_const', List.sum_replicate_nat] at h3
    unfold callsMade firedAs
    rw [h3]
    simp
  · obtain ⟨w, -, -, h3⟩ := fired_returned finds h1
    rw [ht.hits]
    have : (w.map fun k => doneW finds (a.thr k)) = w.map fun _ => 0 := List.map_congr_left fun k _ => by rw [hn k]; rfl
    rw [this, List.map_const', List.sum_replicate_nat] at h3
    unfold firedHits
    rw [h3]
    simp

/-! ## The server -/

namespace Spec

/-- A connection began. -/
def Hap.isBegin (e : Hap) : Bool := match e.what with
  | .began _ _ _ _ => true
  | _ => false

/-- A connection from a known address failed to set up TLS. -/
def Hap.failsTls (e : Hap) : Bool := match e.what with
  | .stepped s sh i s' sh' o => decide (e.E.rip ≠ [] ∧ (⟨s, i, sh, s', sh', o⟩ : Step).event = some .tlserror)
  | _ => false

/-- How often a client was marked as useless, or (`forced`) declared a do-nothing client by the rules. -/
def marks (cf : Conf) (forced : Bool) : List Hap → Nat
  | [] => 0
  | ⟨_, _, _, .began _ _ _ _⟩ :: h => marks cf forced h
  | ⟨k, E, _, .stepped s sh i s' sh' o⟩ :: h =>
    (if E.rip ≠ [] ∧ contribution cf (stepsOf k h) ⟨s, i, sh, s', sh', o⟩ = some (if forced then .set cf.yakCount else .add) then 1 else 0) +
      marks cf forced h

end Spec

theorem Balanced.op {ttl now : Int} {ip : Str} {m : IpMap} (h : Balanced m) (op : Option IpOp) : Balanced (opYak ttl now ip m op) := by
  obtain ⟨h1, h2, h3, h4⟩ := C54_steps m ip ttl (match op with | some (.set n) => n | _ => 0) now
  cases op with
  | none => exact h
  | some op => cases op with
    | add => exact h.does h1
    | set n => exact h.does h2
    | del => exact h.does h3

theorem Balanced.look {ttl now : Int} {ip : Str} {m : IpMap} (h : Balanced m) : Balanced (m.lookup ip ttl now).2 :=
  h.does (C54_steps m ip ttl 0 now).2.2.2

/-- The operation is a `Set`. -/
def isSet : Option IpOp → Bool
  | some (.set _) => true
  | _ => false

/-- What an operation adds to the numbers. -/
theorem opYak_stats (ttl now : Int) (ip : Str) (m : IpMap) (op : Option IpOp) :
    (opYak ttl now ip m op).stats.lookup = m.stats.lookup ∧
    (opYak ttl now ip m op).stats.adds = m.stats.adds + (if ip ≠ [] ∧ op = some .add then 1 else 0) ∧
    (opYak ttl now ip m op).stats.sets = m.stats.sets + (if ip ≠ [] ∧ isSet op = true then 1 else 0) ∧
    (op ≠ some .del → (opYak ttl now ip m op).stats.dels = m.stats.dels) := by
  obtain ⟨h1, h2, h3, h4⟩ := C54_steps m ip ttl (match op with | some (.set n) => n | _ => 0) now
  by_cases hip : ip = []
  · subst hip
    cases op with
    | none => simp [opYak, isSet]
    | some op => cases op <;> simp [opYak, isSet, IpMap.add, IpMap.set, IpMap.del]
  cases op with
  | none => simp [opYak, isSet]
  | some op => cases op with
    | add =>
      simp only [IpDoes, hip, if_false] at h1
      simp only [opYak]
      rw [h1.2.2.2]; simp [hip, isSet]
    | set n =>
      simp only [IpDoes, hip, if_false] at h2
      simp only [opYak]
      rw [h2.2.2.2]; simp [hip, isSet]
    | del =>
      simp only [IpDoes, hip, if_false] at h3
      simp only [opYak]
      rw [h3.2.2]; simp [hip, isSet]

theorem lookup_stats (ttl now : Int) (ip : Str) (m : IpMap) :
    (m.lookup ip ttl now).2.stats.lookup = m.stats.lookup + 1 ∧ (m.lookup ip ttl now).2.stats.adds = m.stats.adds ∧
    (m.lookup ip ttl now).2.stats.sets = m.stats.sets ∧ (m.lookup ip ttl now).2.stats.dels = m.stats.dels := by
  have := (C54_steps m ip ttl 0 now).2.2.2
  rw [this.2.2.2.2]; simp

/-- A record is only ever set to what `-dncount` says. -/
theorem contribution_set {cf : Conf} {l : List Step} {st : Step} {n : Int} (h : contribution cf l st = some (.set n)) : n = cf.yakCount := by
  unfold contribution at h
  repeat' split at h
  all_goals first | (cases h; done) | (cases h; rfl)

/-- **C82.** Under any interleaving of connections, at any time: what the statistics page says about the tables.  Every connection is looked
up once in the table of do-nothing clients; the marks and forced marks are all counted; the table of TLS failures has an `Add` for every
failure of a known client and no `Set` or `Del`; and the books of both balance. -/
theorem C82_server {cf : Conf} {h : List Hap} {g : Server} (hr : Server.Runs cf h g) :
    g.sh.yak.stats.lookup = h.countP Hap.isBegin ∧ g.sh.yak.stats.adds = marks cf false h ∧ g.sh.yak.stats.sets = marks cf true h ∧
    g.sh.notls.stats.adds = h.countP Hap.failsTls ∧ g.sh.notls.stats.sets = 0 ∧ g.sh.notls.stats.dels = 0 ∧
    Balance g.sh.yak.stats g.sh.yak.ips.length ∧ Balance g.sh.notls.stats g.sh.notls.ips.length := by
  have size : ∀ {m : IpMap}, Balanced m → Balance m.stats m.ips.length := by
    intro m hb
    obtain ⟨hd, K, hK, hb⟩ := hb
    have : (m.ips.map Prod.fst).toFinset = K := by
      ext a
      rw [List.mem_toFinset, hK, IpMap.get, List.lookup_isSome_iff]
      simp
    rw [← List.length_map (f := Prod.fst), ← List.toFinset_card_of_nodup hd, this]
    exact hb
  suffices hh : Balanced g.sh.yak ∧ Balanced g.sh.notls ∧ g.sh.yak.stats.lookup = h.countP Hap.isBegin ∧ g.sh.yak.stats.adds = marks cf false h ∧
      g.sh.yak.stats.sets = marks cf true h ∧ g.sh.notls.stats.adds = h.countP Hap.failsTls ∧ g.sh.notls.stats.sets = 0 ∧ g.sh.notls.stats.dels = 0 from
    ⟨hh.2.2.1, hh.2.2.2.1, hh.2.2.2.2.1, hh.2.2.2.2.2.1, hh.2.2.2.2.2.2.1, hh.2.2.2.2.2.2.2, size hh.1, size hh.2.1⟩
  induction hr with
  | init fs => exact ⟨.new, .new, rfl, rfl, rfl, rfl, rfl, rfl⟩
  | @start h g j E i s sh' o hr hm hk hs ih =>
    obtain ⟨h1, h2, h3, h4, h5, h6, h7, h8⟩ := ih
    obtain ⟨rules, good, w, t, -, -, -, -, -, -, rfl⟩ := startSess_ctx hs
    obtain ⟨l1, l2, l3, l4⟩ := lookup_stats cf.yakTimeout i.now E.rip g.sh.yak
    refine ⟨h1.look, h2, ?_, ?_, ?_, ?_, h7, h8⟩
    · simp only [l1, h3, List.countP_cons, Hap.isBegin, if_true]
    · simp only [l2, h4, marks]
    · simp only [l3, h5, marks]
    · simp only [h6, List.countP_cons, Hap.failsTls, Bool.false_eq_true, if_false, Nat.add_zero]
  | @step h g j E i s s' sh' o hr hm hk hs ih =>
    obtain ⟨h1, h2, h3, h4, h5, h6, h7, h8⟩ := ih
    have hl := (hr.life.1 _ _ hk).ok
    have hd := sstep_did hs
    have hy := hd.yak hl
    have hn := hd.notls hl
    obtain ⟨o1, o2, o3, -⟩ := opYak_stats cf.yakTimeout i.now E.rip g.sh.yak (contribution cf (stepsOf j h) ⟨s, i, g.sh, s', sh', o⟩)
    rw [← hy] at o1 o2 o3
    refine ⟨hy ▸ h1.op _, ?_, ?_, ?_, ?_, ?_⟩
    · rw [hn]
      split
      · exact h2.look
      · exact h2.op _
    · simp only [o1, h3, List.countP_cons, Hap.isBegin, Bool.false_eq_true, if_false, Nat.add_zero]
    · simp only [o2, h4, marks, Bool.false_eq_true, if_false]; omega
    · simp only [o3, h5, marks, if_true]
      have : isSet (contribution cf (stepsOf j h) ⟨s, i, g.sh, s', sh', o⟩) = true ↔
          contribution cf (stepsOf j h) ⟨s, i, g.sh, s', sh', o⟩ = some (.set cf.yakCount) := by
        generalize hx : contribution cf (stepsOf j h) ⟨s, i, g.sh, s', sh', o⟩ = c
        cases c with
        | none => simp [isSet]
        | some op => cases op with
          | add | del => simp [isSet]
          | set n => simp [isSet, contribution_set hx]
      simp only [this]; omega
    · by_cases hp : s.pc = .tls
      · rw [if_pos hp] at hn
        obtain ⟨l1, l2, l3, l4⟩ := lookup_stats tlsTimeout i.now E.rip g.sh.notls
        rw [← hn] at l2 l3 l4
        refine ⟨?_, l3.trans h7, l4.trans h8⟩
        have : (⟨s, i, g.sh, s', sh', o⟩ : Step).event ≠ some .tlserror := by simp [Step.event, hp]
        simp [l2, h6, List.countP_cons, Hap.failsTls, this]
      · rw [if_neg hp] at hn
        obtain ⟨l1, l2, l3, l4⟩ := opYak_stats tlsTimeout i.now E.rip g.sh.notls (if (⟨s, i, g.sh, s', sh', o⟩ : Step).event = some .tlserror then some .add else none)
        rw [← hn] at l2 l3 l4
        refine ⟨?_, ?_, (l4 (by split <;> simp)).trans h8⟩
        · rw [l2, h6, List.countP_cons]
          simp only [Hap.failsTls, decide_eq_true_eq]
          by_cases hx : (⟨s, i, g.sh, s', sh', o⟩ : Step).event = some .tlserror <;> simp [hx, isSet]
        · rw [l3, h7]
          by_cases hx : (⟨s, i, g.sh, s', sh', o⟩ : Step).event = some .tlserror <;> simp [hx, isSet]

/-- Two addresses are added, one is set again when its record is too old, one is deleted, and a lookup finds the other too old. -/
example : ((schedule ipProg ⟨{}, none, fun _ => none, 0⟩
    ([.call 1 (.add b!"x" 10), .call 2 (.add b!"y" 10)] ++ turns 40 ++ [.tick 20, .call 1 (.set b!"x" 10 7), .call 2 (.lookup b!"y" 10)] ++ turns 40 ++ [.call 2 (.del b!"x")] ++
      turns 20 ++ [.call 1 .stats] ++ turns 5)).1.filterMap fun o => match o with
    | .ret _ .stats v => some v.stats
    | _ => none) =
    [some ({ adds := 2, addsNew := 2, addsExpired := 1, dels := 1, sets := 1, lookup := 1, lookupExpired := 1 }, 0)] := by decide +kernel

/-- Numbers that do not balance. -/
example : ¬ Balance { addsNew := 2, adds := 3, dels := 1 } 2 := fun h => absurd h.size (by decide)

/-- Two useless sessions; when the client comes back with a message its record is too old. -/
example : served (fun _ g => (g.sh.yak.stats, g.sh.yak.ips.length)) demoConfY (session 0 demoEnv 1 [.done] ++ session 1 demoEnv 2 [.done] ++
    session 2 demoEnv 300 [.helo false b!"mail.example.com", .mailfrom b!"a@example.com", .rcptto b!"u@example.com", .data, .gotdata b!"x", .done]) =
    some ({ adds := 2, addsNew := 1, lookup := 3, lookupHit := 1, lookupExpired := 1 }, 0) := by decide +kernel

end Sink
