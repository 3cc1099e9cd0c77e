import Verif.Lemmas.Mutex
import Verif.Spec.DemoMutex

/-!
# C54, C57: tables and counters shared by all connections
-/

namespace Sink
open Spec

/-- The accesses of a piece of code. -/
def accesses {M V : Type} (c : List (Instr M V)) : List (Int → M → V → M × V) := c.filterMap fun i => match i with
  | .act f => some f
  | _ => none

theorem accesses_guarded {M V : Type} (fs : List (Int → M → V → M × V)) : accesses (guarded fs) = fs := by
  unfold accesses guarded
  simp only [List.cons_append, List.filterMap_cons, List.filterMap_append, List.filterMap_nil, List.append_nil]
  induction fs with
  | nil => rfl
  | cons f fs ih => simpa using ih

/-! ## The IP tables -/

namespace IpMap

theorem get_count (m : IpMap) (f : IpStats → IpStats) (a : Str) : (m.count f).get a = m.get a := rfl
theorem stats_count (m : IpMap) (f : IpStats → IpStats) : (m.count f).stats = f m.stats := rfl
theorem stats_put (m : IpMap) (ip : Str) (e : IpEnt) : (m.put ip e).stats = m.stats := rfl
theorem stats_erase (m : IpMap) (ip : Str) : (m.erase ip).stats = m.stats := rfl

theorem get_upd (m : IpMap) (ip : Str) (f : IpEnt → IpEnt) (a : Str) : (m.upd ip f).get a = if a = ip then (m.get ip).map f else m.get a := by
  unfold upd
  cases hg : m.get ip with
  | none =>
    simp only [Option.map_none]
    split
    · rename_i h; rw [h, hg]
    · rfl
  | some e => simp only [get_put, Option.map_some]

theorem stats_upd (m : IpMap) (ip : Str) (f : IpEnt → IpEnt) : (m.upd ip f).stats = m.stats := by
  unfold upd; split <;> rfl

end IpMap

theorem distinct_erase {m : IpMap} (h : Distinct m) (ip : Str) : Distinct (m.erase ip) := by
  unfold Distinct IpMap.erase at *
  exact h.sublist (List.filter_sublist.map _)

theorem distinct_put {m : IpMap} (h : Distinct m) (ip : Str) (e : IpEnt) : Distinct (m.put ip e) := by
  have := distinct_erase h ip
  unfold Distinct IpMap.put at *
  simp only [List.map_cons, List.nodup_cons]
  refine ⟨?_, this⟩
  unfold IpMap.erase
  simp

theorem distinct_upd {m : IpMap} (h : Distinct m) (ip : Str) (f : IpEnt → IpEnt) : Distinct (m.upd ip f) := by
  unfold IpMap.upd
  split
  · exact distinct_put h _ _
  · exact h

theorem distinct_count {m : IpMap} (h : Distinct m) (f : IpStats → IpStats) : Distinct (m.count f) := h

theorem ip_guarded : ipProg.Guarded := by
  intro op
  cases op with
  | add ip ttl =>
    by_cases h : ip = []
    · left; simp [ipProg, ipCode, h]
    · right; refine ⟨accesses (ipProg.code (.add ip ttl)), ?_⟩
      simp only [ipProg, ipCode, h, if_false]; rfl
  | set ip ttl n =>
    by_cases h : ip = []
    · left; simp [ipProg, ipCode, h]
    · right; refine ⟨accesses (ipProg.code (.set ip ttl n)), ?_⟩
      simp only [ipProg, ipCode, h, if_false]; rfl
  | del ip =>
    by_cases h : ip = []
    · left; simp [ipProg, ipCode, h]
    · right; refine ⟨accesses (ipProg.code (.del ip)), ?_⟩
      simp only [ipProg, ipCode, h, if_false]; rfl
  | lookup ip ttl => exact .inr ⟨accesses (ipProg.code (.lookup ip ttl)), rfl⟩
  | stats => exact .inr ⟨accesses (ipProg.code .stats), rfl⟩

/-- What is left: the records of other addresses, and that there is at most one for each. -/
macro "ip_rest" : tactic => `(tactic| first
  | done
  | (refine ⟨fun a => ?_, fun h => ?_⟩
     · first | rfl | (split <;> simp_all)
     · repeat (first | exact h | apply distinct_upd | apply distinct_count | apply distinct_put | apply distinct_erase))
  | (intro h; repeat (first | exact h | apply distinct_upd | apply distinct_count | apply distinct_put | apply distinct_erase)))

theorem ip_add {ip : Str} {ttl : Int} (hip : ip ≠ []) {fs} (hf : ipProg.code (.add ip ttl) = guarded fs) (m : IpMap) {ts : List Int}
    (hl : fs.length = ts.length) (hp : ts.Pairwise (· ≤ ·)) : ∃ s t, s ∈ ts ∧ t ∈ ts ∧ s ≤ t ∧
      IpDoes (.add ip ttl) s t m (runActs fs ts (m, {})).1 (runActs fs ts (m, {})).2 := by
  have hf := congrArg accesses hf
  rw [accesses_guarded] at hf
  simp only [ipProg, ipCode, hip, if_false] at hf
  subst hf
  change 10 = _ at hl
  match ts, hl, hp with
  | [t1, t2, t3, t4, t5, t6, t7, t8, t9, t10], _, hp =>
  refine ⟨t5, t9, by simp, by simp, List.pairwise_iff_getElem.1 hp 4 8 (by simp) (by simp) (by simp), ?_⟩
  simp only [IpDoes, hip, if_false, ipSwitch, accesses, List.cons_append, List.nil_append, List.filterMap_cons, List.filterMap_nil, wr, rd, runActs]
  cases hg : m.get ip with
  | none =>
    simp [IpMap.get_count, IpMap.get_put, IpMap.get_erase, IpMap.get_upd, IpMap.stats_count, IpMap.stats_put, IpMap.stats_erase, IpMap.stats_upd, hg, onRecord, stale, one]
    ip_rest
  | some e =>
    by_cases hx : ttl ≤ t5 - e.when_
    · have hx' : ¬ t5 - e.when_ < ttl := by omega
      simp [IpMap.get_count, IpMap.get_put, IpMap.get_erase, IpMap.get_upd, IpMap.stats_count, IpMap.stats_put, IpMap.stats_erase, IpMap.stats_upd, hg, onRecord, stale, one, hx, hx']
      ip_rest
    · have hx' : t5 - e.when_ < ttl := by omega
      simp [IpMap.get_count, IpMap.get_put, IpMap.get_erase, IpMap.get_upd, IpMap.stats_count, IpMap.stats_put, IpMap.stats_erase, IpMap.stats_upd, hg, onRecord, stale, one, hx, hx']
      ip_rest

theorem ip_set {ip : Str} {ttl : Int} {n : Int} (hip : ip ≠ []) {fs} (hf : ipProg.code (.set ip ttl n) = guarded fs) (m : IpMap) {ts : List Int}
    (hl : fs.length = ts.length) (hp : ts.Pairwise (· ≤ ·)) : ∃ s t, s ∈ ts ∧ t ∈ ts ∧ s ≤ t ∧
      IpDoes (.set ip ttl n) s t m (runActs fs ts (m, {})).1 (runActs fs ts (m, {})).2 := by
  have hf := congrArg accesses hf
  rw [accesses_guarded] at hf
  simp only [ipProg, ipCode, hip, if_false] at hf
  subst hf
  change 10 = _ at hl
  match ts, hl, hp with
  | [t1, t2, t3, t4, t5, t6, t7, t8, t9, t10], _, hp =>
  refine ⟨t5, t8, by simp, by simp, List.pairwise_iff_getElem.1 hp 4 7 (by simp) (by simp) (by simp), ?_⟩
  simp only [IpDoes, hip, if_false, ipSwitch, accesses, List.cons_append, List.nil_append, List.filterMap_cons, List.filterMap_nil, wr, rd, runActs]
  cases hg : m.get ip with
  | none =>
    simp [IpMap.get_count, IpMap.get_put, IpMap.get_erase, IpMap.get_upd, IpMap.stats_count, IpMap.stats_put, IpMap.stats_erase, IpMap.stats_upd, hg, onRecord, stale, one]
    ip_rest
  | some e =>
    by_cases hx : ttl ≤ t5 - e.when_
    · have hx' : ¬ t5 - e.when_ < ttl := by omega
      simp [IpMap.get_count, IpMap.get_put, IpMap.get_erase, IpMap.get_upd, IpMap.stats_count, IpMap.stats_put, IpMap.stats_erase, IpMap.stats_upd, hg, onRecord, stale, one, hx, hx']
      ip_rest
    · have hx' : t5 - e.when_ < ttl := by omega
      simp [IpMap.get_count, IpMap.get_put, IpMap.get_erase, IpMap.get_upd, IpMap.stats_count, IpMap.stats_put, IpMap.stats_erase, IpMap.stats_upd, hg, onRecord, stale, one, hx, hx']
      ip_rest

theorem ip_del {ip : Str} (hip : ip ≠ []) {fs} (hf : ipProg.code (.del ip) = guarded fs) (m : IpMap) {ts : List Int}
    (hl : fs.length = ts.length) (hp : ts.Pairwise (· ≤ ·)) : ∃ s t, s ∈ ts ∧ t ∈ ts ∧ s ≤ t ∧
      IpDoes (.del ip) s t m (runActs fs ts (m, {})).1 (runActs fs ts (m, {})).2 := by
  have hf := congrArg accesses hf
  rw [accesses_guarded] at hf
  simp only [ipProg, ipCode, hip, if_false] at hf
  subst hf
  change 3 = _ at hl
  match ts, hl, hp with
  | [t1, t2, t3], _, hp =>
  refine ⟨t1, t1, by simp, by simp, Int.le_refl _, ?_⟩
  simp only [IpDoes, hip, if_false, ipSwitch, accesses, List.cons_append, List.nil_append, List.filterMap_cons, List.filterMap_nil, wr, rd, runActs]
  cases hg : m.get ip with
  | none =>
    simp [IpMap.get_count, IpMap.get_put, IpMap.get_erase, IpMap.get_upd, IpMap.stats_count, IpMap.stats_put, IpMap.stats_erase, IpMap.stats_upd, hg, onRecord, stale, one]
    ip_rest
  | some e =>
    simp [IpMap.get_count, IpMap.get_put, IpMap.get_erase, IpMap.get_upd, IpMap.stats_count, IpMap.stats_put, IpMap.stats_erase, IpMap.stats_upd, hg, onRecord, stale, one]
    ip_rest

theorem ip_lookup {ip : Str} {ttl : Int} {fs} (hf : ipProg.code (.lookup ip ttl) = guarded fs) (m : IpMap) {ts : List Int}
    (hl : fs.length = ts.length) (hp : ts.Pairwise (· ≤ ·)) : ∃ s t, s ∈ ts ∧ t ∈ ts ∧ s ≤ t ∧
      IpDoes (.lookup ip ttl) s t m (runActs fs ts (m, {})).1 (runActs fs ts (m, {})).2 := by
  have hf := congrArg accesses hf
  rw [accesses_guarded] at hf
  simp only [ipProg, ipCode] at hf
  subst hf
  change 7 = _ at hl
  match ts, hl, hp with
  | [t1, t2, t3, t4, t5, t6, t7], _, hp =>
  refine ⟨t3, t3, by simp, by simp, Int.le_refl _, ?_⟩
  simp only [IpDoes, accesses, List.cons_append, List.nil_append, List.filterMap_cons, List.filterMap_nil, wr, rd, runActs]
  cases hg : m.get ip with
  | none =>
    simp [IpMap.get_count, IpMap.get_put, IpMap.get_erase, IpMap.get_upd, IpMap.stats_count, IpMap.stats_put, IpMap.stats_erase, IpMap.stats_upd, hg, onRecord, stale, one]
    ip_rest
  | some e =>
    by_cases hx : ttl ≤ t3 - e.when_
    · have hx' : ¬ t3 - e.when_ < ttl := by omega
      simp [IpMap.get_count, IpMap.get_put, IpMap.get_erase, IpMap.get_upd, IpMap.stats_count, IpMap.stats_put, IpMap.stats_erase, IpMap.stats_upd, hg, onRecord, stale, one, hx, hx']
      ip_rest
    · have hx' : t3 - e.when_ < ttl := by omega
      simp [IpMap.get_count, IpMap.get_put, IpMap.get_erase, IpMap.get_upd, IpMap.stats_count, IpMap.stats_put, IpMap.stats_erase, IpMap.stats_upd, hg, onRecord, stale, one, hx, hx']
      ip_rest


theorem get_isSome (m : IpMap) (a : Str) : a ∈ m.ips.map Prod.fst ↔ (m.get a).isSome = true := by
  unfold IpMap.get
  generalize m.ips = l
  induction l with
  | nil => simp
  | cons x l ih =>
    simp only [List.map_cons, List.mem_cons, ih, List.lookup_cons]
    cases h : a == x.1 with
    | true => simp [beq_iff_eq.1 h]
    | false =>
      have : a ≠ x.1 := by simpa using h
      simp [this]

theorem ip_correct : ipProg.Correct IpDoes := by
  constructor
  · intro op m s h
    cases op with
    | add ip ttl =>
      by_cases hip : ip = []
      · simp [IpDoes, hip, ipProg]
      · simp [ipProg, ipCode, hip] at h
    | set ip ttl n =>
      by_cases hip : ip = []
      · simp [IpDoes, hip, ipProg]
      · simp [ipProg, ipCode, hip] at h
    | del ip =>
      by_cases hip : ip = []
      · simp [IpDoes, hip]
      · simp [ipProg, ipCode, hip] at h
    | lookup ip ttl => simp [ipProg, ipCode] at h
    | stats => simp [ipProg, ipCode] at h
  · intro op fs hf m ts lo hi hl hp hb hle
    have key : ∀ {D : Int → Int → Prop}, (∃ s t, s ∈ ts ∧ t ∈ ts ∧ s ≤ t ∧ D s t) → ∃ s t, lo ≤ s ∧ s ≤ t ∧ t ≤ hi ∧ D s t := by
      rintro D ⟨s, t, h1, h2, h3, h4⟩
      exact ⟨s, t, (hb s h1).1, h3, (hb t h2).2, h4⟩
    cases op with
    | add ip ttl =>
      by_cases hip : ip = []
      · simp [ipProg, ipCode, hip, guarded] at hf
      · exact key (ip_add hip hf m hl hp)
    | set ip ttl n =>
      by_cases hip : ip = []
      · simp [ipProg, ipCode, hip, guarded] at hf
      · exact key (ip_set hip hf m hl hp)
    | del ip =>
      by_cases hip : ip = []
      · simp [ipProg, ipCode, hip, guarded] at hf
      · exact key (ip_del hip hf m hl hp)
    | lookup ip ttl => exact key (ip_lookup hf m hl hp)
    | stats =>
      have hf := congrArg accesses hf
      rw [accesses_guarded] at hf
      simp only [ipProg, ipCode] at hf
      subst hf
      change 1 = _ at hl
      match ts, hl, hb with
      | [t1], _, hb =>
        obtain ⟨h1, h2⟩ := hb t1 (by simp)
        refine ⟨t1, t1, h1, Int.le_refl _, h2, rfl, m.ips.map Prod.fst, fun h => h, get_isSome m, ?_⟩
        simp only [accesses, List.filterMap_cons, List.filterMap_nil, rd, runActs, IpMap.statsOf, List.length_map]

/-- **C54.** Whatever calls of `Add`, `Set`, `Del`, `Lookup` and `Stats` any number of goroutines make, and however their instructions are
interleaved: what they observe is what they could observe if each call took effect at one moment between its call and its return; and
whenever the mutex is free the table is the one these effects give. -/
theorem C54_atomic {t0 : Int} {l : List (Obs IpCall IpLoc)} {s : Sys IpCall IpMap IpLoc} (h : Sys.Runs ipProg {} t0 l s) :
    ∃ a, ASys.Runs IpDoes {} t0 l a ∧ (s.holder = none → s.mem = a.mem) := by
  obtain ⟨a, h1, h2⟩ := h.atomic ip_guarded ip_correct
  exact ⟨a, h1, h2.mem⟩

/-- **C54.** There are no data races, only the owner of the mutex unlocks it, and the goroutines never wait for each other for ever. -/
theorem C54_exclusive {t0 : Int} {l : List (Obs IpCall IpLoc)} {s : Sys IpCall IpMap IpLoc} (h : Sys.Runs ipProg {} t0 l s) :
    (∀ k x i c, s.thr k = some x → x.code = i :: c → i ≠ .lock → s.holder = some k) ∧
    ((∃ k, s.thr k ≠ none) → ∃ o s', Sys.Step ipProg s o s' ∧ (∀ k op, o ≠ some (.call k op)) ∧ ∀ t, o ≠ some (.tick t)) := by
  obtain ⟨a, -, h2⟩ := h.atomic ip_guarded ip_correct
  exact ⟨fun k x i c hx hi hne => h2.excl ip_guarded hx hi hne, h2.progress ip_guarded⟩

/-- What the result of a call says about the calls before it. -/
def Spec.Tells (ttl : Int) (older : List (Fired IpCall IpLoc)) (f : Fired IpCall IpLoc) : Prop :=
  match f.op with
  | .add ip _ => f.v.cnt = (value2 ttl f.s (opsOn ip older)).getD 0 + 1
  | .set ip _ _ => f.v.cnt = (value2 ttl f.s (opsOn ip older)).getD 0
  | .lookup ip _ => f.v.hit = (value2 ttl f.s (opsOn ip older)).isSome ∧ f.v.cnt = (value2 ttl f.s (opsOn ip older)).getD 0
  | .del _ => True
  | .stats => ∃ keys : List Str, keys.Nodup ∧ (∀ a now, (value2 ttl now (opsOn a older)).isSome = true → f.t ≤ now → a ∈ keys) ∧
      ∃ st, f.v.stats = some (st, keys.length) ∧ st.adds = (older.filter fun g => match g.op with | .add _ _ => true | _ => false).length

/-- What holds of the table between calls. -/
structure Tallies (ttl : Int) (a : ASys IpCall IpMap IpLoc) : Prop where
  distinct : Distinct a.mem
  agree : ∀ ip now, a.last ≤ now → onRecord a.mem ip ttl now = value2 ttl now (opsOn ip a.hist)
  adds : a.mem.stats.adds = (a.hist.filter fun g => match g.op with | .add _ _ => true | _ => false).length
  called : ∀ k op r, a.thr k = some (op, r) → Uses ttl op
  tells : ∀ newer f older, a.hist = newer ++ f :: older → Tells ttl older f

theorem onRecord_congr {m m' : IpMap} {ip : Str} (h : m'.get ip = m.get ip) (ttl now : Int) : onRecord m' ip ttl now = onRecord m ip ttl now := by
  unfold onRecord; rw [h]

theorem onRecord_isSome {m : IpMap} {ip : Str} {ttl now : Int} (h : (onRecord m ip ttl now).isSome = true) : (m.get ip).isSome = true := by
  unfold onRecord at h
  cases hg : m.get ip with
  | none => rw [hg] at h; cases h
  | some e => rfl

theorem onRecord_stale {m : IpMap} {ip : Str} {ttl now now' : Int} (h : onRecord m ip ttl now = none) (hn : now ≤ now') : onRecord m ip ttl now' = none := by
  unfold onRecord at *
  cases hg : m.get ip with
  | none => rfl
  | some e =>
    rw [hg] at h
    simp only at h ⊢
    split at h
    · cases h
    · rw [if_neg (by omega)]

theorem Tallies.step {ttl : Int} {a a' : ASys IpCall IpMap IpLoc} {o : Option (Obs IpCall IpLoc)} (h : Tallies ttl a) (hs : ASys.Step IpDoes a o a')
    (hu : ∀ k op, o = some (.call k op) → Uses ttl op) : Tallies ttl a' := by
  cases hs with
  | @call k op hk =>
    refine ⟨h.distinct, h.agree, h.adds, fun j op' r hj => ?_, h.tells⟩
    by_cases e : j = k
    · subst e
      simp only [setAt_self] at hj
      cases hj; exact hu _ _ rfl
    · simp only [setAt_ne _ _ e] at hj
      exact h.called _ _ _ hj
  | @ret k op v hk =>
    refine ⟨h.distinct, h.agree, h.adds, fun j op' r hj => ?_, h.tells⟩
    by_cases e : j = k
    · subst e
      simp only [setAt_self] at hj
      cases hj
    · simp only [setAt_ne _ _ e] at hj
      exact h.called _ _ _ hj
  | tick ht => exact ⟨h.distinct, h.agree, h.adds, h.called, h.tells⟩
  | @fire k op s t m' v hk h1 h2 h3 hd =>
    have hc : ∀ j op' r, setAt a.thr k (some (op, some v)) j = some (op', r) → Uses ttl op' := by
      intro j op' r hj
      by_cases e : j = k
      · subst e
        simp only [setAt_self] at hj
        cases hj; exact h.called _ _ _ hk
      · simp only [setAt_ne _ _ e] at hj
        exact h.called _ _ _ hj
    have htell : ∀ {P : Prop}, Tells ttl a.hist ⟨k, op, s, t, v⟩ → ∀ newer f older, (⟨k, op, s, t, v⟩ :: a.hist : List (Fired IpCall IpLoc)) = newer ++ f :: older → Tells ttl older f := by
      intro _ ht newer f older he
      cases newer with
      | nil => cases he; exact ht
      | cons x newer => injection he with _ he; exact h.tells _ _ _ he
    have huse := h.called _ _ _ hk
    have hs : ∀ ip, onRecord a.mem ip ttl s = value2 ttl s (opsOn ip a.hist) := fun ip => h.agree ip s h1
    cases op with
    | add ip x =>
      obtain ⟨rfl, hip⟩ := huse
      simp only [IpDoes, hip, if_false] at hd
      obtain ⟨d1, d2, d3, d4⟩ := hd
      refine ⟨d3 h.distinct, fun b now hn => ?_, ?_, hc, htell (P := True) ?_⟩
      · by_cases hb : b = ip
        · subst hb
          have e : opsOn b (⟨k, .add b x, s, t, v⟩ :: a.hist) = (s, t, .add) :: opsOn b a.hist := by simp [opsOn]
          rw [e, value2, ← hs b, ← d1]
          unfold onRecord
          rw [d2 b, if_pos rfl]
        · have e : opsOn b (⟨k, .add ip x, s, t, v⟩ :: a.hist) = opsOn b a.hist := by simp [opsOn, Ne.symm hb]
          rw [e, onRecord_congr (m := a.mem) (by rw [d2 b, if_neg hb])]
          exact h.agree b now (by simp only at hn; omega)
      · rw [d4]; simp [h.adds]
      · simp only [Tells]; rw [d1, hs]
    | set ip x n =>
      obtain ⟨rfl, hip⟩ := huse
      simp only [IpDoes, hip, if_false] at hd
      obtain ⟨d1, d2, d3, d4⟩ := hd
      refine ⟨d3 h.distinct, fun b now hn => ?_, ?_, hc, htell (P := True) ?_⟩
      · by_cases hb : b = ip
        · subst hb
          have e : opsOn b (⟨k, .set b x n, s, t, v⟩ :: a.hist) = (s, t, .set n) :: opsOn b a.hist := by simp [opsOn]
          rw [e, value2]
          unfold onRecord
          rw [d2 b, if_pos rfl]
        · have e : opsOn b (⟨k, .set ip x n, s, t, v⟩ :: a.hist) = opsOn b a.hist := by simp [opsOn, Ne.symm hb]
          rw [e, onRecord_congr (m := a.mem) (by rw [d2 b, if_neg hb])]
          exact h.agree b now (by simp only at hn; omega)
      · rw [d4]; simp [h.adds]
      · simp only [Tells]; rw [d1, hs]
    | del ip =>
      have hip : ip ≠ [] := huse
      simp only [IpDoes, hip, if_false] at hd
      obtain ⟨d2, d3, d4⟩ := hd
      refine ⟨d3 h.distinct, fun b now hn => ?_, ?_, hc, htell (P := True) trivial⟩
      · by_cases hb : b = ip
        · subst hb
          have e : opsOn b (⟨k, .del b, s, t, v⟩ :: a.hist) = (s, t, .del) :: opsOn b a.hist := by simp [opsOn]
          rw [e, value2]
          unfold onRecord
          rw [d2 b, if_pos rfl]
        · have e : opsOn b (⟨k, .del ip, s, t, v⟩ :: a.hist) = opsOn b a.hist := by simp [opsOn, Ne.symm hb]
          rw [e, onRecord_congr (m := a.mem) (by rw [d2 b, if_neg hb])]
          exact h.agree b now (by simp only at hn; omega)
      · rw [d4]; simp [h.adds]
    | lookup ip x =>
      obtain ⟨rfl, hip⟩ := huse
      simp only [IpDoes] at hd
      obtain ⟨d0, d1, d2, d3, d4⟩ := hd
      refine ⟨d3 h.distinct, fun b now hn => ?_, ?_, hc, htell (P := True) ?_⟩
      · have e : opsOn b (⟨k, .lookup ip x, s, t, v⟩ :: a.hist) = opsOn b a.hist := by simp [opsOn]
        simp only at hn
        rw [e]
        by_cases hb : b = ip ∧ onRecord a.mem ip x s = none
        · obtain ⟨rfl, hz⟩ := hb
          rw [← h.agree b now (by omega), onRecord_stale hz (by omega)]
          unfold onRecord
          rw [d2 b, if_pos ⟨rfl, hz⟩]
        · rw [onRecord_congr (m := a.mem) (by rw [d2 b, if_neg hb])]
          exact h.agree b now (by omega)
      · rw [d4]; simp [h.adds]
      · simp only [Tells]; rw [d0, d1, hs]; exact ⟨rfl, rfl⟩
    | stats =>
      obtain ⟨rfl, keys, d1, d2, d3⟩ := hd
      refine ⟨h.distinct, fun b now hn => ?_, ?_, hc, htell (P := True) ?_⟩
      · have e : opsOn b (⟨k, .stats, s, t, v⟩ :: a.hist) = opsOn b a.hist := by simp [opsOn]
        rw [e]
        exact h.agree b now (by simp only at hn; omega)
      · simp [h.adds]
      · refine ⟨keys, d1 h.distinct, fun b now hv hn => ?_, _, d3, h.adds⟩
        rw [← h.agree b now (by simp only at hn; omega)] at hv
        exact (d2 b).2 (onRecord_isSome hv)

theorem tallies_run {ttl t0 : Int} {l : List (Obs IpCall IpLoc)} {a : ASys IpCall IpMap IpLoc} (h : ASys.Runs IpDoes {} t0 l a)
    (hu : ∀ k op, .call k op ∈ l → Uses ttl op) : Tallies ttl a := by
  induction h with
  | init =>
    refine ⟨List.nodup_nil, fun ip now _ => rfl, rfl, nofun, fun newer f older he => ?_⟩
    cases newer <;> cases he
  | step hr hs ih =>
    refine (ih fun k op hm => hu k op (List.mem_append_left _ hm)).step hs fun k op ho => ?_
    subst ho
    exact hu k op (by simp)

/-- **C54.** If all calls use the same time limit, as those of `yakkers` and those of `notls` do, then in the order in which the calls took
effect every `Add` returns one more than the count on record then, which is the number of `Add`s since the record was made, had
expired, was deleted or was set (and what it was set to); `Set` returns that count, `Lookup` finds it exactly if there is a record that is
not too old. -/
theorem C54_count {ttl t0 : Int} {l : List (Obs IpCall IpLoc)} {s : Sys IpCall IpMap IpLoc} (h : Sys.Runs ipProg {} t0 l s)
    (hu : ∀ k op, .call k op ∈ l → Uses ttl op) :
    ∃ a, ASys.Runs IpDoes {} t0 l a ∧ (s.holder = none → s.mem = a.mem) ∧
      (∀ newer f older, a.hist = newer ++ f :: older → Tells ttl older f) ∧
      (s.holder = none → ∀ ip now, s.clock ≤ now → onRecord s.mem ip ttl now = value2 ttl now (opsOn ip a.hist)) := by
  obtain ⟨a, h1, h2⟩ := h.atomic ip_guarded ip_correct
  have ht := tallies_run h1 hu
  refine ⟨a, h1, h2.mem, ht.tells, fun hn ip now hc => ?_⟩
  rw [h2.mem hn]
  have h3 := h2.le
  have h4 := h2.clock
  exact ht.agree ip now (by omega)

/-- A run of `Add`s none of which found the record too old, after something that left no record. -/
inductive Spec.AddsSince (ttl : Int) : Int → List (Int × Int × IpOp) → Nat → Prop
  | start {now h} : value2 ttl now h = none → AddsSince ttl now h 0
  | add {now s t h n} : now - t < ttl → AddsSince ttl s h n → AddsSince ttl now ((s, t, .add) :: h) (n + 1)

/-- **C54.** What "the number of `Add`s since" means. -/
theorem C54_adds {ttl now : Int} {h : List (Int × Int × IpOp)} {n : Nat} (ha : AddsSince ttl now h n) : (value2 ttl now h).getD 0 = n := by
  induction ha with
  | start h => rw [h]; rfl
  | add h1 _ ih =>
    rw [value2, if_pos h1, Option.getD_some, ih]
    simp

/-- **C54.** The operations of the server's model (`Model/Session.lean`), each one step, are these effects, with one time. -/
theorem C54_steps (m : IpMap) (ip : Str) (ttl n now : Int) :
    IpDoes (.add ip ttl) now now m (m.add ip ttl now).2 { cnt := (m.add ip ttl now).1 } ∧
    IpDoes (.set ip ttl n) now now m (m.set ip ttl n now).2 { cnt := (m.set ip ttl n now).1 } ∧
    IpDoes (.del ip) now now m (m.del ip) {} ∧
    IpDoes (.lookup ip ttl) now now m (m.lookup ip ttl now).2 { hit := (m.lookup ip ttl now).1.1, cnt := (m.lookup ip ttl now).1.2 } := by
  have live : m.live ip ttl now = onRecord m ip ttl now := by
    unfold IpMap.live onRecord
    cases m.get ip <;> rfl
  have ge : ∀ e : IpEnt, (ttl ≤ now - e.when_) = ¬ (now - e.when_ < ttl) := fun e => by rw [Int.not_lt]
  refine ⟨?_, ?_, ?_, ?_⟩
  · by_cases hip : ip = []
    · simp [IpDoes, hip, IpMap.add]
    · simp only [IpDoes, hip, if_false]
      obtain ⟨h1, h2⟩ := m.add_eq hip ttl now
      rw [live] at h1 h2
      refine ⟨h1, by simpa only [h1] using h2, fun hd => ?_, ?_⟩
      · unfold IpMap.add; rw [if_neg hip]
        exact distinct_put (m := { m with stats := _ }) hd _ _
      · unfold IpMap.add IpMap.fresh stale onRecord
        rw [if_neg hip]
        simp only [IpMap.get_stats]
        cases hg : m.get ip with
        | none => simp [one]
        | some e =>
          by_cases hx : now - e.when_ < ttl
          · simp [one, ge, hx]
          · simp [one, ge, hx]
  · by_cases hip : ip = []
    · simp [IpDoes, hip, IpMap.set]
    · simp only [IpDoes, hip, if_false]
      obtain ⟨h1, h2⟩ := m.set_eq hip ttl n now
      rw [live] at h1
      refine ⟨h1, h2, fun hd => ?_, ?_⟩
      · unfold IpMap.set; rw [if_neg hip]
        exact distinct_put (m := { m with stats := _ }) hd _ _
      · unfold IpMap.set IpMap.fresh stale onRecord
        rw [if_neg hip]
        simp only [IpMap.get_stats]
        cases hg : m.get ip with
        | none => simp [one]
        | some e =>
          by_cases hx : now - e.when_ < ttl
          · simp [one, ge, hx]
          · simp [one, ge, hx]
  · by_cases hip : ip = []
    · simp [IpDoes, hip, IpMap.del]
    · simp only [IpDoes, hip, if_false]
      refine ⟨m.del_eq hip, fun hd => ?_, ?_⟩
      · unfold IpMap.del; rw [if_neg hip]
        split
        · exact distinct_erase hd ip
        · exact hd
      · unfold IpMap.del
        rw [if_neg hip]
        cases hg : m.get ip with
        | none => simp [one]
        | some e => simp [one]
  · obtain ⟨h1, h2⟩ := m.lookup_eq ip ttl now
    rw [live] at h1 h2
    simp only [IpDoes]
    refine ⟨by rw [h1], by rw [h1], h2, fun hd => ?_, ?_⟩
    · unfold IpMap.lookup
      simp only
      split
      · exact hd
      · split
        · exact hd
        · exact distinct_erase hd ip
    · unfold IpMap.lookup stale onRecord
      simp only [IpMap.get_stats]
      cases hg : m.get ip with
      | none => simp [one]
      | some e =>
        by_cases hx : now - e.when_ < ttl
        · simp [one, hx]
        · simp [one, hx]

/-- Two goroutines add the same address at once, instruction by instruction in turns: one gets 1, the other 2. -/
example : results ipProg {} IpLoc.cnt ([.call 1 (.add b!"x" 10), .call 2 (.add b!"x" 10)] ++ turns 14) = [(1, 1)] ∧
    results ipProg {} IpLoc.cnt ([.call 1 (.add b!"x" 10), .call 2 (.add b!"x" 10)] ++ turns 30) = [(1, 1), (2, 2)] := by decide +kernel
/-- A record 10 old has expired. -/
example : results ipProg {} IpLoc.cnt ([.call 1 (.add b!"x" 10)] ++ turns 14 ++ [.tick 10, .call 1 (.add b!"x" 10)] ++ turns 14) = [(1, 1), (1, 1)] ∧
    results ipProg {} IpLoc.cnt ([.call 1 (.add b!"x" 10)] ++ turns 14 ++ [.tick 9, .call 1 (.add b!"x" 10)] ++ turns 14) = [(1, 1), (1, 2)] := by
  decide +kernel
/-- These are executions of the theorems. -/
example (cs : List (Sched IpCall)) :
    Sys.Runs ipProg {} 0 (schedule ipProg ⟨{}, none, fun _ => none, 0⟩ cs).1 (schedule ipProg ⟨{}, none, fun _ => none, 0⟩ cs).2 :=
  schedule_runs .init
/-- Without the mutex an update is lost. -/
example : results (⟨ipProg.init, fun op => (ipCode op).filter fun i => match i with | .act _ => true | _ => false⟩ : Prog IpCall IpMap IpLoc) {} IpLoc.cnt
    ([.call 1 (.add b!"x" 10), .call 2 (.add b!"x" 10)] ++ turns 14) = [(1, 2), (2, 2)] := by decide +kernel
example : AddsSince 10 20 [(15, 15, .add), (6, 6, .add), (3, 3, .set 7), (1, 1, .add)] 0 → False := fun h => by
  have := C54_adds h
  revert this; decide

/-! ## The counters -/

theorem dc_guarded : dcProg.Guarded := by
  intro op
  cases op with
  | add dbls =>
    by_cases h : dbls = []
    · left; simp [dcProg, dcCode, h]
    · right
      refine ⟨accesses (dcProg.code (.add dbls)), ?_⟩
      simp only [dcProg, dcCode, h, if_false, guarded, accesses]
      simp only [List.cons_append, List.filterMap_cons, List.filterMap_append, List.filterMap_nil, List.append_nil, List.cons.injEq, true_and,
        List.append_cancel_right_eq]
      clear h
      induction dbls with
      | nil => rfl
      | cons d dbls ih =>
        rw [List.flatMap_cons, List.filterMap_append, List.map_append, ← ih]
        rfl
  | stats => exact .inr ⟨accesses (dcProg.code .stats), rfl⟩

theorem dc_loop : ∀ {dbls : List Str} {ts : List Int} {m : DcMap} {v : DcLoc},
    (accesses (dbls.flatMap fun d => ([rd fun _ m v => { v with t := m d }, rd fun _ _ v => { v with t := v.t + 1 },
      wr fun _ m v => fun x => if x = d then v.t else m x] : List (Instr DcMap DcLoc)))).length = ts.length →
    ∀ x, (runActs (accesses (dbls.flatMap fun d => ([rd fun _ m v => { v with t := m d }, rd fun _ _ v => { v with t := v.t + 1 },
      wr fun _ m v => fun x => if x = d then v.t else m x] : List (Instr DcMap DcLoc)))) ts (m, v)).1 x = m x + UInt64.ofNat (dbls.count x) := by
  intro dbls
  induction dbls with
  | nil => intro ts m v _ x; simp [accesses, runActs]
  | cons d dbls ih =>
    intro ts m v hl x
    simp only [accesses, List.flatMap_cons, List.filterMap_append, List.length_append] at hl
    match ts, hl with
    | [], hl => simp [rd, wr] at hl
    | [_], hl =>
      simp only [rd, wr, List.filterMap_cons, List.filterMap_nil, List.length_cons, List.length_nil] at hl; omega
    | [_, _], hl =>
      simp only [rd, wr, List.filterMap_cons, List.filterMap_nil, List.length_cons, List.length_nil] at hl; omega
    | t1 :: t2 :: t3 :: ts, hl =>
      have hl' : (accesses (dbls.flatMap fun d => ([rd fun _ m v => { v with t := m d }, rd fun _ _ v => { v with t := v.t + 1 },
        wr fun _ m v => fun x => if x = d then v.t else m x] : List (Instr DcMap DcLoc)))).length = ts.length := by
        simp only [accesses, rd, wr, List.filterMap_cons, List.filterMap_nil, List.length_cons, List.length_nil] at hl ⊢
        omega
      have := ih (m := fun x => if x = d then m d + 1 else m x) (v := { v with t := m d + 1 }) hl' x
      have e : ∀ {fs : List (Int → DcMap → DcLoc → DcMap × DcLoc)}, runActs (accesses ([rd fun _ m v => { v with t := m d }, rd fun _ _ v => { v with t := v.t + 1 },
          wr fun _ m v => fun x => if x = d then v.t else m x] : List (Instr DcMap DcLoc)) ++ fs) (t1 :: t2 :: t3 :: ts) (m, v) =
          runActs fs ts (fun x => if x = d then m d + 1 else m x, { v with t := m d + 1 }) := rfl
      simp only [accesses, List.flatMap_cons, List.filterMap_append] at this e ⊢
      rw [e, this, List.count_cons]
      by_cases hx : x = d
      · subst hx
        simp only [if_true, beq_self_eq_true]
        rw [UInt64.ofNat_add, show UInt64.ofNat 1 = 1 from rfl]
        ac_rfl
      · simp [hx, Ne.symm hx]

theorem dc_correct : dcProg.Correct DcDoes := by
  constructor
  · intro op m s h
    cases op with
    | add dbls =>
      by_cases hd : dbls = []
      · subst hd; intro x; simp
      · simp [dcProg, dcCode, hd] at h
    | stats => simp [dcProg, dcCode] at h
  · intro op fs hf m ts lo hi hl hp hb hle
    refine ⟨lo, lo, Int.le_refl _, Int.le_refl _, hle, ?_⟩
    have hf := congrArg accesses hf
    rw [accesses_guarded] at hf
    cases op with
    | add dbls =>
      by_cases hd : dbls = []
      · rename_i hf'
        simp [dcProg, dcCode, hd, guarded] at hf'
      · intro x
        have e : fs = accesses (dbls.flatMap fun d => ([rd fun _ m v => { v with t := m d }, rd fun _ _ v => { v with t := v.t + 1 },
          wr fun _ m v => fun x => if x = d then v.t else m x] : List (Instr DcMap DcLoc))) := by
          rw [← hf]
          simp only [dcProg, dcCode, hd, if_false, accesses]
          simp
        subst e
        exact dc_loop hl x
    | stats =>
      simp only [dcProg, dcCode] at hf
      subst hf
      change 1 = _ at hl
      match ts, hl with
      | [t1], _ => exact ⟨rfl, rfl⟩

/-- What holds of the counters between calls. -/
theorem counted_run {t0 : Int} {l : List (Obs DcCall DcLoc)} {a : ASys DcCall DcMap DcLoc} (h : ASys.Runs DcDoes (fun _ => 0) t0 l a) :
    (∀ x, a.mem x = UInt64.ofNat (reported x a.hist)) ∧
    ∀ newer f older, a.hist = newer ++ f :: older → f.op = .stats → ∃ nm, f.v.nm = some nm ∧ ∀ x, nm x = UInt64.ofNat (reported x older) := by
  induction h with
  | init =>
    refine ⟨fun x => rfl, fun newer f older he => ?_⟩
    cases newer <;> cases he
  | step hr hs ih =>
    obtain ⟨i1, i2⟩ := ih
    cases hs with
    | call _ => exact ⟨i1, i2⟩
    | ret _ => exact ⟨i1, i2⟩
    | tick _ => exact ⟨i1, i2⟩
    | @fire k op s t m' v hk h1 h2 h3 hd =>
      cases op with
      | add dbls =>
        refine ⟨fun x => ?_, fun newer f older he hf => ?_⟩
        · simp only [DcDoes] at hd ⊢
          rw [hd x, i1 x]
          simp only [reported, List.map_cons, List.sum_cons, UInt64.ofNat_add]
          ac_rfl
        · cases newer with
          | nil => cases he; cases hf
          | cons y newer => injection he with _ he; exact i2 _ _ _ he hf
      | stats =>
        obtain ⟨rfl, hn⟩ := hd
        refine ⟨fun x => ?_, fun newer f older he hf => ?_⟩
        · rw [i1 x]; simp [reported]
        · cases newer with
          | nil => cases he; exact ⟨_, hn, i1⟩
          | cons y newer => injection he with _ he; exact i2 _ _ _ he hf

/-- **C57.** Under every interleaving of any calls of `Add` and `Stats`: the calls take effect one at a time, each between its call and its
return; whenever the mutex is free each counter is the number of times its name was reported (modulo 2^64), and every snapshot has the
numbers at the moment it was taken. -/
theorem C57_exact {t0 : Int} {l : List (Obs DcCall DcLoc)} {s : Sys DcCall DcMap DcLoc} (h : Sys.Runs dcProg (fun _ => 0) t0 l s) :
    ∃ a, ASys.Runs DcDoes (fun _ => 0) t0 l a ∧ (s.holder = none → ∀ x, s.mem x = UInt64.ofNat (reported x a.hist)) ∧
      ∀ newer f older, a.hist = newer ++ f :: older → f.op = .stats → ∃ nm, f.v.nm = some nm ∧ ∀ x, nm x = UInt64.ofNat (reported x older) := by
  obtain ⟨a, h1, h2⟩ := h.atomic dc_guarded dc_correct
  obtain ⟨h3, h4⟩ := counted_run h1
  exact ⟨a, h1, fun hn x => by rw [h2.mem hn, h3 x], h4⟩

/-- The reports called for. -/
def Spec.called (x : Str) (l : List (Obs DcCall DcLoc)) : Nat :=
  (l.map fun o => match o with
    | .call _ (.add dbls) => dbls.count x
    | _ => 0).sum

/-- What a goroutine waits to report. -/
def waiting (x : Str) (r : Option (DcCall × Option DcLoc)) : Nat :=
  match r with
  | some (.add dbls, none) => dbls.count x
  | _ => 0

/-- Reports that wait to take effect. -/
theorem called_fired {t0 : Int} {l : List (Obs DcCall DcLoc)} {a : ASys DcCall DcMap DcLoc} (h : ASys.Runs DcDoes (fun _ => 0) t0 l a) :
    ∃ w : List Nat, w.Nodup ∧ (∀ k, (∃ op, a.thr k = some (op, none)) → k ∈ w) ∧
      ∀ x, called x l = reported x a.hist + (w.map fun k => waiting x (a.thr k)).sum := by
  induction h with
  | init => exact ⟨[], List.nodup_nil, fun k hk => by simp at hk, fun x => rfl⟩
  | @step l a o a' hr hs ih =>
    obtain ⟨w, hw, h1, h2⟩ := ih
    have app : ∀ (x : Str) (o : Obs DcCall DcLoc), called x (l ++ [o]) = called x l + called x [o] := by
      intro x o; simp [called]
    have other : ∀ (k : Nat) (y : Option (DcCall × Option DcLoc)) (x : Str) (u : List Nat), k ∉ u →
        (u.map fun j => waiting x (setAt a.thr k y j)) = u.map fun j => waiting x (a.thr j) := by
      intro k y x u hk
      refine List.map_congr_left fun j hj => ?_
      rw [setAt_ne]
      rintro rfl; exact hk hj
    cases hs with
    | @call k op hk =>
      refine ⟨k :: w.erase k, ?_, fun j hj => ?_, fun x => ?_⟩
      · rw [List.nodup_cons]
        exact ⟨fun h => (List.Nodup.mem_erase_iff hw).1 h |>.1 rfl, hw.erase k⟩
      · by_cases e : j = k
        · subst e; simp
        · simp only [setAt_ne _ _ e] at hj
          exact List.mem_cons_of_mem _ ((List.mem_erase_of_ne e).2 (h1 j hj))
      · simp only [Option.toList_some, app, h2 x, List.map_cons, List.sum_cons, setAt_self]
        rw [other _ _ _ _ (fun h => (List.Nodup.mem_erase_iff hw).1 h |>.1 rfl)]
        have hz : (w.map fun j => waiting x (a.thr j)).sum = ((w.erase k).map fun j => waiting x (a.thr j)).sum := by
          by_cases hm : k ∈ w
          · rw [((List.perm_cons_erase hm).map _).sum_nat]
            simp [hk, waiting]
          · rw [List.erase_of_not_mem hm]
        rw [hz]
        cases op with
        | add dbls => simp only [called, waiting, List.map_cons, List.map_nil, List.sum_cons, List.sum_nil]; omega
        | stats => simp only [called, waiting, List.map_cons, List.map_nil, List.sum_cons, List.sum_nil]; omega
    | @fire k op s t m' v hk e1 e2 e3 hd =>
      have hm := h1 k ⟨op, hk⟩
      refine ⟨w.erase k, hw.erase k, fun j hj => ?_, fun x => ?_⟩
      · by_cases e : j = k
        · subst e; simp [setAt_self] at hj
        · simp only [setAt_ne _ _ e] at hj
          exact (List.mem_erase_of_ne e).2 (h1 j hj)
      · rw [other _ _ _ _ (fun h => (List.Nodup.mem_erase_iff hw).1 h |>.1 rfl)]
        simp only [Option.toList_none, List.append_nil, h2 x]
        rw [((List.perm_cons_erase hm).map _).sum_nat]
        simp only [List.map_cons, List.sum_cons, hk, reported]
        cases op with
        | add dbls => simp only [waiting]; omega
        | stats => simp only [waiting]; omega
    | @ret k op v hk =>
      refine ⟨w, hw, fun j hj => ?_, fun x => ?_⟩
      · by_cases e : j = k
        · subst e; simp [setAt_self] at hj
        · simp only [setAt_ne _ _ e] at hj
          exact h1 j hj
      · have hz : (w.map fun j => waiting x (setAt a.thr k none j)) = w.map fun j => waiting x (a.thr j) := by
          refine List.map_congr_left fun j hj => ?_
          by_cases e : j = k
          · subst e; rw [setAt_self, hk]; simp [waiting]
          · rw [setAt_ne _ _ e]
        rw [hz]
        simp only [Option.toList_some, app, h2 x]
        simp [called]
    | @tick t ht =>
      refine ⟨w, hw, h1, fun x => ?_⟩
      simp only [Option.toList_some, app, h2 x]
      simp [called]

/-- **C57.** When all calls have returned, each counter is the number of times its name was reported in all calls that were made
(modulo 2^64): none is lost and none counted twice. -/
theorem C57_total {t0 : Int} {l : List (Obs DcCall DcLoc)} {s : Sys DcCall DcMap DcLoc} (h : Sys.Runs dcProg (fun _ => 0) t0 l s)
    (hq : ∀ k, s.thr k = none) (x : Str) : s.mem x = UInt64.ofNat (called x l) := by
  obtain ⟨a, h1, h2⟩ := h.atomic dc_guarded dc_correct
  obtain ⟨w, -, -, h3⟩ := called_fired h1
  have hn : ∀ k, a.thr k = none := fun k => by
    have := h2.thr k
    rw [hq k] at this; exact this.1
  have hh : s.holder = none := by
    cases e : s.holder with
    | none => rfl
    | some k =>
      have := h2.thr k
      rw [hq k] at this; exact absurd e this.2
  rw [h2.mem hh, (counted_run h1).1 x, h3 x]
  have : (w.map fun k => waiting x (a.thr k)) = w.map fun _ => 0 := List.map_congr_left fun k _ => by rw [hn k]; rfl
  rw [this, List.map_const', List.sum_replicate_nat]
  simp

/-- **C57.** No data races and no deadlock. -/
theorem C57_exclusive {t0 : Int} {l : List (Obs DcCall DcLoc)} {s : Sys DcCall DcMap DcLoc} (h : Sys.Runs dcProg (fun _ => 0) t0 l s) :
    (∀ k x i c, s.thr k = some x → x.code = i :: c → i ≠ .lock → s.holder = some k) ∧
    ((∃ k, s.thr k ≠ none) → ∃ o s', Sys.Step dcProg s o s' ∧ (∀ k op, o ≠ some (.call k op)) ∧ ∀ t, o ≠ some (.tick t)) := by
  obtain ⟨a, -, h2⟩ := h.atomic dc_guarded dc_correct
  exact ⟨fun k x i c hx hi hne => h2.excl dc_guarded hx hi hne, h2.progress dc_guarded⟩


example : ((schedule dcProg ⟨fun _ => 0, none, fun _ => none, 0⟩
    ([.call 1 (.add [b!"a", b!"b", b!"a"]), .call 2 (.add [b!"a"])] ++ turns 20)).2.mem b!"a") = 3 := by decide +kernel
/-- Without the mutex a report is lost. -/
example : ((schedule (⟨dcProg.init, fun op => (dcCode op).filter fun i => match i with | .act _ => true | _ => false⟩ : Prog DcCall DcMap DcLoc)
    ⟨fun _ => 0, none, fun _ => none, 0⟩ ([.call 1 (.add [b!"a", b!"b", b!"a"]), .call 2 (.add [b!"a"])] ++ turns 20)).2.mem b!"a") = 2 := by
  decide +kernel

end Sink
