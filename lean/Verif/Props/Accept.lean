import Verif.Model.Accept

/-!
# C69: every accepted connection is served once, under its own number
-/

namespace Sink
namespace Spec

/-- The connections a listener got from `Accept`, oldest first. -/
def acceptedBy (j : Nat) : List FrontObs → List Conn
  | [] => []
  | .accept i c :: l => if i = j then c :: acceptedBy j l else acceptedBy j l
  | _ :: l => acceptedBy j l

/-- The sessions begun, oldest first: number and connection. -/
def started : List FrontObs → List (Nat × Conn)
  | [] => []
  | .start k c :: l => (k, c) :: started l
  | _ :: l => started l

/-- The connections of one listener that were served. -/
def servedFrom (j : Nat) (l : List FrontObs) : List Conn := ((started l).map (·.2)).filter fun c => decide (c ∈ acceptedBy j l)

end Spec
open Spec

/-- The connection `main` has in hand. -/
def MainPc.conn : MainPc → Option Conn
  | .count c | .time c | .timing c | .go_ c => some c
  | .recv | .next => none

theorem acceptedBy_append (j : Nat) (l l' : List FrontObs) : acceptedBy j (l ++ l') = acceptedBy j l ++ acceptedBy j l' := by
  induction l with
  | nil => rfl
  | cons o l ih =>
    cases o <;> simp only [List.cons_append, acceptedBy, ih]
    split <;> simp

theorem started_append (l l' : List FrontObs) : started (l ++ l') = started l ++ started l' := by
  induction l with
  | nil => rfl
  | cons o l ih => cases o <;> simp [started, ih]

theorem mem_acceptedBy {j : Nat} {c : Conn} {l : List FrontObs} : c ∈ acceptedBy j l ↔ .accept j c ∈ l := by
  induction l with
  | nil => simp [acceptedBy]
  | cons o l ih =>
    cases o with
    | accept i d =>
      simp only [acceptedBy]
      split <;> rename_i h
      · subst h
        simp [ih]
      · simp [ih, Ne.symm h]
    | _ => simp [acceptedBy, ih]

theorem mem_started {k : Nat} {c : Conn} {l : List FrontObs} : (k, c) ∈ started l ↔ .start k c ∈ l := by
  induction l with
  | nil => simp [started]
  | cons o l ih => cases o <;> simp [started, ih]

/-- The observation says nothing about accepting or starting. -/
def FrontObs.dull : FrontObs → Prop
  | .accept _ _ | .start _ _ => False
  | _ => True

theorem dull_acceptedBy {o : Option FrontObs} (h : ∀ x ∈ o, x.dull) (j : Nat) : acceptedBy j o.toList = [] := by
  cases o with
  | none => rfl
  | some o => cases o <;> first | rfl | exact absurd (h _ rfl) id

theorem dull_started {o : Option FrontObs} (h : ∀ x ∈ o, x.dull) : started o.toList = [] := by
  cases o with
  | none => rfl
  | some o => cases o <;> first | rfl | exact absurd (h _ rfl) id

/-- What is true of listeners and `main` at any time. -/
structure AccInv (l : List FrontObs) (s : Front) : Prop where
  nums : (started l).map (·.1) = List.range' 1 (started l).length
  cid : s.cid + (if s.main = .next then 1 else 0) = (started l).length + 1
  counter : s.connections = (started l).length + (match s.main with | .time _ | .timing _ | .go_ _ => 1 | _ => 0)
  ids : ∀ j c, c ∈ acceptedBy j l → c.id < s.accepted
  uniq : ∀ j c j' c', c ∈ acceptedBy j l → c' ∈ acceptedBy j' l → c.id = c'.id → j = j' ∧ c = c'
  incr : ∀ j, (acceptedBy j l).Pairwise fun c c' => c.id < c'.id
  from_ : ∀ c, c ∈ (started l).map (·.2) ++ s.main.conn.toList → ∃ j, c ∈ acceptedBy j l
  waits : ∀ j c, s.lis j = some c → c ∈ acceptedBy j l
  all : ∀ j, acceptedBy j l =
    (((started l).map (·.2) ++ s.main.conn.toList).filter fun c => decide (c ∈ acceptedBy j l)) ++ (s.lis j).toList

theorem AccInv.dull {l : List FrontObs} {s s' : Front} {o : Option FrontObs} (h : AccInv l s) (ho : ∀ x ∈ o, x.dull)
    (hm : s'.main.conn = s.main.conn) (hn : s'.cid + (if s'.main = .next then 1 else 0) = s.cid + (if s.main = .next then 1 else 0))
    (hl : s'.lis = s.lis) (ha : s'.accepted = s.accepted)
    (hc : s'.connections + (match s.main with | .time _ | .timing _ | .go_ _ => 1 | _ => 0) =
      s.connections + (match s'.main with | .time _ | .timing _ | .go_ _ => 1 | _ => 0)) : AccInv (l ++ o.toList) s' := by
  have h1 : ∀ j, acceptedBy j (l ++ o.toList) = acceptedBy j l := fun j => by rw [acceptedBy_append, dull_acceptedBy ho, List.append_nil]
  have h2 : started (l ++ o.toList) = started l := by rw [started_append, dull_started ho, List.append_nil]
  obtain ⟨a1, a2, a3, a4, a5, a6, a7, a8, a9⟩ := h
  constructor
  · rw [h2]; exact a1
  · rw [h2, hn]; exact a2
  · rw [h2]; omega
  · simp only [h1, ha]; exact a4
  · simp only [h1]; exact a5
  · simp only [h1]; exact a6
  · simp only [h1, h2, hm]; exact a7
  · simp only [h1, hl]; exact a8
  · simp only [h1, h2, hm, hl]; exact a9

theorem dull_sees {t : Int} {u : TimeCall} : ∀ x ∈ u.sees t, x.dull := by
  intro x hx
  unfold TimeCall.sees at hx
  split at hx <;> cases hx
  trivial

theorem front_accInv {sc : StatConf} {l : List FrontObs} {s : Front} (h : Front.Runs sc l s) : AccInv l s := by
  induction h with
  | init t => exact ⟨rfl, rfl, rfl, nofun, nofun, fun _ => .nil, nofun, nofun, fun _ => rfl⟩
  | @step l s s' o h hs ih =>
    cases hs with
    | tick _ => exact ih.dull nofun rfl rfl rfl rfl rfl
    | @fail j hj => exact ih.dull (fun x hx => by cases hx; trivial) rfl rfl rfl rfl rfl
    | @count c hm => exact ih.dull nofun (by rw [hm]; rfl) (by simp [hm]) rfl rfl (by simp [hm])
    | @time c hm => exact ih.dull (fun x hx => by cases hx; trivial) (by rw [hm]; rfl) (by simp [hm]) rfl rfl (by simp [hm])
    | @timed c u hm _ _ => exact ih.dull (fun x hx => by cases hx; trivial) (by rw [hm]; rfl) (by simp [hm]) rfl rfl (by simp [hm])
    | next hm => exact ih.dull nofun (by rw [hm]; rfl) (by simp [hm]) rfl rfl (by simp [hm])
    | call _ _ _ => exact ih.dull (fun x hx => by cases hx; trivial) rfl rfl rfl rfl rfl
    | upd _ _ => exact ih.dull dull_sees rfl rfl rfl rfl rfl
    | ret _ _ _ => exact ih.dull (fun x hx => by cases hx; trivial) rfl rfl rfl rfl rfl
    | @pass j c hj hm =>
      simp only [Option.toList, List.append_nil]
      obtain ⟨a1, a2, a3, a4, a5, a6, a7, a8, a9⟩ := ih
      have hc := a8 j c hj
      simp only [hm, MainPc.conn, Option.toList_none, List.append_nil] at a2 a3 a7 a9
      constructor
      · exact a1
      · simpa using a2
      · simpa using a3
      · exact a4
      · exact a5
      · exact a6
      · intro d hd
        simp only [MainPc.conn, Option.toList_some, List.mem_append, List.mem_singleton] at hd
        rcases hd with hd | rfl
        · exact a7 d hd
        · exact ⟨j, hc⟩
      · intro i d hi
        simp only [putAt] at hi
        split at hi
        · cases hi
        · exact a8 i d hi
      · intro i
        have := a9 i
        simp only [MainPc.conn, Option.toList_some, putAt, List.filter_append]
        by_cases hij : i = j
        · subst hij
          rw [if_pos rfl, Option.toList_none, List.append_nil, List.filter_cons_of_pos (by rw [decide_eq_true_eq]; exact hc), List.filter_nil]
          rw [hj] at this
          exact this
        · rw [if_neg hij, List.filter_cons_of_neg (by rw [decide_eq_true_eq]; exact fun h => hij (a5 i c j c h hc rfl).1), List.filter_nil,
            List.append_nil]
          exact this
    | @go_ c hm =>
      obtain ⟨a1, a2, a3, a4, a5, a6, a7, a8, a9⟩ := ih
      have h1 : ∀ j, acceptedBy j (l ++ [FrontObs.start s.cid c]) = acceptedBy j l := fun j => by
        rw [acceptedBy_append]; exact List.append_nil _
      have h2 : started (l ++ [FrontObs.start s.cid c]) = started l ++ [(s.cid, c)] := by rw [started_append]; rfl
      simp only [hm, MainPc.conn, Option.toList_some, reduceCtorEq, if_false] at a2 a3 a7 a9
      simp only [Option.toList]
      have hcid : s.cid = (started l).length + 1 := by omega
      constructor
      · rw [h2, List.map_append, a1, List.length_append, List.map_singleton, List.length_singleton, List.range'_concat, hcid,
          Nat.one_mul, Nat.add_comm 1]
      · rw [h2]; simp [hcid]
      · rw [h2]; simp [a3]
      · simp only [h1]; exact a4
      · simp only [h1]; exact a5
      · simp only [h1]; exact a6
      · simp only [h1, h2, MainPc.conn, Option.toList_none, List.append_nil, List.map_append, List.map_singleton]; exact a7
      · simp only [h1]; exact a8
      · simp only [h1, h2, MainPc.conn, Option.toList_none, List.append_nil, List.map_append, List.map_singleton]; exact a9
    | @accept j la hj =>
      obtain ⟨a1, a2, a3, a4, a5, a6, a7, a8, a9⟩ := ih
      have h1 : ∀ i, acceptedBy i (l ++ [FrontObs.accept j ⟨s.accepted, la⟩]) = acceptedBy i l ++ if j = i then [⟨s.accepted, la⟩] else [] := by
        intro i
        rw [acceptedBy_append]
        rfl
      have h2 : started (l ++ [FrontObs.accept j ⟨s.accepted, la⟩]) = started l := by
        rw [started_append]; exact List.append_nil _
      have hold : ∀ i d, d.id < s.accepted → (d ∈ acceptedBy i (l ++ [FrontObs.accept j ⟨s.accepted, la⟩]) ↔ d ∈ acceptedBy i l) := by
        intro i d hd
        rw [h1]
        split
        · rw [List.mem_append, List.mem_singleton]
          refine or_iff_left ?_
          rintro rfl
          exact absurd hd (Nat.lt_irrefl _)
        · rw [List.append_nil]
      have hmem : ∀ i d, d ∈ acceptedBy i (l ++ [FrontObs.accept j ⟨s.accepted, la⟩]) → d ∈ acceptedBy i l ∨ i = j ∧ d = ⟨s.accepted, la⟩ := by
        intro i d hd
        rw [h1] at hd
        split at hd <;> rename_i hij
        · rcases List.mem_append.1 hd with hd | hd
          · exact .inl hd
          · exact .inr ⟨hij.symm, List.mem_singleton.1 hd⟩
        · rw [List.append_nil] at hd
          exact .inl hd
      simp only [Option.toList]
      constructor
      · rw [h2]; exact a1
      · rw [h2]; exact a2
      · rw [h2]; exact a3
      · intro i d hd
        rcases hmem i d hd with hd | ⟨-, rfl⟩
        · exact Nat.lt_succ_of_lt (a4 i d hd)
        · exact Nat.lt_succ_self _
      · intro i d i' d' hd hd' e
        rcases hmem i d hd with hd1 | ⟨h3, h4⟩ <;> rcases hmem i' d' hd' with hd1' | ⟨h3', h4'⟩
        · exact a5 i d i' d' hd1 hd1' e
        · have := a4 i d hd1
          rw [h4'] at e
          exact absurd (e ▸ this) (Nat.lt_irrefl _)
        · have := a4 i' d' hd1'
          rw [h4] at e
          exact absurd (e ▸ this) (Nat.lt_irrefl _)
        · exact ⟨h3.trans h3'.symm, h4.trans h4'.symm⟩
      · intro i
        rw [h1]
        split
        · rw [List.pairwise_append]
          refine ⟨a6 i, List.pairwise_singleton _ _, ?_⟩
          intro d hd d' hd'
          rw [List.mem_singleton.1 hd']
          exact a4 i d hd
        · rw [List.append_nil]
          exact a6 i
      · intro d hd
        rw [h2] at hd
        obtain ⟨i, hi⟩ := a7 d hd
        exact ⟨i, (hold i d (a4 i d hi)).2 hi⟩
      · intro i d hi
        simp only [putAt] at hi
        split at hi <;> rename_i hij
        · cases hi
          rw [h1, if_pos hij.symm]
          simp
        · rw [h1, if_neg (Ne.symm hij), List.append_nil]
          exact a8 i d hi
      · intro i
        rw [h2]
        have hf : (((started l).map (·.2) ++ s.main.conn.toList).filter fun c => decide (c ∈ acceptedBy i (l ++ [FrontObs.accept j ⟨s.accepted, la⟩]))) =
            (((started l).map (·.2) ++ s.main.conn.toList).filter fun c => decide (c ∈ acceptedBy i l)) := by
          apply List.filter_congr
          intro d hd
          obtain ⟨i', hi'⟩ := a7 d hd
          exact decide_eq_decide.2 (hold i d (a4 i' d hi'))
        show _ = List.filter _ ((started l).map (·.2) ++ s.main.conn.toList) ++ _
        rw [hf, h1]
        have := a9 i
        simp only [putAt]
        by_cases hij : i = j
        · subst hij
          rw [if_pos rfl, if_pos rfl]
          rw [hj, Option.toList_none, List.append_nil] at this
          rw [← this]
          rfl
        · rw [if_neg hij, if_neg (Ne.symm hij), List.append_nil]
          exact this

/-- **C69.** Sessions are numbered 1, 2, 3, ... in the order they begin; no connection is served twice or without having been accepted. -/
theorem C69_numbers {sc : StatConf} {l : List FrontObs} {s : Front} (h : Front.Runs sc l s) :
    (started l).map (·.1) = List.range' 1 (started l).length ∧ ((started l).map (·.2)).Nodup ∧
      ∀ k c, .start k c ∈ l → ∃ j, .accept j c ∈ l := by
  obtain ⟨a1, a2, a3, a4, a5, a6, a7, a8, a9⟩ := front_accInv h
  refine ⟨a1, ?_, ?_⟩
  · rw [List.nodup_iff_count]
    intro c
    by_cases hc : c ∈ (started l).map (·.2)
    · obtain ⟨j, hj⟩ := a7 c (List.mem_append_left _ hc)
      have h1 : (acceptedBy j l).Nodup := (a6 j).imp (fun {a b} hab e => by subst e; exact Nat.lt_irrefl _ hab)
      have h2 := List.nodup_iff_count.1 h1 c
      rw [a9 j, List.count_append, List.count_filter (by simpa using hj), List.count_append] at h2
      omega
    · rw [List.count_eq_zero_of_not_mem hc]
      exact Nat.zero_le _
  · intro k c hk
    obtain ⟨j, hj⟩ := a7 c (List.mem_append_left _ (List.mem_map_of_mem (mem_started.2 hk)))
    exact ⟨j, mem_acceptedBy.1 hj⟩

/-- Nothing is lost and the connections of a listener are served in the order in which they came: those served are all but at most the
last two. -/
theorem C69_all {sc : StatConf} {l : List FrontObs} {s : Front} (h : Front.Runs sc l s) (j : Nat) :
    ∃ rest, acceptedBy j l = servedFrom j l ++ rest ∧ rest.length ≤ 2 := by
  have := (front_accInv h).all j
  rw [List.filter_append, List.append_assoc] at this
  refine ⟨_, this, ?_⟩
  rw [List.length_append]
  have h1 : (List.filter (fun c => decide (c ∈ acceptedBy j l)) s.main.conn.toList).length ≤ 1 :=
    Nat.le_trans (List.length_filter_le _ _) (by cases s.main.conn <;> simp)
  have h2 : (s.lis j).toList.length ≤ 1 := by cases s.lis j <;> simp
  omega

/-- The counter of connections is the number of sessions, but for one that is about to begin. -/
theorem C69_counter {sc : StatConf} {l : List FrontObs} {s : Front} (h : Front.Runs sc l s) :
    (started l).length ≤ s.connections ∧ s.connections ≤ (started l).length + 1 ∧ (s.main = .recv → s.connections = (started l).length) := by
  have := (front_accInv h).counter
  cases hm : s.main <;> rw [hm] at this <;> simp only at this <;> refine ⟨by omega, by omega, fun h => ?_⟩ <;> cases h
  exact this

end Sink
