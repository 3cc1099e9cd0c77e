import Verif.Props.Accept
import Verif.Spec.DemoAccept

/-!
# C70: the times of the last events
-/

namespace Sink
namespace Spec

/-- Call `n'` of `updateTimeOf` was made after call `n` had returned. -/
def After (l : List FrontObs) (n n' : Nat) : Prop := ∃ l1 l2, l = l1 ++ l2 ∧ .ret n ∈ l1 ∧ ∃ k w la, .call n' k w la ∈ l2

/-- The time the statistics give for the last event of a kind: in "last" (`none`), or for one local address in "lasts_to". -/
def shown (s : Front) (a : Option Str) (w : Kind) : Option Int :=
  match a with
  | none => (s.times.maps 0 w).bind s.times.cells
  | some la => (s.times.iptimes la).bind fun m => (s.times.maps m w).bind s.times.cells

/-- Events of connections to address `la` belong in the place `a` of the statistics. -/
def Belongs (a : Option Str) (la : Str) : Prop := a = none ∨ a = some la

/-- The statistics are kept: `-pprof`, and for single addresses `-statsperip` or several addresses. -/
def Kept (sc : StatConf) (a : Option Str) : Prop := sc.pprof = true ∧ (a ≠ none → sc.manyIps = true ∧ a ≠ some [])

end Spec
open Spec

theorem after_nil {n n' : Nat} : ¬ After [] n n' := by
  rintro ⟨l1, l2, h, h1, -⟩
  rw [List.nil_eq_append_iff] at h
  rw [h.1] at h1
  cases h1

theorem after_snoc {l : List FrontObs} {o : Option FrontObs} {n n' : Nat} :
    After (l ++ o.toList) n n' ↔ After l n n' ∨ (.ret n ∈ l ∧ ∃ k w la, o = some (.call n' k w la)) := by
  cases o with
  | none => simp
  | some o =>
    simp only [Option.toList, Option.some.injEq]
    constructor
    · rintro ⟨l1, l2, h, h1, k, w, la, h2⟩
      rcases List.eq_nil_or_concat l2 with rfl | ⟨l3, x, rfl⟩
      · cases h2
      · rw [List.concat_eq_append] at h h2
        rw [← List.append_assoc] at h
        obtain ⟨he, h'⟩ := List.append_inj' h rfl
        cases h'
        rcases List.mem_append.1 h2 with h2 | h2
        · exact .inl ⟨l1, l3, he, h1, k, w, la, h2⟩
        · refine .inr ⟨?_, k, w, la, (List.mem_singleton.1 h2).symm⟩
          rw [he]
          exact List.mem_append_left _ h1
    · rintro (⟨l1, l2, h, h1, k, w, la, h2⟩ | ⟨h1, k, w, la, rfl⟩)
      · exact ⟨l1, l2 ++ [o], by rw [h, List.append_assoc], h1, k, w, la, List.mem_append_left _ h2⟩
      · exact ⟨l, [_], rfl, h1, k, w, la, List.mem_singleton.2 rfl⟩

theorem After.ret {l : List FrontObs} {n n' : Nat} (h : After l n n') : .ret n ∈ l := by
  obtain ⟨l1, l2, h, h1, -⟩ := h
  rw [h]
  exact List.mem_append_left _ h1

/-- What is true of the calls of `updateTimeOf`. -/
structure CallInv (l : List FrontObs) (s : Front) : Prop where
  lt : ∀ n k w la, .call n k w la ∈ l → n < s.calls
  rets : ∀ n, .ret n ∈ l → ∃ k w la, .call n k w la ∈ l
  thr : ∀ k u, s.upd k = some u → .call u.n k u.kind u.laddr ∈ l ∧ .ret u.n ∉ l
  uniq : ∀ n k w la k' w' la', .call n k w la ∈ l → .call n k' w' la' ∈ l → k = k' ∧ w = w' ∧ la = la'
  opn : ∀ n k w la, .call n k w la ∈ l → .ret n ∈ l ∨ ∃ u, s.upd k = some u ∧ u.n = n
  main : ∀ c, s.main = .timing c → ∃ u, s.upd 0 = some u ∧ u.kind = .connection ∧ u.laddr = c.laddr
  idle : (∀ c, s.main ≠ .timing c) → s.upd 0 = none
  procs : ∀ k u, s.upd k = some u → k ≠ 0 → s.procs k = some u.laddr
  kinds : ∀ n k w la, .call n k w la ∈ l → (k = 0 ↔ w = .connection)
  begun : ∀ k la, s.procs k = some la → 0 < k ∧ k < s.cid + if s.main = .next then 1 else 0
  cid : 0 < s.cid
  seq : ∀ n n' w la w' la', .call n 0 w la ∈ l → .call n' 0 w' la' ∈ l → n < n' → After l n n'

theorem mem_snoc {l : List FrontObs} {o : Option FrontObs} {x : FrontObs} : x ∈ l ++ o.toList ↔ x ∈ l ∨ o = some x := by
  cases o <;> simp [eq_comm]

/-- Neither a call nor a return. -/
def FrontObs.silent : FrontObs → Prop
  | .call .. | .ret _ => False
  | _ => True

theorem CallInv.silent {l : List FrontObs} {s s' : Front} {o : Option FrontObs} (h : CallInv l s) (ho : ∀ x ∈ o, x.silent)
    (hu : ∀ k u', s'.upd k = some u' → ∃ u, s.upd k = some u ∧ u.n = u'.n ∧ u.kind = u'.kind ∧ u.laddr = u'.laddr)
    (hu' : ∀ k u, s.upd k = some u → ∃ u', s'.upd k = some u' ∧ u.n = u'.n ∧ u.kind = u'.kind ∧ u.laddr = u'.laddr)
    (hc : s'.calls = s.calls)
    (hm : ∀ c, s'.main = .timing c ↔ s.main = .timing c) (hp : ∀ k u, s.upd k = some u → k ≠ 0 → s'.procs k = s.procs k)
    (hb : ∀ k la, s'.procs k = some la → 0 < k ∧ k < s'.cid + if s'.main = .next then 1 else 0) (hcid : 0 < s'.cid) :
    CallInv (l ++ o.toList) s' := by
  have hcall : ∀ n k w la, (.call n k w la : FrontObs) ∈ l ++ o.toList ↔ .call n k w la ∈ l := fun n k w la => by
    rw [mem_snoc]
    refine or_iff_left fun e => ho _ e
  have hret : ∀ n, (.ret n : FrontObs) ∈ l ++ o.toList ↔ .ret n ∈ l := fun n => by
    rw [mem_snoc]
    refine or_iff_left fun e => ho _ e
  have haft : ∀ n n', After (l ++ o.toList) n n' ↔ After l n n' := fun n n' => by
    rw [after_snoc]
    refine or_iff_left ?_
    rintro ⟨-, k, w, la, e⟩
    exact ho _ e
  obtain ⟨a1, a2, a3, a4, a5, a6, a7, a8, a9, a10, a11, a12⟩ := h
  constructor
  · simp only [hcall, hc]; exact a1
  · simp only [hcall, hret]; exact a2
  · intro k u' hk
    obtain ⟨u, h1, h2, h3, h4⟩ := hu k u' hk
    rw [hcall, hret, ← h2, ← h3, ← h4]
    exact a3 k u h1
  · simp only [hcall]; exact a4
  · simp only [hcall, hret]
    intro n k w la hk
    rcases a5 n k w la hk with h | ⟨u, h1, h2⟩
    · exact .inl h
    · obtain ⟨u', h3, h4, -⟩ := hu' k u h1
      exact .inr ⟨u', h3, h4 ▸ h2⟩
  · intro c hmc
    obtain ⟨u, h1, h2, h3⟩ := a6 c ((hm c).1 hmc)
    obtain ⟨u', h4, h5, h6, h7⟩ := hu' 0 u h1
    exact ⟨u', h4, h6 ▸ h2, h7 ▸ h3⟩
  · intro hmc
    have := a7 fun c h => hmc c ((hm c).2 h)
    cases he : s'.upd 0 with
    | none => rfl
    | some u' =>
      obtain ⟨u, h1, -⟩ := hu 0 u' he
      rw [this] at h1
      cases h1
  · intro k u' hk h0
    obtain ⟨u, h1, h2, h3, h4⟩ := hu k u' hk
    rw [hp k u h1 h0, a8 k u h1 h0, h4]
  · simp only [hcall]; exact a9
  · exact hb
  · exact hcid
  · simp only [hcall, haft]; exact a12

theorem CallInv.called {l : List FrontObs} {s s' : Front} {k : Nat} {w : Kind} {la : Str} (h : CallInv l s) (hk : s.upd k = none)
    (hu : s'.upd = putAt s.upd k (some { n := s.calls, kind := w, laddr := la })) (hc : s'.calls = s.calls + 1)
    (hw : k = 0 ↔ w = .connection)
    (h0 : (∃ c, k = 0 ∧ s'.main = .timing c ∧ la = c.laddr ∧ s'.cid = s.cid ∧ s.main ≠ .next) ∨
      (k ≠ 0 ∧ s'.main = s.main ∧ s'.cid = s.cid ∧ s.procs k = some la)) (hp : s'.procs = s.procs) :
    CallInv (l ++ [.call s.calls k w la]) s' := by
  have hcall : ∀ n k' w' la', (.call n k' w' la' : FrontObs) ∈ l ++ [.call s.calls k w la] ↔
      .call n k' w' la' ∈ l ∨ (n = s.calls ∧ k' = k ∧ w' = w ∧ la' = la) := by
    intro n k' w' la'
    simp [List.mem_append]
  have hret : ∀ n, (.ret n : FrontObs) ∈ l ++ [.call s.calls k w la] ↔ .ret n ∈ l := by
    intro n
    simp [List.mem_append]
  obtain ⟨a1, a2, a3, a4, a5, a6, a7, a8, a9, a10, a11, a12⟩ := h
  have hlt : ∀ n, (.ret n : FrontObs) ∈ l → n < s.calls := fun n hn => by
    obtain ⟨k, w, la, h⟩ := a2 n hn
    exact a1 n k w la h
  constructor
  · intro n k' w' la' hn
    rw [hc]
    rcases (hcall _ _ _ _).1 hn with hn | ⟨rfl, -⟩
    · exact Nat.lt_succ_of_lt (a1 n k' w' la' hn)
    · exact Nat.lt_succ_self _
  · intro n hn
    obtain ⟨k', w', la', h⟩ := a2 n ((hret n).1 hn)
    exact ⟨k', w', la', (hcall _ _ _ _).2 (.inl h)⟩
  · intro k' u hk'
    rw [hu, putAt] at hk'
    rw [hcall, hret]
    split at hk' <;> rename_i e
    · cases hk'
      exact ⟨.inr ⟨rfl, e, rfl, rfl⟩, fun h => Nat.lt_irrefl _ (hlt _ h)⟩
    · obtain ⟨h1, h2⟩ := a3 k' u hk'
      exact ⟨.inl h1, h2⟩
  · intro n k1 w1 la1 k2 w2 la2 h1 h2
    rcases (hcall _ _ _ _).1 h1 with g1 | ⟨e1, f1, f2, f3⟩ <;> rcases (hcall _ _ _ _).1 h2 with g2 | ⟨e2, f4, f5, f6⟩
    · exact a4 n _ _ _ _ _ _ g1 g2
    · exact absurd (e2 ▸ a1 _ _ _ _ g1) (Nat.lt_irrefl _)
    · exact absurd (e1 ▸ a1 _ _ _ _ g2) (Nat.lt_irrefl _)
    · exact ⟨f1.trans f4.symm, f2.trans f5.symm, f3.trans f6.symm⟩
  · intro n k' w' la' hn
    rw [hret]
    rcases (hcall _ _ _ _).1 hn with hn | ⟨rfl, rfl, rfl, rfl⟩
    · rcases a5 n k' w' la' hn with h | ⟨u, h1, h2⟩
      · exact .inl h
      · refine .inr ⟨u, ?_, h2⟩
        rw [hu, putAt, if_neg, h1]
        rintro rfl
        rw [hk] at h1
        cases h1
    · exact .inr ⟨_, by rw [hu, putAt, if_pos rfl], rfl⟩
  · intro c hm
    rcases h0 with ⟨c', rfl, h1, h2, h3, h4⟩ | ⟨h1, h2, h3, h4⟩
    · rw [h1] at hm
      cases hm
      exact ⟨_, by rw [hu, putAt, if_pos rfl], hw.1 rfl, h2⟩
    · rw [h2] at hm
      obtain ⟨u, h5, h6⟩ := a6 c hm
      exact ⟨u, by rw [hu, putAt, if_neg (Ne.symm h1), h5], h6⟩
  · intro hm
    rcases h0 with ⟨c', rfl, h1, h2, h3, h4⟩ | ⟨h1, h2, h3, h4⟩
    · exact absurd h1 (hm c')
    · rw [h2] at hm
      rw [hu, putAt, if_neg (Ne.symm h1)]
      exact a7 hm
  · intro k' u hk' hne
    rw [hu, putAt] at hk'
    rw [hp]
    split at hk' <;> rename_i e
    · cases hk'
      rcases h0 with ⟨c', h0, -⟩ | ⟨h1, h2, h3, h4⟩
      · exact absurd (e.trans h0) hne
      · rw [e]
        exact h4
    · exact a8 k' u hk' hne
  · intro n k' w' la' hn
    rcases (hcall _ _ _ _).1 hn with hn | ⟨rfl, rfl, rfl, rfl⟩
    · exact a9 n _ _ _ hn
    · exact hw
  · rw [hp]
    rcases h0 with ⟨c', rfl, h1, h2, h3, h4⟩ | ⟨h1, h2, h3, h4⟩
    · rw [h1, h3]
      intro k' la' hk'
      have := a10 k' la' hk'
      rw [if_neg h4] at this
      simpa using this
    · rw [h2, h3]
      exact a10
  · rcases h0 with ⟨c', rfl, h1, h2, h3, h4⟩ | ⟨h1, h2, h3, h4⟩
    · rw [h3]; exact a11
    · rw [h3]; exact a11
  · intro n n' w1 la1 w2 la2 h1 h2 hlt
    have : After (l ++ (some (FrontObs.call s.calls k w la)).toList) n n' := by
      rw [after_snoc]
      rcases (hcall _ _ _ _).1 h1 with h1 | ⟨e1, e2, -⟩
      · rcases (hcall _ _ _ _).1 h2 with h2 | ⟨e3, e4, e5, e6⟩
        · exact .inl (a12 n n' _ _ _ _ h1 h2 hlt)
        · refine .inr ⟨?_, k, w, la, by rw [e3]⟩
          rcases a5 n 0 w1 la1 h1 with h | ⟨u, h, -⟩
          · exact h
          · rw [e4, hk] at h
            cases h
      · rcases (hcall _ _ _ _).1 h2 with h2 | ⟨e3, e4, e5, e6⟩
        · have := a1 _ _ _ _ h2
          omega
        · omega
    exact this

theorem CallInv.returned {l : List FrontObs} {s s' : Front} {k : Nat} {u : TimeCall} (h : CallInv l s) (hk : s.upd k = some u)
    (hu : s'.upd = putAt s.upd k none) (hc : s'.calls = s.calls)
    (h0 : (∃ c c', k = 0 ∧ s.main = .timing c ∧ s'.main = .go_ c') ∨ (k ≠ 0 ∧ s'.main = s.main)) (hcid : s'.cid = s.cid) (hp : s'.procs = s.procs) :
    CallInv (l ++ [.ret u.n]) s' := by
  have hcall : ∀ n k' w' la', (.call n k' w' la' : FrontObs) ∈ l ++ [.ret u.n] ↔ .call n k' w' la' ∈ l := by
    intro n k' w' la'
    simp [List.mem_append]
  have hret : ∀ n, (.ret n : FrontObs) ∈ l ++ [.ret u.n] ↔ .ret n ∈ l ∨ n = u.n := by
    intro n
    simp [List.mem_append]
  have haft : ∀ n n', After (l ++ [.ret u.n]) n n' ↔ After l n n' := fun n n' => by
    have := after_snoc (l := l) (o := some (FrontObs.ret u.n)) (n := n) (n' := n')
    simp only [Option.toList] at this
    rw [this]
    refine or_iff_left ?_
    rintro ⟨-, k, w, la, e⟩
    cases e
  obtain ⟨a1, a2, a3, a4, a5, a6, a7, a8, a9, a10, a11, a12⟩ := h
  obtain ⟨hc1, hr1⟩ := a3 k u hk
  constructor
  · simp only [hcall, hc]; exact a1
  · intro n hn
    simp only [hcall]
    rcases (hret n).1 hn with hn | rfl
    · exact a2 n hn
    · exact ⟨_, _, _, hc1⟩
  · intro k' u' hk'
    rw [hu, putAt] at hk'
    split at hk' <;> rename_i e
    · cases hk'
    · obtain ⟨h1, h2⟩ := a3 k' u' hk'
      rw [hcall, hret]
      refine ⟨h1, ?_⟩
      rintro (h3 | h3)
      · exact h2 h3
      · rw [h3] at h1
        exact e (a4 _ _ _ _ _ _ _ h1 hc1).1
  · simp only [hcall]; exact a4
  · intro n k' w la hn
    rw [hcall] at hn
    rw [hret]
    rcases a5 n k' w la hn with h | ⟨u', h1, h2⟩
    · exact .inl (.inl h)
    · by_cases e : k' = k
      · subst e
        rw [hk] at h1
        cases h1
        exact .inl (.inr h2.symm)
      · exact .inr ⟨u', by rw [hu, putAt, if_neg e, h1], h2⟩
  · intro c hm
    rcases h0 with ⟨c1, c', rfl, h1, h2⟩ | ⟨h1, h2⟩
    · rw [h2] at hm
      cases hm
    · rw [h2] at hm
      obtain ⟨u', h5, h6⟩ := a6 c hm
      exact ⟨u', by rw [hu, putAt, if_neg (Ne.symm h1), h5], h6⟩
  · intro hm
    rw [hu, putAt]
    split
    · rfl
    · rename_i e
      rcases h0 with ⟨c1, c', h0, h1, h2⟩ | ⟨h1, h2⟩
      · exact absurd h0.symm e
      · rw [h2] at hm
        exact a7 hm
  · intro k' u' hk' hne
    rw [hu, putAt] at hk'
    rw [hp]
    split at hk'
    · cases hk'
    · exact a8 k' u' hk' hne
  · simp only [hcall]; exact a9
  · rw [hp, hcid]
    rcases h0 with ⟨c1, c', rfl, h1, h2⟩ | ⟨h1, h2⟩
    · rw [h2]
      intro k' la' hk'
      have := a10 k' la' hk'
      rw [h1] at this
      simpa using this
    · rw [h2]
      exact a10
  · rw [hcid]; exact a11
  · simp only [hcall, haft]; exact a12

theorem silent_sees {t : Int} {u : TimeCall} : ∀ x ∈ u.sees t, x.silent := by
  intro x hx
  unfold TimeCall.sees at hx
  split at hx <;> cases hx
  trivial

theorem front_callInv {sc : StatConf} {l : List FrontObs} {s : Front} (h : Front.Runs sc l s) : CallInv l s := by
  induction h with
  | init t => exact ⟨nofun, nofun, nofun, nofun, nofun, nofun, fun _ => rfl, nofun, nofun, nofun, Nat.one_pos, nofun⟩
  | @step l s s' o h hs ih =>
    have same : ∀ k u, s.upd k = some u → ∃ u', s.upd k = some u' ∧ u.n = u'.n ∧ u.kind = u'.kind ∧ u.laddr = u'.laddr :=
      fun k u hk => ⟨u, hk, rfl, rfl, rfl⟩
    have same' : ∀ k u, s.upd k = some u → ∃ u', s.upd k = some u' ∧ u'.n = u.n ∧ u'.kind = u.kind ∧ u'.laddr = u.laddr :=
      fun k u hk => ⟨u, hk, rfl, rfl, rfl⟩
    have hb := ih.begun
    cases hs with
    | tick _ => exact ih.silent nofun same' same rfl (fun _ => Iff.rfl) (fun _ _ _ _ => rfl) ih.begun ih.cid
    | @fail j hj => exact ih.silent (fun x hx => by cases hx; trivial) same' same rfl (fun _ => Iff.rfl) (fun _ _ _ _ => rfl) ih.begun ih.cid
    | @count c hm =>
      refine ih.silent nofun same' same rfl (fun d => by simp [hm]) (fun _ _ _ _ => rfl) ?_ ih.cid
      rw [hm] at hb; simpa using hb
    | @time c hm =>
      exact ih.called (ih.idle (by simp [hm])) rfl rfl (by simp) (.inl ⟨c, rfl, rfl, rfl, rfl, by simp [hm]⟩) rfl
    | @timed c u hm h1 h2 => exact ih.returned h1 rfl rfl (.inl ⟨c, c, rfl, hm, rfl⟩) rfl rfl
    | next hm =>
      refine ih.silent nofun same' same rfl (fun d => by simp [hm]) (fun _ _ _ _ => rfl) ?_ (Nat.succ_pos _)
      rw [hm] at hb; simpa using hb
    | @call k la w h1 h2 h3 =>
      have := (hb _ _ h1).1
      exact ih.called h2 rfl rfl ⟨fun e => by omega, fun e => absurd e h3⟩ (.inr ⟨by omega, rfl, rfl, h1⟩) rfl
    | @upd k u h1 h2 =>
      refine ih.silent silent_sees ?_ ?_ rfl (fun _ => Iff.rfl) (fun _ _ _ _ => rfl) ih.begun ih.cid
      · intro k' u' hk'
        simp only [putAt] at hk'
        split at hk' <;> rename_i e
        · cases hk'
          exact ⟨u, e ▸ h1, rfl, rfl, rfl⟩
        · exact ⟨u', hk', rfl, rfl, rfl⟩
      · intro k' u' hk'
        simp only [putAt]
        split <;> rename_i e
        · rw [e, h1] at hk'
          cases hk'
          exact ⟨_, rfl, rfl, rfl, rfl⟩
        · exact ⟨u', hk', rfl, rfl, rfl⟩
    | @ret k u h0 h1 h2 =>
      refine ih.returned h1 rfl rfl (.inr ⟨?_, rfl⟩) rfl rfl
      rintro rfl
      cases hp : s.procs 0 with
      | none => exact h0 hp
      | some la => exact absurd (hb _ _ hp).1 (Nat.lt_irrefl _)
    | @pass j c hj hm =>
      refine ih.silent nofun same' same rfl (fun d => by simp [hm]) (fun _ _ _ _ => rfl) ?_ ih.cid
      rw [hm] at hb; simpa using hb
    | @go_ c hm =>
      rw [hm] at hb
      simp only [reduceCtorEq, if_false, Nat.add_zero] at hb
      refine ih.silent (fun x hx => by cases hx; trivial) same' same rfl (fun d => by simp [hm]) ?_ ?_ ih.cid
      · intro k u hk h0
        simp only [putAt]
        rw [if_neg]
        rintro rfl
        exact absurd (hb _ _ (ih.procs _ _ hk h0)).2 (Nat.lt_irrefl _)
      · intro k la hk
        simp only [putAt] at hk
        simp only [if_true]
        split at hk <;> rename_i e
        · rw [e]
          exact ⟨ih.cid, Nat.lt_succ_self _⟩
        · have := hb _ _ hk
          omega
    | @accept j la hj =>
      exact ih.silent (fun x hx => by cases hx; trivial) same' same rfl (fun _ => Iff.rfl) (fun _ _ _ _ => rfl) ih.begun ih.cid

/-! ## The maps -/

/-- If events of this address are recorded by address, there is a map for it. -/
def MapReady (sc : StatConf) (T : Times) (la : Str) : Prop := sc.pprof = true → sc.manyIps = true → la ≠ [] → T.iptimes la ≠ none

/-- Map `m` is one an update for address `la` is about. -/
def OnMap (sc : StatConf) (T : Times) (la : Str) (m : Nat) : Prop :=
  sc.pprof = true ∧ (m = 0 ∨ (T.iptimes la = some m ∧ sc.manyIps = true ∧ la ≠ []))

/-- What is true at each point of `updateTimeOf` called by `main` (`k = 0`) or `process`. -/
def PcOK (sc : StatConf) (T : Times) (k : Nat) (u : TimeCall) : Prop :=
  match u.pc with
  | .stats => True
  | .now m => OnMap sc T u.laddr m
  | .get m _ => OnMap sc T u.laddr m
  | .create m _ => OnMap sc T u.laddr m ∧ (k = 0 → T.maps m u.kind = none)
  | .store m x _ => OnMap sc T u.laddr m ∧ x < T.ncells ∧ T.maps m u.kind ≠ none ∧ (k = 0 → T.maps m u.kind = some x)
  | .ip => sc.pprof = true ∧ sc.manyIps = true ∧ u.laddr ≠ []
  | .ipSet => sc.pprof = true ∧ sc.manyIps = true ∧ u.laddr ≠ [] ∧ k = 0 ∧ T.iptimes u.laddr = none
  | .ipGet => sc.pprof = true ∧ sc.manyIps = true ∧ u.laddr ≠ [] ∧ T.iptimes u.laddr ≠ none
  | .ret => MapReady sc T u.laddr

theorem PcOK.mono {sc : StatConf} {T T' : Times} {k : Nat} {u : TimeCall} (h : PcOK sc T k u)
    (h1 : ∀ la m, T.iptimes la = some m → T'.iptimes la = some m) (h2 : ∀ m w, T.maps m w ≠ none → T'.maps m w ≠ none)
    (h3 : T.ncells ≤ T'.ncells) (h4 : k = 0 → ∀ m, T'.maps m u.kind = T.maps m u.kind) (h5 : k = 0 → T'.iptimes = T.iptimes) :
    PcOK sc T' k u := by
  have h6 : ∀ m, OnMap sc T u.laddr m → OnMap sc T' u.laddr m := by
    rintro m ⟨ha, hb⟩
    exact ⟨ha, hb.imp_right fun ⟨hb, hc⟩ => ⟨h1 _ _ hb, hc⟩⟩
  have h7 : ∀ la, T.iptimes la ≠ none → T'.iptimes la ≠ none := by
    intro la hl
    obtain ⟨m, hm⟩ := Option.ne_none_iff_exists'.1 hl
    rw [h1 la m hm]
    nofun
  unfold PcOK at h ⊢
  split at h
  · trivial
  · exact h6 _ h
  · exact h6 _ h
  · exact ⟨h6 _ h.1, fun hk => by rw [h4 hk]; exact h.2 hk⟩
  · exact ⟨h6 _ h.1, Nat.lt_of_lt_of_le h.2.1 h3, h2 _ _ h.2.2.1, fun hk => by rw [h4 hk]; exact h.2.2.2 hk⟩
  · exact h
  · exact ⟨h.1, h.2.1, h.2.2.1, h.2.2.2.1, by rw [h5 h.2.2.2.1]; exact h.2.2.2.2⟩
  · exact ⟨h.1, h.2.1, h.2.2.1, h7 _ h.2.2.2⟩
  · exact fun ha hb hc => h7 _ (h ha hb hc)

structure HeapInv (sc : StatConf) (l : List FrontObs) (s : Front) : Prop where
  pos : 0 < s.times.nmaps
  ipm : ∀ la m, s.times.iptimes la = some m → 0 < m ∧ m < s.times.nmaps ∧ sc.pprof = true ∧ sc.manyIps = true ∧ la ≠ []
  ipinj : ∀ la la' m, s.times.iptimes la = some m → s.times.iptimes la' = some m → la = la'
  bare : ∀ m w, s.times.nmaps ≤ m → s.times.maps m w = none
  cellb : ∀ m w x, s.times.maps m w = some x → x < s.times.ncells
  dist : ∀ m w m' w' x, s.times.maps m w = some x → s.times.maps m' w' = some x → m = m' ∧ w = w'
  thr : ∀ k u, s.upd k = some u → PcOK sc s.times k u
  own : ∀ k u m x t m' w, s.upd k = some u → u.pc = .store m x t → s.times.maps m' w = some x → m' = m ∧ w = u.kind
  ready : ∀ k la, s.procs k = some la → MapReady sc s.times la
  readyMain : ∀ c, s.main = .go_ c → MapReady sc s.times c.laddr
  readyRet : ∀ n k w la, .ret n ∈ l → .call n k w la ∈ l → MapReady sc s.times la

theorem HeapInv.setup {sc : StatConf} {t : Int} : HeapInv sc [] { times := .setup, clock := t } := by
  constructor
  · exact Nat.one_pos
  · nofun
  · nofun
  · intro m w h
    simp only [Times.setup] at h ⊢
    rw [if_neg]
    rintro ⟨rfl, -⟩
    omega
  · intro m w x h
    simp only [Times.setup] at h ⊢
    split at h <;> cases h
    exact Nat.one_pos
  · intro m w m' w' x h h'
    simp only [Times.setup] at h h'
    split at h
    · split at h'
      · rename_i h1 h2
        exact ⟨h1.1.trans h2.1.symm, h1.2.trans h2.2.symm⟩
      · cases h'
    · cases h
  · nofun
  · nofun
  · nofun
  · nofun
  · nofun

/-- Steps that leave the statistics alone. -/
theorem HeapInv.keep {sc : StatConf} {l : List FrontObs} {s s' : Front} {o : Option FrontObs} (h : HeapInv sc l s) (hT : s'.times = s.times)
    (hu : ∀ k u, s'.upd k = some u → s.upd k = some u ∨ (u.pc = .stats)) (hp : ∀ k la, s'.procs k = some la → MapReady sc s.times la)
    (hm : ∀ c, s'.main = .go_ c → MapReady sc s.times c.laddr)
    (hr : ∀ n k w la, .ret n ∈ l ++ o.toList → .call n k w la ∈ l ++ o.toList → MapReady sc s.times la) : HeapInv sc (l ++ o.toList) s' := by
  obtain ⟨a1, a2, a3, a4, a5, a6, a7, a8, a9, a10, a11⟩ := h
  constructor
  · rw [hT]; exact a1
  · rw [hT]; exact a2
  · rw [hT]; exact a3
  · rw [hT]; exact a4
  · rw [hT]; exact a5
  · rw [hT]; exact a6
  · rw [hT]
    intro k u hk
    rcases hu k u hk with h | h
    · exact a7 k u h
    · unfold PcOK
      rw [h]
      trivial
  · rw [hT]
    intro k u m x t m' w hk hpc
    rcases hu k u hk with h | h
    · exact a8 k u m x t m' w h hpc
    · rw [h] at hpc
      cases hpc
  · rw [hT]; exact hp
  · rw [hT]; exact hm
  · rw [hT]; exact hr

theorem HeapInv.upd {sc : StatConf} {l : List FrontObs} {s : Front} {k : Nat} {u : TimeCall} (h : HeapInv sc l s) (hc : CallInv l s)
    (hk : s.upd k = some u) {l' : List FrontObs} (hr : ∀ n, .ret n ∈ l' → .ret n ∈ l)
    (hcl : ∀ n k w la, .call n k w la ∈ l' → .call n k w la ∈ l) {T : Times} {pc : UpdPc}
    (h1 : ∀ la m, s.times.iptimes la = some m → T.iptimes la = some m) (h2 : ∀ m w, s.times.maps m w ≠ none → T.maps m w ≠ none)
    (h3 : s.times.ncells ≤ T.ncells) (h4 : ∀ m w, w ≠ u.kind → T.maps m w = s.times.maps m w) (h5 : k ≠ 0 → T.iptimes = s.times.iptimes)
    (pos : 0 < T.nmaps)
    (ipm : ∀ la m, T.iptimes la = some m → 0 < m ∧ m < T.nmaps ∧ sc.pprof = true ∧ sc.manyIps = true ∧ la ≠ [])
    (ipinj : ∀ la la' m, T.iptimes la = some m → T.iptimes la' = some m → la = la')
    (bare : ∀ m w, T.nmaps ≤ m → T.maps m w = none) (cellb : ∀ m w x, T.maps m w = some x → x < T.ncells)
    (dist : ∀ m w m' w' x, T.maps m w = some x → T.maps m' w' = some x → m = m' ∧ w = w')
    (new : ∀ m w x, T.maps m w = some x → s.times.maps m w = some x ∨ s.times.ncells ≤ x)
    (thr : PcOK sc T k { u with pc := pc }) (own : ∀ m x t, pc = .store m x t → s.times.maps m u.kind = some x) :
    HeapInv sc l' { s with times := T, upd := putAt s.upd k (some { u with pc := pc }) } := by
  obtain ⟨a1, a2, a3, a4, a5, a6, a7, a8, a9, a10, a11⟩ := h
  have hready : ∀ la, MapReady sc s.times la → MapReady sc T la := by
    intro la hl ha hb hc
    obtain ⟨m, hm⟩ := Option.ne_none_iff_exists'.1 (hl ha hb hc)
    rw [h1 la m hm]
    nofun
  constructor
  · exact pos
  · exact ipm
  · exact ipinj
  · exact bare
  · exact cellb
  · exact dist
  · intro k' u' hk'
    simp only [putAt] at hk'
    split at hk' <;> rename_i e
    · cases hk'
      rw [e]
      exact thr
    · refine (a7 k' u' hk').mono h1 h2 h3 ?_ ?_
      · rintro rfl m
        refine h4 m _ fun e' => ?_
        have g1 := (hc.kinds _ _ _ _ (hc.thr _ _ hk').1).1 rfl
        have g2 := (hc.kinds _ _ _ _ (hc.thr _ _ hk).1).2 (e' ▸ g1)
        exact e g2.symm
      · rintro rfl
        exact h5 (Ne.symm e)
  · intro k' u' m x t m' w hk' hpc hx
    simp only [putAt] at hk'
    split at hk' <;> rename_i e
    · cases hk'
      have g1 := own m x t hpc
      rcases new _ _ _ hx with g2 | g2
      · exact (a6 _ _ _ _ _ g2 g1)
      · have := a5 _ _ _ g1
        omega
    · rcases new _ _ _ hx with g2 | g2
      · exact a8 k' u' m x t m' w hk' hpc g2
      · have := a7 k' u' hk'
        unfold PcOK at this
        rw [hpc] at this
        have := this.2.1
        omega
  · intro k' la hk'
    exact hready _ (a9 k' la hk')
  · intro c hm
    exact hready _ (a10 c hm)
  · intro n k' w la hn hcc
    exact hready _ (a11 n k' w la (hr n hn) (hcl _ _ _ _ hcc))

theorem mem_after {sc : StatConf} {T : Times} {k : Nat} {u : TimeCall} {m : Nat} (h : OnMap sc T u.laddr m) : PcOK sc T k { u with pc := u.after sc m } := by
  unfold TimeCall.after
  split <;> rename_i h1
  · exact ⟨h.1, h1.2⟩
  · intro ha hb hc
    rcases h.2 with h2 | ⟨h2, -⟩
    · exact absurd ⟨h2, hb, hc⟩ h1
    · rw [h2]
      nofun

theorem newCell_maps (T : Times) (m : Nat) (k : Kind) (t : Int) (m' : Nat) (w : Kind) :
    (T.newCell m k t).maps m' w = if m' = m ∧ w = k then some T.ncells else T.maps m' w := by
  simp only [Times.newCell, putAt]
  by_cases e1 : m' = m
  · rw [if_pos e1]
    by_cases e2 : w = k
    · rw [if_pos ⟨e1, e2⟩]
      exact if_pos e2
    · rw [if_neg fun h => e2 h.2, e1]
      exact if_neg e2
  · rw [if_neg e1, if_neg fun h => e1 h.1]

theorem front_heapInv {sc : StatConf} {l : List FrontObs} {s : Front} (h : Front.Runs sc l s) : HeapInv sc l s := by
  induction h with
  | init t => exact .setup
  | @step l s s' o h hs ih =>
    have hc := front_callInv h
    have hcall : ∀ n k w la, (.call n k w la : FrontObs) ∈ l ++ o.toList → (.call n k w la ∈ l ∨ o = some (.call n k w la)) := fun _ _ _ _ => mem_snoc.1
    have silent : (∀ x ∈ o, x.silent) → ∀ n k w la, .ret n ∈ l ++ o.toList → .call n k w la ∈ l ++ o.toList → MapReady sc s.times la := by
      intro ho n k w la h1 h2
      refine ih.readyRet n k w la ?_ ?_
      · exact (mem_snoc.1 h1).resolve_right fun e => ho _ e
      · exact (mem_snoc.1 h2).resolve_right fun e => ho _ e
    have called : ∀ {n k w la}, o = some (.call n k w la) → n = s.calls → ∀ n k w la, .ret n ∈ l ++ o.toList → .call n k w la ∈ l ++ o.toList →
        MapReady sc s.times la := by
      rintro n k w la rfl rfl n' k' w' la' h1 h2
      have h1 := (mem_snoc.1 h1).resolve_right nofun
      refine ih.readyRet n' k' w' la' h1 ((mem_snoc.1 h2).resolve_right ?_)
      intro e
      cases e
      obtain ⟨k2, w2, la2, h3⟩ := hc.rets _ h1
      exact Nat.lt_irrefl _ (hc.lt _ _ _ _ h3)
    have returned : ∀ {k u}, o = some (.ret u.n) → s.upd k = some u → u.pc = .ret → ∀ n k w la, .ret n ∈ l ++ o.toList → .call n k w la ∈ l ++ o.toList →
        MapReady sc s.times la := by
      rintro k u rfl hu hpc n' k' w' la' h1 h2
      have h2 := (mem_snoc.1 h2).resolve_right nofun
      rcases mem_snoc.1 h1 with h1 | h1
      · exact ih.readyRet _ _ _ _ h1 h2
      · cases h1
        obtain ⟨-, -, rfl⟩ := hc.uniq _ _ _ _ _ _ _ h2 (hc.thr _ _ hu).1
        have := ih.thr k u hu
        unfold PcOK at this
        rw [hpc] at this
        exact this
    cases hs with
    | tick _ => exact ih.keep rfl (fun _ _ => .inl) ih.ready ih.readyMain (silent nofun)
    | @fail j hj => exact ih.keep rfl (fun _ _ => .inl) ih.ready ih.readyMain (silent fun x hx => by cases hx; trivial)
    | @count c hm => exact ih.keep rfl (fun _ _ => .inl) ih.ready nofun (silent nofun)
    | @time c hm =>
      refine ih.keep rfl ?_ ih.ready nofun (called rfl rfl)
      intro k u hk
      simp only [putAt] at hk
      split at hk
      · cases hk; exact .inr rfl
      · exact .inl hk
    | @timed c u hm h1 h2 =>
      refine ih.keep rfl ?_ ih.ready ?_ (returned rfl h1 h2)
      · intro k u hk
        simp only [putAt] at hk
        split at hk
        · cases hk
        · exact .inl hk
      · intro c' hc'
        cases hc'
        obtain ⟨u', h3, -, h4⟩ := hc.main c hm
        rw [h1] at h3
        cases h3
        have := ih.thr 0 u h1
        unfold PcOK at this
        rw [h2] at this
        rw [← h4]
        exact this
    | next hm => exact ih.keep rfl (fun _ _ => .inl) ih.ready nofun (silent nofun)
    | @call k la w h1 h2 h3 =>
      refine ih.keep rfl ?_ ih.ready ih.readyMain (called rfl rfl)
      intro k u hk
      simp only [putAt] at hk
      split at hk
      · cases hk; exact .inr rfl
      · exact .inl hk
    | @ret k u h0 h1 h2 =>
      refine ih.keep rfl ?_ ih.ready ih.readyMain (returned rfl h1 h2)
      intro k u hk
      simp only [putAt] at hk
      split at hk
      · cases hk
      · exact .inl hk
    | @pass j c hj hm => exact ih.keep rfl (fun _ _ => .inl) ih.ready nofun (silent nofun)
    | @go_ c hm =>
      refine ih.keep rfl (fun _ _ => .inl) ?_ nofun (silent fun x hx => by cases hx; trivial)
      intro k la hk
      simp only [putAt] at hk
      split at hk
      · cases hk; exact ih.readyMain c hm
      · exact ih.ready k la hk
    | @accept j la hj => exact ih.keep rfl (fun _ _ => .inl) ih.ready ih.readyMain (silent fun x hx => by cases hx; trivial)
    | @upd k u h1 h2 =>
      have hr : ∀ n, .ret n ∈ l ++ (u.sees s.clock).toList → .ret n ∈ l := fun n hn => (mem_snoc.1 hn).resolve_right fun e => silent_sees _ e
      have hcl : ∀ n k w la, .call n k w la ∈ l ++ (u.sees s.clock).toList → .call n k w la ∈ l :=
        fun n k w la hn => (mem_snoc.1 hn).resolve_right fun e => silent_sees _ e
      have hpc := ih.thr k u h1
      have keep : ∀ pc, updStep sc s.clock s.times u = (s.times, pc) → PcOK sc s.times k { u with pc := pc } →
          (∀ m x t, pc = .store m x t → s.times.maps m u.kind = some x) →
          HeapInv sc (l ++ (u.sees s.clock).toList)
            { s with times := (updStep sc s.clock s.times u).1, upd := putAt s.upd k (some { u with pc := (updStep sc s.clock s.times u).2 }) } := by
        intro pc he hok hown
        rw [he]
        exact ih.upd hc h1 hr hcl (fun _ _ => id) (fun _ _ => id) (Nat.le_refl _) (fun _ _ _ => rfl) (fun _ => rfl) ih.pos ih.ipm ih.ipinj ih.bare
          ih.cellb ih.dist (fun _ _ _ => .inl) hok hown
      unfold PcOK at hpc
      cases he : u.pc with
      | stats =>
        refine keep (if sc.pprof then .now 0 else .ret) (by simp [updStep, he]) ?_ ?_
        · split <;> rename_i hp
          · exact ⟨hp, .inl rfl⟩
          · intro ha
            exact absurd ha hp
        · intro m x t hx
          split at hx <;> cases hx
      | now m =>
        rw [he] at hpc
        exact keep (.get m s.clock) (by simp [updStep, he]) hpc nofun
      | get m t =>
        rw [he] at hpc
        cases hx : s.times.maps m u.kind with
        | none => exact keep (.create m t) (by simp [updStep, he, hx]) ⟨hpc, fun _ => hx⟩ nofun
        | some x =>
          refine keep (.store m x t) (by simp [updStep, he, hx]) ⟨hpc, ih.cellb _ _ _ hx, ?_, fun _ => hx⟩ ?_
          · show s.times.maps m u.kind ≠ none
            rw [hx]
            nofun
          · intro m' x' t' e
            cases e
            exact hx
      | ip =>
        rw [he] at hpc
        cases hx : s.times.iptimes u.laddr with
        | none =>
          refine keep .ipSet (by simp [updStep, he, hx]) ⟨hpc.1, hpc.2.1, hpc.2.2, ?_, hx⟩ nofun
          refine Decidable.byContradiction fun h0 => ?_
          exact ih.ready _ _ (hc.procs _ _ h1 h0) hpc.1 hpc.2.1 hpc.2.2 hx
        | some m => exact keep (.now m) (by simp [updStep, he, hx]) ⟨hpc.1, .inr ⟨hx, hpc.2⟩⟩ nofun
      | ipGet =>
        rw [he] at hpc
        cases hx : s.times.iptimes u.laddr with
        | none => exact absurd hx hpc.2.2.2
        | some m => exact keep (.now m) (by simp [updStep, he, hx]) ⟨hpc.1, .inr ⟨hx, hpc.2.1, hpc.2.2.1⟩⟩ nofun
      | ret => exact absurd he h2
      | store m x t =>
        rw [he] at hpc
        have hst : updStep sc s.clock s.times u = ({ s.times with cells := putAt s.times.cells x (some t) }, u.after sc m) := by simp [updStep, he]
        rw [hst]
        refine ih.upd hc h1 hr hcl (fun _ _ => id) (fun _ _ => id) (Nat.le_refl _) (fun _ _ _ => rfl) (fun _ => rfl) ih.pos ih.ipm ih.ipinj ih.bare
          ih.cellb ih.dist (fun _ _ _ => .inl) ?_ ?_
        · exact mem_after (T := { s.times with cells := putAt s.times.cells x (some t) }) hpc.1
        · intro m' x' t' e
          unfold TimeCall.after at e
          split at e <;> cases e
      | create m t =>
        rw [he] at hpc
        have hst : updStep sc s.clock s.times u = (s.times.newCell m u.kind t, u.after sc m) := by simp [updStep, he]
        rw [hst]
        have hmaps := newCell_maps s.times m u.kind t
        refine ih.upd hc h1 hr hcl (fun _ _ => id) ?_ (Nat.le_succ _) ?_ (fun _ => rfl) ih.pos ih.ipm ih.ipinj ?_ ?_ ?_ ?_ ?_ ?_
        · intro m' w hne
          rw [hmaps]
          split
          · nofun
          · exact hne
        · intro m' w hne
          rw [hmaps, if_neg fun e => hne e.2]
        · intro m' w hle
          rw [hmaps, if_neg]
          · exact ih.bare m' w hle
          · rintro ⟨rfl, -⟩
            have hle' : s.times.nmaps ≤ m' := hle
            rcases hpc.1.2 with h0 | ⟨h0, -⟩
            · have := ih.pos
              omega
            · have := (ih.ipm _ _ h0).2.1
              omega
        · intro m' w x hx
          rw [hmaps] at hx
          show x < s.times.ncells + 1
          split at hx
          · cases hx
            exact Nat.lt_succ_self _
          · exact Nat.lt_succ_of_lt (ih.cellb _ _ _ hx)
        · intro m1 w1 m2 w2 x hx hx'
          rw [hmaps] at hx hx'
          split at hx <;> rename_i e1 <;> split at hx' <;> rename_i e2
          · exact ⟨e1.1.trans e2.1.symm, e1.2.trans e2.2.symm⟩
          · cases hx
            exact absurd (ih.cellb _ _ _ hx') (Nat.lt_irrefl _)
          · cases hx'
            exact absurd (ih.cellb _ _ _ hx) (Nat.lt_irrefl _)
          · exact ih.dist _ _ _ _ _ hx hx'
        · intro m' w x hx
          rw [hmaps] at hx
          split at hx
          · cases hx
            exact .inr (Nat.le_refl _)
          · exact .inl hx
        · exact mem_after (T := s.times.newCell m u.kind t) hpc.1
        · intro m' x' t' e
          unfold TimeCall.after at e
          split at e <;> cases e
      | ipSet =>
        rw [he] at hpc
        obtain ⟨p1, p2, p3, p4, p5⟩ := hpc
        have hst : updStep sc s.clock s.times u =
            ({ s.times with iptimes := putAt s.times.iptimes u.laddr (some s.times.nmaps), nmaps := s.times.nmaps + 1 }, .ipGet) := by simp [updStep, he]
        rw [hst]
        refine ih.upd hc h1 hr hcl ?_ (fun _ _ => id) (Nat.le_refl _) (fun _ _ _ => rfl) (fun hk => absurd p4 hk) (Nat.succ_pos _) ?_ ?_ ?_
          ih.cellb ih.dist (fun _ _ _ => .inl) ⟨p1, p2, p3, ?_⟩ nofun
        · intro la m hm
          simp only [putAt]
          rw [if_neg]
          · exact hm
          · rintro rfl
            rw [p5] at hm
            cases hm
        · intro la m hm
          simp only [putAt] at hm ⊢
          split at hm <;> rename_i e
          · cases hm
            exact ⟨ih.pos, Nat.lt_succ_self _, p1, p2, e ▸ p3⟩
          · obtain ⟨q1, q2, q3⟩ := ih.ipm la m hm
            exact ⟨q1, Nat.lt_succ_of_lt q2, q3⟩
        · intro la la' m hm hm'
          simp only [putAt] at hm hm'
          split at hm <;> rename_i e <;> split at hm' <;> rename_i e'
          · exact e.trans e'.symm
          · cases hm
            exact absurd (ih.ipm _ _ hm').2.1 (Nat.lt_irrefl _)
          · cases hm'
            exact absurd (ih.ipm _ _ hm).2.1 (Nat.lt_irrefl _)
          · exact ih.ipinj _ _ _ hm hm'
        · intro m w hle
          exact ih.bare m w (Nat.le_of_succ_le hle)
        · simp [putAt]

/-! ## The times -/

/-- The call has written the time into `times` (`false`), into the map of the address (`true`), or never will. -/
def UpdPc.past : UpdPc → Bool → Prop
  | .stats, _ => False
  | .now m, b | .get m _, b | .create m _, b | .store m _ _, b => b = false ∧ m ≠ 0
  | .ip, b | .ipSet, b | .ipGet, b => b = false
  | .ret, _ => True

def SettledAt (l : List FrontObs) (s : Front) (b : Bool) (n : Nat) : Prop :=
  .ret n ∈ l ∨ ∃ k u, s.upd k = some u ∧ u.n = n ∧ u.pc.past b

/-- Updates for address `la` go to map `m` among others. -/
def AimsAt (s : Front) (m : Nat) (la : Str) : Prop := m = 0 ∨ s.times.iptimes la = some m

structure ValInv (sc : StatConf) (l : List FrontObs) (s : Front) : Prop where
  clk : ∀ k u m t, s.upd k = some u → (u.pc = .get m t ∨ u.pc = .create m t ∨ ∃ x, u.pc = .store m x t) → .clock u.n (decide (m ≠ 0)) t ∈ l
  val : ∀ m w x t, s.times.maps m w = some x → s.times.cells x = some t → ∃ n k la, .call n k w la ∈ l ∧ AimsAt s m la ∧
    .clock n (decide (m ≠ 0)) t ∈ l ∧
    (∀ n' k' la', .call n' k' w la' ∈ l → AimsAt s m la' → SettledAt l s (decide (m ≠ 0)) n' → ¬ After l n n') ∧
    (∀ k' u x' t', s.upd k' = some u → u.kind = w → u.pc = .store m x' t' → x' ≠ x → ¬ After l n u.n)
  has : ∀ n k w la b m, .call n k w la ∈ l → SettledAt l s b n →
    (b = false ∧ m = 0) ∨ (b = true ∧ sc.manyIps = true ∧ la ≠ [] ∧ s.times.iptimes la = some m) →
    ∃ x t, s.times.maps m w = some x ∧ s.times.cells x = some t
  full : ∀ m w x, s.times.maps m w = some x → ¬ (m = 0 ∧ w = .connection) → s.times.cells x ≠ none

/-- Steps that leave the statistics alone. -/
theorem ValInv.same {sc : StatConf} {l : List FrontObs} {s s' : Front} {o : Option FrontObs} (h : ValInv sc l s) (hc : CallInv l s)
    (hT : s'.times = s.times)
    (hnew : ∀ n k w la, .call n k w la ∈ l ++ o.toList → .call n k w la ∈ l ∨ ∀ b, ¬ SettledAt (l ++ o.toList) s' b n)
    (hset : ∀ n k w la b, .call n k w la ∈ l → SettledAt (l ++ o.toList) s' b n → SettledAt l s b n)
    (haft : ∀ n n' k w la, .call n' k w la ∈ l → After (l ++ o.toList) n n' → After l n n')
    (hst : ∀ k u m x t, s'.upd k = some u → u.pc = .store m x t →
      (∃ u', s.upd k = some u' ∧ u'.n = u.n ∧ u'.kind = u.kind ∧ u'.pc = .store m x t) ∨ s.times.maps m u.kind = some x)
    (hclk : ∀ k u m t, s'.upd k = some u → (u.pc = .get m t ∨ u.pc = .create m t ∨ ∃ x, u.pc = .store m x t) →
      .clock u.n (decide (m ≠ 0)) t ∈ l ++ o.toList) : ValInv sc (l ++ o.toList) s' := by
  obtain ⟨a1, a2, a3, a4⟩ := h
  have haim : ∀ m la, AimsAt s' m la ↔ AimsAt s m la := fun m la => by unfold AimsAt; rw [hT]
  constructor
  · exact hclk
  · intro m w x t hx ht
    rw [hT] at hx ht
    obtain ⟨n, k, la, h1, h2, h3, h4, h5⟩ := a2 m w x t hx ht
    refine ⟨n, k, la, List.mem_append_left _ h1, (haim _ _).2 h2, List.mem_append_left _ h3, ?_, ?_⟩
    · intro n' k' la' g1 g2 g3 g4
      rcases hnew n' k' w la' g1 with g1 | g1
      · exact h4 n' k' la' g1 ((haim _ _).1 g2) (hset _ _ _ _ _ g1 g3) (haft _ _ _ _ _ g1 g4)
      · exact g1 _ g3
    · intro k' u x' t' g1 g2 g3 g4 g5
      rcases hst k' u m x' t' g1 g3 with ⟨u', e1, e2, e3, e4⟩ | e
      · refine h5 k' u' x' t' e1 (e3.trans g2) e4 g4 ?_
        rw [e2]
        exact haft _ _ _ _ _ (e2 ▸ (hc.thr k' u' e1).1) g5
      · rw [g2, hx] at e
        cases e
        exact g4 rfl
  · intro n k w la b m h1 h2 h3
    rw [hT] at h3 ⊢
    rcases hnew n k w la h1 with h1 | h1
    · exact a3 n k w la b m h1 (hset _ _ _ _ _ h1 h2) h3
    · exact absurd h2 (h1 b)
  · rw [hT]; exact a4

/-- A call writes the time where it can be seen. -/
theorem ValInv.write {sc : StatConf} {l : List FrontObs} {s : Front} (h : ValInv sc l s) (hc : CallInv l s) (hh : HeapInv sc l s)
    {k : Nat} {u : TimeCall} (hk : s.upd k = some u) {m0 x0 : Nat} {t0 : Int} (hpc : u.pc = .create m0 t0 ∨ u.pc = .store m0 x0 t0)
    {T : Times} (hmaps : ∀ m w, T.maps m w = if m = m0 ∧ w = u.kind then some x0 else s.times.maps m w)
    (hcells : T.cells = putAt s.times.cells x0 (some t0)) (hx0 : ∀ m w, s.times.maps m w = some x0 → m = m0 ∧ w = u.kind)
    (hip : T.iptimes = s.times.iptimes) (hon : OnMap sc s.times u.laddr m0) :
    ValInv sc l { s with times := T, upd := putAt s.upd k (some { u with pc := u.after sc m0 }) } := by
  obtain ⟨hcall, hret⟩ := hc.thr k u hk
  have hclk := h.clk k u m0 t0 hk (hpc.elim (fun h => .inr (.inl h)) fun h => .inr (.inr ⟨_, h⟩))
  obtain ⟨a1, a2, a3, a4⟩ := h
  have haim : ∀ m la, AimsAt { s with times := T, upd := putAt s.upd k (some { u with pc := u.after sc m0 }) } m la ↔ AimsAt s m la :=
    fun m la => by unfold AimsAt; rw [hip]
  have hset : ∀ b n, SettledAt l { s with times := T, upd := putAt s.upd k (some { u with pc := u.after sc m0 }) } b n →
      SettledAt l s b n ∨ n = u.n ∧ (u.after sc m0).past b := by
    rintro b n (hn | ⟨k', u', h1, h2, h3⟩)
    · exact .inl (.inl hn)
    · simp only [putAt] at h1
      split at h1
      · cases h1
        exact .inr ⟨h2.symm, h3⟩
      · exact .inl (.inr ⟨k', u', h1, h2, h3⟩)
  have hold : m0 ≠ 0 → SettledAt l s false u.n := fun h0 =>
    .inr ⟨k, u, hk, rfl, by rcases hpc with h | h <;> rw [h] <;> exact ⟨rfl, h0⟩⟩
  have hafter : (u.after sc m0).past true → sc.manyIps = true → u.laddr ≠ [] → m0 ≠ 0 := by
    rintro h1 h2 h3 rfl
    rw [TimeCall.after, if_pos ⟨rfl, h2, h3⟩] at h1
    cases h1
  have hcell : ∀ m w x, ¬ (m = m0 ∧ w = u.kind) → s.times.maps m w = some x → T.cells x = s.times.cells x := by
    intro m w x hne hx
    rw [hcells, putAt, if_neg]
    rintro rfl
    exact hne (hx0 m w hx)
  constructor
  · intro k' u' m t h1 h2
    simp only [putAt] at h1
    split at h1
    · cases h1
      simp only [TimeCall.after] at h2
      split at h2 <;> simp at h2
    · exact a1 k' u' m t h1 h2
  · intro m w x t hx ht
    simp only at hx ht
    rw [hmaps] at hx
    split at hx <;> rename_i he
    · cases hx
      rw [hcells, putAt, if_pos rfl] at ht
      cases ht
      obtain ⟨rfl, rfl⟩ := he
      refine ⟨u.n, k, u.laddr, hcall, (haim _ _).2 (hon.2.imp_right And.left), hclk, ?_, ?_⟩
      · intro _ _ _ _ _ _ h
        exact hret (After.ret h)
      · intro _ _ _ _ _ _ _ _ h
        exact hret (After.ret h)
    · rw [hcell m w x he hx] at ht
      obtain ⟨n, k1, la, h1, h2, h3, h4, h5⟩ := a2 m w x t hx ht
      refine ⟨n, k1, la, h1, (haim _ _).2 h2, h3, ?_, ?_⟩
      · intro n' k' la' g1 g2 g3
        rw [haim] at g2
        rcases hset _ _ g3 with g4 | ⟨rfl, g4⟩
        · exact h4 n' k' la' g1 g2 g4
        · obtain ⟨-, rfl, rfl⟩ := hc.uniq _ _ _ _ _ _ _ g1 hcall
          by_cases h0 : m0 = 0
          · have hm : m ≠ 0 := fun e => he ⟨e.trans h0.symm, rfl⟩
            rw [decide_eq_true hm] at g4
            rcases g2 with g2 | g2
            · exact absurd g2 hm
            · obtain ⟨-, -, -, i4, i5⟩ := hh.ipm _ _ g2
              exact absurd h0 (hafter g4 i4 i5)
          · by_cases hm : m = 0
            · refine h4 u.n k' u.laddr g1 g2 ?_
              rw [decide_eq_false (fun h => h hm)]
              exact hold h0
            · have e1 := g2.resolve_left hm
              have e2 := (hon.2.resolve_left h0).1
              rw [e1] at e2
              cases e2
              exact absurd ⟨rfl, rfl⟩ he
      · intro k' u' x' t' g1 g2 g3
        simp only [putAt] at g1
        split at g1
        · cases g1
          simp only [TimeCall.after] at g3
          split at g3 <;> cases g3
        · exact h5 k' u' x' t' g1 g2 g3
  · intro n k1 w la b m h1 h2 h3
    simp only at h3 ⊢
    rw [hip] at h3
    have key : (∃ x t, s.times.maps m w = some x ∧ s.times.cells x = some t) ∨ (m = m0 ∧ w = u.kind) →
        ∃ x t, T.maps m w = some x ∧ T.cells x = some t := by
      intro hor
      by_cases he : m = m0 ∧ w = u.kind
      · exact ⟨x0, t0, by rw [hmaps, if_pos he], by rw [hcells, putAt, if_pos rfl]⟩
      · obtain ⟨x, t, e1, e2⟩ := hor.resolve_right he
        exact ⟨x, t, by rw [hmaps, if_neg he, e1], by rw [hcell m w x he e1, e2]⟩
    apply key
    rcases hset _ _ h2 with h4 | ⟨rfl, h4⟩
    · exact .inl (a3 n k1 w la b m h1 h4 h3)
    · obtain ⟨-, rfl, rfl⟩ := hc.uniq _ _ _ _ _ _ _ h1 hcall
      rcases h3 with ⟨rfl, rfl⟩ | ⟨rfl, i1, i2, i3⟩
      · by_cases h0 : m0 = 0
        · exact .inr ⟨h0.symm, rfl⟩
        · exact .inl (a3 _ _ _ _ _ _ h1 (hold h0) (.inl ⟨rfl, rfl⟩))
      · have h0 := hafter h4 i1 i2
        have e2 := (hon.2.resolve_left h0).1
        rw [i3] at e2
        cases e2
        exact .inr ⟨rfl, rfl⟩
  · intro m w x hx hne
    simp only at hx ⊢
    rw [hmaps] at hx
    split at hx <;> rename_i he
    · cases hx
      rw [hcells, putAt, if_pos rfl]
      nofun
    · rw [hcell m w x he hx]
      exact a4 m w x hx hne

/-- A call writes the time into a string that was replaced in the meantime. -/
theorem ValInv.lost {sc : StatConf} {l : List FrontObs} {s : Front} (h : ValInv sc l s) (hc : CallInv l s) (hh : HeapInv sc l s)
    {k : Nat} {u : TimeCall} (hk : s.upd k = some u) {m0 x0 : Nat} {t0 : Int} (hpc : u.pc = .store m0 x0 t0) {y : Nat}
    (hy : s.times.maps m0 u.kind = some y) (hne : x0 ≠ y) (hon : OnMap sc s.times u.laddr m0) :
    ValInv sc l { s with times := { s.times with cells := putAt s.times.cells x0 (some t0) },
                         upd := putAt s.upd k (some { u with pc := u.after sc m0 }) } := by
  obtain ⟨hcall, hret⟩ := hc.thr k u hk
  have hk0 : k ≠ 0 := by
    intro h0
    have := hh.thr k u hk
    unfold PcOK at this
    rw [hpc] at this
    have := this.2.2.2 h0
    rw [hy] at this
    cases this
    exact hne rfl
  have hkind : u.kind ≠ .connection := fun e => hk0 ((hc.kinds _ _ _ _ hcall).2 e)
  have hx0 : ∀ m w x, s.times.maps m w = some x → x ≠ x0 := by
    rintro m w x hx rfl
    obtain ⟨rfl, rfl⟩ := hh.own k u m0 x t0 m w hk hpc hx
    rw [hy] at hx
    cases hx
    exact hne rfl
  obtain ⟨a1, a2, a3, a4⟩ := h
  have hset : ∀ b n, SettledAt l { s with times := { s.times with cells := putAt s.times.cells x0 (some t0) },
                                          upd := putAt s.upd k (some { u with pc := u.after sc m0 }) } b n →
      SettledAt l s b n ∨ n = u.n ∧ (u.after sc m0).past b := by
    rintro b n (hn | ⟨k', u', h1, h2, h3⟩)
    · exact .inl (.inl hn)
    · simp only [putAt] at h1
      split at h1
      · cases h1
        exact .inr ⟨h2.symm, h3⟩
      · exact .inl (.inr ⟨k', u', h1, h2, h3⟩)
  have hold : m0 ≠ 0 → SettledAt l s false u.n := fun h0 => .inr ⟨k, u, hk, rfl, by rw [hpc]; exact ⟨rfl, h0⟩⟩
  have hafter : (u.after sc m0).past true → sc.manyIps = true → u.laddr ≠ [] → m0 ≠ 0 := by
    rintro h1 h2 h3 rfl
    rw [TimeCall.after, if_pos ⟨rfl, h2, h3⟩] at h1
    cases h1
  constructor
  · intro k' u' m t h1 h2
    simp only [putAt] at h1
    split at h1
    · cases h1
      simp only [TimeCall.after] at h2
      split at h2 <;> simp at h2
    · exact a1 k' u' m t h1 h2
  · intro m w x t hx ht
    simp only [putAt] at hx ht
    rw [if_neg (hx0 m w x hx)] at ht
    obtain ⟨n, k1, la, h1, h2, h3, h4, h5⟩ := a2 m w x t hx ht
    refine ⟨n, k1, la, h1, h2, h3, ?_, ?_⟩
    · intro n' k' la' g1 g2 g3
      replace g2 : AimsAt s m la' := g2
      rcases hset _ _ g3 with g4 | ⟨rfl, g4⟩
      · exact h4 n' k' la' g1 g2 g4
      · obtain ⟨-, rfl, rfl⟩ := hc.uniq _ _ _ _ _ _ _ g1 hcall
        by_cases he : m = m0
        · subst he
          exact h5 k u x0 t0 hk rfl hpc (hx0 _ _ _ hx).symm
        · by_cases h0 : m0 = 0
          · have hm : m ≠ 0 := fun e => he (e.trans h0.symm)
            rw [decide_eq_true hm] at g4
            obtain ⟨-, -, -, i4, i5⟩ := hh.ipm _ _ (g2.resolve_left hm)
            exact absurd h0 (hafter g4 i4 i5)
          · by_cases hm : m = 0
            · refine h4 u.n k' u.laddr g1 g2 ?_
              rw [decide_eq_false (fun h => h hm)]
              exact hold h0
            · have e1 := g2.resolve_left hm
              have e2 := (hon.2.resolve_left h0).1
              rw [e1] at e2
              cases e2
              exact absurd rfl he
    · intro k' u' x' t' g1 g2 g3
      simp only [putAt] at g1
      split at g1
      · cases g1
        simp only [TimeCall.after] at g3
        split at g3 <;> cases g3
      · exact h5 k' u' x' t' g1 g2 g3
  · intro n k1 w la b m h1 h2 h3
    have key : (∃ x t, s.times.maps m w = some x ∧ s.times.cells x = some t) →
        ∃ x t, s.times.maps m w = some x ∧ putAt s.times.cells x0 (some t0) x = some t := by
      rintro ⟨x, t, e1, e2⟩
      exact ⟨x, t, e1, by rw [putAt, if_neg (hx0 m w x e1), e2]⟩
    apply key
    have there : ∃ x t, s.times.maps m0 u.kind = some x ∧ s.times.cells x = some t := by
      obtain ⟨t, ht⟩ := Option.ne_none_iff_exists'.1 (a4 m0 u.kind y hy fun e => hkind e.2)
      exact ⟨y, t, hy, ht⟩
    rcases hset _ _ h2 with h4 | ⟨rfl, h4⟩
    · exact a3 n k1 w la b m h1 h4 h3
    · obtain ⟨-, rfl, rfl⟩ := hc.uniq _ _ _ _ _ _ _ h1 hcall
      rcases h3 with ⟨rfl, rfl⟩ | ⟨rfl, i1, i2, i3⟩
      · by_cases h0 : m0 = 0
        · exact h0 ▸ there
        · exact a3 _ _ _ _ _ _ h1 (hold h0) (.inl ⟨rfl, rfl⟩)
      · have h0 := hafter h4 i1 i2
        have e2 := (hon.2.resolve_left h0).1
        have i3' : s.times.iptimes u.laddr = some m := i3
        rw [i3'] at e2
        cases e2
        exact there
  · intro m w x hx hne'
    simp only [putAt]
    rw [if_neg (hx0 m w x hx)]
    exact a4 m w x hx hne'

theorem ValInv.ipSet {sc : StatConf} {l : List FrontObs} {s : Front} (h : ValInv sc l s) (hc : CallInv l s) (hh : HeapInv sc l s)
    (hp : sc.pprof = true) {k : Nat} {u : TimeCall} (hk : s.upd k = some u) (hpc : u.pc = .ipSet) :
    ValInv sc l { s with times := { s.times with iptimes := putAt s.times.iptimes u.laddr (some s.times.nmaps), nmaps := s.times.nmaps + 1 },
                         upd := putAt s.upd k (some { u with pc := .ipGet }) } := by
  have hok := hh.thr k u hk
  unfold PcOK at hok
  rw [hpc] at hok
  obtain ⟨-, p2, p3, -, p5⟩ := hok
  obtain ⟨a1, a2, a3, a4⟩ := h
  have hset : ∀ b n, SettledAt l { s with times := { s.times with iptimes := putAt s.times.iptimes u.laddr (some s.times.nmaps), nmaps := s.times.nmaps + 1 }, upd := putAt s.upd k (some { u with pc := .ipGet }) } b n → SettledAt l s b n := by
    rintro b n (hn | ⟨k', u', h1, h2, h3⟩)
    · exact .inl hn
    · simp only [putAt] at h1
      split at h1
      · cases h1
        exact .inr ⟨k, u, hk, h2, by rw [hpc]; exact h3⟩
      · exact .inr ⟨k', u', h1, h2, h3⟩
  have haim : ∀ m la, m < s.times.nmaps → AimsAt { s with times := { s.times with iptimes := putAt s.times.iptimes u.laddr (some s.times.nmaps), nmaps := s.times.nmaps + 1 }, upd := putAt s.upd k (some { u with pc := .ipGet }) } m la → AimsAt s m la := by
    rintro m la hlt (h | h)
    · exact .inl h
    · simp only [putAt] at h
      split at h
      · cases h
        exact absurd hlt (Nat.lt_irrefl _)
      · exact .inr h
  constructor
  · intro k' u' m t h1 h2
    simp only [putAt] at h1
    split at h1
    · cases h1
      simp at h2
    · exact a1 k' u' m t h1 h2
  · intro m w x t hx ht
    have hlt : m < s.times.nmaps := by
      refine Nat.lt_of_not_le fun hle => ?_
      have := hh.bare m w hle
      rw [hx] at this
      cases this
    obtain ⟨n, k1, la, h1, h2, h3, h4, h5⟩ := a2 m w x t hx ht
    refine ⟨n, k1, la, h1, ?_, h3, ?_, ?_⟩
    · rcases h2 with h2 | h2
      · exact .inl h2
      · refine .inr ?_
        simp only [putAt]
        rw [if_neg]
        · exact h2
        · rintro rfl
          rw [p5] at h2
          cases h2
    · intro n' k' la' g1 g2 g3
      exact h4 n' k' la' g1 (haim m la' hlt g2) (hset _ _ g3)
    · intro k' u' x' t' g1 g2 g3
      simp only [putAt] at g1
      split at g1
      · cases g1
        cases g3
      · exact h5 k' u' x' t' g1 g2 g3
  · intro n k1 w la b m h1 h2 h3
    refine a3 n k1 w la b m h1 (hset _ _ h2) ?_
    rcases h3 with h3 | ⟨rfl, i1, i2, i3⟩
    · exact .inl h3
    · refine .inr ⟨rfl, i1, i2, ?_⟩
      simp only [putAt] at i3
      split at i3 <;> rename_i e
      · exfalso
        subst e
        have : MapReady sc s.times u.laddr := by
          rcases hset _ _ h2 with g | ⟨k', u', g1, g2, g3⟩
          · exact hh.readyRet n k1 w _ g h1
          · have g4 := hh.thr k' u' g1
            obtain ⟨-, -, g5⟩ := hc.uniq _ _ _ _ _ _ _ (g2 ▸ (hc.thr k' u' g1).1) h1
            unfold PcOK at g4
            cases hq : u'.pc <;> rw [hq] at g3 g4 <;> simp [UpdPc.past] at g3
            rw [← g5]
            exact g4
        exact this hp i1 i2 p5
      · exact i3
  · exact a4

theorem front_valInv {sc : StatConf} (hp : sc.pprof = true) {l : List FrontObs} {s : Front} (h : Front.Runs sc l s) : ValInv sc l s := by
  induction h with
  | init t =>
    refine ⟨nofun, ?_, nofun, ?_⟩
    · intro m w x t hx ht
      cases ht
    · intro m w x hx hne
      simp only [Times.setup] at hx
      rw [if_neg hne] at hx
      cases hx
  | @step l s s' o h hs ih =>
    have hc := front_callInv h
    have hh := front_heapInv h
    -- steps that call and return nothing
    have quiet : (∀ x ∈ o, x.silent) → s'.times = s.times → s'.upd = s.upd → ValInv sc (l ++ o.toList) s' := by
      intro ho hT hu
      refine ih.same hc hT ?_ ?_ ?_ ?_ ?_
      · intro n k w la hn
        exact .inl ((mem_snoc.1 hn).resolve_right fun e => ho _ e)
      · rintro n k w la b - (hn | hn)
        · exact .inl ((mem_snoc.1 hn).resolve_right fun e => ho _ e)
        · rw [hu] at hn
          exact .inr hn
      · rintro n n' k w la - ha
        refine (after_snoc.1 ha).resolve_right ?_
        rintro ⟨-, _, _, _, e⟩
        exact ho _ e
      · intro k u m x t hk hpc
        rw [hu] at hk
        exact .inl ⟨u, hk, rfl, rfl, hpc⟩
      · intro k u m t hk hpc
        rw [hu] at hk
        exact List.mem_append_left _ (ih.clk k u m t hk hpc)
    have called : ∀ {k w la}, o = some (.call s.calls k w la) → s'.times = s.times →
        s'.upd = putAt s.upd k (some { n := s.calls, kind := w, laddr := la }) → ValInv sc (l ++ o.toList) s' := by
      rintro k w la rfl hT hu
      have hthr : ∀ k' u', s'.upd k' = some u' → s.upd k' = some u' ∨ (u'.n = s.calls ∧ u'.pc = .stats) := by
        intro k' u' hk'
        rw [hu, putAt] at hk'
        split at hk'
        · cases hk'
          exact .inr ⟨rfl, rfl⟩
        · exact .inl hk'
      have hret : ∀ n, .ret n ∈ l → n < s.calls := fun n hn => by
        obtain ⟨k, w, la, h⟩ := hc.rets n hn
        exact hc.lt _ _ _ _ h
      refine ih.same hc hT ?_ ?_ ?_ ?_ ?_
      · intro n k' w' la' hn
        rcases mem_snoc.1 hn with hn | hn
        · exact .inl hn
        · cases hn
          refine .inr ?_
          rintro b (g | ⟨k1, u1, g1, g2, g3⟩)
          · exact absurd (hret _ ((mem_snoc.1 g).resolve_right nofun)) (Nat.lt_irrefl _)
          · rcases hthr k1 u1 g1 with g | ⟨-, g⟩
            · have := hc.lt _ _ _ _ (hc.thr _ _ g).1
              omega
            · rw [g] at g3
              exact g3
      · rintro n k' w' la' b hn (g | ⟨k1, u1, g1, g2, g3⟩)
        · exact .inl ((mem_snoc.1 g).resolve_right nofun)
        · rcases hthr k1 u1 g1 with g | ⟨-, g⟩
          · exact .inr ⟨k1, u1, g, g2, g3⟩
          · rw [g] at g3
            exact absurd g3 id
      · intro n n' k' w' la' hn ha
        refine (after_snoc.1 ha).resolve_right ?_
        rintro ⟨-, _, _, _, e⟩
        cases e
        exact absurd (hc.lt _ _ _ _ hn) (Nat.lt_irrefl _)
      · intro k' u' m x t hk' hpc
        rcases hthr k' u' hk' with g | ⟨-, g⟩
        · exact .inl ⟨u', g, rfl, rfl, hpc⟩
        · rw [g] at hpc
          cases hpc
      · intro k' u' m t hk' hpc
        rcases hthr k' u' hk' with g | ⟨-, g⟩
        · exact List.mem_append_left _ (ih.clk k' u' m t g hpc)
        · rw [g] at hpc
          simp at hpc
    have returned : ∀ {k u}, o = some (.ret u.n) → s.upd k = some u → u.pc = .ret → s'.times = s.times → s'.upd = putAt s.upd k none →
        ValInv sc (l ++ o.toList) s' := by
      rintro k u rfl hk hpc hT hu
      have hthr : ∀ k' u', s'.upd k' = some u' → s.upd k' = some u' := by
        intro k' u' hk'
        rw [hu, putAt] at hk'
        split at hk'
        · cases hk'
        · exact hk'
      refine ih.same hc hT ?_ ?_ ?_ ?_ ?_
      · intro n k' w' la' hn
        exact .inl ((mem_snoc.1 hn).resolve_right nofun)
      · rintro n k' w' la' b hn (g | ⟨k1, u1, g1, g2, g3⟩)
        · rcases mem_snoc.1 g with g | g
          · exact .inl g
          · cases g
            exact .inr ⟨k, u, hk, rfl, by rw [hpc]; trivial⟩
        · exact .inr ⟨k1, u1, hthr k1 u1 g1, g2, g3⟩
      · intro n n' k' w' la' hn ha
        refine (after_snoc.1 ha).resolve_right ?_
        rintro ⟨-, _, _, _, e⟩
        cases e
      · intro k' u' m x t hk' hpc
        exact .inl ⟨u', hthr k' u' hk', rfl, rfl, hpc⟩
      · intro k' u' m t hk' hpc
        exact List.mem_append_left _ (ih.clk k' u' m t (hthr k' u' hk') hpc)
    cases hs with
    | tick _ => exact quiet nofun rfl rfl
    | fail hj => exact quiet (fun x hx => by cases hx; trivial) rfl rfl
    | count hm => exact quiet nofun rfl rfl
    | time hm => exact called rfl rfl rfl
    | timed hm h1 h2 => exact returned rfl h1 h2 rfl rfl
    | next hm => exact quiet nofun rfl rfl
    | call h1 h2 h3 => exact called rfl rfl rfl
    | ret h0 h1 h2 => exact returned rfl h1 h2 rfl rfl
    | pass hj hm => exact quiet nofun rfl rfl
    | go_ hm => exact quiet (fun x hx => by cases hx; trivial) rfl rfl
    | accept hj => exact quiet (fun x hx => by cases hx; trivial) rfl rfl
    | @upd k u h1 h2 =>
      have hpc := hh.thr k u h1
      have keep : ∀ pc, updStep sc s.clock s.times u = (s.times, pc) → (∀ b, pc.past b → u.pc.past b) →
          (∀ m x t, pc = .store m x t → s.times.maps m u.kind = some x) →
          (∀ m t, (pc = .get m t ∨ pc = .create m t ∨ ∃ x, pc = .store m x t) → .clock u.n (decide (m ≠ 0)) t ∈ l ++ (u.sees s.clock).toList) →
          ValInv sc (l ++ (u.sees s.clock).toList)
            { s with times := (updStep sc s.clock s.times u).1, upd := putAt s.upd k (some { u with pc := (updStep sc s.clock s.times u).2 }) } := by
        intro pc he hpast hst hclk
        rw [he]
        refine ih.same hc rfl ?_ ?_ ?_ ?_ ?_
        · intro n k' w' la' hn
          exact .inl ((mem_snoc.1 hn).resolve_right fun e => silent_sees _ e)
        · rintro n k' w' la' b hn (g | ⟨k1, u1, g1, g2, g3⟩)
          · exact .inl ((mem_snoc.1 g).resolve_right fun e => silent_sees _ e)
          · simp only [putAt] at g1
            split at g1
            · cases g1
              exact .inr ⟨k, u, h1, g2, hpast b g3⟩
            · exact .inr ⟨k1, u1, g1, g2, g3⟩
        · intro n n' k' w' la' hn ha
          refine (after_snoc.1 ha).resolve_right ?_
          rintro ⟨-, _, _, _, e⟩
          exact silent_sees _ e
        · intro k' u' m x t hk' hpc'
          simp only [putAt] at hk'
          split at hk'
          · cases hk'
            exact .inr (hst m x t hpc')
          · exact .inl ⟨u', hk', rfl, rfl, hpc'⟩
        · intro k' u' m t hk' hpc'
          simp only [putAt] at hk'
          split at hk'
          · cases hk'
            exact hclk m t hpc'
          · exact List.mem_append_left _ (ih.clk k' u' m t hk' hpc')
      have hsees : (∀ m, u.pc ≠ .now m) → u.sees s.clock = none := by
        intro hne
        unfold TimeCall.sees
        split
        · rename_i m e
          exact absurd e (hne m)
        · rfl
      unfold PcOK at hpc
      cases he : u.pc with
      | stats =>
        refine keep (.now 0) (by simp [updStep, he, hp]) ?_ nofun (by simp)
        rintro b ⟨-, h⟩
        exact absurd rfl h
      | now m =>
        refine keep (.get m s.clock) (by simp [updStep, he]) (fun b hb => by rw [he]; exact hb) nofun ?_
        intro m' t hor
        simp only [UpdPc.get.injEq, reduceCtorEq, false_or, exists_false, or_false] at hor
        obtain ⟨rfl, rfl⟩ := hor
        refine mem_snoc.2 (.inr ?_)
        simp [TimeCall.sees, he]
      | get m t =>
        have hk := fun m' t' hor => List.mem_append_left (u.sees s.clock).toList (ih.clk k u m' t' h1 hor)
        cases hx : s.times.maps m u.kind with
        | none =>
          refine keep (.create m t) (by simp [updStep, he, hx]) (fun b hb => by rw [he]; exact hb) nofun ?_
          intro m' t' hor
          simp only [UpdPc.create.injEq, reduceCtorEq, false_or, exists_false, or_false] at hor
          obtain ⟨rfl, rfl⟩ := hor
          exact hk _ _ (.inl he)
        | some x =>
          refine keep (.store m x t) (by simp [updStep, he, hx]) (fun b hb => by rw [he]; exact hb) ?_ ?_
          · intro m' x' t' e
            cases e
            exact hx
          · intro m' t' hor
            simp only [UpdPc.store.injEq, reduceCtorEq, false_or] at hor
            obtain ⟨x', rfl, rfl, rfl⟩ := hor
            exact hk _ _ (.inl he)
      | ip =>
        rw [he] at hpc
        cases hx : s.times.iptimes u.laddr with
        | none => exact keep .ipSet (by simp [updStep, he, hx]) (fun b hb => by rw [he]; exact hb) nofun (by simp)
        | some m => exact keep (.now m) (by simp [updStep, he, hx]) (fun b hb => by rw [he]; exact hb.1) nofun (by simp)
      | ipGet =>
        rw [he] at hpc
        cases hx : s.times.iptimes u.laddr with
        | none => exact absurd hx hpc.2.2.2
        | some m => exact keep (.now m) (by simp [updStep, he, hx]) (fun b hb => by rw [he]; exact hb.1) nofun (by simp)
      | ret => exact absurd he h2
      | store m x t =>
        rw [he] at hpc
        have hst : updStep sc s.clock s.times u = ({ s.times with cells := putAt s.times.cells x (some t) }, u.after sc m) := by simp [updStep, he]
        rw [hst, hsees (by simp [he])]
        simp only [Option.toList, List.append_nil]
        obtain ⟨y, hy⟩ := Option.ne_none_iff_exists'.1 hpc.2.2.1
        by_cases hxy : x = y
        · subst hxy
          refine ih.write hc hh h1 (.inr he) ?_ rfl ?_ rfl hpc.1
          · intro m' w
            show s.times.maps m' w = _
            split
            · rename_i e
              rw [e.1, e.2, hy]
            · rfl
          · intro m' w hw
            exact hh.own k u m x t m' w h1 he hw
        · exact ih.lost hc hh h1 he hy hxy hpc.1
      | create m t =>
        rw [he] at hpc
        have hst : updStep sc s.clock s.times u = (s.times.newCell m u.kind t, u.after sc m) := by simp [updStep, he]
        rw [hst, hsees (by simp [he])]
        simp only [Option.toList, List.append_nil]
        refine ih.write hc hh h1 (.inl he) (newCell_maps s.times m u.kind t) rfl ?_ rfl hpc.1
        intro m' w hw
        exact absurd (hh.cellb _ _ _ hw) (Nat.lt_irrefl _)
      | ipSet =>
        have hst : updStep sc s.clock s.times u =
            ({ s.times with iptimes := putAt s.times.iptimes u.laddr (some s.times.nmaps), nmaps := s.times.nmaps + 1 }, .ipGet) := by simp [updStep, he]
        rw [hst, hsees (by simp [he])]
        simp only [Option.toList, List.append_nil]
        exact ih.ipSet hc hh hp h1 he

/-! ## C69: nothing that was accepted has to wait for anything but `main` -/

/-- How many steps are left, at most. -/
def UpdPc.rank : UpdPc → Nat
  | .stats => 12
  | .now m => if m = 0 then 11 else 5
  | .get m _ => if m = 0 then 10 else 4
  | .create m _ | .store m _ _ => if m = 0 then 9 else 3
  | .ip => 8
  | .ipSet => 7
  | .ipGet => 6
  | .ret => 0

theorem updStep_rank {sc : StatConf} {T : Times} (hT : ∀ la m, T.iptimes la = some m → 0 < m) {t : Int} {u : TimeCall} (h : u.pc ≠ .ret) :
    (updStep sc t T u).2.rank < u.pc.rank := by
  unfold updStep
  cases he : u.pc with
  | stats => simp only; split <;> decide
  | now m => simp only [UpdPc.rank]; split <;> decide
  | get m t' => simp only; cases T.maps m u.kind <;> simp only [UpdPc.rank] <;> split <;> decide
  | create m t' | store m x t' =>
    simp only [TimeCall.after]
    split <;> rename_i e
    · rw [UpdPc.rank, UpdPc.rank, if_pos e.1]
      decide
    · rw [UpdPc.rank, UpdPc.rank]
      split <;> decide
  | ip =>
    simp only
    cases hm : T.iptimes u.laddr with
    | none => decide
    | some m =>
      have := hT _ _ hm
      simp only [UpdPc.rank, if_neg (by omega : ¬ m = 0)]
      decide
  | ipSet => simp only; decide
  | ipGet =>
    simp only
    cases hm : T.iptimes u.laddr with
    | none => decide
    | some m =>
      have := hT _ _ hm
      simp only [UpdPc.rank, if_neg (by omega : ¬ m = 0)]
      decide
  | ret => exact absurd he h

/-- The run can go on to a state of this kind without another connection being accepted. -/
def CanReach (sc : StatConf) (l : List FrontObs) (P : List FrontObs → Front → Prop) : Prop :=
  ∃ l' s', Front.Runs sc (l ++ l') s' ∧ (∀ j c, .accept j c ∉ l') ∧ P l' s'

theorem CanReach.step {sc : StatConf} {l : List FrontObs} {s s' : Front} {o : Option FrontObs} (h : Front.Runs sc l s) (hs : Front.Step sc s o s')
    (ho : ∀ j c, o ≠ some (.accept j c)) {P : List FrontObs → Front → Prop}
    (hr : Front.Runs sc (l ++ o.toList) s' → CanReach sc (l ++ o.toList) fun l' => P (o.toList ++ l')) : CanReach sc l P := by
  obtain ⟨l', s2, h1, h2, h3⟩ := hr (h.step hs)
  refine ⟨o.toList ++ l', s2, by rw [← List.append_assoc]; exact h1, ?_, h3⟩
  intro j c hm
  rcases List.mem_append.1 hm with hm | hm
  · cases o with
    | none => cases hm
    | some o =>
      simp only [Option.toList, List.mem_singleton] at hm
      exact ho j c (by rw [hm])
  · exact h2 j c hm

theorem CanReach.now {sc : StatConf} {l : List FrontObs} {s : Front} (h : Front.Runs sc l s) {P : List FrontObs → Front → Prop} (hp : P [] s) :
    CanReach sc l P := ⟨[], s, by rw [List.append_nil]; exact h, nofun, hp⟩

theorem sees_ne {t : Int} {u : TimeCall} (j : Nat) (c : Conn) : u.sees t ≠ some (.accept j c) := by
  unfold TimeCall.sees
  split <;> nofun

/-- `main` comes back to the receive. -/
theorem main_next {sc : StatConf} {l : List FrontObs} {s : Front} (h : Front.Runs sc l s) (hm : s.main = .next) :
    CanReach sc l fun _ s' => s'.main = .recv ∧ s'.lis = s.lis :=
  .step h (.next hm) nofun fun h' => .now h' ⟨rfl, rfl⟩

theorem main_go {sc : StatConf} {l : List FrontObs} {s : Front} {c : Conn} (h : Front.Runs sc l s) (hm : s.main = .go_ c) :
    CanReach sc l fun l' s' => s'.main = .recv ∧ s'.lis = s.lis ∧ ∃ k, .start k c ∈ l' := by
  refine .step h (.go_ hm) nofun fun h' => ?_
  obtain ⟨l', s', h1, h2, h3, h4⟩ := main_next h' rfl
  exact ⟨l', s', h1, h2, h3, h4, s.cid, List.mem_append_left _ (List.mem_singleton.2 rfl)⟩

theorem main_timing {sc : StatConf} {c : Conn} (n : Nat) : ∀ {l : List FrontObs} {s : Front} {u : TimeCall}, Front.Runs sc l s → s.main = .timing c →
    s.upd 0 = some u → u.pc.rank ≤ n → CanReach sc l fun l' s' => s'.main = .recv ∧ s'.lis = s.lis ∧ ∃ k, .start k c ∈ l' := by
  induction n with
  | zero =>
    intro l s u h hm hu hn
    have hr : u.pc = .ret := by
      cases he : u.pc <;> rw [he] at hn <;> simp only [UpdPc.rank] at hn <;> first | rfl | omega | (split at hn <;> omega)
    refine .step h (.timed hm hu hr) nofun fun h' => ?_
    obtain ⟨l', s', h1, h2, h3, h4, k, h5⟩ := main_go h' rfl
    exact ⟨l', s', h1, h2, h3, h4, k, List.mem_append_right _ h5⟩
  | succ n ih =>
    intro l s u h hm hu hn
    by_cases hr : u.pc = .ret
    · exact ih h hm hu (by rw [hr]; exact Nat.zero_le _)
    · refine .step h (.upd hu hr) sees_ne fun h' => ?_
      have hlt := updStep_rank (sc := sc) (t := s.clock) (fun la m hm => ((front_heapInv h).ipm la m hm).1) hr
      obtain ⟨l', s', h1, h2, h3, h4, k, h5⟩ := ih h' hm (u := { u with pc := (updStep sc s.clock s.times u).2 }) (by simp [putAt]) (by
        show (updStep sc s.clock s.times u).2.rank ≤ n
        omega)
      exact ⟨l', s', h1, h2, h3, h4, k, List.mem_append_right _ h5⟩

theorem main_time {sc : StatConf} {l : List FrontObs} {s : Front} {c : Conn} (h : Front.Runs sc l s) (hm : s.main = .time c) :
    CanReach sc l fun l' s' => s'.main = .recv ∧ s'.lis = s.lis ∧ ∃ k, .start k c ∈ l' := by
  refine .step h (.time hm) nofun fun h' => ?_
  obtain ⟨l', s', h1, h2, h3, h4, k, h5⟩ := main_timing _ h' rfl (u := { n := s.calls, kind := .connection, laddr := c.laddr }) (by simp [putAt])
    (Nat.le_refl _)
  exact ⟨l', s', h1, h2, h3, h4, k, List.mem_append_right _ h5⟩

theorem main_count {sc : StatConf} {l : List FrontObs} {s : Front} {c : Conn} (h : Front.Runs sc l s) (hm : s.main = .count c) :
    CanReach sc l fun l' s' => s'.main = .recv ∧ s'.lis = s.lis ∧ ∃ k, .start k c ∈ l' := by
  refine .step h (.count hm) nofun fun h' => ?_
  obtain ⟨l', s', h1, h2, h3, h4, k, h5⟩ := main_time h' rfl
  exact ⟨l', s', h1, h2, h3, h4, k, List.mem_append_right _ h5⟩

theorem main_conn {sc : StatConf} {l : List FrontObs} {s : Front} (h : Front.Runs sc l s) :
    CanReach sc l fun l' s' => s'.main = .recv ∧ s'.lis = s.lis ∧ ∀ c, s.main.conn = some c → ∃ k, .start k c ∈ l' := by
  cases hm : s.main with
  | recv => exact .now h ⟨hm, rfl, nofun⟩
  | next =>
    obtain ⟨l', s', h1, h2, h3, h4⟩ := main_next h hm
    exact ⟨l', s', h1, h2, h3, h4, nofun⟩
  | count c =>
    obtain ⟨l', s', h1, h2, h3, h4, h5⟩ := main_count h hm
    exact ⟨l', s', h1, h2, h3, h4, fun d e => by cases e; exact h5⟩
  | time c =>
    obtain ⟨l', s', h1, h2, h3, h4, h5⟩ := main_time h hm
    exact ⟨l', s', h1, h2, h3, h4, fun d e => by cases e; exact h5⟩
  | timing c =>
    obtain ⟨u, hu, -⟩ := (front_callInv h).main c hm
    obtain ⟨l', s', h1, h2, h3, h4, h5⟩ := main_timing _ h hm hu (Nat.le_refl _)
    exact ⟨l', s', h1, h2, h3, h4, fun d e => by cases e; exact h5⟩
  | go_ c =>
    obtain ⟨l', s', h1, h2, h3, h4, h5⟩ := main_go h hm
    exact ⟨l', s', h1, h2, h3, h4, fun d e => by cases e; exact h5⟩

/-- Whatever has happened, a connection that was accepted has been served or still can be, without any other connection coming in. -/
theorem C69_served {sc : StatConf} {l : List FrontObs} {s : Front} (h : Front.Runs sc l s) {j : Nat} {c : Conn} (hc : .accept j c ∈ l) :
    (∃ k, .start k c ∈ l) ∨ ∃ l' s', Front.Runs sc (l ++ l') s' ∧ (∀ j c, .accept j c ∉ l') ∧ ∃ k, .start k c ∈ l' := by
  have hall := (front_accInv h).all j
  have hin := mem_acceptedBy.2 hc
  rw [hall] at hin
  rcases List.mem_append.1 hin with hin | hin
  · rcases List.mem_append.1 (List.mem_filter.1 hin).1 with hin | hin
    · obtain ⟨⟨k, d⟩, h1, h2⟩ := List.mem_map.1 hin
      cases h2
      exact .inl ⟨k, mem_started.1 h1⟩
    · obtain ⟨l', s', h1, h2, -, -, h5⟩ := main_conn h
      exact .inr ⟨l', s', h1, h2, h5 c (Option.mem_toList.1 hin)⟩
  · obtain ⟨l', s', h1, h2, h3, h4, -⟩ := main_conn h
    have hw : s'.lis j = some c := by rw [h4]; exact Option.mem_toList.1 hin
    obtain ⟨l2, s2, g1, g2, g3⟩ : CanReach sc (l ++ l') fun l' _ => ∃ k, .start k c ∈ l' := by
      refine .step h1 (.pass hw h3) nofun fun h' => ?_
      obtain ⟨l', s', h1, h2, h3, h4, k, h5⟩ := main_count h' rfl
      exact ⟨l', s', h1, h2, k, List.mem_append_right _ h5⟩
    refine .inr ⟨l' ++ l2, s2, by rw [← List.append_assoc]; exact g1, ?_, ?_⟩
    · intro i d hd
      rcases List.mem_append.1 hd with hd | hd
      · exact h2 i d hd
      · exact g2 i d hd
    · obtain ⟨k, hk⟩ := g3
      exact ⟨k, List.mem_append_right _ hk⟩

/-! ## C70 -/

/-- **C70.** A time given in the statistics is one at which an event of that kind was recorded, and no call to record such an event
has been made and finished after that one was finished. -/
theorem C70_shown {sc : StatConf} (hp : sc.pprof = true) {l : List FrontObs} {s : Front} (h : Front.Runs sc l s) {a : Option Str} {w : Kind} {t : Int}
    (hs : shown s a w = some t) : ∃ n k la, .call n k w la ∈ l ∧ Belongs a la ∧ .clock n a.isSome t ∈ l ∧
      ∀ n' k' la', .call n' k' w la' ∈ l → Belongs a la' → .ret n' ∈ l → ¬ After l n n' := by
  have hv := front_valInv hp h
  have hh := front_heapInv h
  cases a with
  | none =>
    simp only [shown, Option.bind_eq_some_iff] at hs
    obtain ⟨x, hx, ht⟩ := hs
    obtain ⟨n, k, la, h1, h2, h3, h4, -⟩ := hv.val 0 w x t hx ht
    exact ⟨n, k, la, h1, .inl rfl, h3, fun n' k' la' g1 _ g3 => h4 n' k' la' g1 (.inl rfl) (.inl g3)⟩
  | some a =>
    simp only [shown, Option.bind_eq_some_iff] at hs
    obtain ⟨m, hm, x, hx, ht⟩ := hs
    have hpos := (hh.ipm _ _ hm).1
    obtain ⟨n, k, la, h1, h2, h3, h4, -⟩ := hv.val m w x t hx ht
    rw [decide_eq_true (by omega : m ≠ 0)] at h3
    refine ⟨n, k, la, h1, .inr ?_, h3, ?_⟩
    · rw [hh.ipinj _ _ _ hm (h2.resolve_left (by omega))]
    · intro n' k' la' g1 g2 g3
      rcases g2 with g2 | g2 <;> cases g2
      exact h4 n' k' _ g1 (.inr hm) (.inl g3)

/-- Once an event has been recorded there is a time for it, in all places where it belongs. -/
theorem C70_present {sc : StatConf} {l : List FrontObs} {s : Front} (h : Front.Runs sc l s) {a : Option Str} (ha : Kept sc a) {n k : Nat} {w : Kind}
    {la : Str} (hc : .call n k w la ∈ l) (hr : .ret n ∈ l) (hb : Belongs a la) : ∃ t, shown s a w = some t := by
  have hv := front_valInv ha.1 h
  rcases hb with rfl | rfl
  · obtain ⟨x, t, h1, h2⟩ := hv.has n k w la false 0 hc (.inl hr) (.inl ⟨rfl, rfl⟩)
    exact ⟨t, by simp only [shown, h1, Option.bind_some, h2]⟩
  · obtain ⟨h1, h2⟩ := ha.2 nofun
    have h2 : la ≠ [] := fun e => h2 (by rw [e])
    obtain ⟨m, hm⟩ := Option.ne_none_iff_exists'.1 ((front_heapInv h).readyRet n k w la hr hc ha.1 h1 h2)
    obtain ⟨x, t, h3, h4⟩ := hv.has n k w la true m hc (.inl hr) (.inr ⟨rfl, h1, h2, hm⟩)
    exact ⟨t, by simp only [shown, hm, Option.bind_some, h3, h4]⟩

/-- For connections the time is exact: it is that of the last one. -/
theorem C70_connection {sc : StatConf} {l : List FrontObs} {s : Front} (h : Front.Runs sc l s) {a : Option Str} (ha : Kept sc a) {n k : Nat}
    {la : Str} (hc : .call n k .connection la ∈ l) (hr : .ret n ∈ l) (hb : Belongs a la)
    (hlast : ∀ n' k' la', .call n' k' .connection la' ∈ l → Belongs a la' → n' ≤ n) : ∃ t, shown s a .connection = some t ∧ .clock n a.isSome t ∈ l := by
  obtain ⟨t, ht⟩ := C70_present h ha hc hr hb
  obtain ⟨n', k', la', h1, h2, h3, h4⟩ := C70_shown ha.1 h ht
  have hci := front_callInv h
  have : n' = n := by
    refine Nat.le_antisymm (hlast _ _ _ h1 h2) (Nat.le_of_not_lt fun hlt => ?_)
    refine h4 n k la hc hb hr (hci.seq n' n .connection la' .connection la ?_ ?_ hlt)
    · rw [(hci.kinds _ _ _ _ h1).2 rfl] at h1
      exact h1
    · rw [(hci.kinds _ _ _ _ hc).2 rfl] at hc
      exact hc
  subst this
  exact ⟨t, ht, h3⟩

/-- Without `-pprof` there is nothing to be seen. -/
theorem C70_off {sc : StatConf} (hp : sc.pprof = false) {l : List FrontObs} {s : Front} (h : Front.Runs sc l s) (a : Option Str) (w : Kind) :
    shown s a w = none := by
  have hT : s.times = .setup ∧ ∀ k u, s.upd k = some u → u.pc = .stats ∨ u.pc = .ret := by
    induction h with
    | init t => exact ⟨rfl, nofun⟩
    | @step l s s' o h hs ih =>
      cases hs with
      | @upd k u h1 h2 =>
        have he := (ih.2 k u h1).resolve_right h2
        have hst : updStep sc s.clock s.times u = (s.times, .ret) := by simp [updStep, he, hp]
        rw [hst]
        refine ⟨ih.1, ?_⟩
        intro k' u' hk'
        simp only [putAt] at hk'
        split at hk'
        · cases hk'
          exact .inr rfl
        · exact ih.2 k' u' hk'
      | time _ | call _ _ _ =>
        refine ⟨ih.1, ?_⟩
        intro k' u' hk'
        simp only [putAt] at hk'
        split at hk'
        · cases hk'
          exact .inl rfl
        · exact ih.2 k' u' hk'
      | timed _ _ _ | ret _ _ _ =>
        refine ⟨ih.1, ?_⟩
        intro k' u' hk'
        simp only [putAt] at hk'
        split at hk'
        · cases hk'
        · exact ih.2 k' u' hk'
      | _ => exact ih
  cases a with
  | none =>
    simp only [shown, hT.1, Times.setup]
    split <;> rfl
  | some a => simp only [shown, hT.1, Times.setup]; rfl

/-- Two listeners, an error, three connections, two of them served; statistics by address. -/
def demoFront : Option (List FrontObs × Front) :=
  Front.demo ⟨true, true⟩ 5 ([.accept 0 b!"10.0.0.1:25", .fail 1, .accept 1 b!"10.0.0.2:25"] ++ mainServes 1 10 ++ [.tick 9, .accept 1 b!"10.0.0.2:25"] ++
    mainServes 1 8)

example : demoFront.isSome = true := by decide +kernel
example : demoFront.map (fun p => (started p.1, acceptedBy 0 p.1, acceptedBy 1 p.1, servedFrom 1 p.1, p.2.connections)) =
    some ([(1, ⟨1, b!"10.0.0.2:25"⟩), (2, ⟨2, b!"10.0.0.2:25"⟩)], [⟨0, b!"10.0.0.1:25"⟩], [⟨1, b!"10.0.0.2:25"⟩, ⟨2, b!"10.0.0.2:25"⟩],
      [⟨1, b!"10.0.0.2:25"⟩, ⟨2, b!"10.0.0.2:25"⟩], 2) := by decide +kernel
example : demoFront.map (fun p => (shown p.2 none .connection, shown p.2 (some b!"10.0.0.2:25") .connection,
    shown p.2 (some b!"10.0.0.1:25") .connection)) = some (some 9, some 9, none) := by decide +kernel

/-- Two sessions record their first event at once: the later one writes first. -/
def raceFront : Option (List FrontObs × Front) :=
  Front.demo ⟨true, false⟩ 5 ([.accept 0 b!"10.0.0.1:25"] ++ mainServes 0 4 ++ [.accept 0 b!"10.0.0.1:25"] ++ mainServes 0 4 ++
    [.call 1 .regular, .upd 1, .upd 1, .upd 1, .tick 7, .call 2 .regular, .upd 2, .upd 2, .upd 2, .upd 2, .ret 2, .upd 1, .ret 1])

/-- The time shown need not be the latest one when calls overlap: two calls, both finished, have seen 5 and 7, and 5 is shown. -/
theorem C70_not_latest : ∃ (l : List FrontObs) (s : Front), Front.Runs ⟨true, false⟩ l s ∧ (∀ k, s.upd k = none) ∧
    (∃ n k la, .call n k .regular la ∈ l ∧ .ret n ∈ l ∧ .clock n false 7 ∈ l) ∧ shown s none .regular = some 5 := by
  have h : raceFront.isSome = true := by decide +kernel
  obtain ⟨⟨l, s⟩, hp⟩ := Option.isSome_iff_exists.1 h
  have hr : Front.Runs ⟨true, false⟩ l s := Front.demo_runs hp
  have h1 : raceFront.map (fun p => (decide (.call 3 2 .regular b!"10.0.0.1:25" ∈ p.1 ∧ .ret 3 ∈ p.1 ∧ .clock 3 false 7 ∈ p.1),
      shown p.2 none .regular, p.2.cid, decide (p.2.main = .recv))) = some (true, some 5, 3, true) := by decide +kernel
  have h2 : raceFront.map (fun p => (p.2.upd 0, p.2.upd 1, p.2.upd 2)) = some (none, none, none) := by decide +kernel
  rw [hp] at h1 h2
  simp only [Option.map_some, Option.some.injEq, Prod.mk.injEq, decide_eq_true_eq] at h1 h2
  obtain ⟨⟨g1, g2, g3⟩, g4, g8, g9⟩ := h1
  obtain ⟨g5, g6, g7⟩ := h2
  refine ⟨l, s, hr, ?_, ⟨3, 2, _, g1, g2, g3⟩, g4⟩
  intro k
  cases he : s.upd k with
  | none => rfl
  | some u =>
    have hc := front_callInv hr
    by_cases h0 : k = 0
    · rw [h0, g5] at he; cases he
    · have := (hc.begun k _ (hc.procs k u he h0)).2
      rw [g8, g9] at this
      simp only [reduceCtorEq, if_false, Nat.add_zero] at this
      have : k = 1 ∨ k = 2 := by omega
      rcases this with rfl | rfl
      · rw [g6] at he; cases he
      · rw [g7] at he; cases he

end Sink
