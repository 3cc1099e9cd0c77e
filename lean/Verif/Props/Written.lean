import Verif.Spec.Written
import Verif.Props.IpText6

/-!
# C106: how Go writes the address of a client
-/

namespace Sink
open Spec

theorem zeroRun_max : ∀ l : List Nat, (∀ j < zeroRun l, l[j]? = some 0) ∧ l[zeroRun l]? ≠ some 0
  | [] => by simp [zeroRun]
  | g :: l => by
    obtain ⟨h1, h2⟩ := zeroRun_max l
    by_cases hg : g = 0
    · subst hg
      have e : zeroRun (0 :: l) = zeroRun l + 1 := by simp [zeroRun]
      rw [e]
      refine ⟨fun j hj => ?_, by simpa using h2⟩
      cases j with
      | zero => rfl
      | succ j => simpa using h1 j (by omega)
    · have e : zeroRun (g :: l) = 0 := by simp [zeroRun, hg]
      rw [e]
      exact ⟨fun j hj => absurd hj (by omega), by simpa using hg⟩

/-- The best run among those that begin before place `i`. -/
def BestRun (G : List Nat) (i : Nat) (b : Nat × Nat) : Prop :=
  ZerosAt G b.1 b.2 ∧ (0 < b.2 → b.1 < i) ∧ ∀ j < i, ∀ m, ZerosAt G j m → m ≤ b.2 ∧ (0 < m → m = b.2 → b.1 ≤ j)

theorem longestRun_best (G : List Nat) : ∀ k i b l, l = G.drop i → l.length ≤ k → BestRun G i b → ∃ i', G.length ≤ i' ∧ BestRun G i' (longestRun k i b l)
  | 0, i, b, l, hl, hk, h => ⟨i, by have := congrArg List.length hl; rw [List.length_drop] at this; omega, h⟩
  | _ + 1, i, b, [], hl, hk, h => ⟨i, by have := congrArg List.length hl; rw [List.length_drop] at this; simp at this; omega, h⟩
  | k + 1, i, b, g :: gs, hl, hk, h => by
    obtain ⟨h1, h2⟩ := zeroRun_max (g :: gs)
    have hget : ∀ j, (g :: gs)[j]? = G[i + j]? := fun j => by rw [hl, List.getElem?_drop]
    have hz : ZerosAt G i (zeroRun (g :: gs)) := fun j hj hj' => by
      have := h1 (j - i) (by omega)
      rwa [hget, show i + (j - i) = j by omega] at this
    have hend : ∀ j, i ≤ j → j ≤ i + zeroRun (g :: gs) → ∀ m, ZerosAt G j m → j + m ≤ i + zeroRun (g :: gs) := fun j hj hj' m hm => by
      rcases Nat.lt_or_ge (i + zeroRun (g :: gs)) (j + m) with hc | hc
      · rw [hget] at h2
        exact absurd (hm _ (by omega) hc) h2
      · exact hc
    obtain ⟨b1, b2, b3⟩ := h
    unfold longestRun
    simp only
    generalize hn : zeroRun (g :: gs) = n at hz hend
    split
    · rename_i hgt
      refine longestRun_best G k _ _ _ (by rw [hl, List.drop_drop, Nat.add_assoc]) (by simp at hk ⊢; omega) ⟨hz, fun _ => by show i < _; omega, fun j hj m hm => ?_⟩
      rcases Nat.lt_or_ge j i with hji | hji
      · obtain ⟨c1, c2⟩ := b3 j hji m hm
        exact ⟨by show m ≤ n; omega, fun _ e => by have : m = n := e; omega⟩
      · have := hend j hji (by omega) m hm
        exact ⟨by show m ≤ n; omega, fun _ _ => hji⟩
    · rename_i hle
      refine longestRun_best G k _ _ _ ?_ (by simp at hk ⊢; omega) ⟨b1, fun h0 => by have := b2 h0; omega, fun j hj m hm => ?_⟩
      · have := congrArg (List.drop 1) hl
        rw [List.drop_drop] at this
        simpa using this
      · rcases Nat.lt_or_ge j i with hji | hji
        · exact b3 j hji m hm
        · have := hend j hji (by omega) m hm
          exact ⟨by omega, fun h0 e => by have := b2 (by omega); omega⟩

theorem plainHexN : ∀ k n, n < k → (∀ c ∈ hexTextN k n, (48 ≤ c ∧ c ≤ 57) ∨ (97 ≤ c ∧ c ≤ 102)) ∧ (∀ c ∈ (hexTextN k n).head?, c = c!"0" → n = 0)
  | 0, n, h => absurd h (by omega)
  | k + 1, n, h => by
    have dig : ∀ d, d < 16 → ((48 ≤ v6Digit d ∧ v6Digit d ≤ 57) ∨ (97 ≤ v6Digit d ∧ v6Digit d ≤ 102)) ∧ (v6Digit d = c!"0" → d = 0) := by decide +kernel
    unfold hexTextN
    split
    · rename_i hn
      refine ⟨fun c hc => ?_, fun c hc => ?_⟩
      · rw [List.mem_singleton.1 hc]; exact (dig n hn).1
      · simp only [List.head?_cons, Option.mem_def, Option.some.injEq] at hc
        subst hc
        exact (dig n hn).2
    · rename_i hn
      obtain ⟨g1, g2⟩ := plainHexN k (n / 16) (by omega)
      obtain ⟨-, g3, -⟩ := hexTextN_number k (n / 16) (by omega)
      refine ⟨fun c hc => ?_, fun c hc e => ?_⟩
      · rcases List.mem_append.1 hc with hc | hc
        · exact g1 c hc
        · rw [List.mem_singleton.1 hc]; exact (dig (n % 16) (by omega)).1
      · obtain ⟨x, w, hw⟩ := List.exists_cons_of_ne_nil g3
        rw [hw] at hc g2
        have := g2 c (by simpa using hc) e
        omega

theorem hexText_plain (n : Nat) : PlainHex (hexText n) n := by
  obtain ⟨-, h2, h3, -⟩ := hexTextN_number (n + 1) n (Nat.lt_succ_self n)
  obtain ⟨g1, g2⟩ := plainHexN (n + 1) n (Nat.lt_succ_self n)
  refine ⟨h2, g1, h3, fun h => ?_⟩
  have := g2 _ h rfl
  subst this
  rfl

theorem colons_plain : ∀ gs, PlainGroups (colons gs) gs
  | [] => .none
  | [g] => .one (hexText_plain g)
  | g :: g' :: gs => .more (hexText_plain g) (by simp) (colons_plain (g' :: gs))

theorem ipv6Text_canonical {gs : List Nat} (h8 : gs.length = 8) : Canonical (ipv6Text gs) gs := by
  obtain ⟨i', h1, h2, h3, h4⟩ := longestRun_best gs 8 0 (0, 0) gs rfl (by omega) ⟨fun j _ hj => absurd hj (by simp), fun h => absurd h (by simp), fun j hj => absurd hj (by omega)⟩
  unfold ipv6Text
  simp only
  generalize longestRun 8 0 (0, 0) gs = r at h2 h3 h4
  obtain ⟨e, n⟩ := r
  simp only at h2 h3 h4 ⊢
  have all : ∀ j m, ZerosAt gs j m → m ≤ n ∧ (0 < m → m = n → e ≤ j) := fun j m hm => by
    rcases Nat.eq_zero_or_pos m with rfl | h0
    · exact ⟨Nat.zero_le _, fun h => absurd h (by omega)⟩
    · refine h4 j ?_ m hm
      have := hm j (by omega) (by omega)
      obtain ⟨hlt, -⟩ := List.getElem?_eq_some_iff.1 this
      omega
  split
  · rename_i hn
    exact .inl ⟨colons_plain gs, fun i hi => by have := (all i 2 hi).1; omega⟩
  · rename_i hn
    exact .inr ⟨e, n, _, _, by omega, h2, fun j m hm => (all j m hm).1, fun j hj => (all j n hj).2 (by omega) rfl, rfl, colons_plain _, colons_plain _⟩

/-! ## There is only one such text -/

theorem hexFold_pos : ∀ (w : Str) {a : Nat}, 0 < a → 0 < w.foldl (fun n c => n * 16 + hexOf c) a
  | [], _, h => h
  | c :: w, a, h => hexFold_pos w (show 0 < a * 16 + hexOf c by omega)

theorem hexTextN_unique : ∀ k n, n < k → ∀ w, PlainHex w n → w = hexTextN k n
  | 0, n, h, _, _ => absurd h (by omega)
  | k + 1, n, h, w, ⟨h1, h2, h3, h4⟩ => by
    have dig : ∀ c : Byte, (48 ≤ c ∧ c ≤ 57) ∨ (97 ≤ c ∧ c ≤ 102) → hexOf c < 16 ∧ v6Digit (hexOf c) = c ∧ (c ≠ c!"0" → 0 < hexOf c) := by
      have : ∀ n : Fin 256, (48 ≤ UInt8.ofNat n ∧ UInt8.ofNat n ≤ 57) ∨ (97 ≤ UInt8.ofNat n ∧ UInt8.ofNat n ≤ 102) →
          hexOf (UInt8.ofNat n) < 16 ∧ v6Digit (hexOf (UInt8.ofNat n)) = UInt8.ofNat n ∧ (UInt8.ofNat n ≠ c!"0" → 0 < hexOf (UInt8.ofNat n)) := by
        decide +kernel
      intro c hc
      have h' := this ⟨c.toNat, c.toNat_lt⟩
      simp only [UInt8.ofNat_toNat] at h'
      exact h' hc
    rcases List.eq_nil_or_concat w with rfl | ⟨u, c, rfl⟩
    · exact absurd rfl h1
    · rw [List.concat_eq_append] at h2 h3 h4 ⊢
      have hc := dig c (h2 c (by simp))
      have hn : hexNumeral u * 16 + hexOf c = n := by rw [← h3]; simp [hexNumeral]
      by_cases hu : u = []
      · subst hu
        have : hexOf c = n := by rw [← hn]; simp [hexNumeral]
        rw [hexTextN, if_pos (by omega), ← this, hc.2.1]
        rfl
      · obtain ⟨x, u', rfl⟩ := List.exists_cons_of_ne_nil hu
        have hx : x ≠ c!"0" := by
          rintro rfl
          have := h4 rfl
          simp at this
        have hpos : 0 < hexNumeral (x :: u') := by
          have := (dig x (h2 x (by simp))).2.2 hx
          exact hexFold_pos u' (show 0 < 0 * 16 + hexOf x by omega)
        have hq : n / 16 = hexNumeral (x :: u') := by omega
        have hr : n % 16 = hexOf c := by omega
        rw [hexTextN, if_neg (by omega), hr, hc.2.1]
        congr 1
        exact hexTextN_unique k (n / 16) (by omega) _ ⟨by simp, fun d hd => h2 d (List.mem_append_left _ hd), hq.symm, fun e => absurd (by simpa using e) hx⟩

theorem plainHex_unique {w : Str} {n : Nat} (h : PlainHex w n) : w = hexText n := hexTextN_unique (n + 1) n (Nat.lt_succ_self n) w h

theorem plainGroups_unique {s : Str} {gs : List Nat} (h : PlainGroups s gs) : s = colons gs := by
  induction h with
  | none => rfl
  | one h => exact plainHex_unique h
  | @more w n s gs h hne _ ih =>
    obtain ⟨g, gs, rfl⟩ := List.exists_cons_of_ne_nil hne
    rw [plainHex_unique h, ih]
    rfl

/-- **C106.** The address of a client is known as the one canonical text of RFC 5952: groups in small letters without leading zeros, and `::` for the
first longest run of zero groups, if there is one of two or more. -/
theorem C106_written {x : BitVec 128} {gs : List Nat} (h8 : gs.length = 8) (hg : ∀ g ∈ gs, g < 65536) (hx : hextets gs = x.toNat) (s : Str) :
    s = ipText (.v6 x) ↔ Canonical s gs := by
  have e : groupsOf x.toNat = gs := by
    rw [← hx]
    match gs with
    | [a, b, c, d, e, f, g, h] =>
      simp only [List.mem_cons, List.not_mem_nil, or_false, forall_eq_or_imp, forall_eq] at hg
      simp only [groupsOf, hextets, List.length_cons, List.length_nil]
      obtain ⟨h1, h2, h3, h4, h5, h6, h7, h8⟩ := hg
      simp only [List.cons.injEq, and_true]
      refine ⟨?_, ?_, ?_, ?_, ?_, ?_, ?_, ?_⟩ <;> omega
  rw [show ipText (.v6 x) = ipv6Text (groupsOf x.toNat) from rfl, e]
  constructor
  · rintro rfl
    exact ipv6Text_canonical h8
  · intro h
    have h' := ipv6Text_canonical h8
    rcases h with ⟨h1, h2⟩ | ⟨i, n, l, r, h1, h2, h3, h4, rfl, h5, h6⟩ <;> rcases h' with ⟨g1, g2⟩ | ⟨j, m, l', r', g1, g2, g3, g4, e', g5, g6⟩
    · rw [plainGroups_unique h1, ← plainGroups_unique g1]
    · exact absurd (fun k hk hk' => g2 k hk (by omega)) (h2 j)
    · exact absurd (fun k hk hk' => h2 k hk (by omega)) (g2 i)
    · have hnm : n = m := Nat.le_antisymm (g3 _ _ h2) (h3 _ _ g2)
      subst hnm
      have hij : i = j := Nat.le_antisymm (h4 _ g2) (g4 _ h2)
      subst hij
      rw [e', plainGroups_unique h5, plainGroups_unique h6, ← plainGroups_unique g5, ← plainGroups_unique g6]

example : [ipText (.v6 0x20010db8000000000001000000000001#128), ipText (.v6 0x20010db8000000010000000000000001#128), ipText (.v6 0x20010db8000000010001000100010001#128), ipText (.v6 0#128)] =
    [b!"2001:db8::1:0:0:1", b!"2001:db8:0:1::1", b!"2001:db8:0:1:1:1:1:1", b!"::"] := by decide +kernel

end Sink
