import Verif.Lemmas.IpText6
import Verif.Props.HostPort

/-!
# C105: IPv6 addresses and blocks in rules mean what they say
-/

namespace Sink
open Spec Gram

/-! ## The bytes of such texts -/

section
variable {strict four : Bool}

theorem hexDigit_bytes {c : Byte} (h : isHex c = true) : c ≠ c!"/" ∧ c ≠ c!"%" ∧ c ≠ c!"[" ∧ c ≠ c!"]" ∧ c ≠ c!"." ∧ c ≠ c!":" ∧ c < 128 ∧
    isSpecialChar c = false := by
  have : ∀ n : Fin 256, isHex (UInt8.ofNat n) = true → UInt8.ofNat n ≠ c!"/" ∧ UInt8.ofNat n ≠ c!"%" ∧ UInt8.ofNat n ≠ c!"[" ∧ UInt8.ofNat n ≠ c!"]" ∧
    UInt8.ofNat n ≠ c!"." ∧ UInt8.ofNat n ≠ c!":" ∧ UInt8.ofNat n < 128 ∧ isSpecialChar (UInt8.ofNat n) = false := by decide +kernel
  have h' := this ⟨c.toNat, c.toNat_lt⟩
  simp only [UInt8.ofNat_toNat] at h'
  exact h' h

/-- The bytes of an address. -/
def V6Byte (c : Byte) : Prop := isHex c = true ∨ c = c!":" ∨ c = c!"."

theorem group_bytes {w : Str} {n : Nat} (h : Group four w n) : ∀ c ∈ w, isHex c = true := (hexDigits_iff.1 h.1).2

theorem ending_bytes {s : Str} {b : List Nat} (h : Ending strict four s b) : (∀ c ∈ s, V6Byte c) ∧ ∀ g ∈ b, g < 65536 := by
  induction h with
  | one h => exact ⟨fun c hc => .inl (group_bytes h c hc), fun g hg => by rw [List.mem_singleton.1 hg]; exact h.2.2.1⟩
  | quad h =>
    refine ⟨fun c hc => ?_, fun g hg => ?_⟩
    · rcases (quad_bytes h).1 c hc with hc | hc
      · exact .inl (digit_hex hc).1
      · exact .inr (.inr hc)
    · obtain ⟨w, x, y, z, -, h1, h2, h3, h4⟩ := h
      have := h1.lt
      have := h2.lt
      have := h3.lt
      have := h4.lt
      simp only [List.mem_cons, List.not_mem_nil, or_false] at hg
      omega
  | more h _ ih =>
    refine ⟨fun c hc => ?_, fun g hg => ?_⟩
    · simp only [List.mem_append, List.mem_singleton] at hc
      rcases hc with (hc | hc) | hc
      · exact .inl (group_bytes h c hc)
      · exact .inr (.inl hc)
      · exact ih.1 c hc
    · rcases List.mem_cons.1 hg with rfl | hg
      · exact h.2.2.1
      · exact ih.2 g hg

theorem v6_bytes {s : Str} {gs : List Nat} (h : V6Text strict four s gs) : (∀ c ∈ s, V6Byte c) ∧ gs.length = 8 ∧ ∀ g ∈ gs, g < 65536 := by
  rcases h with ⟨h, h8⟩ | ⟨l, r, a, b, rfl, hl, hr, hn, rfl⟩
  · exact ⟨(ending_bytes h).1, h8, (ending_bytes h).2⟩
  · have hl' : (∀ c ∈ l, V6Byte c) ∧ ∀ g ∈ a, g < 65536 := by
      rcases hl with ⟨rfl, rfl⟩ | hl
      · simp
      · exact ending_bytes (groups_ending (strict := true) hl)
    have hr' : (∀ c ∈ r, V6Byte c) ∧ ∀ g ∈ b, g < 65536 := by
      rcases hr with ⟨rfl, rfl⟩ | hr
      · simp
      · exact ending_bytes hr
    refine ⟨fun c hc => ?_, by simp; omega, fun g hg => ?_⟩
    · simp only [List.mem_append, List.mem_cons, List.not_mem_nil, or_false, or_self] at hc
      rcases hc with (hc | hc) | hc
      · exact hl'.1 c hc
      · exact .inr (.inl hc)
      · exact hr'.1 c hc
    · simp only [List.mem_append] at hg
      rcases hg with (hg | hg) | hg
      · exact hl'.2 g hg
      · rw [List.eq_of_mem_replicate hg]; omega
      · exact hr'.2 g hg

theorem V6Byte.other {c : Byte} (h : V6Byte c) : c ≠ c!"/" ∧ c ≠ c!"%" ∧ c ≠ c!"[" ∧ c ≠ c!"]" ∧ c < 128 ∧ isSpecialChar c = false := by
  rcases h with h | rfl | rfl
  · obtain ⟨h1, h2, h3, h4, -, -, h5, h6⟩ := hexDigit_bytes h
    exact ⟨h1, h2, h3, h4, h5, h6⟩
  · decide
  · decide

/-- A colon comes before any dot. -/
theorem v6_first {s : Str} {gs : List Nat} (h : V6Text strict four s gs) : ∃ p t, s = p ++ c!":" :: t ∧ ∀ c ∈ p, isHex c = true := by
  rcases h with ⟨h, h8⟩ | ⟨l, r, a, b, rfl, hl, hr, hn, rfl⟩
  · cases h with
    | one h => simp at h8
    | quad h => simp at h8
    | @more w n s gs h h' => exact ⟨w, s, by simp, group_bytes h⟩
  · rcases hl with ⟨rfl, rfl⟩ | hl
    · exact ⟨[], c!":" :: r, rfl, by simp⟩
    · cases hl with
      | one h => exact ⟨l, c!":" :: r, by simp, group_bytes h⟩
      | @more w n s gs h h' => exact ⟨w, s ++ b!"::" ++ r, by simp, group_bytes h⟩

theorem v6_find {s : Str} {gs : List Nat} (h : V6Text strict four s gs) : s.find? (fun c => c = c!"." ∨ c = c!":") = some c!":" := by
  obtain ⟨p, t, rfl, hp⟩ := v6_first h
  have h1 : p.find? (fun c => c = c!"." ∨ c = c!":") = none := by
    rw [List.find?_eq_none]
    intro c hc
    obtain ⟨-, -, -, -, h1, h2, -⟩ := hexDigit_bytes (hp c hc)
    simp [h1, h2]
  rw [List.find?_append, h1]
  simp

theorem v6_colon {s : Str} {gs : List Nat} (h : V6Text strict four s gs) : c!":" ∈ s := by
  obtain ⟨p, t, rfl, -⟩ := v6_first h
  simp

end

/-! ## Numbers -/

theorem groupNum_eq (gs : List Nat) : groupNum gs = hextets gs := by
  have : ∀ (gs : List Nat) (n : Nat), gs.foldl (fun n g => n * 65536 + g) n = n * 65536 ^ gs.length + hextets gs := by
    intro gs
    induction gs with
    | nil => simp [hextets]
    | cons g gs ih =>
      intro n
      rw [List.foldl_cons, ih, hextets, List.length_cons, Nat.pow_succ, Nat.add_mul, Nat.add_assoc, Nat.mul_assoc, Nat.mul_comm 65536]
  rw [groupNum, this]
  simp

theorem hextets_lt {gs : List Nat} (h : ∀ g ∈ gs, g < 65536) : hextets gs < 65536 ^ gs.length := by
  induction gs with
  | nil => simp [hextets]
  | cons g gs ih =>
    have h1 := ih fun x hx => h x (by simp [hx])
    have h2 := h g (by simp)
    rw [hextets, List.length_cons, Nat.pow_succ]
    have := Nat.mul_le_mul_right (65536 ^ gs.length) (Nat.le_of_lt_succ (Nat.lt_succ_of_le (Nat.succ_le_of_lt h2)))
    rw [Nat.succ_mul] at this
    omega

theorem v6_num {strict four : Bool} {s : Str} {gs : List Nat} (h : V6Text strict four s gs) :
    (BitVec.ofNat 128 (groupNum gs)).toNat = hextets gs := by
  obtain ⟨-, h8, hg⟩ := v6_bytes h
  have := hextets_lt hg
  rw [h8] at this
  rw [groupNum_eq, BitVec.toNat_ofNat, Nat.mod_eq_of_lt (Nat.lt_of_lt_of_le this (by decide))]

theorem toIP_num (x : BitVec 128) : ipNum (toIP x) = x.toNat ∧ ProperIP (toIP x) := by
  unfold toIP
  split
  · rename_i h
    refine ⟨?_, trivial⟩
    show mapped (BitVec.ofNat 32 x.toNat).toNat = _
    rw [BitVec.toNat_ofNat, mapped]
    omega
  · rename_i h
    refine ⟨rfl, fun y hy e => h ?_⟩
    rw [e, mapped]
    omega

theorem ipNum_inj {i j : IP} (hi : ProperIP i) (hj : ProperIP j) (h : ipNum i = ipNum j) : i = j := by
  match i, j with
  | .v4 a, .v4 b =>
    have : mapped a.toNat = mapped b.toNat := h
    rw [mapped, mapped] at this
    rw [BitVec.eq_of_toNat_eq (by omega : a.toNat = b.toNat)]
  | .v4 a, .v6 b => exact absurd h.symm (hj _ a.isLt)
  | .v6 a, .v4 b => exact absurd h (hi _ b.isLt)
  | .v6 a, .v6 b => rw [BitVec.eq_of_toNat_eq (show a.toNat = b.toNat from h)]

theorem bits_same {w : Nat} {x y : BitVec w} {n : Nat} (hn : n ≤ w) :
    (∀ i < n, x.getMsbD i = y.getMsbD i) ↔ x.toNat / 2 ^ (w - n) = y.toNat / 2 ^ (w - n) := by
  have key : ∀ (z : BitVec w) (i : Nat), i < n → z.getMsbD i = (z.toNat / 2 ^ (w - n)).testBit (n - 1 - i) := fun z i hi => by
    rw [Nat.testBit_div_two_pow, BitVec.getMsbD_eq_getLsbD, BitVec.getLsbD, decide_eq_true (by omega : i < w), Bool.true_and]
    congr 1
    omega
  constructor
  · intro h
    refine Nat.eq_of_testBit_eq fun j => ?_
    by_cases hj : j < n
    · have := h (n - 1 - j) (by omega)
      rw [key x _ (by omega), key y _ (by omega), show n - 1 - (n - 1 - j) = j by omega] at this
      exact this
    · have hb : ∀ z : BitVec w, (z.toNat / 2 ^ (w - n)).testBit j = false := fun z => by
        rw [Nat.testBit_div_two_pow]
        exact Nat.testBit_lt_two_pow (Nat.lt_of_lt_of_le z.isLt (Nat.pow_le_pow_right (by omega) (by omega)))
      rw [hb, hb]
  · intro h i hi
    rw [key x i hi, key y i hi, h]

theorem mask_num {w : Nat} (x : BitVec w) {n : Nat} (hn : n ≤ w) : (x &&& cidrMask w n).toNat = x.toNat / 2 ^ (w - n) * 2 ^ (w - n) := by
  refine Nat.eq_of_testBit_eq fun j => ?_
  rw [Nat.testBit_mul_two_pow, Nat.testBit_div_two_pow]
  show BitVec.getLsbD _ j = _
  rw [BitVec.getLsbD_and, cidrMask, BitVec.getLsbD_shiftLeft, BitVec.getLsbD_allOnes]
  by_cases hj : j < w
  · by_cases hk : w - n ≤ j
    · have : j - (w - n) < w := by omega
      simp [hj, hk, this, BitVec.getLsbD, Nat.not_lt.2 hk]
    · simp [hj, hk, Nat.not_le.1 hk]
  · have : x.getLsbD j = false := BitVec.getLsbD_of_ge _ _ (Nat.not_lt.1 hj)
    have h2 : x.toNat.testBit (j - (w - n) + (w - n)) = false := by
      rw [show j - (w - n) + (w - n) = j by omega]
      exact this
    rw [this, h2]
    simp

/-- Membership in a block. -/
theorem inBlock_num {x : BitVec 128} {n : Nat} (hn : n ≤ 128) {ip : IP} (hp : ProperIP ip) :
    InBlock (toNet x n) ip ↔ x.toNat / 2 ^ (128 - n) = ipNum ip / 2 ^ (128 - n) ∧ ∀ y, ip = .v4 y → 96 ≤ n := by
  have hb := mask_num x hn
  unfold toNet toIP
  dsimp only
  have hD : 0 < 2 ^ (128 - n) := Nat.pow_pos (by omega)
  by_cases hm : (x &&& cidrMask 128 n).toNat / 2 ^ 32 = 0xFFFF
  · rw [if_pos hm]
    have h96 : 96 ≤ n := by
      refine Nat.le_of_not_lt fun hlt => ?_
      have e : 2 ^ (128 - n) = 2 ^ (95 - n) * 2 ^ 33 := by rw [← Nat.pow_add]; congr 1; omega
      rw [e, ← Nat.mul_assoc] at hb
      rw [hb] at hm
      generalize x.toNat / (2 ^ (95 - n) * 2 ^ 33) * 2 ^ (95 - n) = t at hm
      omega
    have e : 2 ^ 32 = 2 ^ (128 - n) * 2 ^ (n - 96) := by rw [← Nat.pow_add]; congr 1; omega
    have hq : x.toNat / 2 ^ (128 - n) / 2 ^ (n - 96) = 0xFFFF := by
      rw [e, ← Nat.div_div_eq_div_mul, hb, Nat.mul_div_cancel _ hD] at hm
      exact hm
    match ip with
    | .v6 a =>
      refine iff_of_false (fun h => h) fun h => ?_
      have h1 : x.toNat / 2 ^ (128 - n) = a.toNat / 2 ^ (128 - n) := h.1
      rw [h1, Nat.div_div_eq_div_mul, ← e] at hq
      refine hp (a.toNat - 0xFFFF * 2 ^ 32) (by omega) ?_
      rw [mapped]
      omega
    | .v4 y =>
      show (∀ i < n - 96, _ = _) ↔ _
      rw [bits_same (by omega), show 32 - (n - 96) = 128 - n by omega]
      have e1 : ipNum (.v4 y) / 2 ^ (128 - n) = 0xFFFF * 2 ^ (n - 96) + y.toNat / 2 ^ (128 - n) := by
        rw [ipNum, mapped, e, Nat.mul_left_comm, Nat.mul_add_div hD]
      have e2 : (BitVec.ofNat 32 (x &&& cidrMask 128 n).toNat).toNat / 2 ^ (128 - n) + 0xFFFF * 2 ^ (n - 96) = x.toNat / 2 ^ (128 - n) := by
        have : (x &&& cidrMask 128 n).toNat = 0xFFFF * 2 ^ 32 + (BitVec.ofNat 32 (x &&& cidrMask 128 n).toNat).toNat := by
          rw [BitVec.toNat_ofNat]
          omega
        have h2 : (x &&& cidrMask 128 n).toNat / 2 ^ (128 - n) = x.toNat / 2 ^ (128 - n) := by rw [hb, Nat.mul_div_cancel _ hD]
        rw [← h2]
        generalize BitVec.toNat (BitVec.ofNat 32 _) = z at this
        rw [this, e, Nat.mul_left_comm, Nat.mul_add_div hD]
        omega
      constructor
      · intro h
        exact ⟨by rw [e1, ← e2, h]; omega, fun _ _ => h96⟩
      · rintro ⟨h, -⟩
        rw [e1, ← e2] at h
        omega
  · rw [if_neg hm]
    match ip with
    | .v6 a =>
      show (∀ i < n, _ = _) ↔ _
      rw [bits_same hn, hb, Nat.mul_div_cancel _ hD]
      exact ⟨fun h => ⟨h, by simp⟩, fun h => h.1⟩
    | .v4 y =>
      refine iff_of_false (fun h => h) fun ⟨h, h96⟩ => hm ?_
      have h96 := h96 y rfl
      have e : 2 ^ 32 = 2 ^ (128 - n) * 2 ^ (n - 96) := by rw [← Nat.pow_add]; congr 1; omega
      rw [e, ← Nat.div_div_eq_div_mul, hb, Nat.mul_div_cancel _ hD, h, Nat.div_div_eq_div_mul, ← e]
      have := y.isLt
      show mapped y.toNat / _ = _
      rw [mapped]
      omega

/-! ## Parsing -/

section
variable {strict four : Bool} (hv : four = true → strict = true) {lo : Str → Str} {hlo : ∀ s, s ≠ [] → lo s ≠ []}

include hv in
/-- **C105.** Text is taken as an address iff it is four numbers with dots between them, or eight groups of hexadecimal digits with colons
between them, where `::` may stand for groups of zeros and the last two groups may be written as four numbers. -/
theorem C105_addresses (s : Str) (ip : IP) :
    (netLib strict four lo hlo).parseIP s = some ip ↔
      (∃ a b c d, Dotted strict s a b c d ∧ ip = .v4 (ipv4 a b c d)) ∨ ∃ gs, V6Text strict four s gs ∧ ProperIP ip ∧ ipNum ip = hextets gs := by
  by_cases hc : c!":" ∈ s
  · have h4 : ¬ ∃ a b c d, Dotted strict s a b c d ∧ ip = .v4 (ipv4 a b c d) := by
      rintro ⟨a, b, c, d, h, -⟩
      exact ipText_dotted_noColon (.inl ⟨_, _, _, _, h⟩) hc
    rw [or_iff_right h4]
    show goParseIP strict (goV6 strict four) s = _ ↔ _
    have key : goV6 strict four s = some ip ↔ ∃ gs, V6Text strict four s gs ∧ ProperIP ip ∧ ipNum ip = hextets gs := by
      unfold goV6
      rw [Option.map_eq_some_iff]
      refine exists_congr fun gs => ?_
      rw [parseIPv6_iff hv]
      refine and_congr_right fun h => ?_
      obtain ⟨h1, h2⟩ := toIP_num (BitVec.ofNat 128 (groupNum gs))
      rw [v6_num h] at h1
      exact ⟨fun e => e ▸ ⟨h2, h1⟩, fun ⟨k1, k2⟩ => ipNum_inj h2 k1 (h1.trans k2.symm)⟩
    unfold goParseIP
    cases hf : s.find? (fun c => c = c!"." ∨ c = c!":") with
    | none =>
      rw [List.find?_eq_none] at hf
      exact absurd (hf _ hc) (by simp)
    | some c =>
      simp only
      split
      · rename_i hcd
        constructor
        · rw [Option.map_eq_some_iff]
          rintro ⟨x, h1, -⟩
          obtain ⟨a, b, c, d, h2, -⟩ := parseIPv4_iff.1 h1
          exact absurd hc (ipText_dotted_noColon (.inl ⟨_, _, _, _, h2⟩))
        · rintro ⟨gs, h, -⟩
          rw [v6_find h, hcd] at hf
          exact absurd hf (by decide)
      · exact key
  · rw [or_iff_left]
    · exact C89_addresses hc ip
    · rintro ⟨gs, h, -⟩
      exact hc (v6_colon h)

theorem v6_slash {s : Str} {gs : List Nat} (h : V6Text strict four s gs) : c!"/" ∉ s := fun hm => ((v6_bytes h).1 _ hm).other.1 rfl

include hv in
theorem goCidr6_iff (s : Str) (net : IPNet) :
    goCidr6 strict four s = some net ↔ ∃ gs n, V6Block strict four s gs n ∧ net = toNet (BitVec.ofNat 128 (hextets gs)) n := by
  unfold goCidr6
  constructor
  · intro h
    split at h
    · cases h
    · rename_i i hi
      obtain ⟨hil, h1, -⟩ := List.findIdx?_eq_some_iff_getElem.1 hi
      have hsp : s = s.take i ++ b!"/" ++ s.drop (i + 1) := by
        have : s[i] = c!"/" := by simpa using h1
        rw [List.append_assoc, ← this, List.singleton_append, ← List.drop_eq_getElem_cons hil, List.take_append_drop]
      split at h
      · cases h
      · rename_i gs hgs
        have hd := (parseIPv6_iff hv).1 hgs
        obtain ⟨n, k, ok, he⟩ : ∃ n k ok, dtoi (s.drop (i + 1)) = (n, k, ok) := ⟨_, _, _, rfl⟩
        simp only [he] at h
        split at h
        · cases h
        · rename_i hc
          rw [not_or, not_or] at hc
          obtain rfl : ok = true := by simpa using hc.1
          cases h
          obtain ⟨h2, h3, h4⟩ := dtoi_true he
          have hl : lead (s.drop (i + 1)) = s.drop (i + 1) := by
            have := (lead_drop (s.drop (i + 1))).1
            rw [← h3, show k = (s.drop (i + 1)).length from not_not.1 hc.2.1, List.drop_length, List.append_nil] at this
            exact this.symm
          rw [hl] at h2 h4
          exact ⟨gs, n, ⟨_, _, hsp, hd, ⟨h4, fun x hx => lead_digits _ x (by rw [hl]; exact hx)⟩, h2.symm, by omega⟩, by rw [groupNum_eq]⟩
  · rintro ⟨gs, n, ⟨t, m, rfl, hd, hm, hn, hle⟩, rfl⟩
    have hi : (t ++ b!"/" ++ m).findIdx? (· == c!"/") = some t.length := by
      have := first_index (c := c!"/") (a := t) (b := m) (v6_slash hd)
      rw [List.append_assoc]
      exact this
    rw [hi]
    have ht : (t ++ b!"/" ++ m).take t.length = t := by rw [List.append_assoc, List.take_left]
    have hdr : (t ++ b!"/" ++ m).drop (t.length + 1) = m := by
      rw [show t.length + 1 = (t ++ b!"/").length by simp, List.drop_left]
    simp only [ht, hdr]
    rw [(parseIPv6_iff hv).2 hd]
    have hdt : dtoi m = (n, m.length, true) := by
      rw [dtoi_small (by rw [lead_all hm]; omega) (by rw [lead_all hm]; exact hm.1), lead_all hm, hn]
    simp only [hdt]
    rw [if_neg (by simp; omega), groupNum_eq]

include hv in
/-- **C105.** Text is taken as a block iff it is an address of either kind, a slash, and a number up to 32 or 128. -/
theorem C105_blocks (s : Str) (net : IPNet) :
    (netLib strict four lo hlo).parseCIDR s = some net ↔
      (∃ a b c d n, Netblock strict s a b c d n ∧ net = .v4 (ipv4 a b c d &&& cidrMask 32 n) n) ∨
      ∃ gs n, V6Block strict four s gs n ∧ net = toNet (BitVec.ofNat 128 (hextets gs)) n := by
  by_cases hc : c!":" ∈ s
  · rw [or_iff_right]
    swap
    · rintro ⟨a, b, c, d, n, h, -⟩
      exact ipText_dotted_noColon (.inr ⟨_, _, _, _, _, h⟩) hc
    rw [← goCidr6_iff hv]
    show goParseCIDR strict (goCidr6 strict four) s = _ ↔ _
    unfold goParseCIDR
    cases hi : s.findIdx? (· == c!"/") with
    | none =>
      unfold goCidr6
      rw [hi]
    | some i =>
      simp only
      cases hp : parseIPv4 strict (s.take i) with
      | some y =>
        obtain ⟨a, b, c, d, hd, rfl⟩ := parseIPv4_iff.1 hp
        simp only
        refine iff_of_false (fun h => ?_) fun h => ?_
        · obtain ⟨n, k, ok, he⟩ : ∃ n k ok, dtoi (s.drop (i + 1)) = (n, k, ok) := ⟨_, _, _, rfl⟩
          simp only [he] at h
          split at h
          · cases h
          · rename_i hcd
            rw [not_or, not_or] at hcd
            obtain rfl : ok = true := by simpa using hcd.1
            obtain ⟨h2, h3, h4⟩ := dtoi_true he
            obtain ⟨hil, h1, -⟩ := List.findIdx?_eq_some_iff_getElem.1 hi
            have hsp : s = s.take i ++ b!"/" ++ s.drop (i + 1) := by
              have : s[i] = c!"/" := by simpa using h1
              rw [List.append_assoc, ← this, List.singleton_append, ← List.drop_eq_getElem_cons hil, List.take_append_drop]
            have hl : lead (s.drop (i + 1)) = s.drop (i + 1) := by
              have := (lead_drop (s.drop (i + 1))).1
              rw [← h3, show k = (s.drop (i + 1)).length from not_not.1 hcd.2.1, List.drop_length, List.append_nil] at this
              exact this.symm
            refine ipText_dotted_noColon (.inr ⟨a, b, c, d, n, _, _, hsp, hd, ⟨hl ▸ h4, fun x hx => lead_digits _ x (by rw [hl]; exact hx)⟩, ?_, by omega⟩) hc
            rw [h2, hl]
        · obtain ⟨gs, n, ⟨t, m, rfl, h1, -⟩, -⟩ := (goCidr6_iff hv s net).1 h
          have hi' := first_index (c := c!"/") (a := t) (b := m) (v6_slash h1)
          have : (t ++ b!"/" ++ m).findIdx? (· == c!"/") = some t.length := by rw [List.append_assoc]; exact hi'
          rw [this] at hi
          injection hi with hi
          subst hi
          rw [List.append_assoc, List.take_left] at hd
          exact ipText_dotted_noColon (.inl ⟨_, _, _, _, hd⟩) (v6_colon h1)
      | none =>
        simp only
        split
        · exact Iff.rfl
        · rename_i hno
          refine iff_of_false (fun h => by cases h) fun h => ?_
          obtain ⟨gs, n, ⟨t, m, rfl, h1, -⟩, -⟩ := (goCidr6_iff hv s net).1 h
          have hi' := first_index (c := c!"/") (a := t) (b := m) (v6_slash h1)
          have : (t ++ b!"/" ++ m).findIdx? (· == c!"/") = some t.length := by rw [List.append_assoc]; exact hi'
          rw [this] at hi
          injection hi with hi
          subst hi
          rw [List.append_assoc, List.take_left] at hno
          exact hno (v6_colon h1)
  · rw [or_iff_left]
    · exact C89_blocks hc net
    · rintro ⟨gs, n, ⟨t, m, rfl, h, -⟩, -⟩
      exact hc (by simp [v6_colon h])

theorem addrNum_lt {a b c d : Nat} (ha : a < 256) (hb : b < 256) (hc : c < 256) (hd : d < 256) : addrNum a b c d < 2 ^ 32 := by
  unfold addrNum
  omega

theorem v4Block_num {a b c d n : Nat} (ha : a < 256) (hb : b < 256) (hc : c < 256) (hd : d < 256) (hn : n ≤ 32) {ip : IP} (hp : ProperIP ip) :
    InBlock (.v4 (ipv4 a b c d &&& cidrMask 32 n) n) ip ↔
      mapped (addrNum a b c d) / 2 ^ (128 - (96 + n)) = ipNum ip / 2 ^ (128 - (96 + n)) ∧ ∀ y, ip = .v4 y → 96 ≤ 96 + n := by
  rw [show 128 - (96 + n) = 32 - n by omega]
  have hD : 0 < 2 ^ (32 - n) := Nat.pow_pos (by omega)
  have e : 2 ^ 32 = 2 ^ (32 - n) * 2 ^ n := by rw [← Nat.pow_add]; congr 1; omega
  have hm : ∀ z, mapped z / 2 ^ (32 - n) = 0xFFFF * 2 ^ n + z / 2 ^ (32 - n) := fun z => by
    rw [mapped, e, Nat.mul_left_comm, Nat.mul_add_div hD]
  match ip with
  | .v6 x =>
    refine iff_of_false (fun h => h) fun h => ?_
    have h1 : mapped (addrNum a b c d) / 2 ^ (32 - n) = x.toNat / 2 ^ (32 - n) := h.1
    have h2 : x.toNat / 2 ^ 32 = 0xFFFF := by
      rw [e, ← Nat.div_div_eq_div_mul, ← h1, Nat.div_div_eq_div_mul, ← e, mapped]
      have := addrNum_lt ha hb hc hd
      omega
    refine hp (x.toNat - 0xFFFF * 2 ^ 32) (by omega) ?_
    rw [mapped]
    omega
  | .v4 y =>
    show (∀ i < n, _ = _) ↔ _
    rw [bits_same hn, mask_num _ hn, Nat.mul_div_cancel _ hD, ipv4_toNat ha hb hc hd, hm, ipNum, hm]
    constructor
    · intro h
      exact ⟨by rw [h], fun _ _ => by omega⟩
    · rintro ⟨h, -⟩
      omega

include hv in
/-- **C105.** A client is meant by a pattern iff the pattern denotes its address, or a block whose first bits are those of its address.
Addresses of IPv4 count as `::ffff:a.b.c.d`; but a block of IPv6 addresses shorter than 96 bits has no IPv4 client. -/
theorem C105_means (pat : Str) {ip : IP} (hp : ProperIP ip) : IpMatch (netLib strict four lo hlo) ip pat ↔ CoversIP strict four pat ip := by
  unfold IpMatch
  rw [C105_addresses hv]
  constructor
  · rintro ((⟨a, b, c, d, h, rfl⟩ | ⟨gs, h, -, h2⟩) | ⟨net, hnet, hin⟩)
    · refine ⟨_, _, .quad h, ?_, fun _ _ => by omega⟩
      obtain ⟨w, x, y, z, -, h1, h2, h3, h4⟩ := h
      rw [ipNum, ipv4_toNat h1.lt h2.lt h3.lt h4.lt]
    · exact ⟨_, _, .addr h, by rw [h2], fun _ _ => by omega⟩
    · rcases (C105_blocks hv _ _).1 hnet with ⟨a, b, c, d, n, h, rfl⟩ | ⟨gs, n, h, rfl⟩
      · have h' := h
        obtain ⟨t, m, -, ⟨w, x, y, z, -, h1, h2, h3, h4⟩, -, -, hn⟩ := h'
        obtain ⟨k1, k2⟩ := (v4Block_num h1.lt h2.lt h3.lt h4.lt hn hp).1 hin
        exact ⟨_, _, .quads h, k1, k2⟩
      · have h' := h
        obtain ⟨t, m, -, h1, -, -, hn⟩ := h'
        have hx := v6_num h1
        rw [groupNum_eq] at hx
        obtain ⟨k1, k2⟩ := (inBlock_num hn hp).1 hin
        rw [hx] at k1
        exact ⟨_, _, .block h, k1, k2⟩
  · rintro ⟨z, n, hd, h1, h2⟩
    cases hd with
    | quad h =>
      have h' := h
      obtain ⟨w, x, y, z, -, k1, k2, k3, k4⟩ := h'
      refine .inl (.inl ⟨_, _, _, _, h, ?_⟩)
      refine ipNum_inj hp trivial ?_
      rw [ipNum, ipv4_toNat k1.lt k2.lt k3.lt k4.lt]
      simpa using h1.symm
    | addr h => exact .inl (.inr ⟨_, h, hp, by simpa using h1.symm⟩)
    | quads h =>
      have h' := h
      obtain ⟨t, m, -, ⟨w, x, y, z, -, k1, k2, k3, k4⟩, -, -, hn⟩ := h'
      exact .inr ⟨_, (C105_blocks hv _ _).2 (.inl ⟨_, _, _, _, _, h, rfl⟩), (v4Block_num k1.lt k2.lt k3.lt k4.lt hn hp).2 ⟨h1, h2⟩⟩
    | block h =>
      have h' := h
      obtain ⟨t, m, -, k1, -, -, hn⟩ := h'
      have hx := v6_num k1
      rw [groupNum_eq] at hx
      exact .inr ⟨_, (C105_blocks hv _ _).2 (.inr ⟨_, _, h, rfl⟩), (inBlock_num hn hp).2 ⟨by rw [hx]; exact h1, h2⟩⟩

end

/-! ## Text of addresses -/

theorem v6Digit_hex {n : Nat} (h : n < 16) : isHex (v6Digit n) = true ∧ hexOf (v6Digit n) = n := by
  have : ∀ n : Fin 16, isHex (v6Digit n) = true ∧ hexOf (v6Digit n) = n := by decide +kernel
  exact this ⟨n, h⟩

theorem hexTextN_number : ∀ k n, n < k → (∀ c ∈ hexTextN k n, isHex c = true) ∧ hexTextN k n ≠ [] ∧ hexNumeral (hexTextN k n) = n ∧
    ∀ j, n < 16 ^ (j + 1) → (hexTextN k n).length ≤ j + 1
  | 0, _, h => absurd h (Nat.not_lt_zero _)
  | k + 1, n, h => by
    unfold hexTextN
    split
    · rename_i hn
      obtain ⟨h1, h2⟩ := v6Digit_hex hn
      refine ⟨fun c hc => by rw [List.mem_singleton.1 hc]; exact h1, by simp, ?_, fun j _ => by simp⟩
      show 0 * 16 + _ = n
      rw [h2]
      omega
    · rename_i hn
      obtain ⟨h1, h2⟩ := v6Digit_hex (Nat.mod_lt n (by omega : 16 > 0))
      obtain ⟨g1, g2, g3, g4⟩ := hexTextN_number k (n / 16) (by omega)
      refine ⟨fun c hc => ?_, by simp, ?_, fun j hj => ?_⟩
      · rcases List.mem_append.1 hc with hc | hc
        · exact g1 c hc
        · rw [List.mem_singleton.1 hc]; exact h1
      · unfold hexNumeral at g3 ⊢
        rw [List.foldl_append, g3]
        simp only [List.foldl_cons, List.foldl_nil, h2]
        omega
      · cases j with
        | zero => omega
        | succ j =>
          have := g4 j (by rw [Nat.pow_succ] at hj; omega)
          simp
          omega

theorem group_hex {n : Nat} (four : Bool) (h : n < 65536) : Group four (hexText n) n := by
  obtain ⟨h1, h2, h3, h4⟩ := hexTextN_number (n + 1) n (Nat.lt_succ_self n)
  exact ⟨hexDigits_iff.2 ⟨h2, h1⟩, h3, h, fun _ => h4 3 h⟩

theorem groups_colons (four : Bool) {gs : List Nat} (hne : gs ≠ []) (h : ∀ g ∈ gs, g < 65536) : Groups four (colons gs) gs := by
  induction gs with
  | nil => exact absurd rfl hne
  | cons g gs ih =>
    cases gs with
    | nil => exact .one (group_hex four (h g (by simp)))
    | cons g' gs => exact .more (group_hex four (h g (by simp))) (ih (by simp) fun x hx => h x (by simp [hx]))

/-- A run of zeros in a list. -/
def ZeroRun (G : List Nat) (b : Nat × Nat) : Prop := b.1 + b.2 ≤ G.length ∧ (G.drop b.1).take b.2 = List.replicate b.2 0

theorem zeroRun_spec (l : List Nat) : zeroRun l ≤ l.length ∧ l.take (zeroRun l) = List.replicate (zeroRun l) 0 := by
  unfold zeroRun
  induction l with
  | nil => simp
  | cons g l ih =>
    cases hg : (g == 0)
    · rw [List.takeWhile_cons_of_neg (by simpa using hg)]
      simp
    · rw [List.takeWhile_cons_of_pos (by simpa using hg)]
      obtain rfl : g = 0 := by simpa using hg
      simp only [List.length_cons, List.take_succ_cons, List.replicate_succ]
      exact ⟨by omega, by rw [ih.2]⟩

theorem longestRun_spec (G : List Nat) : ∀ k i b l, l = G.drop i → ZeroRun G b → ZeroRun G (longestRun k i b l)
  | 0, _, _, _, _, h => h
  | _ + 1, _, _, [], _, h => h
  | k + 1, i, b, g :: gs, hl, h => by
    unfold longestRun
    simp only
    split
    · refine longestRun_spec G k _ _ _ ?_ ?_
      · rw [hl, List.drop_drop, Nat.add_assoc]
      · obtain ⟨h1, h2⟩ := zeroRun_spec (g :: gs)
        have hlen : (g :: gs).length = G.length - i := by rw [hl, List.length_drop]
        refine ⟨?_, ?_⟩
        · show i + zeroRun (g :: gs) ≤ _
          rw [hlen] at h1
          simp at hlen
          omega
        · show (G.drop i).take (zeroRun (g :: gs)) = List.replicate (zeroRun (g :: gs)) 0
          rw [← hl]
          exact h2
    · refine longestRun_spec G k _ _ _ ?_ h
      have := congrArg (List.drop 1) hl
      rw [List.drop_drop] at this
      simpa using this

theorem v6_text (strict four : Bool) {gs : List Nat} (h8 : gs.length = 8) (h : ∀ g ∈ gs, g < 65536) : V6Text strict four (ipv6Text gs) gs := by
  have hz : ZeroRun gs (longestRun 8 0 (0, 0) gs) := longestRun_spec gs 8 0 (0, 0) gs rfl ⟨by simp, rfl⟩
  unfold ipv6Text
  simp only
  generalize longestRun 8 0 (0, 0) gs = r at hz
  obtain ⟨e, n⟩ := r
  obtain ⟨h1, h2⟩ := hz
  simp only at h1 h2 ⊢
  split
  · exact .inl ⟨groups_ending (groups_colons four (fun e => by rw [e] at h8; cases h8) h), h8⟩
  · refine .inr ⟨_, _, gs.take e, gs.drop (e + n), rfl, ?_, ?_, ?_, ?_⟩
    · by_cases ha : gs.take e = []
      · exact .inl ⟨by rw [ha]; rfl, ha⟩
      · exact .inr (groups_colons four ha fun g hg => h g (List.mem_of_mem_take hg))
    · by_cases ha : gs.drop (e + n) = []
      · exact .inl ⟨by rw [ha]; rfl, ha⟩
      · exact .inr (groups_ending (groups_colons four ha fun g hg => h g (List.mem_of_mem_drop hg)))
    · simp
      omega
    · have e1 : 8 - ((gs.take e).length + (gs.drop (e + n)).length) = n := by simp; omega
      rw [e1, ← h2, ← List.drop_drop, List.append_assoc, List.take_append_drop, List.take_append_drop]

theorem groupsOf_spec {x : Nat} (h : x < 2 ^ 128) : (groupsOf x).length = 8 ∧ (∀ g ∈ groupsOf x, g < 65536) ∧ hextets (groupsOf x) = x := by
  refine ⟨rfl, fun g hg => ?_, ?_⟩
  · simp only [groupsOf, List.mem_cons, List.not_mem_nil, or_false] at hg
    omega
  · simp only [groupsOf, hextets, List.length_cons, List.length_nil]
    omega

section
variable {strict four : Bool} (hv : four = true → strict = true) {lo : Str → Str} {hlo : ∀ s, s ≠ [] → lo s ≠ []}

/-- The bytes of the text of an address. -/
theorem ipText_v6bytes (ip : IP) : ∀ c ∈ ipText ip, V6Byte c := by
  match ip with
  | .v4 y =>
    have hd : Dotted true (ipText (.v4 y)) _ _ _ _ :=
      ⟨_, _, _, _, rfl, octet_dec true (n := y.toNat / 2 ^ 24) (by omega), octet_dec true (n := y.toNat / 2 ^ 16 % 256) (by omega),
        octet_dec true (n := y.toNat / 2 ^ 8 % 256) (by omega), octet_dec true (n := y.toNat % 256) (by omega)⟩
    intro c hc
    rcases (quad_bytes hd).1 c hc with h | h
    · exact .inl (digit_hex h).1
    · exact .inr (.inr h)
  | .v6 x =>
    obtain ⟨h1, h2, -⟩ := groupsOf_spec x.isLt
    exact (v6_bytes (v6_text true true h1 h2)).1

include hv in
/-- **C105.** The text of an address is taken for this address. -/
theorem C105_text {ip : IP} (hp : ProperIP ip) : (netLib strict four lo hlo).parseIP (ipText ip) = some ip := by
  rw [C105_addresses hv]
  match ip with
  | .v4 y =>
    refine .inl ⟨_, _, _, _, ⟨_, _, _, _, rfl, octet_dec _ (by omega), octet_dec _ (by omega), octet_dec _ (by omega), octet_dec _ (by omega)⟩, ?_⟩
    refine congrArg _ (BitVec.eq_of_toNat_eq ?_)
    rw [ipv4_toNat (by omega) (by omega) (by omega) (by omega), addrNum]
    omega
  | .v6 x =>
    obtain ⟨h1, h2, h3⟩ := groupsOf_spec x.isLt
    exact .inr ⟨_, v6_text strict four h1 h2, hp, h3.symm⟩

/-- **C105.** A client over TCP is known by the text of its address, with the zone if there is one. -/
theorem C105_tcp (ip : IP) {zone : Str} (hz : NoBrackets zone) (port : Nat) :
    hostOf (tcpText (ipText ip) zone port) = if zone = [] then ipText ip else ipText ip ++ b!"%" ++ zone :=
  C90_tcp ⟨fun hm => (ipText_v6bytes ip _ hm).other.2.2.1 rfl, fun hm => (ipText_v6bytes ip _ hm).other.2.2.2.1 rfl⟩ hz port

include hv in
/-- **C105.** `ip PATTERN` for a client known by its address. -/
theorem C105_client (pat : Str) {ip : IP} (hp : ProperIP ip) :
    matchIp (netLib strict four lo hlo) (ipText ip) pat = true ↔ CoversIP strict four pat ip := by
  rw [matchIp_spec _ (C105_text hv hp), C105_means hv pat hp]

include hv in
/-- Text with a percent sign is not an address. -/
theorem zone_none (a z : Str) : (netLib strict four lo hlo).parseIP (a ++ b!"%" ++ z) = none := by
  rw [Option.eq_none_iff_forall_ne_some]
  intro ip h
  have hm : c!"%" ∈ a ++ b!"%" ++ z := by simp
  rcases (C105_addresses hv _ _).1 h with ⟨_, _, _, _, h, -⟩ | ⟨_, h, -⟩
  · rcases (quad_bytes h).1 _ hm with h | h
    · exact absurd h (by decide)
    · exact absurd h (by decide)
  · exact ((v6_bytes h).1 _ hm).other.2.1 rfl

/-- A pattern with a slash is not an address. -/
theorem denotes_slash {pat : Str} {z n : Nat} (h : Denotes strict four pat z n) :
    c!"/" ∈ pat ↔ (∃ a b c d n, Netblock strict pat a b c d n) ∨ ∃ gs n, V6Block strict four pat gs n := by
  constructor
  · intro hm
    cases h with
    | quad h => exact absurd hm h.no_slash
    | quads h => exact .inl ⟨_, _, _, _, _, h⟩
    | addr h => exact absurd hm (v6_slash h)
    | block h => exact .inr ⟨_, _, h⟩
  · rintro (⟨a, b, c, d, n, t, m, rfl, -⟩ | ⟨gs, n, t, m, rfl, -⟩) <;> simp

include hv in
theorem noSlash_parses {pat : Str} {z n : Nat} (h : Denotes strict four pat z n) : (netLib strict four lo hlo).parseIP pat = none ↔ c!"/" ∈ pat := by
  constructor
  · intro hn
    cases h with
    | quad h => rw [(C105_addresses hv _ _).2 (.inl ⟨_, _, _, _, h, rfl⟩)] at hn; cases hn
    | @addr gs h =>
      obtain ⟨h1, h2⟩ := toIP_num (BitVec.ofNat 128 (groupNum gs))
      rw [v6_num h] at h1
      rw [(C105_addresses hv _ _).2 (.inr ⟨_, h, h2, h1⟩)] at hn
      cases hn
    | quads h =>
      obtain ⟨t, m, rfl, -⟩ := h
      simp
    | block h =>
      obtain ⟨t, m, rfl, -⟩ := h
      simp
  · intro hm
    rw [Option.eq_none_iff_forall_ne_some]
    intro ip hip
    rcases (C105_addresses hv _ _).1 hip with ⟨_, _, _, _, h, -⟩ | ⟨_, h, -⟩
    · exact h.no_slash hm
    · exact v6_slash h hm

include hv in
/-- **C105.** A client with a zone (link-local): every block matches it, whatever the block is, and no address does; against the comment
at rules.go:371. -/
theorem C105_zone (a zone : Str) {pat : Str} {z n : Nat} (h : Denotes strict four pat z n) :
    matchIp (netLib strict four lo hlo) (a ++ b!"%" ++ zone) pat = true ↔ c!"/" ∈ pat := by
  rw [← noSlash_parses (lo := lo) (hlo := hlo) hv h]
  unfold matchIp
  rw [zone_none hv]
  cases hp : (netLib strict four lo hlo).parseIP pat with
  | none => simp [ipEqual]
  | some ip =>
    simp only [ipEqual, Bool.false_eq_true, if_false]
    split <;> simp

end

end Sink
