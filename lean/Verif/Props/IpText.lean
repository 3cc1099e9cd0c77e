import Verif.Lemmas.IpText
import Verif.Lemmas.Match
import Verif.Model.Mx
import Verif.Spec.Grammar

/-!
# C89: IPv4 addresses and blocks in rules mean what they say
-/

namespace Sink
open Spec

theorem Spec.Octet.lt {strict : Bool} {w : Str} {n : Nat} (h : Octet strict w n) : n < 256 := h.2.2.1

theorem Spec.Octet.not_mem {strict : Bool} {w : Str} {n : Nat} (h : Octet strict w n) {c : Byte} (hc : c < 48) : c ∉ w := fun hm => by
  have h1 := UInt8.le_iff_toNat_le.1 (h.1.2 c hm).1
  have h2 := UInt8.lt_iff_toNat_lt.1 hc
  exact absurd h1 (Nat.not_le.2 h2)

theorem Spec.Dotted.no_slash {strict : Bool} {s : Str} {a b c d : Nat} (h : Dotted strict s a b c d) : c!"/" ∉ s := by
  obtain ⟨w, x, y, z, rfl, h1, h2, h3, h4⟩ := h
  simp [h1.not_mem (c := c!"/") (by decide), h2.not_mem (c := c!"/") (by decide), h3.not_mem (c := c!"/") (by decide),
    h4.not_mem (c := c!"/") (by decide)]

theorem ipv4_toNat {a b c d : Nat} (ha : a < 256) (hb : b < 256) (hc : c < 256) (hd : d < 256) : (ipv4 a b c d).toNat = addrNum a b c d := by
  rw [ipv4, BitVec.toNat_ofNat, Nat.mod_eq_of_lt (by omega), addrNum]
  omega

theorem ipv4_inj {a b c d a' b' c' d' : Nat} (ha : a < 256) (hb : b < 256) (hc : c < 256) (hd : d < 256) (ha' : a' < 256) (hb' : b' < 256)
    (hc' : c' < 256) (hd' : d' < 256) (h : ipv4 a b c d = ipv4 a' b' c' d') : a = a' ∧ b = b' ∧ c = c' ∧ d = d' := by
  have := congrArg BitVec.toNat h
  rw [ipv4_toNat ha hb hc hd, ipv4_toNat ha' hb' hc' hd', addrNum, addrNum] at this
  omega

/-- **C89.** Text without a colon is taken as an address iff it is four numbers below 256 with dots between them. -/
theorem C89_addresses {strict : Bool} {v6 : Str → Option IP} {cidr6 : Str → Option IPNet} {lo : Str → Str} {hlo : ∀ s, s ≠ [] → lo s ≠ []}
    {s : Str} (hs : c!":" ∉ s) (ip : IP) :
    (goLib strict v6 cidr6 lo hlo).parseIP s = some ip ↔ ∃ a b c d, Dotted strict s a b c d ∧ ip = .v4 (ipv4 a b c d) := by
  show goParseIP strict v6 s = _ ↔ _
  unfold goParseIP
  split
  · rename_i h
    rw [List.find?_eq_none] at h
    constructor
    · intro h; cases h
    · rintro ⟨a, b, c, d, ⟨w, x, y, z, rfl, -⟩, -⟩
      exact absurd (h c!"." (by simp)) (by simp)
  · rename_i c h
    have hc : c = c!"." := by
      have h1 := List.find?_some h
      have h2 := List.mem_of_find?_eq_some h
      simp only [Bool.decide_or, Bool.or_eq_true, decide_eq_true_eq] at h1
      exact h1.resolve_right fun e => hs (e ▸ h2)
    rw [if_pos hc, Option.map_eq_some_iff]
    constructor
    · rintro ⟨x, h1, rfl⟩
      obtain ⟨a, b, c, d, h2, rfl⟩ := parseIPv4_iff.1 h1
      exact ⟨a, b, c, d, h2, rfl⟩
    · rintro ⟨a, b, c, d, h2, rfl⟩
      exact ⟨_, parseIPv4_iff.2 ⟨a, b, c, d, h2, rfl⟩, rfl⟩

theorem lead_all {m : Str} (h : Digits m) : lead m = m := by
  have := lead_append (r := []) h.2 noDigit_nil
  simpa using this

/-- **C89.** Text without a colon is taken as a block iff it is such an address, a slash, and a number up to 32. -/
theorem C89_blocks {strict : Bool} {v6 : Str → Option IP} {cidr6 : Str → Option IPNet} {lo : Str → Str} {hlo : ∀ s, s ≠ [] → lo s ≠ []}
    {s : Str} (hs : c!":" ∉ s) (net : IPNet) :
    (goLib strict v6 cidr6 lo hlo).parseCIDR s = some net ↔
      ∃ a b c d n, Netblock strict s a b c d n ∧ net = .v4 (ipv4 a b c d &&& cidrMask 32 n) n := by
  show goParseCIDR strict cidr6 s = _ ↔ _
  unfold goParseCIDR
  constructor
  · intro h
    split at h
    · cases h
    · rename_i i hi
      obtain ⟨hil, h1, -⟩ := List.findIdx?_eq_some_iff_getElem.1 hi
      have hsp : s = s.take i ++ b!"/" ++ s.drop (i + 1) := by
        have : s[i] = c!"/" := by simpa using h1
        rw [List.append_assoc, ← this, List.singleton_append, ← List.drop_eq_getElem_cons hil, List.take_append_drop]
      split at h
      · rename_i ip hip
        obtain ⟨a, b, c, d, hd, rfl⟩ := parseIPv4_iff.1 hip
        obtain ⟨n, k, ok, he⟩ : ∃ n k ok, dtoi (s.drop (i + 1)) = (n, k, ok) := ⟨_, _, _, rfl⟩
        simp only [he] at h
        split at h
        · cases h
        · rename_i hc
          rw [not_or, not_or] at hc
          obtain rfl : ok = true := by simpa using hc.1
          cases h
          obtain ⟨h2, h3, h4⟩ := dtoi_true he
          have hl : lead (s.drop (i + 1)) = s.drop (i + 1) := by
            have := (lead_drop (s.drop (i + 1))).1
            rw [← h3, show k = (s.drop (i + 1)).length from not_not.1 hc.2.1, List.drop_length, List.append_nil] at this
            exact this.symm
          rw [hl] at h2 h4
          exact ⟨a, b, c, d, n, ⟨_, _, hsp, hd, ⟨h4, fun x hx => lead_digits _ x (by rw [hl]; exact hx)⟩, h2.symm, by omega⟩, rfl⟩
      · rw [if_neg fun hm => hs (List.mem_of_mem_take hm)] at h
        cases h
  · rintro ⟨a, b, c, d, n, ⟨t, m, rfl, hd, hm, hn, hle⟩, rfl⟩
    have hi : (t ++ b!"/" ++ m).findIdx? (· == c!"/") = some t.length := by
      rw [List.findIdx?_eq_some_iff_getElem]
      refine ⟨by simp, by simp, fun j hj => ?_⟩
      have : (t ++ b!"/" ++ m)[j]'(by simp; omega) = t[j] := by
        rw [List.getElem_append_left (by simp; omega), List.getElem_append_left hj]
      rw [this]
      simp only [beq_iff_eq]
      exact fun e => hd.no_slash (e ▸ List.getElem_mem hj)
    rw [hi]
    have ht : (t ++ b!"/" ++ m).take t.length = t := by rw [List.append_assoc, List.take_left]
    have hdr : (t ++ b!"/" ++ m).drop (t.length + 1) = m := by
      rw [show t.length + 1 = (t ++ b!"/").length by simp, List.drop_left]
    simp only [ht, hdr]
    rw [parseIPv4_iff.2 ⟨a, b, c, d, hd, rfl⟩]
    have hdt : dtoi m = (n, m.length, true) := by
      rw [dtoi_small (by rw [lead_all hm]; omega) (by rw [lead_all hm]; exact hm.1), lead_all hm, hn]
    simp only [hdt]
    rw [if_neg (by simp; omega)]

theorem leading_bits {x y : BitVec 32} {n : Nat} (hn : n ≤ 32) :
    (∀ i < n, x.getMsbD i = y.getMsbD i) ↔ x.toNat / 2 ^ (32 - n) = y.toNat / 2 ^ (32 - n) := by
  have key : ∀ (z : BitVec 32) (i : Nat), i < n → z.getMsbD i = (z.toNat / 2 ^ (32 - n)).testBit (n - 1 - i) := fun z i hi => by
    rw [Nat.testBit_div_two_pow, BitVec.getMsbD_eq_getLsbD, BitVec.getLsbD, decide_eq_true (by omega : i < 32), Bool.true_and]
    congr 1
    omega
  constructor
  · intro h
    refine Nat.eq_of_testBit_eq fun j => ?_
    by_cases hj : j < n
    · have := h (n - 1 - j) (by omega)
      rw [key x _ (by omega), key y _ (by omega), show n - 1 - (n - 1 - j) = j by omega] at this
      exact this
    · have hb : ∀ z : BitVec 32, (z.toNat / 2 ^ (32 - n)).testBit j = false := fun z => by
        rw [Nat.testBit_div_two_pow]
        exact Nat.testBit_lt_two_pow (Nat.lt_of_lt_of_le z.isLt (Nat.pow_le_pow_right (by omega) (by omega)))
      rw [hb, hb]
  · intro h i hi
    rw [key x i hi, key y i hi, h]

theorem mask_bits {x : BitVec 32} {n i : Nat} (hi : i < n) : (x &&& cidrMask 32 n).getMsbD i = x.getMsbD i := by
  by_cases h : i < 32
  · have : i + (32 - n) < 32 := by omega
    simp only [cidrMask, BitVec.getMsbD_and, BitVec.getMsbD_shiftLeft, BitVec.getMsbD_allOnes, this, decide_true, Bool.and_true]
  · simp [BitVec.getMsbD_of_ge _ _ (Nat.not_lt.mp h)]

/-- **C89.** An IPv4 client `e.f.g.h` is meant by a pattern (without a colon) iff the pattern is this address, or a block `a.b.c.d/n` where
the addresses have the same first `n` bits. -/
theorem C89_means {strict : Bool} {v6 : Str → Option IP} {cidr6 : Str → Option IPNet} {lo : Str → Str} {hlo : ∀ s, s ≠ [] → lo s ≠ []}
    {pat : Str} (hs : c!":" ∉ pat) {e f g h : Nat} (he : e < 256) (hf : f < 256) (hg : g < 256) (hh : h < 256) :
    IpMatch (goLib strict v6 cidr6 lo hlo) (.v4 (ipv4 e f g h)) pat ↔
      Dotted strict pat e f g h ∨
      ∃ a b c d n, Netblock strict pat a b c d n ∧ addrNum a b c d / 2 ^ (32 - n) = addrNum e f g h / 2 ^ (32 - n) := by
  unfold IpMatch
  rw [C89_addresses hs]
  refine or_congr ?_ ?_
  · constructor
    · rintro ⟨a, b, c, d, hd, heq⟩
      have hd' := hd
      obtain ⟨w, x, y, z, -, h1, h2, h3, h4⟩ := hd'
      simp only [IP.v4.injEq] at heq
      obtain ⟨rfl, rfl, rfl, rfl⟩ := ipv4_inj he hf hg hh h1.lt h2.lt h3.lt h4.lt heq
      exact hd
    · exact fun hd => ⟨e, f, g, h, hd, rfl⟩
  · have main : ∀ {a b c d n}, Netblock strict pat a b c d n →
        (InBlock (.v4 (ipv4 a b c d &&& cidrMask 32 n) n) (.v4 (ipv4 e f g h)) ↔
          addrNum a b c d / 2 ^ (32 - n) = addrNum e f g h / 2 ^ (32 - n)) := by
      rintro a b c d n ⟨t, m, -, ⟨w, x, y, z, -, h1, h2, h3, h4⟩, -, -, hn⟩
      rw [← ipv4_toNat h1.lt h2.lt h3.lt h4.lt, ← ipv4_toNat he hf hg hh, ← leading_bits hn]
      show (∀ i < n, _ = _) ↔ _
      exact forall₂_congr fun i hi => by rw [mask_bits hi]
    constructor
    · rintro ⟨net, hnet, hin⟩
      obtain ⟨a, b, c, d, n, hb, rfl⟩ := (C89_blocks hs net).1 hnet
      exact ⟨a, b, c, d, n, hb, (main hb).1 hin⟩
    · rintro ⟨a, b, c, d, n, hb, hin⟩
      exact ⟨_, (C89_blocks hs _).2 ⟨a, b, c, d, n, hb, rfl⟩, (main hb).2 hin⟩

/-- **C89.** `ip PATTERN` for a client whose address is written `e.f.g.h`. -/
theorem C89_client {strict : Bool} {v6 : Str → Option IP} {cidr6 : Str → Option IPNet} {lo : Str → Str} {hlo : ∀ s, s ≠ [] → lo s ≠ []}
    {rip pat : Str} (hs : c!":" ∉ pat) {e f g h : Nat} (hr : Dotted strict rip e f g h) :
    matchIp (goLib strict v6 cidr6 lo hlo) rip pat = true ↔
      Dotted strict pat e f g h ∨
      ∃ a b c d n, Netblock strict pat a b c d n ∧ addrNum a b c d / 2 ^ (32 - n) = addrNum e f g h / 2 ^ (32 - n) := by
  have hr' := hr
  obtain ⟨w, x, y, z, hw, h1, h2, h3, h4⟩ := hr'
  have hcol : ∀ {w n}, Octet strict w n → c!":" ∉ w := fun ho hm => absurd (ho.1.2 _ hm).2 (by decide)
  have hc : c!":" ∉ rip := by
    rw [hw]
    simp [hcol h1, hcol h2, hcol h3, hcol h4]
  rw [matchIp_spec _ ((C89_addresses hc _).2 ⟨e, f, g, h, hr, rfl⟩), C89_means hs h1.lt h2.lt h3.lt h4.lt]

/-- **C89.** With a length of 8, 16, 24 or 32 (or 0) the block is about the first one, two, three, four (or no) numbers. -/
theorem C89_whole_numbers {a b c d e f g h k : Nat} (ha : a < 256) (hb : b < 256) (hc : c < 256) (hd : d < 256) (he : e < 256) (hf : f < 256)
    (hg : g < 256) (hh : h < 256) (hk : k ≤ 4) :
    addrNum a b c d / 2 ^ (32 - 8 * k) = addrNum e f g h / 2 ^ (32 - 8 * k) ↔ [a, b, c, d].take k = [e, f, g, h].take k := by
  unfold addrNum
  match k, hk with
  | 0, _ => simp; omega
  | 1, _ => simp; omega
  | 2, _ => simp; omega
  | 3, _ => simp; omega
  | 4, _ => simp; omega

/-- **C89.** A rule may say `ip PATTERN` with such a pattern only. -/
theorem C89_allowed {strict : Bool} {v6 : Str → Option IP} {cidr6 : Str → Option IPNet} {lo : Str → Str} {hlo : ∀ s, s ≠ [] → lo s ≠ []}
    {a : Item} (ht : a.typ = .value) (hs : c!":" ∉ a.val) :
    Gram.IsIPArg (goLib strict v6 cidr6 lo hlo) a ↔
      (∃ w x y z, Dotted strict a.val w x y z) ∨ ∃ w x y z n, Netblock strict a.val w x y z n := by
  unfold Gram.IsIPArg
  rw [ht]
  simp only [reduceCtorEq, true_and, false_or, Option.isSome_iff_exists, C89_addresses hs, C89_blocks hs]
  refine or_congr ⟨?_, ?_⟩ ⟨?_, ?_⟩
  · rintro ⟨_, w, x, y, z, h, -⟩
    exact ⟨w, x, y, z, h⟩
  · rintro ⟨w, x, y, z, h⟩
    exact ⟨_, w, x, y, z, h, rfl⟩
  · rintro ⟨_, w, x, y, z, n, h, -⟩
    exact ⟨w, x, y, z, n, h⟩
  · rintro ⟨w, x, y, z, n, h⟩
    exact ⟨_, w, x, y, z, n, h, rfl⟩

theorem digits_split {w w' r r' : Str} (hw : Digits w) (hw' : Digits w') (hr : NoDigit r) (hr' : NoDigit r') (h : w ++ r = w' ++ r') :
    w = w' ∧ r = r' := by
  have : w = w' := by rw [← lead_append hw.2 hr, h, lead_append hw'.2 hr']
  subst this
  exact ⟨rfl, List.append_cancel_left h⟩

/-- **C89.** Leading zeros (the comment at rules.go:372-376): up to Go 1.16 they do not matter; from Go 1.17 on an address with leading
zeros is not an address, so it matches no IPv4 client. -/
theorem C89_zeros {strict : Bool} {v6 : Str → Option IP} {cidr6 : Str → Option IPNet} {lo : Str → Str} {hlo : ∀ s, s ≠ [] → lo s ≠ []}
    {w x y z : Str} (hw : Digits w) (hx : Digits x) (hy : Digits y) (hz : Digits z) (lw : numeral w < 256) (lx : numeral x < 256)
    (ly : numeral y < 256) (lz : numeral z < 256) :
    (goLib strict v6 cidr6 lo hlo).parseIP (w ++ b!"." ++ x ++ b!"." ++ y ++ b!"." ++ z) =
      if strict = true ∧ ∃ q ∈ [w, x, y, z], q.head? = some c!"0" ∧ q ≠ b!"0" then none
      else some (.v4 (ipv4 (numeral w) (numeral x) (numeral y) (numeral z))) := by
  have hcol : ∀ {w}, Digits w → c!":" ∉ w := fun ho hm => absurd (ho.2 _ hm).2 (by decide)
  have hs : c!":" ∉ w ++ b!"." ++ x ++ b!"." ++ y ++ b!"." ++ z := by simp [hcol hw, hcol hx, hcol hy, hcol hz]
  split
  · rename_i h
    rw [Option.eq_none_iff_forall_ne_some]
    intro ip hip
    obtain ⟨a, b, c, d, ⟨w', x', y', z', he, h1, h2, h3, h4⟩, -⟩ := (C89_addresses hs ip).1 hip
    simp only [List.append_assoc, List.cons_append, List.nil_append] at he
    obtain ⟨ew, he1⟩ := digits_split hw h1.1 (noDigit_dot _) (noDigit_dot _) he
    obtain ⟨ex, he2⟩ := digits_split hx h2.1 (noDigit_dot _) (noDigit_dot _) (List.cons.inj he1).2
    obtain ⟨ey, he3⟩ := digits_split hy h3.1 (noDigit_dot _) (noDigit_dot _) (List.cons.inj he2).2
    obtain ez := (List.cons.inj he3).2
    subst ew ex ey ez
    obtain ⟨hst, q, hq, h0, hn⟩ := h
    simp only [List.mem_cons, List.not_mem_nil, or_false] at hq
    rcases hq with rfl | rfl | rfl | rfl
    · exact hn (h1.2.2.2 hst h0)
    · exact hn (h2.2.2.2 hst h0)
    · exact hn (h3.2.2.2 hst h0)
    · exact hn (h4.2.2.2 hst h0)
  · rename_i h
    refine (C89_addresses hs _).2 ⟨_, _, _, _, ⟨w, x, y, z, rfl, ?_, ?_, ?_, ?_⟩, rfl⟩
    · exact ⟨hw, rfl, lw, fun hst h0 => by_contra fun hn => h ⟨hst, w, by simp, h0, hn⟩⟩
    · exact ⟨hx, rfl, lx, fun hst h0 => by_contra fun hn => h ⟨hst, x, by simp, h0, hn⟩⟩
    · exact ⟨hy, rfl, ly, fun hst h0 => by_contra fun hn => h ⟨hst, y, by simp, h0, hn⟩⟩
    · exact ⟨hz, rfl, lz, fun hst h0 => by_contra fun hn => h ⟨hst, z, by simp, h0, hn⟩⟩

/-- **C89.** The private address space of C52 is the one written at mxresolve.go:67-69. -/
theorem C89_private (strict : Bool) (v6 : Str → Option IP) (cidr6 : Str → Option IPNet) (lo : Str → Str) (hlo : ∀ s, s ≠ [] → lo s ≠ []) :
    (goLib strict v6 cidr6 lo hlo).parseCIDR b!"10.0.0.0/8" = some net10 ∧
    (goLib strict v6 cidr6 lo hlo).parseCIDR b!"172.16.0.0/12" = some net172 ∧
    (goLib strict v6 cidr6 lo hlo).parseCIDR b!"192.168.0.0/16" = some net192 := by
  cases strict <;> exact ⟨rfl, rfl, rfl⟩

/-- A library of a recent Go without IPv6. -/
def plainLib (strict : Bool) : Lib := goLib strict (fun _ => none) (fun _ => none) id fun _ h => h

/-- The block 172.16.0.0/12 contains 172.31.255.255 and does not contain 172.32.0.0; a pattern with leading zeros matches with Go 1.16
only, a block may have a length with leading zeros, and odd texts are not addresses. -/
example : matchIp (plainLib true) b!"172.31.255.255" b!"172.16.0.0/12" = true ∧ matchIp (plainLib true) b!"172.32.0.0" b!"172.16.0.0/12" = false ∧
    matchIp (plainLib false) b!"10.1.2.3" b!"010.001.002.003" = true ∧ matchIp (plainLib true) b!"10.1.2.3" b!"010.001.002.003" = false ∧
    matchIp (plainLib true) b!"10.1.2.3" b!"10.0.0.0/008" = true ∧
    [b!"1.2.3", b!"1.2.3.4.", b!"1.2.3.256", b!" 1.2.3.4", b!"1..3.4", b!"1.2.3.99999999999"].map (plainLib true).parseIP = List.replicate 6 none := by
  decide +kernel

end Sink
