import Verif.Model.Mx
import Verif.Spec.Mx
import Verif.Lemmas.Match

/-!
# Lemmas about mail domain validity and reverse DNS
-/

namespace Sink
open Spec

/-! ## Address classes as blocks -/

theorem prefix_iff {w : Nat} (a b : BitVec w) {n : Nat} (hn : n ≤ w) :
    (∀ i < n, b.getMsbD i = a.getMsbD i) ↔ a.toNat / 2 ^ (w - n) = b.toNat / 2 ^ (w - n) := by
  have e : (∀ i < n, b.getMsbD i = a.getMsbD i) ↔ a >>> (w - n) = b >>> (w - n) := by
    constructor
    · intro h
      apply BitVec.eq_of_getLsbD_eq
      intro i hi
      simp only [BitVec.getLsbD_ushiftRight]
      by_cases hlt : w - n + i < w
      · have := h (w - 1 - (w - n + i)) (by omega)
        simp only [BitVec.getMsbD] at this
        have e1 : w - 1 - (w - 1 - (w - n + i)) = w - n + i := by omega
        have e2 : w - 1 - (w - n + i) < w := by omega
        simpa [e1, e2] using this.symm
      · rw [BitVec.getLsbD_of_ge _ _ (by omega), BitVec.getLsbD_of_ge _ _ (by omega)]
    · intro h i hi
      have := congrArg (fun v => v.getLsbD (n - 1 - i)) h
      simp only [BitVec.getLsbD_ushiftRight] at this
      have e1 : w - n + (n - 1 - i) = w - 1 - i := by omega
      rw [e1] at this
      simp only [BitVec.getMsbD]
      rw [this]
  rw [e, ← BitVec.toNat_inj]
  simp [Nat.shiftRight_eq_div_pow]

theorem inBlock_v4 (a b : BitVec 32) {n : Nat} (hn : n ≤ 32) :
    InBlock (.v4 b n) (.v4 a) ↔ a.toNat / 2 ^ (32 - n) = b.toNat / 2 ^ (32 - n) := prefix_iff a b hn
theorem inBlock_v6 (a b : BitVec 128) {n : Nat} (hn : n ≤ 128) :
    InBlock (.v6 b n) (.v6 a) ↔ a.toNat / 2 ^ (128 - n) = b.toNat / 2 ^ (128 - n) := prefix_iff a b hn

theorem land_f0 (x : Nat) : x &&& 0xf0 = 16 * (x / 16 % 16) := by
  have : (0xf0 : Nat) = 15 * 2 ^ 4 := rfl
  apply Nat.eq_of_testBit_eq
  intro i
  rw [Nat.testBit_and, show (0xf0 : Nat) = 2 ^ 4 * (2 ^ 4 - 1) from rfl, show (16 : Nat) * (x / 16 % 16) = 2 ^ 4 * (x / 2 ^ 4 % 2 ^ 4) from rfl]
  rw [Nat.testBit_two_pow_mul, Nat.testBit_two_pow_mul, Nat.testBit_mod_two_pow, Nat.testBit_div_two_pow, Nat.testBit_two_pow_sub_one]
  by_cases h : 4 ≤ i
  · simp [h, Bool.and_comm]
  · simp [h]

theorem land_c0 (x : Nat) : x &&& 0xc0 = 64 * (x / 64 % 4) := by
  apply Nat.eq_of_testBit_eq
  intro i
  rw [Nat.testBit_and, show (0xc0 : Nat) = 2 ^ 6 * (2 ^ 2 - 1) from rfl, show (64 : Nat) * (x / 64 % 4) = 2 ^ 6 * (x / 2 ^ 6 % 2 ^ 2) from rfl]
  rw [Nat.testBit_two_pow_mul, Nat.testBit_two_pow_mul, Nat.testBit_mod_two_pow, Nat.testBit_div_two_pow, Nat.testBit_two_pow_sub_one]
  by_cases h : 6 ≤ i
  · simp [h, Bool.and_comm]
  · simp [h]

/-- The checks of `checkIP` on one address say that it is public. -/
theorem addr_ok_iff (i : IP) : (i.isGlobalUnicast && !(net10.contains i || net172.contains i || net192.contains i ||
    ipv6private.contains i || ipv6siteloc.contains i)) = true ↔ Public i := by
  unfold Public nonPublicNets
  simp only [List.mem_cons, List.not_mem_nil, or_false, forall_eq_or_imp, forall_eq, IP.isGlobalUnicast,
    Bool.and_eq_true, Bool.not_eq_true', ← Bool.not_eq_true, Bool.or_eq_true, contains_iff, net10, net172, net192,
    ipv6private, ipv6siteloc]
  cases i with
  | v4 a =>
    have e : ∀ b n, InBlock (.v6 b n) (.v4 a) ↔ False := fun _ _ => Iff.rfl
    simp (disch := decide) only [inBlock_v4, e, IP.isUnspecified, IP.isLoopback, IP.isMulticast, IP.isLinkLocalUnicast,
      bne_iff_ne, ne_eq, IP.v4.injEq, ← BitVec.toNat_inj, beq_iff_eq, BitVec.toNat_ushiftRight,
      Nat.shiftRight_eq_div_pow, BitVec.toNat_and, BitVec.toNat_ofNat]
    norm_num only [land_f0]
    have := a.isLt
    have h1 : 16 * (a.toNat / 16777216 / 16 % 16) = 224 ↔ a.toNat / 268435456 = 14 := by omega
    rw [h1, Nat.div_one]
    tauto
  | v6 a =>
    have e : ∀ b n, InBlock (.v4 b n) (.v6 a) ↔ False := fun _ _ => Iff.rfl
    simp (disch := decide) only [inBlock_v6, e, IP.isUnspecified, IP.isLoopback, IP.isMulticast, IP.isLinkLocalUnicast,
      bne_iff_ne, ne_eq, reduceCtorEq, ← BitVec.toNat_inj, beq_iff_eq, BitVec.toNat_ushiftRight,
      Nat.shiftRight_eq_div_pow, BitVec.toNat_and, BitVec.toNat_ofNat, Bool.and_eq_true]
    norm_num only [land_c0]
    have := a.isLt
    have h1 : (a.toNat / 1329227995784915872903807060280344576 = 254 ∧
        64 * (a.toNat / 5192296858534827628530496329220096 / 64 % 4) = 128) ↔
        a.toNat / 332306998946228968225951765070086144 = 1018 := by omega
    rw [h1, Nat.div_one]
    tauto

theorem isTemporary_iff (e : DnsErr) : isTemporary e = true ↔ Temporary e := by
  unfold isTemporary Temporary
  cases e.isDNSError <;> simp

theorem checkAddrs_verdict (W : World) (d : Str) (ips : List IP) :
    ((checkAddrs W d ips).1 = .good ∧ ∀ ip ∈ ips, Public ip) ∨
    ((checkAddrs W d ips).1 = .bad ∧ ¬ ∀ ip ∈ ips, Public ip) := by
  induction ips with
  | nil => left; simp [checkAddrs]
  | cons i is ih =>
    have hi := addr_ok_iff i
    rw [checkAddrs]
    split
    · rename_i h
      right
      refine ⟨rfl, fun hall => ?_⟩
      have := hi.mpr (hall i (by simp))
      simp only [Bool.and_eq_true] at this
      simp [this.1] at h
    · rename_i h
      split
      · rename_i h'
        right
        refine ⟨rfl, fun hall => ?_⟩
        have := hi.mpr (hall i (by simp))
        simp only [Bool.and_eq_true] at this
        simp [h'] at this
      · rename_i h'
        have hp : Public i := hi.mp (by simp at h h'; simp [h, h'])
        simpa [hp] using ih

/-- The verdict of `checkIP` in a fixed world. -/
theorem checkIP_verdict {W : World} (hs : W.Static) (d : Str) (t : Trace) :
    ((checkIP W d t).1.1 = .good ∧ Deliverable W d) ∨
    ((checkIP W d t).1.1 = .tempfail ∧ HostUnknown W d) ∨
    ((checkIP W d t).1.1 = .bad ∧ ¬ Deliverable W d ∧ ¬ HostUnknown W d) := by
  unfold checkIP Deliverable HostUnknown
  rw [hs.lookupIP]
  cases hl : W.lookupIP 0 d with
  | error e =>
    by_cases he : isTemporary e = true
    · right; left
      simp only [he, if_true, true_and]
      exact ⟨e, rfl, (isTemporary_iff e).mp he⟩
    · right; right
      simp only [he, Bool.false_eq_true, if_false, true_and]
      exact ⟨by simp, by simp [← isTemporary_iff, he]⟩
  | ok ips =>
    cases ips with
    | nil => right; right; simp
    | cons i is =>
      rcases checkAddrs_verdict W d (i :: is) with ⟨h1, h2⟩ | ⟨h1, h2⟩
      · left; exact ⟨h1, _, rfl, by simp, h2⟩
      · right; right
        exact ⟨h1, by rintro ⟨ips, h, -, hp⟩; cases h; exact h2 hp, by simp⟩

theorem deliverable_not_unknown {W : World} {d : Str} (h : Deliverable W d) : ¬ HostUnknown W d := by
  rintro ⟨e, h', -⟩
  obtain ⟨ips, h, -⟩ := h
  rw [h] at h'; cases h'

theorem bogus_iff (L : Lib) (m : MX) :
    ((m.host = b!"." ∧ m.pref = 0) ∨ (L.lower m.host = b!"." ∨ L.lower m.host = b!"localhost.")) ↔ Bogus L m := by
  unfold Bogus
  have : m.host = b!"." → L.lower m.host = b!"." := by rintro h; rw [h]; simp [Lib.lower, toLower, isASCII, lowerByte]
  tauto

/-- The verdict of the MX loop in a fixed world. -/
theorem mxLoop_verdict {W : World} (hs : W.Static) (d : Str) : ∀ (mxs : List MX) (best : DnsRes × Option Str) (t : Trace),
    ((∃ m ∈ mxs, Bogus W.lib m) ∧ (mxLoop W d mxs best t).1.1 = .bad) ∨
    ((∀ m ∈ mxs, ¬ Bogus W.lib m) ∧
      ((mxLoop W d mxs best t).1.1 = .good ↔ best.1 = .good ∨ ∃ m ∈ mxs, Deliverable W m.host) ∧
      ((mxLoop W d mxs best t).1.1.num ≥ 2 ↔ best.1.num ≥ 2 ∨ ∃ m ∈ mxs, Deliverable W m.host ∨ HostUnknown W m.host) ∧
      ((mxLoop W d mxs best t).1.1 = .undef ↔ best.1 = .undef ∧ mxs = []))
  | [], best, t => by right; simp [mxLoop]
  | m :: ms, best, t => by
    rw [mxLoop]
    by_cases h1 : m.host = b!"." ∧ m.pref = 0
    · left
      rw [if_pos h1]
      exact ⟨⟨m, by simp, (bogus_iff W.lib m).mp (Or.inl h1)⟩, rfl⟩
    rw [if_neg h1]
    by_cases h2 : W.lib.lower m.host = b!"." ∨ W.lib.lower m.host = b!"localhost."
    · left
      rw [if_pos h2]
      exact ⟨⟨m, by simp, (bogus_iff W.lib m).mp (Or.inr h2)⟩, rfl⟩
    rw [if_neg h2]
    have hb : ¬ Bogus W.lib m := by rw [← bogus_iff]; tauto
    have hv := checkIP_verdict hs m.host t
    simp only
    generalize checkIP W m.host t = v at *
    obtain ⟨v, t'⟩ := v
    simp only at hv ⊢
    rcases mxLoop_verdict hs d ms (if v.1.num > best.1.num then v else best) t' with ⟨⟨m', hm, hm'⟩, h⟩ | ⟨h3, h4, h5, h6⟩
    · left; exact ⟨⟨m', by simp [hm], hm'⟩, h⟩
    · right
      refine ⟨by simpa [hb] using h3, ?_, ?_, ?_⟩
      · rw [h4]
        simp only [List.mem_cons, exists_eq_or_imp]
        rcases hv with ⟨e, hd⟩ | ⟨e, hd⟩ | ⟨e, hd, hu⟩
        · have : (if v.1.num > best.1.num then v else best).1 = .good := by
            rw [e]; cases hbb : best.1 <;> simp [DnsRes.num, e, hbb]
          simp [this, hd]
        · have : ¬ Deliverable W m.host := fun h => deliverable_not_unknown h hd
          rw [e]; cases hbb : best.1 <;> simp [DnsRes.num, e, hbb, this]
        · rw [e]; cases hbb : best.1 <;> simp [DnsRes.num, e, hbb, hd]
      · rw [h5]
        simp only [List.mem_cons, exists_eq_or_imp]
        rcases hv with ⟨e, hd⟩ | ⟨e, hd⟩ | ⟨e, hd, hu⟩
        · rw [e]; cases hbb : best.1 <;> simp [DnsRes.num, e, hbb, hd]
        · rw [e]; cases hbb : best.1 <;> simp [DnsRes.num, e, hbb, hd]
        · rw [e]; cases hbb : best.1 <;> simp [DnsRes.num, e, hbb, hd, hu]
      · rw [h6]
        have : ¬ (if v.1.num > best.1.num then v else best).1 = .undef := by
          rcases hv with ⟨e, -⟩ | ⟨e, -⟩ | ⟨e, -, -⟩ <;> rw [e] <;> cases hbb : best.1 <;> simp [DnsRes.num, e, hbb]
        simp [this]

theorem num_ge2 (r : DnsRes) : r.num ≥ 2 ↔ r = .tempfail ∨ r = .good := by cases r <;> simp [DnsRes.num]

/-! ## Sorting -/

theorem strLe_total : ∀ a b : Str, strLe a b = true ∨ strLe b a = true
  | [], _ => by simp [strLe]
  | _ :: _, [] => by simp [strLe]
  | a :: s, b :: t => by
    simp only [strLe]
    by_cases h1 : a < b
    · simp [h1]
    · by_cases h2 : b < a
      · simp [h2]
      · simpa [h1, h2] using strLe_total s t

theorem strLe_trans : ∀ {a b c : Str}, strLe a b = true → strLe b c = true → strLe a c = true
  | [], _, _, _, _ => by simp [strLe]
  | _ :: _, [], _, h, _ => by simp [strLe] at h
  | _ :: _, _ :: _, [], _, h => by simp [strLe] at h
  | a :: s, b :: t, c :: u, h1, h2 => by
    simp only [strLe] at h1 h2 ⊢
    split at h1
    · rename_i hab
      split at h2
      · rename_i hbc; simp [UInt8.lt_trans hab hbc]
      · split at h2
        · simp at h2
        · rename_i h3 h4
          have : b = c := UInt8.le_antisymm (UInt8.not_lt.mp h4) (UInt8.not_lt.mp h3)
          subst this; simp [hab]
    · split at h1
      · simp at h1
      · rename_i h3 h4
        have : a = b := UInt8.le_antisymm (UInt8.not_lt.mp h4) (UInt8.not_lt.mp h3)
        subst this
        split at h2
        · rename_i hbc; simp [hbc]
        · split at h2
          · simp at h2
          · rename_i h5 h6
            simp [h5, h6, strLe_trans h1 h2]

theorem insertStr_perm (a : Str) (l : List Str) : (insertStr a l).Perm (a :: l) := by
  induction l with
  | nil => exact .refl _
  | cons b l ih =>
    simp only [insertStr]
    split
    · exact .refl _
    · exact (ih.cons b).trans (.swap _ _ _)

theorem sortStrs_perm (l : List Str) : (sortStrs l).Perm l := by
  induction l with
  | nil => exact .refl _
  | cons a l ih => exact (insertStr_perm a _).trans (ih.cons a)

/-- Ascending in byte order. -/
def Spec.Ascending (l : List Str) : Prop := l.Pairwise (fun a b => strLe a b = true)

theorem insertStr_sorted {a : Str} {l : List Str} (h : Ascending l) : Ascending (insertStr a l) := by
  induction l with
  | nil => simp [insertStr, Ascending]
  | cons b l ih =>
    simp only [Ascending, List.pairwise_cons] at h
    simp only [insertStr]
    split
    · rename_i hab
      simp only [Ascending, List.pairwise_cons, List.mem_cons, forall_eq_or_imp]
      exact ⟨⟨hab, fun c hc => strLe_trans hab (h.1 c hc)⟩, h⟩
    · rename_i hab
      simp only [Ascending, List.pairwise_cons]
      refine ⟨?_, ih h.2⟩
      intro c hc
      rcases List.mem_cons.mp ((insertStr_perm a l).subset hc) with rfl | hc
      · exact (strLe_total c b).resolve_left hab
      · exact h.1 c hc

theorem sortStrs_sorted (l : List Str) : Ascending (sortStrs l) := by
  induction l with
  | nil => exact List.Pairwise.nil
  | cons a l ih => exact insertStr_sorted ih

/-! ## Reverse DNS -/

theorem rdnsLoop_spec {W : World} (hs : W.Static) (ip : Str) : ∀ (names : List Str) (r : RDNS) (t : Trace),
    ∃ v n i, (rdnsLoop W (W.lib.parseIP ip) names r t).1 = ⟨r.verified ++ v, r.nofwd ++ n, r.inconsist ++ i⟩ ∧
      (v ++ n ++ i).Perm names ∧ v.Sublist names ∧ n.Sublist names ∧ i.Sublist names ∧
      (∀ x ∈ v, FwdOK W ip x) ∧ (∀ x ∈ n, FwdFails W x) ∧ (∀ x ∈ i, FwdOther W ip x)
  | [], r, t => ⟨[], [], [], by simp [rdnsLoop]⟩
  | x :: xs, r, t => by
    rw [rdnsLoop]
    rw [hs.lookupIP]
    cases hl : W.lookupIP 0 x with
    | error e =>
      obtain ⟨v, n, i, h1, h2, h3, h4, h5, h6, h7, h8⟩ :=
        rdnsLoop_spec hs ip xs { r with nofwd := r.nofwd ++ [x] } (.lookupIP x :: t)
      refine ⟨v, x :: n, i, by rw [h1]; simp, ?_, h3.cons _, h4.cons₂ _, h5.cons _, h6, ?_, h8⟩
      · have : (v ++ x :: n ++ i).Perm (x :: (v ++ n ++ i)) := by
          simp only [List.append_assoc, List.cons_append]; exact List.perm_middle
        exact this.trans (h2.cons x)
      · simp only [List.mem_cons, forall_eq_or_imp]; exact ⟨⟨e, hl⟩, h7⟩
    | ok as =>
      simp only
      split
      · rename_i ha
        obtain ⟨v, n, i, h1, h2, h3, h4, h5, h6, h7, h8⟩ :=
          rdnsLoop_spec hs ip xs { r with verified := r.verified ++ [x] } (.lookupIP x :: t)
        refine ⟨x :: v, n, i, by rw [h1]; simp, by simpa using h2.cons x, h3.cons₂ _, h4.cons _, h5.cons _, ?_, h7, h8⟩
        simp only [List.mem_cons, forall_eq_or_imp]
        refine ⟨⟨as, hl, ?_⟩, h6⟩
        simp only [List.any_eq_true, beq_iff_eq] at ha
        obtain ⟨a, ha, he⟩ := ha
        exact ⟨a, ha, he.symm⟩
      · rename_i ha
        obtain ⟨v, n, i, h1, h2, h3, h4, h5, h6, h7, h8⟩ :=
          rdnsLoop_spec hs ip xs { r with inconsist := r.inconsist ++ [x] } (.lookupIP x :: t)
        refine ⟨v, n, x :: i, by rw [h1]; simp, ?_, h3.cons _, h4.cons _, h5.cons₂ _, h6, h7, ?_⟩
        · exact List.perm_middle.trans (h2.cons x)
        · simp only [List.mem_cons, forall_eq_or_imp]
          refine ⟨⟨as, hl, ?_⟩, h8⟩
          intro a ham he
          apply ha
          simp only [List.any_eq_true, beq_iff_eq]
          exact ⟨a, ham, he.symm⟩

end Sink
