import Verif.Lemmas.Mx
import Verif.Spec.DemoWorld

/-!
# Properties C50–C52: reverse DNS and mail domain validity
-/

namespace Sink
open Spec

/-! ## C52 -/

/-- C52: a host is deliverable iff, at the time of the lookup, it has an address and every address is public. -/
theorem C52_deliverable_iff (W : World) (host : Str) (t : Trace) :
    (checkIP W host t).1.1 = .good ↔
      ∃ ips, W.lookupIP t.length host = .ok ips ∧ ips ≠ [] ∧ ∀ ip ∈ ips, Public ip := by
  unfold checkIP
  cases hl : W.lookupIP t.length host with
  | error e => by_cases he : isTemporary e = true <;> simp [he]
  | ok ips =>
    cases ips with
    | nil => simp
    | cons i is =>
      rcases checkAddrs_verdict W host (i :: is) with ⟨h1, h2⟩ | ⟨h1, h2⟩
      · simp only [h1, true_iff]; exact ⟨_, rfl, by simp, h2⟩
      · simp only [h1, reduceCtorEq, false_iff]
        rintro ⟨ips, h, -, hp⟩; cases h; exact h2 hp

/-- C52: what "public" excludes, spelled out on the numeric value of an IPv4 address. -/
theorem C52_public_v4 (a : BitVec 32) : Public (.v4 a) ↔
    a.toNat ≠ 0 ∧ a.toNat ≠ 2 ^ 32 - 1 ∧ ¬ (127 * 2 ^ 24 ≤ a.toNat ∧ a.toNat < 128 * 2 ^ 24) ∧
    ¬ (224 * 2 ^ 24 ≤ a.toNat ∧ a.toNat < 240 * 2 ^ 24) ∧
    ¬ ((169 * 256 + 254) * 2 ^ 16 ≤ a.toNat ∧ a.toNat < (169 * 256 + 255) * 2 ^ 16) ∧
    ¬ (10 * 2 ^ 24 ≤ a.toNat ∧ a.toNat < 11 * 2 ^ 24) ∧
    ¬ ((172 * 256 + 16) * 2 ^ 16 ≤ a.toNat ∧ a.toNat < (172 * 256 + 32) * 2 ^ 16) ∧
    ¬ ((192 * 256 + 168) * 2 ^ 16 ≤ a.toNat ∧ a.toNat < (192 * 256 + 169) * 2 ^ 16) := by
  unfold Public nonPublicNets
  have e : ∀ b n, InBlock (.v6 b n) (.v4 a) ↔ False := fun _ _ => Iff.rfl
  simp (disch := decide) only [List.mem_cons, List.not_mem_nil, or_false, forall_eq_or_imp, forall_eq, e, inBlock_v4,
    BitVec.toNat_ofNat, not_false_eq_true, and_true]
  norm_num only
  have := a.isLt
  omega

/-- C52: and on an IPv6 address. -/
theorem C52_public_v6 (a : BitVec 128) : Public (.v6 a) ↔
    a.toNat ≠ 0 ∧ a.toNat ≠ 1 ∧ ¬ (0xff * 2 ^ 120 ≤ a.toNat) ∧
    ¬ (0xfe80 * 2 ^ 112 ≤ a.toNat ∧ a.toNat < 0xfec0 * 2 ^ 112) ∧
    ¬ (0xfc * 2 ^ 120 ≤ a.toNat ∧ a.toNat < 0xfe * 2 ^ 120) ∧
    ¬ (0xfec0 * 2 ^ 112 ≤ a.toNat ∧ a.toNat < 0xff00 * 2 ^ 112) := by
  unfold Public nonPublicNets
  have e : ∀ b n, InBlock (.v4 b n) (.v6 a) ↔ False := fun _ _ => Iff.rfl
  simp (disch := decide) only [List.mem_cons, List.not_mem_nil, or_false, forall_eq_or_imp, forall_eq, e, inBlock_v6,
    BitVec.toNat_ofNat, not_false_eq_true, true_and]
  norm_num only
  have := a.isLt
  omega

example : (checkIP demoWorld b!"mx.example.com." []).1.1 = .good := by decide +kernel
example : (checkIP demoWorld b!"lan.example.com." []).1.1 = .bad := by decide +kernel
example : (checkIP demoWorld b!"slow.example.com." []).1.1 = .tempfail := by decide +kernel

/-! ## C51 -/

theorem validDomain_verdict {W : World} (hs : W.Static) (d : Str) (t : Trace) :
    ((validDomain W d t).1.1 = .good ↔ DomainValid W d) ∧
    ((validDomain W d t).1.1 = .tempfail ↔ DomainUnknown W d) ∧
    ((validDomain W d t).1.1 = .undef ↔ NoMX W d) := by
  unfold validDomain DomainValid DomainUnknown NoMX
  rw [hs.lookupMX]
  cases hl : W.lookupMX 0 (d ++ b!".") with
  | error e =>
    simp only [reduceCtorEq, false_and, exists_false, false_or, Except.error.injEq, exists_eq_left', iff_false]
    by_cases he : isTemporary e = true
    · have he' := (isTemporary_iff e).mp he
      simp [he, he']
    · have he' : ¬ Temporary e := by rwa [isTemporary_iff] at he
      simp only [he, Bool.false_eq_true, if_false, he', not_false_eq_true, true_and, false_or]
      rcases checkIP_verdict hs (d ++ b!".") (.lookupMX (d ++ b!".") :: t) with ⟨h, hd⟩ | ⟨h, hd⟩ | ⟨h, hd, hu⟩
      · simp [h, hd, deliverable_not_unknown hd]
      · have : ¬ Deliverable W (d ++ b!".") := fun h => deliverable_not_unknown h hd
        simp [h, hd, this]
      · simp [h, hd, hu]
  | ok mxs =>
    simp only [reduceCtorEq, false_and, exists_false, or_false, false_or, Except.ok.injEq, exists_eq_left']
    rcases mxLoop_verdict hs d mxs (.undef, none) (.lookupMX (d ++ b!".") :: t) with ⟨⟨m, hm, hb⟩, h⟩ | ⟨h1, h2, h3, h4⟩
    · simp only [h, reduceCtorEq, false_iff, not_and]
      refine ⟨fun hn => absurd hb (hn m hm), fun hn => absurd hb (hn m hm), ?_⟩
      rintro rfl; simp at hm
    · refine ⟨by simpa using ⟨fun h => ⟨h1, by simpa using h2.mp h⟩, fun h => h2.mpr (Or.inr h.2)⟩, ?_, by simpa using h4⟩
      constructor
      · intro h
        have hng : ∀ m ∈ mxs, ¬ Deliverable W m.host := by
          intro m hm hd
          rw [h2.mpr (Or.inr ⟨m, hm, hd⟩)] at h; cases h
        have := h3.mp (by rw [h]; decide)
        obtain ⟨m, hm, hd | hu⟩ := this.resolve_left (by decide)
        · exact absurd hd (hng m hm)
        · exact ⟨h1, hng, m, hm, hu⟩
      · rintro ⟨-, hng, m, hm, hu⟩
        have h5 := (num_ge2 _).mp (h3.mpr (Or.inr ⟨m, hm, Or.inr hu⟩))
        refine h5.resolve_right fun h => ?_
        have := h2.mp h
        simp only [reduceCtorEq, false_or] at this
        obtain ⟨m, hm, hd⟩ := this
        exact hng m hm hd

/-- C51: a domain is reported valid iff it is. -/
theorem C51_valid_iff (W : World) (hs : W.Static) (d : Str) (t : Trace) :
    (validDomain W d t).1.1 = .good ↔ DomainValid W d := (validDomain_verdict hs d t).1

/-- C51: it is reported undecidable for now iff that is so. -/
theorem C51_unknown_iff (W : World) (hs : W.Static) (d : Str) (t : Trace) :
    (validDomain W d t).1.1 = .tempfail ↔ DomainUnknown W d := (validDomain_verdict hs d t).2.1

/-- C51: and bad in all other cases (an empty MX answer gives no verdict). -/
theorem C51_bad_iff (W : World) (hs : W.Static) (d : Str) (t : Trace) :
    (validDomain W d t).1.1 = .bad ↔ DomainBad W d := by
  obtain ⟨h1, h2, h3⟩ := validDomain_verdict hs d t
  unfold DomainBad
  rw [← h1, ← h2, ← h3]
  cases (validDomain W d t).1.1 <;> simp

theorem mxLoop_bogus (W : World) (d : Str) : ∀ (mxs : List MX) (best : DnsRes × Option Str) (t : Trace),
    (∃ m ∈ mxs, Bogus W.lib m) → (mxLoop W d mxs best t).1.1 = .bad
  | [], _, _, h => by simp at h
  | m :: ms, best, t, h => by
    rw [mxLoop]
    by_cases h1 : m.host = b!"." ∧ m.pref = 0
    · rw [if_pos h1]
    rw [if_neg h1]
    by_cases h2 : W.lib.lower m.host = b!"." ∨ W.lib.lower m.host = b!"localhost."
    · rw [if_pos h2]
    rw [if_neg h2]
    have hb : ¬ Bogus W.lib m := by rw [← bogus_iff]; tauto
    simp only [List.mem_cons, exists_eq_or_imp, hb, false_or] at h
    exact mxLoop_bogus W d ms _ _ h

/-- C51: any bogus MX makes the domain bad, even if the world changes during the check. -/
theorem C51_bogus_mx (W : World) (d : Str) (t : Trace) (mxs : List MX)
    (h : W.lookupMX t.length (d ++ b!".") = .ok mxs) (hb : ∃ m ∈ mxs, Bogus W.lib m) :
    (validDomain W d t).1.1 = .bad := by
  simp only [validDomain, h]
  exact mxLoop_bogus W d mxs _ _ hb

/-- C51: the verdict does not depend on the order of the MX records. -/
theorem C51_order_irrelevant (W W' : World) (hs : W.Static) (hs' : W'.Static) (d : Str) (t t' : Trace) (mxs mxs' : List MX)
    (hl : W'.lib = W.lib) (hip : ∀ h, W'.lookupIP 0 h = W.lookupIP 0 h)
    (h : W.lookupMX 0 (d ++ b!".") = .ok mxs) (h' : W'.lookupMX 0 (d ++ b!".") = .ok mxs') (hp : mxs.Perm mxs') :
    (validDomain W d t).1.1 = (validDomain W' d t').1.1 := by
  have hd : ∀ x, Deliverable W' x ↔ Deliverable W x := fun x => by simp only [Deliverable, hip]
  have hu : ∀ x, HostUnknown W' x ↔ HostUnknown W x := fun x => by simp only [HostUnknown, hip]
  have hm : ∀ m, m ∈ mxs' ↔ m ∈ mxs := fun m => hp.mem_iff.symm
  have e1 : DomainValid W' d ↔ DomainValid W d := by
    simp only [DomainValid, h, h', Except.ok.injEq, exists_eq_left', reduceCtorEq, false_and, exists_false, or_false, hm, hd, hl]
  have e2 : DomainUnknown W' d ↔ DomainUnknown W d := by
    simp only [DomainUnknown, h, h', Except.ok.injEq, exists_eq_left', reduceCtorEq, false_and, exists_false, or_false,
      hm, hd, hl, hu]
  have e3 : NoMX W' d ↔ NoMX W d := by
    simp only [NoMX, h, h', Except.ok.injEq]
    exact ⟨fun e => by subst e; exact hp.eq_nil, fun e => by subst e; exact hp.symm.eq_nil⟩
  obtain ⟨a1, a2, a3⟩ := validDomain_verdict hs d t
  obtain ⟨b1, b2, b3⟩ := validDomain_verdict hs' d t'
  rw [e1] at b1; rw [e2] at b2; rw [e3] at b3
  rw [← a1] at b1; rw [← a2] at b2; rw [← a3] at b3
  generalize (validDomain W d t).1.1 = x at *
  generalize (validDomain W' d t').1.1 = y at *
  cases x <;> cases y <;> simp_all

example : (validDomain demoWorld b!"example.com" []).1.1 = .good := by decide +kernel
example : (validDomain demoWorld b!"null.example.com" []).1.1 = .bad := by decide +kernel
example : (validDomain demoWorld b!"slowmx.example.com" []).1.1 = .tempfail := by decide +kernel
example : (validDomain demoWorld b!"mail.example.com" []).1.1 = .good := by decide +kernel
example : (validDomain demoWorld b!"empty.example.com" []).1.1 = .undef := by decide +kernel
example : demoWorld.Static := demoWorld_static

/-! ## C50 -/

/-- C50: every name is in exactly one list, with multiplicity; the lists are sorted; membership is decided by the
forward lookup. -/
theorem C50_classification (W : World) (hs : W.Static) (ip : Str) (hip : ip ≠ []) (t : Trace) (names : List Str)
    (hl : W.lookupAddr 0 ip = .ok names) :
    let r := (lookupAddrVerified W ip t).1
    (r.verified ++ r.nofwd ++ r.inconsist).Perm names ∧
    Ascending r.verified ∧ Ascending r.nofwd ∧ Ascending r.inconsist ∧
    ∀ x ∈ names, (x ∈ r.verified ↔ FwdOK W ip x) ∧ (x ∈ r.nofwd ↔ FwdFails W x) ∧ (x ∈ r.inconsist ↔ FwdOther W ip x) := by
  simp only [lookupAddrVerified, if_neg hip]
  rw [hs.lookupAddr, hl]
  simp only
  obtain ⟨v, n, i, h1, h2, h3, h4, h5, h6, h7, h8⟩ :=
    rdnsLoop_spec hs ip (sortStrs names) {} (.lookupAddr ip :: t)
  rw [h1]
  simp only [List.nil_append]
  have hsort := sortStrs_sorted names
  refine ⟨h2.trans (sortStrs_perm names), hsort.sublist h3, hsort.sublist h4, hsort.sublist h5, ?_⟩
  intro x hx
  have hmem : x ∈ v ∨ x ∈ n ∨ x ∈ i := by
    have := (h2.mem_iff (a := x)).mpr ((sortStrs_perm names).mem_iff.mpr hx)
    simpa [or_assoc] using this
  have ex1 : FwdOK W ip x → ¬ FwdFails W x := by rintro ⟨as, h, -⟩ ⟨e, h'⟩; rw [h] at h'; cases h'
  have ex2 : FwdOK W ip x → ¬ FwdOther W ip x := by
    rintro ⟨as, h, a, ha, he⟩ ⟨as', h', hn⟩; rw [h] at h'; cases h'; exact hn a ha he
  have ex3 : FwdFails W x → ¬ FwdOther W ip x := by rintro ⟨e, h⟩ ⟨as, h', -⟩; rw [h] at h'; cases h'
  have k1 := h6 x; have k2 := h7 x; have k3 := h8 x
  tauto

/-- C50: without PTR records there are no names. -/
theorem C50_no_names (W : World) (ip : Str) (t : Trace) (h : ip = [] ∨ ∃ e, W.lookupAddr t.length ip = .error e) :
    (lookupAddrVerified W ip t).1 = {} := by
  unfold lookupAddrVerified
  rcases h with rfl | ⟨e, h⟩
  · simp
  · split
    · rfl
    · simp [h]

/-- C50: a client address that is not an IP address never has a verified name. -/
theorem C50_invalid_client (W : World) (hs : W.Static) (ip : Str) (t : Trace) (h : W.lib.parseIP ip = none) :
    (lookupAddrVerified W ip t).1.verified = [] := by
  by_cases hip : ip = []
  · simp [lookupAddrVerified, hip]
  cases hl : W.lookupAddr 0 ip with
  | error e => rw [C50_no_names W ip t (Or.inr ⟨e, by rw [hs.lookupAddr]; exact hl⟩)]
  | ok names =>
    obtain ⟨h1, -, -, -, h2⟩ := C50_classification W hs ip hip t names hl
    rw [List.eq_nil_iff_forall_not_mem]
    intro x hx
    have hxn : x ∈ names := h1.mem_iff.mp (by simp [hx])
    obtain ⟨as, -, a, -, ha⟩ := (h2 x hxn).1.mp hx
    rw [h] at ha; cases ha

example : (lookupAddrVerified demoWorld b!"192.0.2.2" []).1 =
    ⟨[b!"mail.example.com."], [b!"www.example.com."], [b!"mx.example.com."]⟩ := by decide +kernel
example : ∃ names, demoWorld.lookupAddr 0 b!"192.0.2.2" = .ok names := ⟨_, rfl⟩

end Sink
