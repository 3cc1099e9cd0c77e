import Verif.Props.IpRule6
import Verif.Props.Attr

/-!
# C106: EHLO names that are IP addresses
-/

namespace Sink
open Spec

/-- The text is one way to write the address. -/
def Spells (strict four : Bool) (s : Str) (ip : IP) : Prop :=
  (∃ a b c d, Dotted strict s a b c d ∧ ip = .v4 (ipv4 a b c d)) ∨ ∃ gs, V6Text strict four s gs ∧ ProperIP ip ∧ ipNum ip = hextets gs

section
variable {strict four : Bool} (hv : four = true → strict = true) {lo : Str → Str} {hlo : ∀ s, s ≠ [] → lo s ≠ []}

theorem spells_byte {s : Str} {ip : IP} (h : Spells strict four s ip) : s ≠ [] ∧ s ≠ b!"." ∧ ∀ c ∈ s, V6Byte c := by
  rcases h with ⟨a, b, c, d, h, -⟩ | ⟨gs, h, -⟩
  · obtain ⟨h1, -, x, t, rfl, h2⟩ := quad_bytes h
    refine ⟨by simp, fun e => ?_, fun c hc => (h1 c hc).elim (fun h => .inl (digit_hex h).1) fun h => .inr (.inr h)⟩
    rw [(List.cons.inj e).1] at h2
    exact absurd h2 (by decide)
  · exact ⟨fun e => by simpa [e] using v6_colon h, fun e => absurd (e ▸ v6_colon h) (by decide), (v6_bytes h).1⟩

theorem spells_bracket {t : Str} {ip : IP} : ¬ Spells strict four (b!"[" ++ t ++ b!"]") ip := fun h =>
  ((spells_byte h).2.2 c!"[" (by simp)).other.2.2.1 rfl

include hv in
theorem spells_iff (s : Str) : ((netLib strict four lo hlo).parseIP s).isSome = true ↔ ∃ ip, Spells strict four s ip := by
  simp only [Option.isSome_iff_exists, C105_addresses hv, Spells]

include hv in
theorem bracketed_iff (hn t : Str) : Bracketed (netLib strict four lo hlo) hn t ↔ hn = b!"[" ++ t ++ b!"]" ∧ ∃ ip, Spells strict four t ip := by
  unfold Bracketed
  rw [spells_iff hv]
  exact ⟨fun ⟨h1, _, h2⟩ => ⟨h1, h2⟩, fun ⟨h1, ip, h2⟩ => ⟨h1, (spells_byte h2).1, ip, h2⟩⟩

include hv in
/-- The address text in the name, if there is one. -/
theorem heloIP_iff {hn t : Str} (ht : t ≠ []) :
    HeloIP (netLib strict four lo hlo) hn t ↔ (hn = t ∨ hn = b!"[" ++ t ++ b!"]") ∧ ∃ ip, Spells strict four t ip := by
  unfold HeloIP
  simp only [bracketed_iff hv, spells_iff hv]
  constructor
  · rintro (⟨rfl, h⟩ | ⟨-, h, rfl⟩ | ⟨-, -, h⟩)
    · exact ⟨.inr rfl, h⟩
    · exact ⟨.inl rfl, h⟩
    · exact absurd h ht
  · rintro ⟨rfl | rfl, ip, h⟩
    · refine .inr (.inl ⟨?_, ⟨ip, h⟩, rfl⟩)
      rintro u ⟨rfl, -⟩
      exact spells_bracket h
    · exact .inl ⟨rfl, ip, h⟩

variable {W : World} (hl : W.lib = netLib strict four lo hlo)

theorem in_brackets (t : Str) : b!"[" ++ t ++ b!"]" ≠ [] ∧ b!"[" ++ t ++ b!"]" ≠ b!"." := by
  refine ⟨by simp, fun e => ?_⟩
  have := (List.cons.inj e).1
  exact absurd this (by decide)

include hv hl in
/-- **C106.** An EHLO name is `bareip` iff it is the text of an address, `properip` iff it is one in brackets; never both. -/
theorem C106_forms (tr : TransR) (c : Ctx) :
    (Says W tr c .heloHas .bareip ↔ ∃ ip, Spells strict four c.heloname ip) ∧
    (Says W tr c .heloHas .properip ↔ ∃ t ip, c.heloname = b!"[" ++ t ++ b!"]" ∧ Spells strict four t ip) ∧
    ¬ (Says W tr c .heloHas .bareip ∧ Says W tr c .heloHas .properip) := by
  have h1 : Says W tr c .heloHas .bareip ↔ ∃ ip, Spells strict four c.heloname ip := by
    rw [C29_meaning, hl]
    show (c.heloname ≠ [] ∧ c.heloname ≠ b!"." ∧ _) ↔ _
    have := spells_iff (lo := lo) (hlo := hlo) hv c.heloname
    exact ⟨fun h => this.1 h.2.2, fun ⟨ip, h⟩ => ⟨(spells_byte h).1, (spells_byte h).2.1, this.2 ⟨ip, h⟩⟩⟩
  have h2 : Says W tr c .heloHas .properip ↔ ∃ t ip, c.heloname = b!"[" ++ t ++ b!"]" ∧ Spells strict four t ip := by
    rw [C29_meaning, hl]
    show (∃ t, Bracketed _ c.heloname t) ↔ _
    simp only [bracketed_iff hv, exists_and_left]
  refine ⟨h1, h2, ?_⟩
  rw [h1, h2]
  rintro ⟨⟨ip, h⟩, t, -, h', -⟩
  rw [h'] at h
  exact spells_bracket h

theorem ipText_ne (ip : IP) : ipText ip ≠ [] := by
  match ip with
  | .v4 y => simp [ipText, ipv4Text]
  | .v6 x =>
    obtain ⟨h1, h2, -⟩ := groupsOf_spec x.isLt
    have := v6_colon (v6_text true true h1 h2)
    intro e
    rw [show ipText (.v6 x) = ipv6Text (groupsOf x.toNat) from rfl] at e
    rw [e] at this
    cases this

include hv in
theorem spells_text {ip : IP} (hp : ProperIP ip) : Spells strict four (ipText ip) ip :=
  (C105_addresses (lo := id) (hlo := fun _ h => h) hv _ _).1 (C105_text hv hp)

include hv hl in
/-- **C106.** For a client and a server with known addresses: `remip` iff the name is the client's address as Go writes it, bare or in brackets;
`myip` iff it is the server's and this is another one; `otherip` iff it is any other text of an address, bare or in brackets. -/
theorem C106_whose {tr : TransR} {rem loc : IP} (hr : ProperIP rem) (hlc : ProperIP loc) (htr : tr.rip = ipText rem) (htl : tr.lip = ipText loc) (c : Ctx) :
    (Says W tr c .heloHas .remip ↔ c.heloname = ipText rem ∨ c.heloname = b!"[" ++ ipText rem ++ b!"]") ∧
    (Says W tr c .heloHas .myip ↔ rem ≠ loc ∧ (c.heloname = ipText loc ∨ c.heloname = b!"[" ++ ipText loc ++ b!"]")) ∧
    (Says W tr c .heloHas .otherip ↔ ∃ t ip, Spells strict four t ip ∧ (c.heloname = t ∨ c.heloname = b!"[" ++ t ++ b!"]") ∧
      t ≠ ipText rem ∧ t ≠ ipText loc) := by
  have ne : ∀ {t}, (∃ ip, Spells strict four t ip) → (c.heloname = t ∨ c.heloname = b!"[" ++ t ++ b!"]") → c.heloname ≠ [] ∧ c.heloname ≠ b!"." := by
    rintro t ⟨ip, h⟩ (rfl | h')
    · exact ⟨(spells_byte h).1, (spells_byte h).2.1⟩
    · rw [h']; exact in_brackets t
  have inj : ∀ {i j : IP}, ProperIP i → ProperIP j → ipText i = ipText j → i = j := fun hi hj e => by
    have h := C105_text (lo := lo) (hlo := hlo) hv hi
    rw [e, C105_text hv hj] at h
    injection h with h
    exact h.symm
  have nb : ∀ {i : IP} {t : Str}, ProperIP i → ipText i ≠ b!"[" ++ t ++ b!"]" := fun hi e => by
    have := spells_text (strict := strict) (four := four) hv hi
    rw [e] at this
    exact spells_bracket this
  have br : ∀ {s t : Str}, b!"[" ++ s ++ b!"]" = b!"[" ++ t ++ b!"]" → s = t := fun h => by simpa using h
  simp only [C29_meaning, hl]
  refine ⟨?_, ?_, ?_⟩
  · show (c.heloname ≠ [] ∧ c.heloname ≠ b!"." ∧ HeloIP _ c.heloname tr.rip) ↔ _
    rw [htr, heloIP_iff hv (ipText_ne rem)]
    exact ⟨fun h => h.2.2.1, fun h => ⟨(ne ⟨_, spells_text hv hr⟩ h).1, (ne ⟨_, spells_text hv hr⟩ h).2, h, _, spells_text hv hr⟩⟩
  · show (c.heloname ≠ [] ∧ c.heloname ≠ b!"." ∧ HeloIP _ c.heloname tr.lip ∧ ¬ HeloIP _ c.heloname tr.rip) ↔ _
    rw [htr, htl, heloIP_iff hv (ipText_ne rem), heloIP_iff hv (ipText_ne loc)]
    constructor
    · rintro ⟨-, -, ⟨h, -⟩, h'⟩
      refine ⟨?_, h⟩
      rintro rfl
      exact h' ⟨h, _, spells_text hv hr⟩
    · rintro ⟨hne, h⟩
      obtain ⟨n1, n2⟩ := ne ⟨_, spells_text hv hlc⟩ h
      refine ⟨n1, n2, ⟨h, _, spells_text hv hlc⟩, ?_⟩
      rintro ⟨h', -⟩
      rcases h with h | h <;> rcases h' with h' | h' <;> rw [h] at h'
      · exact hne (inj hlc hr h').symm
      · exact nb hlc h'
      · exact nb hr h'.symm
      · exact hne (inj hlc hr (br h')).symm
  · show (c.heloname ≠ [] ∧ c.heloname ≠ b!"." ∧ ∃ t, t ≠ [] ∧ HeloIP _ c.heloname t ∧ t ≠ tr.lip ∧ t ≠ tr.rip) ↔ _
    rw [htr, htl]
    constructor
    · rintro ⟨-, -, t, h0, h1, h2, h3⟩
      obtain ⟨h4, ip, h5⟩ := (heloIP_iff hv h0).1 h1
      exact ⟨t, ip, h5, h4, h3, h2⟩
    · rintro ⟨t, ip, h5, h4, h3, h2⟩
      obtain ⟨n1, n2⟩ := ne ⟨_, h5⟩ h4
      exact ⟨n1, n2, t, (spells_byte h5).1, (heloIP_iff hv (spells_byte h5).1).2 ⟨h4, _, h5⟩, h2, h3⟩

include hv hl in
/-- **C106.** Against the manual (doc.go:649-654): a client that writes its own address in another way than Go does has `otherip`, not `remip`. -/
theorem C106_other_spelling {tr : TransR} {rem loc : IP} (hr : ProperIP rem) (hlc : ProperIP loc) (htr : tr.rip = ipText rem) (htl : tr.lip = ipText loc)
    {t : Str} (hs : Spells strict four t rem) (hne : t ≠ ipText rem) {c : Ctx} (hc : c.heloname = t ∨ c.heloname = b!"[" ++ t ++ b!"]") :
    ¬ Says W tr c .heloHas .remip ∧ (t ≠ ipText loc → Says W tr c .heloHas .otherip) := by
  obtain ⟨h1, -, h3⟩ := C106_whose hv hl hr hlc htr htl c
  rw [h1, h3]
  refine ⟨?_, fun hl' => ⟨t, rem, hs, hc, hne, hl'⟩⟩
  have nb : ∀ {s : Str} {i : IP} {u}, Spells strict four s i → s ≠ b!"[" ++ u ++ b!"]" := fun h e => spells_bracket (e ▸ h)
  rintro (h | h) <;> rcases hc with h' | h' <;> rw [h'] at h
  · exact hne h
  · exact nb (spells_text (strict := strict) (four := four) hv hr) h.symm
  · exact nb hs h
  · exact hne (by simpa using h)

include hv hl in
/-- **C106.** The form of IPv6 literals that RFC 5321 wants, `[IPv6:...]`, is not an address to the rules at all. -/
theorem C106_rfc {tr : TransR} (hr : tr.rip ≠ []) (hlc : tr.lip ≠ []) {c : Ctx} {t : Str} (hc : c.heloname = b!"[IPv6:" ++ t ++ b!"]") :
    ∀ x ∈ [Attr.bareip, .properip, .remip, .myip, .otherip], ¬ Says W tr c .heloHas x := by
  obtain ⟨h1, h2, -⟩ := C106_forms hv hl tr c
  have n1 : ¬ Says W tr c .heloHas .bareip := by
    rw [h1, hc, show b!"[IPv6:" ++ t ++ b!"]" = b!"[" ++ (b!"IPv6:" ++ t) ++ b!"]" by simp]
    rintro ⟨ip, h⟩
    exact spells_bracket h
  have n2 : ¬ Says W tr c .heloHas .properip := by
    rw [h2, hc]
    rintro ⟨u, ip, h, h'⟩
    have hu : b!"IPv6:" ++ t = u := by
      rw [show b!"[IPv6:" ++ t ++ b!"]" = b!"[" ++ (b!"IPv6:" ++ t) ++ b!"]" by simp] at h
      exact List.append_cancel_left (List.append_cancel_right h)
    subst hu
    rcases (spells_byte h').2.2 c!"I" (by simp) with h | h | h
    · cases h
    · exact absurd h (by decide)
    · exact absurd h (by decide)
  have n3 := (C29_consistent W tr c).2.2.2.1 hr hlc
  intro x hx
  simp only [List.mem_cons, List.not_mem_nil, or_false] at hx
  rcases hx with rfl | rfl | rfl | rfl | rfl
  · exact n1
  · exact n2
  all_goals
    intro h
    rcases n3 _ (by simp) h with h | h
    · exact n1 h
    · exact n2 h

include hv hl in
/-- **C106.** A client with a zone is never `remip`. -/
theorem C106_zone {tr : TransR} {rem : Str} {zone : Str} (htr : tr.rip = rem ++ b!"%" ++ zone) (c : Ctx) : ¬ Says W tr c .heloHas .remip := by
  rw [C29_meaning, hl]
  rintro ⟨-, -, h⟩
  have hne : tr.rip ≠ [] := by rw [htr]; simp
  obtain ⟨-, ip, h⟩ := (heloIP_iff hv hne).1 h
  rcases (spells_byte h).2.2 c!"%" (by rw [htr]; simp) with h | h | h
  · cases h
  · exact absurd h (by decide)
  · exact absurd h (by decide)

theorem rdnsLoop_none {W : World} : ∀ {names : List Str} {r : RDNS} {t : Trace}, (rdnsLoop W none names r t).1.verified = r.verified
  | [], _, _ => rfl
  | name :: names, r, t => by
    rw [rdnsLoop]
    split
    · exact rdnsLoop_none
    · rw [if_neg (by simp)]
      exact rdnsLoop_none

include hv hl in
/-- **C106.** Nor is any host name of a client with a zone ever verified: it is `dns nodns` whatever the DNS says. -/
theorem C106_zone_names {tr : TransR} {rem zone : Str} {t : Trace} (htr : tr.rdns = (lookupAddrVerified W (rem ++ b!"%" ++ zone) t).1) :
    tr.rdns.verified = [] ∧ ∀ c, Says W tr c .dns .nodns ∧ ¬ Says W tr c .dns .exists_ ∧ ¬ Says W tr c .dns .good := by
  have h : tr.rdns.verified = [] := by
    rw [htr, lookupAddrVerified, if_neg (by simp), hl, zone_none hv]
    split
    · rfl
    · exact rdnsLoop_none
  simp only [says_dns, DnsAttr]
  exact ⟨h, fun _ => ⟨h, fun hg => hg h, fun hg => hg.1 h⟩⟩

end

/-! ## IPv4 -/

theorem lead_zero_numeral {w : Str} (h : Digits w) (h0 : w.head? = some c!"0" → w = b!"0") {n : Nat} (hn : numeral w = n) (hlt : n < 256) :
    w = decDigits n := by
  have key : ∀ c : Byte, 48 ≤ c ∧ c ≤ 57 → ∃ k < 10, c = 48 + UInt8.ofNat k ∧ c.toNat - 48 = k := by
    have : ∀ n : Fin 256, 48 ≤ UInt8.ofNat n ∧ UInt8.ofNat n ≤ 57 → ∃ k < 10, UInt8.ofNat n = 48 + UInt8.ofNat k ∧ (UInt8.ofNat n).toNat - 48 = k := by
      decide +kernel
    intro c hc
    have h' := this ⟨c.toNat, c.toNat_lt⟩
    simp only [UInt8.ofNat_toNat] at h'
    exact h' hc
  have hd := h.2
  match w with
  | [] => exact absurd rfl h.1
  | [c0] =>
    obtain ⟨k0, g0, rfl, e0⟩ := key c0 (hd c0 (by simp))
    have e : n = k0 := by rw [← hn]; simp only [numeral, List.foldl_cons, List.foldl_nil, e0]; omega
    subst e
    simp [decDigits, decDigitsN, g0]
  | [c0, c1] =>
    obtain ⟨k0, g0, rfl, e0⟩ := key c0 (hd c0 (by simp))
    obtain ⟨k1, g1, rfl, e1⟩ := key c1 (hd c1 (by simp))
    have e : n = k0 * 10 + k1 := by rw [← hn]; simp only [numeral, List.foldl_cons, List.foldl_nil, e0, e1]; omega
    have hne : k0 ≠ 0 := by
      rintro rfl
      have := h0 rfl
      simp at this
    have h1 : n / 10 = k0 := by omega
    have h2 : n % 10 = k1 := by omega
    have h3 : ¬ n < 10 := by omega
    obtain ⟨m, rfl⟩ : ∃ m, n = m + 1 := ⟨n - 1, by omega⟩
    rw [decDigits, decDigitsN, if_neg h3, h1, h2, decDigitsN, if_pos g0]
    rfl
  | [c0, c1, c2] =>
    obtain ⟨k0, g0, rfl, e0⟩ := key c0 (hd c0 (by simp))
    obtain ⟨k1, g1, rfl, e1⟩ := key c1 (hd c1 (by simp))
    obtain ⟨k2, g2, rfl, e2⟩ := key c2 (hd c2 (by simp))
    have e : n = (k0 * 10 + k1) * 10 + k2 := by rw [← hn]; simp only [numeral, List.foldl_cons, List.foldl_nil, e0, e1, e2]; omega
    have hne : k0 ≠ 0 := by
      rintro rfl
      have := h0 rfl
      simp at this
    have h1 : n / 10 / 10 = k0 := by omega
    have h1' : n / 10 % 10 = k1 := by omega
    have h2 : n % 10 = k2 := by omega
    have h3 : ¬ n < 10 := by omega
    have h4 : ¬ n / 10 < 10 := by omega
    obtain ⟨m, rfl⟩ : ∃ m, n = m + 1 + 1 := ⟨n - 2, by omega⟩
    rw [decDigits, decDigitsN, if_neg h3, h2, decDigitsN, if_neg h4, h1, h1', decDigitsN, if_pos g0]
    rfl
  | c0 :: c1 :: c2 :: c3 :: w' =>
    exfalso
    obtain ⟨k0, g0, rfl, e0⟩ := key c0 (hd c0 (by simp))
    have hne : k0 ≠ 0 := by
      rintro rfl
      have := h0 rfl
      simp at this
    have := four_digits (c0 := 48 + UInt8.ofNat k0) (c1 := c1) (c2 := c2) (c3 := c3) (w := w') (by omega)
    omega

theorem dotted_text {t : Str} {a b c d : Nat} (h : Dotted true t a b c d) : t = ipText (.v4 (ipv4 a b c d)) := by
  obtain ⟨w, x, y, z, rfl, h1, h2, h3, h4⟩ := h
  have hn := ipv4_toNat h1.lt h2.lt h3.lt h4.lt
  have e1 := h1.lt
  have e2 := h2.lt
  have e3 := h3.lt
  have e4 := h4.lt
  simp only [ipText]
  rw [hn, addrNum, show (a * 2 ^ 24 + b * 2 ^ 16 + c * 2 ^ 8 + d) / 2 ^ 24 = a by omega, show (a * 2 ^ 24 + b * 2 ^ 16 + c * 2 ^ 8 + d) / 2 ^ 16 % 256 = b by omega,
    show (a * 2 ^ 24 + b * 2 ^ 16 + c * 2 ^ 8 + d) / 2 ^ 8 % 256 = c by omega, show (a * 2 ^ 24 + b * 2 ^ 16 + c * 2 ^ 8 + d) % 256 = d by omega]
  rw [lead_zero_numeral h1.1 (h1.2.2.2 rfl) h1.2.1 e1, lead_zero_numeral h2.1 (h2.2.2.2 rfl) h2.2.1 e2, lead_zero_numeral h3.1 (h3.2.2.2 rfl) h3.2.1 e3,
    lead_zero_numeral h4.1 (h4.2.2.2 rfl) h4.2.1 e4]
  rfl

/-- **C106.** With a recent Go (no leading zeros) the manual is right about names `a.b.c.d` and `[a.b.c.d]`: `remip` iff this is the client's
address, `myip` iff it is the server's, `otherip` iff it is neither. -/
theorem C106_dotted {four : Bool} {lo : Str → Str} {hlo : ∀ s, s ≠ [] → lo s ≠ []} {W : World} (hl : W.lib = netLib true four lo hlo) {tr : TransR}
    {rem loc : IP} (hr : ProperIP rem) (hlc : ProperIP loc) (htr : tr.rip = ipText rem) (htl : tr.lip = ipText loc) {t : Str} {a b c d : Nat}
    (ht : Dotted true t a b c d) {x : Ctx} (hx : x.heloname = t ∨ x.heloname = b!"[" ++ t ++ b!"]") :
    (Says W tr x .heloHas .remip ↔ rem = .v4 (ipv4 a b c d)) ∧
    (Says W tr x .heloHas .myip ↔ rem ≠ .v4 (ipv4 a b c d) ∧ loc = .v4 (ipv4 a b c d)) ∧
    (Says W tr x .heloHas .otherip ↔ rem ≠ .v4 (ipv4 a b c d) ∧ loc ≠ .v4 (ipv4 a b c d)) := by
  have hv : four = true → true = true := fun _ => rfl
  obtain ⟨h1, h2, h3⟩ := C106_whose hv hl hr hlc htr htl x
  have hs : Spells true four t (.v4 (ipv4 a b c d)) := .inl ⟨a, b, c, d, ht, rfl⟩
  have hp : ProperIP (.v4 (ipv4 a b c d)) := trivial
  have inj : ∀ {i j : IP}, ProperIP i → ProperIP j → ipText i = ipText j → i = j := fun hi hj e => by
    have h := C105_text (lo := lo) (hlo := hlo) hv hi
    rw [e, C105_text hv hj] at h
    injection h with h
    exact h.symm
  have nb : ∀ {s : Str} {i : IP} {u}, Spells true four s i → s ≠ b!"[" ++ u ++ b!"]" := fun h e => spells_bracket (e ▸ h)
  have same : ∀ {u : Str} {i : IP}, Spells true four u i → (x.heloname = u ∨ x.heloname = b!"[" ++ u ++ b!"]" ↔ u = t) := by
    intro u i hu
    constructor
    · rintro (h | h) <;> rcases hx with h' | h' <;> rw [h'] at h
      · exact h.symm
      · exact absurd h.symm (nb hu)
      · exact absurd h (nb hs)
      · exact (by simpa using h.symm)
    · rintro rfl
      exact hx
  have tx : ∀ {i : IP}, ProperIP i → (ipText i = t ↔ i = .v4 (ipv4 a b c d)) := fun hi =>
    ⟨fun e => inj hi hp (e.trans (dotted_text ht)), fun e => by rw [e, ← dotted_text ht]⟩
  rw [h1, h2, h3, same (spells_text hv hr), same (spells_text hv hlc), tx hr, tx hlc]
  refine ⟨Iff.rfl, ⟨?_, ?_⟩, ⟨?_, ?_⟩⟩
  · rintro ⟨n, rfl⟩
    exact ⟨n, rfl⟩
  · rintro ⟨n, rfl⟩
    exact ⟨n, rfl⟩
  · rintro ⟨u, i, hu, h4, h5, h6⟩
    obtain rfl := (same hu).1 h4
    exact ⟨fun e => h5 ((tx hr).2 e).symm, fun e => h6 ((tx hlc).2 e).symm⟩
  · rintro ⟨n1, n2⟩
    exact ⟨t, _, hs, hx, fun e => n1 ((tx hr).1 e.symm), fun e => n2 ((tx hlc).1 e.symm)⟩

/-! ## The private addresses of C52 -/

/-- **C106.** The private IPv6 address space of C52 is the one written at mxresolve.go:70-71. -/
theorem C106_private {strict four : Bool} {lo : Str → Str} {hlo : ∀ s, s ≠ [] → lo s ≠ []} :
    (netLib strict four lo hlo).parseCIDR b!"FC00::/7" = some ipv6private ∧ (netLib strict four lo hlo).parseCIDR b!"FEC0::/10" = some ipv6siteloc := by
  cases strict <;> cases four <;> exact ⟨rfl, rfl⟩

/-- A client at 2001:db8::1 and a server at 10.0.0.1. -/
def demoTrans6 : TransR := { demoTrans with rip := ipText (.v6 0x20010db8000000000000000000000001#128), lip := ipText (.v4 0x0a000001#32) }

example : [b!"2001:db8::1", b!"[2001:db8::1]", b!"[2001:DB8::1]", b!"[2001:db8:0:0:0:0:0:1]", b!"[IPv6:2001:db8::1]", b!"10.0.0.1", b!"[10.0.0.01]", b!"::ffff:10.0.0.1"].map (fun n =>
      [Attr.bareip, .properip, .remip, .myip, .otherip].filter fun x => decide (heloGetter modernLib demoTrans6 { demoCtx with heloname := n } &&& x.bit ≠ 0)) =
    [[.bareip, .remip], [.properip, .remip], [.properip, .otherip], [.properip, .otherip], [], [.bareip, .myip], [], [.bareip, .otherip]] := by
  decide +kernel

end Sink
