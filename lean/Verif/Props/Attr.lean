import Verif.Lemmas.Trace
import Verif.Props.Eval

/-!
# Attributes (C28, C29, C30)

`Says W tr c k x`: in context `c` the operator `k` (`from-has`, `to-has`, `helo-has`, `dns`) with the single word `x` is
true.
-/

namespace Sink
open Spec

/-- The operator with this one word is true. -/
def Says (W : World) (tr : TransR) (c : Ctx) (k : OKind) (x : Attr) : Prop := ∃ c', eval W tr (.optN k x.bit) c = .ok (true, c')

/-- The address an operator is about. -/
def addrOf (c : Ctx) : OKind → Str
  | .fromHas => c.from_
  | .toHas => c.rcptto
  | _ => []

theorem says_dec {W : World} {tr : TransR} {c : Ctx} {k : OKind} {o : Opts} :
    (∃ c', eval W tr (.optN k o) c = .ok (true, c')) ↔ (evalOpt W tr k o c).1 = true := by
  simp only [eval, Except.ok.injEq]
  constructor
  · rintro ⟨c', h⟩; rw [h]
  · intro h; exact ⟨(evalOpt W tr k o c).2, by rw [← h]⟩

theorem says_opts {W : World} {tr : TransR} {c : Ctx} {k : OKind} {o : Opts} :
    (∃ c', eval W tr (.optN k o) c = .ok (true, c')) ↔ o &&& (k.get W tr c).1 ≠ 0 :=
  says_dec.trans decide_eq_true_iff

theorem says_addr {W : World} {tr : TransR} {c : Ctx} {k : OKind} (hk : k = .fromHas ∨ k = .toHas) (o : Opts) :
    (∃ c', eval W tr (.optN k o) c = .ok (true, c')) ↔ o &&& (getAddrOpts W (addrOf c k) c).1 ≠ 0 := by
  rw [says_opts]
  rcases hk with rfl | rfl <;> rfl

theorem says_iff {W : World} {tr : TransR} {c : Ctx} {k : OKind} (hk : k = .fromHas ∨ k = .toHas) {P : Attr → Prop}
    (hP : ∀ o, o &&& (getAddrOpts W (addrOf c k) c).1 ≠ 0 ↔ ∃ x, P x ∧ o &&& x.bit ≠ 0) (x : Attr) :
    Says W tr c k x ↔ P x := by
  unfold Says
  rw [says_addr hk, hP]
  constructor
  · rintro ⟨y, hy, hb⟩; rw [bit_and_ne.mp hb]; exact hy
  · intro h; exact ⟨x, h, bit_and_ne.mpr rfl⟩

/-! ## C28 -/

/-- **C28.** In any world and context: `resolves`, `baddom` and `unknown` exclude each other and are never said of an
address that is garbage, a route, unqualified or without `@`; an address without `@` is never unqualified or a route; the
null address has no attributes. -/
theorem C28_consistent (W : World) (tr : TransR) (c : Ctx) (k : OKind) (hk : k = .fromHas ∨ k = .toHas) :
    (∀ x ∈ [Attr.resolves, .baddom, .unknown], ∀ y ∈ [Attr.resolves, .baddom, .unknown],
      Says W tr c k x → Says W tr c k y → x = y) ∧
    (∀ x ∈ [Attr.resolves, .baddom, .unknown], ∀ y ∈ [Attr.garbage, .route, .unqualified, .noat],
      Says W tr c k x → ¬ Says W tr c k y) ∧
    (Says W tr c k .noat → ¬ Says W tr c k .unqualified ∧ ¬ Says W tr c k .route) ∧
    (addrOf c k = [] → ∀ x, ¬ Says W tr c k x) := by
  obtain ⟨P, hP, h⟩ := getAddrOpts_dyn W (addrOf c k) c
  have hs := fun x => says_iff (tr := tr) hk hP x
  simp only [hs]
  have hshape : ∀ {x : Attr}, x ∈ [Attr.resolves, .baddom, .unknown] → ¬ ShapeAttr (addrOf c k) x := by
    intro x hx
    simp only [List.mem_cons, List.not_mem_nil, or_false] at hx
    rcases hx with rfl | rfl | rfl <;> simp [ShapeAttr]
  rcases h with ⟨hnd, hPx, -⟩ | ⟨d, hd, hPx, -⟩
  · simp only [hPx]
    refine ⟨fun x hx _ _ h => absurd h (hshape hx), fun x hx _ _ h => absurd h (hshape hx), ?_, ?_⟩
    · rintro ⟨h1, h2⟩
      simp only [ShapeAttr]
      constructor
      · rintro ⟨l, d, h3, -⟩; rw [h3] at h2; simp at h2
      · rintro ⟨r, h3, -⟩; rw [h3] at h2; simp at h2
    · intro he x hx
      rw [he] at hx
      cases x <;> simp [ShapeAttr, IsNoat, IsRoute, IsUnqualified, IsQuoted, IsGarbage] at hx
  · simp only [hPx]
    obtain ⟨⟨l, he, hl⟩, h1, h2, h3⟩ := hd
    have hno : ∀ y ∈ [Attr.garbage, .route, .unqualified, .noat], ¬ ShapeAttr (addrOf c k) y := by
      intro y hy
      simp only [List.mem_cons, List.not_mem_nil, or_false] at hy
      rcases hy with rfl | rfl | rfl | rfl
      · exact h2
      · exact h3
      · exact h1
      · rintro ⟨-, h⟩; rw [he] at h; simp at h
    have hdom : ∀ y ∈ [Attr.garbage, .route, .unqualified, .noat], domAttr (c.validDomain W d).1.1 ≠ some y := by
      intro y hy
      simp only [List.mem_cons, List.not_mem_nil, or_false] at hy
      cases (c.validDomain W d).1.1 <;> rcases hy with rfl | rfl | rfl | rfl <;> simp [domAttr]
    refine ⟨?_, ?_, ?_, ?_⟩
    · rintro x hx y hy (h | h) (h' | h')
      · exact absurd h (hshape hx)
      · exact absurd h (hshape hx)
      · exact absurd h' (hshape hy)
      · rw [h] at h'; exact Option.some.inj h'
    · rintro x hx y hy - (h | h)
      · exact hno y hy h
      · exact hdom y hy h
    · rintro (h | h)
      · exact absurd h (hno _ (by simp))
      · exact absurd h (hdom _ (by simp))
    · intro he'; rw [he'] at he; simp at he

/-- C28: what the words mean, in any world: the shapes are read off the address, and a domain attribute is the verdict on
the domain of a well-formed address. -/
theorem C28_meaning (W : World) (tr : TransR) (c : Ctx) (k : OKind) (hk : k = .fromHas ∨ k = .toHas) :
    (Says W tr c k .noat ↔ IsNoat (addrOf c k)) ∧ (Says W tr c k .route ↔ IsRoute (addrOf c k)) ∧
    (Says W tr c k .unqualified ↔ IsUnqualified (addrOf c k)) ∧ (Says W tr c k .quoted ↔ IsQuoted (addrOf c k)) ∧
    (Says W tr c k .garbage ↔ IsGarbage (addrOf c k)) ∧
    (Says W tr c k .resolves ↔ ∃ d, HasDomain (addrOf c k) d ∧ (c.validDomain W d).1.1 = .good) ∧
    (Says W tr c k .baddom ↔ ∃ d, HasDomain (addrOf c k) d ∧ (c.validDomain W d).1.1 = .bad) ∧
    (Says W tr c k .unknown ↔ ∃ d, HasDomain (addrOf c k) d ∧ (c.validDomain W d).1.1 = .tempfail) := by
  obtain ⟨P, hP, h⟩ := getAddrOpts_dyn W (addrOf c k) c
  have hs := fun x => says_iff (tr := tr) hk hP x
  simp only [hs]
  rcases h with ⟨hnd, hPx, -⟩ | ⟨d, hd, hPx, -⟩
  · simp only [hPx, ShapeAttr, hnd, false_and, exists_false, and_self]
  · simp only [hPx, ShapeAttr, false_or]
    have hu : ∀ d', HasDomain (addrOf c k) d' ↔ d' = d := by
      intro d'
      refine ⟨fun h => ?_, fun h => h ▸ hd⟩
      obtain ⟨⟨l, he, hl⟩, -⟩ := hd
      obtain ⟨⟨l', he', hl'⟩, -⟩ := h
      rw [he] at he'
      exact (split_unique he' hl hl').2.symm
    simp only [hu, exists_eq_left]
    cases (c.validDomain W d).1.1 <;> simp [domAttr]

/-- C28, partly: the manual says that `bad` is `noat,quoted,unqualified,garbage` (doc.go:597).  What the code does is
this; see `C28_bad_differs` for the difference. -/
theorem C28_bad_partial (W : World) (tr : TransR) (c : Ctx) (k : OKind) (hk : k = .fromHas ∨ k = .toHas) :
    (∃ c', eval W tr (.optN k oBad) c = .ok (true, c')) ↔
      Says W tr c k .noat ∨ Says W tr c k .route ∨ Says W tr c k .unqualified ∨ Says W tr c k .garbage := by
  obtain ⟨P, hP, h⟩ := getAddrOpts_dyn W (addrOf c k) c
  have hs := fun x => says_iff (tr := tr) hk hP x
  simp only [hs]
  rw [says_addr hk, hP]
  constructor
  · rintro ⟨x, hx, hb⟩
    cases x <;> first | exact absurd (by decide +kernel) hb | simp [hx]
  · rintro (h | h | h | h) <;> exact ⟨_, h, by decide +kernel⟩

/-- The manual's `bad`. -/
def DocBad (W : World) (tr : TransR) (c : Ctx) (k : OKind) : Prop :=
  Says W tr c k .noat ∨ Says W tr c k .quoted ∨ Says W tr c k .unqualified ∨ Says W tr c k .garbage

/-- **C28** fails for `bad`: a quoted address is not bad, although the manual says so, and a route is, although the manual
does not say so. -/
theorem C28_bad_differs :
    (∃ c : Ctx, DocBad demoWorld demoTrans c .fromHas ∧ ¬ ∃ c', eval demoWorld demoTrans (.optN .fromHas oBad) c = .ok (true, c')) ∧
    (∃ c : Ctx, ¬ DocBad demoWorld demoTrans c .fromHas ∧ ∃ c', eval demoWorld demoTrans (.optN .fromHas oBad) c = .ok (true, c')) := by
  constructor
  · refine ⟨{ demoCtx with from_ := b!"\"joe\"@example.com" }, ?_⟩
    simp only [DocBad, Says, says_dec]
    decide +kernel
  · refine ⟨{ demoCtx with from_ := b!"@relay.com:joe@example.com" }, ?_⟩
    simp only [DocBad, Says, says_dec]
    decide +kernel

example : Says demoWorld demoTrans demoCtx .fromHas .resolves := says_dec.mpr (by decide +kernel)
example : Says demoWorld demoTrans { demoCtx with from_ := b!"joe" } .fromHas .noat := says_dec.mpr (by decide +kernel)
example : Says demoWorld demoTrans { demoCtx with from_ := b!"joe@no.such.domain" } .fromHas .baddom := says_dec.mpr (by decide +kernel)
example : Says demoWorld demoTrans { demoCtx with rcptto := b!"joe@slowmx.example.com" } .toHas .unknown := says_dec.mpr (by decide +kernel)

/-! ## C29 -/

theorem says_helo {W : World} {tr : TransR} {c : Ctx} (x : Attr) : Says W tr c .heloHas x ↔ HeloAttr W.lib tr c.mail x := by
  classical
  unfold Says
  rw [says_opts]
  simp only [OKind.get]
  rw [heloGetter_eq W.lib tr c (f := fun x => decide (HeloAttr W.lib tr c.mail x)) (by simp), and_mkOpts]
  simp only [decide_eq_true_eq]
  constructor
  · rintro ⟨y, hy, hb⟩; rw [bit_and_ne.mp hb]; exact hy
  · intro h; exact ⟨x, h, bit_and_ne.mpr rfl⟩

/-- **C29.** Exactly one of `helo` and `ehlo` is true; `bareip` and `properip` exclude each other if a text in brackets is
never itself an IP address; at most one of `remip`, `myip`, `otherip` is true; if the client's and the server's address are
known, one of them is true only if `bareip` or `properip` is; `none` is true exactly for an empty name. -/
theorem C29_consistent (W : World) (tr : TransR) (c : Ctx) :
    (Says W tr c .heloHas .helo ↔ ¬ Says W tr c .heloHas .ehlo) ∧
    ((∀ t, W.lib.parseIP (b!"[" ++ t ++ b!"]") = none) → ¬ (Says W tr c .heloHas .bareip ∧ Says W tr c .heloHas .properip)) ∧
    (∀ x ∈ [Attr.remip, .myip, .otherip], ∀ y ∈ [Attr.remip, .myip, .otherip],
      Says W tr c .heloHas x → Says W tr c .heloHas y → x = y) ∧
    (tr.rip ≠ [] → tr.lip ≠ [] → ∀ x ∈ [Attr.remip, .myip, .otherip], Says W tr c .heloHas x →
      Says W tr c .heloHas .bareip ∨ Says W tr c .heloHas .properip) ∧
    (Says W tr c .heloHas .none ↔ c.heloname = []) := by
  simp only [says_helo]
  refine ⟨by simp [HeloAttr], ?_, ?_, ?_, Iff.rfl⟩
  · rintro hb ⟨⟨-, -, h1⟩, t, ⟨h2, -⟩⟩
    rw [h2, hb t] at h1; cases h1
  · have hu := fun t u => @heloIP_unique W.lib c.heloname t u
    intro x hx y hy h h'
    simp only [List.mem_cons, List.not_mem_nil, or_false] at hx hy
    rcases hx with rfl | rfl | rfl <;> rcases hy with rfl | rfl | rfl <;> try rfl
    · exact absurd h.2.2 h'.2.2.2
    · obtain ⟨-, -, t, -, h1, -, h2⟩ := h'
      exact absurd (hu _ _ h1 h.2.2) h2
    · exact absurd h'.2.2 h.2.2.2
    · obtain ⟨-, -, t, -, h1, h2, -⟩ := h'
      exact absurd (hu _ _ h1 h.2.2.1) h2
    · obtain ⟨-, -, t, -, h1, -, h2⟩ := h
      exact absurd (hu _ _ h1 h'.2.2) h2
    · obtain ⟨-, -, t, -, h1, h2, -⟩ := h
      exact absurd (hu _ _ h1 h'.2.2.1) h2
  · intro hr hl x hx h
    have key : ∀ t, t ≠ [] → c.heloname ≠ [] → c.heloname ≠ b!"." → HeloIP W.lib c.heloname t →
        HeloAttr W.lib tr c.mail .bareip ∨ HeloAttr W.lib tr c.mail .properip := by
      rintro t ht h1 h2 (h | ⟨-, h, -⟩ | ⟨-, -, h⟩)
      · exact Or.inr ⟨t, h⟩
      · exact Or.inl ⟨h1, h2, h⟩
      · exact absurd h ht
    simp only [List.mem_cons, List.not_mem_nil, or_false] at hx
    rcases hx with rfl | rfl | rfl
    · exact key _ hr h.1 h.2.1 h.2.2
    · exact key _ hl h.1 h.2.1 h.2.2.1
    · obtain ⟨h1, h2, t, h3, h4, -⟩ := h
      exact key t h3 h1 h2 h4

/-- C29: each word, spelled out. -/
theorem C29_meaning (W : World) (tr : TransR) (c : Ctx) (x : Attr) : Says W tr c .heloHas x ↔ HeloAttr W.lib tr c.mail x :=
  says_helo x

/-- C29, why the addresses must be known: with an empty client address any name that is not an IP address is `remip`. -/
theorem C29_unknown_client (W : World) (tr : TransR) (c : Ctx) (h0 : tr.rip = []) (h1 : c.heloname ≠ []) (h2 : c.heloname ≠ b!".")
    (h3 : W.lib.parseIP c.heloname = none) (h4 : ∀ t, ¬ Bracketed W.lib c.heloname t) : Says W tr c .heloHas .remip := by
  rw [says_helo]
  exact ⟨h1, h2, Or.inr (Or.inr ⟨h4, by show (W.lib.parseIP c.heloname).isSome = false; simp [h3], h0⟩)⟩

example : Says demoWorld demoTrans { demoCtx with heloname := b!"[1.2.3.4]" } .heloHas .remip := says_dec.mpr (by decide +kernel)
example : Says demoWorld demoTrans { demoCtx with heloname := b!"5.6.7.8" } .heloHas .myip := says_dec.mpr (by decide +kernel)
example : Says demoWorld demoTrans { demoCtx with heloname := b!"9.9.9.9" } .heloHas .otherip := says_dec.mpr (by decide +kernel)
example : ¬ Says demoWorld demoTrans demoCtx .heloHas .otherip := by unfold Says; rw [says_dec]; decide +kernel

/-! ## C30 -/

theorem says_dns {W : World} {tr : TransR} {c : Ctx} (x : Attr) : Says W tr c .dns x ↔ DnsAttr tr x := by
  classical
  unfold Says
  rw [says_opts]
  simp only [OKind.get]
  rw [dnsGetter_eq tr (f := fun x => decide (DnsAttr tr x)) (by simp), and_mkOpts]
  simp only [decide_eq_true_eq]
  constructor
  · rintro ⟨y, hy, hb⟩; rw [bit_and_ne.mp hb]; exact hy
  · intro h; exact ⟨x, h, bit_and_ne.mpr rfl⟩

/-- **C30.** Exactly one of `nodns` and `exists` is true, and `good` is true exactly when there is a verified name and
neither a name without address nor one with other addresses. -/
theorem C30_consistent (W : World) (tr : TransR) (c : Ctx) :
    (Says W tr c .dns .nodns ↔ ¬ Says W tr c .dns .exists_) ∧
    (Says W tr c .dns .good ↔ tr.rdns.verified ≠ [] ∧ tr.rdns.nofwd = [] ∧ tr.rdns.inconsist = []) ∧
    (Says W tr c .dns .good ↔ Says W tr c .dns .exists_ ∧ ¬ Says W tr c .dns .nofwd ∧ ¬ Says W tr c .dns .inconsist) ∧
    (Says W tr c .dns .exists_ ↔ tr.rdns.verified ≠ []) ∧ (Says W tr c .dns .nofwd ↔ tr.rdns.nofwd ≠ []) ∧
    (Says W tr c .dns .inconsist ↔ tr.rdns.inconsist ≠ []) := by
  simp only [says_dns, DnsAttr, ne_eq, not_not, and_self]

example : Says demoWorld demoTrans demoCtx .dns .inconsist ∧ ¬ Says demoWorld demoTrans demoCtx .dns .good := by
  simp only [Says, says_dec]; decide +kernel

end Sink
