import Verif.Lemmas.Attr
import Verif.Lemmas.Match
import Verif.Props.Mx

/-!
# Evaluation computes the semantics of Spec/Sem.lean
-/

namespace Sink
open Spec

/-- The caches hold what the (unchanging) world says. -/
structure CacheOK (W : World) (c : Ctx) : Prop where
  files : ∀ f l, c.files f = some l → l = fileEntries W f
  dnsbl : ∀ n b, c.dnsbl n = some b → (b = true ↔ Listed W n)
  domvalid : ∀ d r, c.domvalid d = some r →
    (r.1 = .good ↔ DomainValid W d) ∧ (r.1 = .tempfail ↔ DomainUnknown W d) ∧ (r.1 = .undef ↔ NoMX W d)

/-- The context without the parts that evaluation may change. -/
def Ctx.core (c : Ctx) : Ctx :=
  { c with files := fun _ => none, dnsbl := fun _ => none, domvalid := fun _ => none, dnsblhit := [], domerr := none,
           rulemiss := false, trace := [] }

theorem Ctx.core_mail {c c' : Ctx} (h : c'.core = c.core) : c'.mail = c.mail := by
  have := congrArg Ctx.mail h
  exact this

/-- What every evaluation step keeps. -/
structure Keeps (W : World) (c c' : Ctx) : Prop where
  cache : CacheOK W c'
  core : c'.core = c.core
  miss : c'.rulemiss = c.rulemiss

theorem Keeps.refl {W : World} {c : Ctx} (h : CacheOK W c) : Keeps W c c := ⟨h, rfl, rfl⟩
theorem Keeps.trans {W : World} {a b c : Ctx} (h : Keeps W a b) (h' : Keeps W b c) : Keeps W a c :=
  ⟨h'.cache, h'.core.trans h.core, h'.miss.trans h.miss⟩
theorem Keeps.mail {W : World} {c c' : Ctx} (h : Keeps W c c') : c'.mail = c.mail := Ctx.core_mail h.core

theorem getDnsblRes_spec {W : World} (hs : W.Static) {c : Ctx} (hc : CacheOK W c) (n : Str) :
    Keeps W c (getDnsblRes W n c).2 ∧ ((getDnsblRes W n c).1 = true ↔ Listed W n) := by
  unfold getDnsblRes
  cases h : c.dnsbl n with
  | some r => exact ⟨.refl hc, hc.dnsbl n r h⟩
  | none =>
    simp only
    rw [hs.lookupIP]
    cases hl : W.lookupIP 0 n with
    | error e =>
      refine ⟨⟨⟨hc.files, hc.dnsbl, hc.domvalid⟩, rfl, rfl⟩, ?_⟩
      simp [Listed, hl]
    | ok ips =>
      have hx : (decide (ips.length > 0) = true ↔ Listed W n) := by
        simp [Listed, hl, List.length_pos_iff]
      refine ⟨⟨⟨hc.files, ?_, hc.domvalid⟩, rfl, rfl⟩, hx⟩
      intro n' b hb
      simp only [upd] at hb
      split at hb
      · rename_i he; subst he; cases hb; exact hx
      · exact hc.dnsbl n' b hb

theorem addDnsblHit_keeps {W : World} {c : Ctx} (hc : CacheOK W c) (d : Str) : Keeps W c (addDnsblHit d c) := by
  unfold addDnsblHit
  split
  · exact .refl hc
  · exact ⟨⟨hc.files, hc.dnsbl, hc.domvalid⟩, rfl, rfl⟩

theorem ctxValidDomain_spec {W : World} (hs : W.Static) {c : Ctx} (hc : CacheOK W c) (d : Str) :
    Keeps W c (c.validDomain W d).2 ∧ ((c.validDomain W d).1.1 = .good ↔ DomainValid W d) ∧
      ((c.validDomain W d).1.1 = .tempfail ↔ DomainUnknown W d) ∧ ((c.validDomain W d).1.1 = .undef ↔ NoMX W d) := by
  unfold Ctx.validDomain
  cases h : c.domvalid d with
  | some r => exact ⟨.refl hc, hc.domvalid d r h⟩
  | none =>
    have hv := validDomain_verdict hs d c.trace
    refine ⟨⟨⟨hc.files, hc.dnsbl, ?_⟩, rfl, rfl⟩, hv⟩
    intro d' r hr
    simp only [upd] at hr
    split at hr
    · rename_i he; subst he; cases hr; exact hv
    · exact hc.domvalid d' r hr

/-! ## Pattern lists -/

theorem matchFile_argFile {a : Str} {r : Option Str} (h : matchFile a = .ok r) : argFile a = r := by
  unfold matchFile at h
  unfold argFile
  cases a with
  | nil => simp at h
  | cons x s =>
    simp only [hasPrefix, List.isPrefixOf_iff_prefix] at h
    have : b!"/" <+: x :: s ↔ x = c!"/" := by
      constructor
      · rintro ⟨t, ht⟩; simp at ht; exact ht.1.symm
      · rintro rfl; exact ⟨s, rfl⟩
    simp only [this]
    split at h
    · rename_i hx; rw [if_pos hx]; cases h; rfl
    · rename_i hx; rw [if_neg hx]
      split at h
      · rename_i hx; rw [if_pos hx]; cases h; rfl
      · rename_i hx; rw [if_neg hx]; cases h; rfl

theorem loadList_static {W : World} (hs : W.Static) (f : Str) (t : Trace) : (loadList W f t).1 = fileEntries W f := by
  unfold loadList fileEntries
  split
  · rfl
  · simp only [hs.files]
    cases W.files 0 f <;> rfl

theorem getMatchList_spec {W : World} (hs : W.Static) {c c' : Ctx} (hc : CacheOK W c) {a : Str} {l : List Str}
    (h : getMatchList W a c = .ok (l, c')) : Keeps W c c' ∧ l = patterns W a := by
  unfold getMatchList at h
  unfold patterns
  cases hm : matchFile a with
  | error p => rw [hm] at h; cases h
  | ok r =>
    rw [hm] at h
    rw [matchFile_argFile hm]
    cases r with
    | none => cases h; exact ⟨.refl hc, rfl⟩
    | some f =>
      simp only at h
      cases hf : c.files f with
      | some l' => rw [hf] at h; cases h; exact ⟨.refl hc, hc.files f l hf⟩
      | none =>
        rw [hf] at h
        cases h
        have hl := loadList_static hs f c.trace
        refine ⟨⟨⟨?_, hc.dnsbl, hc.domvalid⟩, rfl, rfl⟩, hl⟩
        intro f' l' hl'
        simp only [upd] at hl'
        split at hl'
        · rename_i he; subst he; cases hl'; exact hl
        · exact hc.files f' l' hl'

/-! ## Address attributes -/

theorem bad_mask (f : Attr → Bool) :
    mkOpts f &&& (oNoat ||| oUnqualified ||| oGarbage ||| oRoute) = 0 ↔
      f .noat = false ∧ f .unqualified = false ∧ f .garbage = false ∧ f .route = false := by
  rw [BitVec.and_comm, ← not_iff_not, ← ne_eq, and_mkOpts]
  constructor
  · rintro ⟨a, ha, hb⟩ ⟨h1, h2, h3, h4⟩
    cases a <;> first | exact hb (by decide +kernel) | simp_all
  · intro h
    by_contra hn
    refine h ⟨?_, ?_, ?_, ?_⟩ <;> rw [← Bool.not_eq_true] <;> intro hf <;> exact hn ⟨_, hf, by decide +kernel⟩

theorem hasDomain_iff {l d : Str} (hl : c!"@" ∉ l) (d' : Str) : HasDomain (l ++ c!"@" :: d) d' ↔
    d' = d ∧ ¬ IsUnqualified (l ++ c!"@" :: d) ∧ ¬ IsGarbage (l ++ c!"@" :: d) ∧ ¬ IsRoute (l ++ c!"@" :: d) := by
  unfold HasDomain
  constructor
  · rintro ⟨⟨l', h1, h2⟩, h⟩
    exact ⟨((split_unique h1 hl h2).2).symm, h⟩
  · rintro ⟨rfl, h⟩
    exact ⟨⟨l, rfl, hl⟩, h⟩

theorem getAddrOpts_spec {W : World} (hs : W.Static) {c : Ctx} (hc : CacheOK W c) (a : Str) :
    Keeps W c (getAddrOpts W a c).2 ∧
      ∀ o, o &&& (getAddrOpts W a c).1 ≠ 0 ↔ ∃ x, AddrAttr W a x ∧ o &&& x.bit ≠ 0 := by
  classical
  unfold getAddrOpts
  by_cases ha : a = []
  · rw [if_pos ha]
    refine ⟨.refl hc, fun o => ?_⟩
    simp only [BitVec.and_zero, ne_eq, not_true_eq_false, false_iff, not_exists, not_and, show (0 : Opts) = 0#64 from rfl]
    subst ha
    intro x hx
    exfalso
    cases x <;> simp [AddrAttr, IsNoat, IsRoute, IsUnqualified, IsQuoted, IsGarbage, HasDomain] at hx
  rw [if_neg ha]
  have hsh := addrShape_eq ha (f := fun x => decide (ShapeAttr a x)) (fun x => by simp)
  simp only
  rw [hsh]
  have hm := bad_mask (fun x => decide (ShapeAttr a x))
  simp only [decide_eq_false_iff_not] at hm
  by_cases hbad : mkOpts (fun x => decide (ShapeAttr a x)) &&& (oNoat ||| oUnqualified ||| oGarbage ||| oRoute) = 0
  · rw [if_pos hbad]
    obtain ⟨h1, h2, h3, h4⟩ := hm.mp hbad
    simp only [ShapeAttr] at h1 h2 h3 h4
    have hat : c!"@" ∈ a := by
      by_contra h; exact h1 ⟨ha, h⟩
    obtain ⟨i, hi⟩ := Option.ne_none_iff_exists'.mp (fun hn => indexByte_none.mp hn hat)
    obtain ⟨l, d, rfl, hl, rfl⟩ := indexByte_some.mp hi
    have hd : (l ++ c!"@" :: d).drop (l.length + 1) = d := by
      rw [List.drop_append]; simp
    rw [hi]
    simp only [hd]
    obtain ⟨hk, hg, ht, hu⟩ := ctxValidDomain_spec hs hc d
    have hdom : ∀ d', HasDomain (l ++ c!"@" :: d) d' ↔ d' = d := by
      intro d'; rw [hasDomain_iff hl]; exact ⟨fun h => h.1, fun h => ⟨h, h2, h3, h4⟩⟩
    have hshape : ∀ x : Attr, ShapeAttr (l ++ c!"@" :: d) x → AddrAttr W (l ++ c!"@" :: d) x := by
      intro x; cases x <;> simp [ShapeAttr, AddrAttr]
    have hback : ∀ x : Attr, AddrAttr W (l ++ c!"@" :: d) x → ShapeAttr (l ++ c!"@" :: d) x ∨ (x = .resolves ∧ DomainValid W d) ∨
        (x = .baddom ∧ DomainBad W d) ∨ (x = .unknown ∧ DomainUnknown W d) := by
      intro x hx
      cases x <;> simp only [AddrAttr, ShapeAttr, hdom, exists_eq_left] at hx ⊢ <;> simp [hx]
    have hex : ∀ o, o &&& mkOpts (fun x => decide (ShapeAttr (l ++ c!"@" :: d) x)) ≠ 0 ↔
        ∃ x, ShapeAttr (l ++ c!"@" :: d) x ∧ o &&& x.bit ≠ 0 := by
      intro o; rw [and_mkOpts]; simp
    cases hv : ((c.validDomain W d).1).1 with
    | good =>
      simp only
      refine ⟨hk, fun o => ?_⟩
      have hval := hg.mp hv
      have hnu : ¬ DomainUnknown W d := by rw [← ht, hv]; simp
      rw [and_or_ne, hex]
      constructor
      · rintro (⟨x, hx, ho⟩ | ho)
        · exact ⟨x, hshape x hx, ho⟩
        · exact ⟨.resolves, by simp only [AddrAttr, hdom, exists_eq_left]; exact hval, ho⟩
      · rintro ⟨x, hx, ho⟩
        rcases hback x hx with h | ⟨rfl, h⟩ | ⟨rfl, h⟩ | ⟨rfl, h⟩
        · exact Or.inl ⟨x, h, ho⟩
        · exact Or.inr ho
        · exact absurd hval h.1
        · exact absurd h hnu
    | bad =>
      simp only
      refine ⟨⟨⟨hk.cache.files, hk.cache.dnsbl, hk.cache.domvalid⟩, hk.core, hk.miss⟩, fun o => ?_⟩
      have hnv : ¬ DomainValid W d := by rw [← hg, hv]; simp
      have hnu : ¬ DomainUnknown W d := by rw [← ht, hv]; simp
      have hnn : ¬ NoMX W d := by rw [← hu, hv]; simp
      rw [and_or_ne, hex]
      constructor
      · rintro (⟨x, hx, ho⟩ | ho)
        · exact ⟨x, hshape x hx, ho⟩
        · exact ⟨.baddom, by simp only [AddrAttr, hdom, exists_eq_left]; exact ⟨hnv, hnu, hnn⟩, ho⟩
      · rintro ⟨x, hx, ho⟩
        rcases hback x hx with h | ⟨rfl, h⟩ | ⟨rfl, h⟩ | ⟨rfl, h⟩
        · exact Or.inl ⟨x, h, ho⟩
        · exact absurd h hnv
        · exact Or.inr ho
        · exact absurd h hnu
    | tempfail =>
      simp only
      refine ⟨⟨⟨hk.cache.files, hk.cache.dnsbl, hk.cache.domvalid⟩, hk.core, hk.miss⟩, fun o => ?_⟩
      have hnv : ¬ DomainValid W d := by rw [← hg, hv]; simp
      have hun := ht.mp hv
      rw [and_or_ne, hex]
      constructor
      · rintro (⟨x, hx, ho⟩ | ho)
        · exact ⟨x, hshape x hx, ho⟩
        · exact ⟨.unknown, by simp only [AddrAttr, hdom, exists_eq_left]; exact hun, ho⟩
      · rintro ⟨x, hx, ho⟩
        rcases hback x hx with h | ⟨rfl, h⟩ | ⟨rfl, h⟩ | ⟨rfl, h⟩
        · exact Or.inl ⟨x, h, ho⟩
        · exact absurd h hnv
        · exact absurd hun h.2.1
        · exact Or.inr ho
    | undef =>
      simp only
      refine ⟨hk, fun o => ?_⟩
      have hnv : ¬ DomainValid W d := by rw [← hg, hv]; simp
      have hnu : ¬ DomainUnknown W d := by rw [← ht, hv]; simp
      have hno := hu.mp hv
      rw [hex]
      constructor
      · rintro ⟨x, hx, ho⟩
        exact ⟨x, hshape x hx, ho⟩
      · rintro ⟨x, hx, ho⟩
        rcases hback x hx with h | ⟨rfl, h⟩ | ⟨rfl, h⟩ | ⟨rfl, h⟩
        · exact ⟨x, h, ho⟩
        · exact absurd h hnv
        · exact absurd hno h.2.2
        · exact absurd h hnu
  · rw [if_neg hbad]
    refine ⟨.refl hc, fun o => ?_⟩
    rw [and_mkOpts]
    simp only [decide_eq_true_eq]
    have hnd : ∀ d, ¬ HasDomain a d := by
      rintro d ⟨⟨l, rfl, hl⟩, h2, h3, h4⟩
      refine hbad (hm.mpr ⟨?_, h2, h3, h4⟩)
      rintro ⟨-, h⟩; simp at h
    constructor
    · rintro ⟨x, hx, ho⟩
      refine ⟨x, ?_, ho⟩
      cases x <;> simp [ShapeAttr, AddrAttr] at hx ⊢ <;> exact hx
    · rintro ⟨x, hx, ho⟩
      refine ⟨x, ?_, ho⟩
      cases x <;> simp [ShapeAttr, AddrAttr, hnd] at hx ⊢ <;> exact hx

theorem evalOpt_spec {W : World} (hs : W.Static) (tr : TransR) {c : Ctx} (hc : CacheOK W c) (k : OKind) (o : Opts) :
    Keeps W c (evalOpt W tr k o c).2 ∧ ((evalOpt W tr k o c).1 = true ↔ Holds W tr c.mail (.optN k o)) := by
  classical
  unfold evalOpt OKind.get
  simp only [decide_eq_true_eq, Holds]
  cases k with
  | dns =>
    refine ⟨.refl hc, ?_⟩
    simp only [HasAttr]
    rw [dnsGetter_eq tr (f := fun x => decide (DnsAttr tr x)) (by simp), and_mkOpts]; simp
  | heloHas =>
    refine ⟨.refl hc, ?_⟩
    simp only [HasAttr]
    rw [heloGetter_eq W.lib tr c (f := fun x => decide (HeloAttr W.lib tr c.mail x)) (by simp), and_mkOpts]; simp
  | fromHas =>
    obtain ⟨h1, h2⟩ := getAddrOpts_spec hs hc c.from_
    exact ⟨h1, h2 o⟩
  | toHas =>
    obtain ⟨h1, h2⟩ := getAddrOpts_spec hs hc c.rcptto
    exact ⟨h1, h2 o⟩

/-! ## Match operators -/

theorem matcher_spec (L : Lib) (k : MKind) {n p : Str} {b : Bool} (h : k.matcher L n p = .ok b) :
    b = true ↔ PatMatch L k n p := by
  have ha : ∀ p', matchAddress L n p' = .ok b → (b = true ↔ AddrMatch (L.lower n) p') := by
    intro p' h'
    obtain ⟨b', hb, hi⟩ := matchAddress_spec L n p'
    rw [hb] at h'; cases h'; exact hi
  have hh : matchHost L n p = .ok b → (b = true ↔ HostMatch (L.lower n) p) := by
    intro h'
    by_cases hn : n = []
    · exfalso; subst hn; simp [matchHost, lower_nil] at h'
    by_cases hp : p ≠ [] ∨ (L.lower n).getLast? ≠ some c!"."
    · obtain ⟨b', hb, hi⟩ := matchHost_spec L hn hp
      rw [hb] at h'; cases h'; exact hi
    · exfalso
      rw [not_or, not_not, not_not] at hp
      simp [matchHost, hp.1, hp.2] at h'
  cases k with
  | helo => exact hh h
  | host => exact hh h
  | from_ => exact ha p h
  | «to» => exact ha p h
  | sourceFrom => exact ha _ h
  | ip =>
    simp only [MKind.matcher, Except.ok.injEq] at h
    subst h
    simp only [PatMatch, IpTextMatch]
    cases hi : L.parseIP n with
    | some ip => rw [matchIp_spec L hi]; simp
    | none =>
      simp only [reduceCtorEq, false_and, exists_false, false_or, true_and]
      unfold matchIp
      rw [hi]
      cases L.parseIP p <;> cases L.parseCIDR p <;> simp [ipEqual]

theorem matchNames_spec {m : Str → Str → Except Panic Bool} {p : Str} {names : List Str} {b : Bool} {P : Str → Prop}
    (hP : ∀ n b, m n p = .ok b → (b = true ↔ P n)) (h : matchNames m p names = .ok b) :
    b = true ↔ ∃ n ∈ names, P n := by
  induction names with
  | nil => cases h; simp
  | cons n ns ih =>
    rw [matchNames] at h
    cases hm : m n p with
    | error e => rw [hm] at h; cases h
    | ok r =>
      rw [hm] at h
      have := hP n r hm
      cases r with
      | true => cases h; simp [this.mp rfl]
      | false =>
        have hn : ¬ P n := by rw [← this]; simp
        rw [ih h]; simp [hn]

theorem matchPats_spec {m : Str → Str → Except Panic Bool} {ps names : List Str} {b : Bool} {P : Str → Str → Prop}
    (hP : ∀ n p b, m n p = .ok b → (b = true ↔ P n p)) (h : matchPats m names ps = .ok b) :
    b = true ↔ ∃ p ∈ ps, ∃ n ∈ names, P n p := by
  induction ps with
  | nil => cases h; simp
  | cons p ps ih =>
    rw [matchPats] at h
    cases hm : matchNames m p names with
    | error e => rw [hm] at h; cases h
    | ok r =>
      rw [hm] at h
      have := matchNames_spec (P := fun n => P n p) (fun n b => hP n p b) hm
      cases r with
      | true =>
        cases h
        have := this.mp rfl
        simp [this]
      | false =>
        have hn : ¬ ∃ n ∈ names, P n p := by rw [← this]; simp
        rw [ih h]
        simp only [List.mem_cons, exists_eq_or_imp, hn, false_or]

theorem names_subjects (tr : TransR) (c : Ctx) (k : MKind) : k.names tr c = subjects tr c.mail k := by cases k <;> rfl

/-- The result of evaluating one expression. -/
structure EvalOK (W : World) (tr : TransR) (e : Expr) (c : Ctx) (b : Bool) (c' : Ctx) : Prop where
  cache : CacheOK W c'
  core : c'.core = c.core
  miss : c'.rulemiss = true ↔ c.rulemiss = true ∨ Misses W tr c.mail e
  val : ¬ Misses W tr c.mail e → (b = true ↔ Holds W tr c.mail e)

theorem Keeps.evalOK {W : World} {tr : TransR} {e : Expr} {c c' : Ctx} {b : Bool} (hk : Keeps W c c')
    (hm : ¬ Misses W tr c.mail e) (hb : b = true ↔ Holds W tr c.mail e) : EvalOK W tr e c b c' :=
  ⟨hk.cache, hk.core, by rw [hk.miss]; simp [hm], fun _ => hb⟩

theorem evalMatch_spec {W : World} (hs : W.Static) {tr : TransR} {c c' : Ctx} (hc : CacheOK W c) {k : MKind} {a : Str} {b : Bool}
    (h : evalMatch W tr k a c = .ok (b, c')) : EvalOK W tr (.matchN k a) c b c' := by
  unfold evalMatch at h
  cases hl : getMatchList W a c with
  | error p => rw [hl] at h; cases h
  | ok r =>
    obtain ⟨l, c1⟩ := r
    rw [hl] at h
    obtain ⟨hk, rfl⟩ := getMatchList_spec hs hc hl
    simp only [bind, Except.bind, pure, Except.pure] at h
    split at h
    · rename_i h0
      rw [List.length_eq_zero_iff] at h0
      cases h
      refine ⟨⟨hk.cache.files, hk.cache.dnsbl, hk.cache.domvalid⟩, hk.core, by simp [Misses, h0], fun hn => absurd h0 hn⟩
    · rename_i h0
      rw [List.length_eq_zero_iff] at h0
      cases hp : matchPats (k.matcher W.lib) (k.names tr c1) (patterns W a) with
      | error p => rw [hp] at h; cases h
      | ok r =>
        rw [hp] at h
        cases h
        have := matchPats_spec (P := PatMatch W.lib k) (fun n p b => matcher_spec W.lib k) hp
        refine hk.evalOK (by simpa [Misses] using h0) ?_
        rw [this, names_subjects, hk.mail]
        rfl

theorem EvalOK.mail {W : World} {tr : TransR} {e : Expr} {c c' : Ctx} {b : Bool} (h : EvalOK W tr e c b c') : c'.mail = c.mail :=
  Ctx.core_mail h.core

theorem evalSource_spec {W : World} (hs : W.Static) {tr : TransR} {c c' : Ctx} (hc : CacheOK W c) {a : Str} {b : Bool}
    (h : evalSource W tr a c = .ok (b, c')) : EvalOK W tr (.source a) c b c' := by
  unfold evalSource at h
  cases h1 : evalMatch W tr .host a c with
  | error p => rw [h1] at h; cases h
  | ok r1 =>
    obtain ⟨b1, c1⟩ := r1
    rw [h1] at h
    have k1 := evalMatch_spec hs hc h1
    cases b1 with
    | true =>
      cases h
      refine ⟨k1.cache, k1.core, k1.miss, fun hn => ?_⟩
      simp only [Holds, true_iff]
      exact Or.inl ((k1.val hn).mp rfl)
    | false =>
      simp only [bind, Except.bind, Bool.false_eq_true, if_false] at h
      cases h2 : evalMatch W tr .helo a c1 with
      | error p => rw [h2] at h; cases h
      | ok r2 =>
        obtain ⟨b2, c2⟩ := r2
        rw [h2] at h
        have k2 := evalMatch_spec hs k1.cache h2
        cases b2 with
        | true =>
          cases h
          refine ⟨k2.cache, k2.core.trans k1.core, ?_, fun hn => ?_⟩
          · rw [k2.miss, k1.miss]; simp only [Misses]; tauto
          · simp only [Holds, true_iff]
            have := (k2.val hn).mp rfl
            rw [k1.mail] at this
            exact Or.inr (Or.inl this)
        | false =>
          simp only [Bool.false_eq_true, if_false] at h
          have k3 := evalMatch_spec hs k2.cache h
          refine ⟨k3.cache, k3.core.trans (k2.core.trans k1.core), ?_, fun hn => ?_⟩
          · rw [k3.miss, k2.miss, k1.miss]; simp only [Misses]; tauto
          · have e3 := k3.val hn
            have e2 := k2.val hn
            have e1 := k1.val hn
            rw [k2.mail, k1.mail] at e3
            rw [k1.mail] at e2
            simp only [Bool.false_eq_true, false_iff, Holds] at e1 e2 e3 ⊢
            tauto

/-! ## Blocklists -/

theorem splitOn_spec (sep : Byte) (s : Str) :
    splitOn sep s ≠ [] ∧ s = join [sep] (splitOn sep s) ∧ ∀ w ∈ splitOn sep s, sep ∉ w := by
  induction s with
  | nil => simp [splitOn, join]
  | cons c s ih =>
    obtain ⟨h1, h2, h3⟩ := ih
    rw [splitOn]
    cases hs : splitOn sep s with
    | nil => exact absurd hs h1
    | cons w ws =>
      rw [hs] at h2 h3
      split
      · rename_i hc
        refine ⟨by simp, ?_, ?_⟩
        · rw [join]
          · simp [hc, ← h2]
          · simp
        · intro x hx
          rcases List.mem_cons.mp hx with rfl | hx
          · simp
          · exact h3 x hx
      · rename_i hc
        refine ⟨by simp, ?_, ?_⟩
        · cases ws with
          | nil => simp only [join] at h2 ⊢; rw [← h2]
          | cons w2 ws => simp only [join] at h2 ⊢; rw [h2]; simp
        · intro x hx
          rcases List.mem_cons.mp hx with rfl | hx
          · have := h3 w (by simp)
            simp [this]; exact fun h => hc h.symm
          · exact h3 x (by simp [hx])

theorem join_inj {sep : Byte} : ∀ {a b : List Str}, a ≠ [] → b ≠ [] → (∀ w ∈ a, sep ∉ w) → (∀ w ∈ b, sep ∉ w) →
    join [sep] a = join [sep] b → a = b := by
  intro a
  induction a with
  | nil => intro b h; exact absurd rfl h
  | cons w ws ih =>
    intro b _ hb ha hbn he
    cases b with
    | nil => exact absurd rfl hb
    | cons v vs =>
      have hw := ha w (by simp)
      have hv := hbn v (by simp)
      cases ws with
      | nil =>
        cases vs with
        | nil => simpa [join] using he
        | cons v2 vs =>
          simp only [join] at he
          exact absurd (show sep ∈ w by rw [he]; simp) hw
      | cons w2 ws =>
        cases vs with
        | nil =>
          simp only [join] at he
          exact absurd (show sep ∈ v by rw [← he]; simp) hv
        | cons v2 vs =>
          have he' : w ++ sep :: join [sep] (w2 :: ws) = v ++ sep :: join [sep] (v2 :: vs) := by
            simpa [join] using he
          obtain ⟨rfl, he2⟩ := split_unique he' hw hv
          rw [ih (by simp) (by simp) (fun x hx => ha x (by simp [hx])) (fun x hx => hbn x (by simp [hx])) he2]

theorem evalDnsbl_spec {W : World} (hs : W.Static) (tr : TransR) {c : Ctx} (hc : CacheOK W c) (d : Str) :
    Keeps W c (evalDnsbl W tr d c).2 ∧ ((evalDnsbl W tr d c).1 = true ↔ DnsblHolds W tr d) := by
  obtain ⟨h1, h2, h3⟩ := splitOn_spec c!"." tr.rip
  have key : ∀ s0 s1 s2 s3, (tr.rip = s0 ++ b!"." ++ s1 ++ b!"." ++ s2 ++ b!"." ++ s3 ∧ (∀ s ∈ [s0, s1, s2, s3], c!"." ∉ s)) →
      splitOn c!"." tr.rip = [s0, s1, s2, s3] := by
    rintro s0 s1 s2 s3 ⟨he, hn⟩
    refine join_inj (sep := c!".") h1 (by simp) h3 hn ?_
    rw [← h2, he]; simp [join]
  unfold evalDnsbl
  by_cases h0 : tr.rip = []
  · rw [if_pos h0]
    refine ⟨.refl hc, ?_⟩
    simp only [Bool.false_eq_true, false_iff]
    rintro ⟨s0, s1, s2, s3, h, -⟩
    rw [h0] at h; simp at h
  rw [if_neg h0]
  split
  · rename_i s0 s1 s2 s3 hsp
    obtain ⟨k, hl⟩ := getDnsblRes_spec hs hc (s3 ++ b!"." ++ s2 ++ b!"." ++ s1 ++ b!"." ++ s0 ++ b!"." ++ d)
    have hiff : (getDnsblRes W (s3 ++ b!"." ++ s2 ++ b!"." ++ s1 ++ b!"." ++ s0 ++ b!"." ++ d) c).1 = true ↔ DnsblHolds W tr d := by
      rw [hl]
      constructor
      · intro h
        refine ⟨s0, s1, s2, s3, ?_, ?_, h⟩
        · rw [hsp] at h2; simpa [join] using h2
        · rw [hsp] at h3; exact h3
      · rintro ⟨t0, t1, t2, t3, e1, e2, e3⟩
        have := key t0 t1 t2 t3 ⟨e1, e2⟩
        rw [hsp] at this
        cases this
        exact e3
    simp only
    split
    · rename_i hr
      exact ⟨k.trans (addDnsblHit_keeps k.cache d), by rw [← hiff, hr]⟩
    · rename_i hr
      exact ⟨k, by rw [← hiff]; simpa using hr⟩
  · rename_i hne
    refine ⟨.refl hc, ?_⟩
    simp only [Bool.false_eq_true, false_iff]
    rintro ⟨t0, t1, t2, t3, e1, e2, e3⟩
    exact hne _ _ _ _ (key t0 t1 t2 t3 ⟨e1, e2⟩)

theorem mem_addKey {k x : Str} {l : List Str} : x ∈ addKey k l ↔ x = k ∨ x ∈ l := by
  unfold addKey
  split
  · rename_i h
    constructor
    · exact Or.inr
    · rintro (rfl | h') <;> assumption
  · simp; tauto

theorem dblHosts_spec {ns chk l : List Str} (h : dblHosts ns chk = .ok l) :
    ∀ x, x ∈ l ↔ x ∈ chk ∨ ∃ s ∈ ns, x = s.dropLast := by
  induction ns generalizing chk with
  | nil => cases h; simp
  | cons s ss ih =>
    rw [dblHosts] at h
    split at h
    · cases h
    · intro x
      rw [ih h x, mem_addKey]
      simp only [List.mem_cons, exists_eq_or_imp]
      tauto

theorem dblLookups_spec {W : World} (hs : W.Static) (d : Str) : ∀ (l : List Str) (ret : Bool) {c : Ctx}, CacheOK W c →
    Keeps W c (dblLookups W d l ret c).2 ∧
    ((dblLookups W d l ret c).1 = true ↔ ret = true ∨ ∃ n ∈ l, Listed W (n ++ b!"." ++ d)) := by
  intro l
  induction l with
  | nil => intro ret c hc; simp [dblLookups, Keeps.refl hc]
  | cons s ss ih =>
    intro ret c hc
    obtain ⟨k, hl⟩ := getDnsblRes_spec hs hc (s ++ b!"." ++ d)
    rw [dblLookups]
    split
    · rename_i hr
      have k2 := k.trans (addDnsblHit_keeps k.cache d)
      obtain ⟨k3, h3⟩ := ih true k2.cache
      refine ⟨k2.trans k3, ?_⟩
      rw [h3]
      simp only [true_or, true_iff]
      exact Or.inr ⟨s, by simp, hl.mp hr⟩
    · rename_i hr
      obtain ⟨k3, h3⟩ := ih ret k.cache
      refine ⟨k.trans k3, ?_⟩
      rw [h3]
      rw [hl] at hr
      simp only [List.mem_cons, exists_eq_or_imp, hr, false_or]

theorem dblFrom_spec {W : World} (hs : W.Static) (src : Opts) (chk : List Str) {c : Ctx} (hc : CacheOK W c) :
    Keeps W c (dblFrom W src chk c).2 ∧ ∀ x, x ∈ (dblFrom W src chk c).1 ↔
      x ∈ chk ∨ (src &&& oFrom = oFrom ∧ HasDomain c.from_ x ∧ ¬ NoMX W x) := by
  unfold dblFrom
  obtain ⟨k, ho⟩ := getAddrOpts_spec hs hc c.from_
  split
  · rename_i hf
    simp only
    have hmask : (getAddrOpts W c.from_ c).1 &&& (oDomainValid ||| oDomainInvalid ||| oDomainTempfail) ≠ 0 ↔
        ∃ d, HasDomain c.from_ d ∧ ¬ NoMX W d := by
      rw [BitVec.and_comm, ho]
      constructor
      · rintro ⟨x, hx, hb⟩
        cases x <;> first | exact absurd (by decide +kernel) hb | skip
        · obtain ⟨d, h1, h2⟩ := hx
          have := (validDomain_verdict hs d []).1.mpr h2
          have h3 := (validDomain_verdict hs d []).2.2
          rw [this] at h3
          exact ⟨d, h1, by rw [← h3]; simp⟩
        · obtain ⟨d, h1, h2⟩ := hx; exact ⟨d, h1, h2.2.2⟩
        · obtain ⟨d, h1, h2⟩ := hx
          have := (validDomain_verdict hs d []).2.1.mpr h2
          have h3 := (validDomain_verdict hs d []).2.2
          rw [this] at h3
          exact ⟨d, h1, by rw [← h3]; simp⟩
      · rintro ⟨d, h1, h2⟩
        by_cases hv : DomainValid W d
        · exact ⟨.resolves, ⟨d, h1, hv⟩, by decide +kernel⟩
        · by_cases hu : DomainUnknown W d
          · exact ⟨.unknown, ⟨d, h1, hu⟩, by decide +kernel⟩
          · exact ⟨.baddom, ⟨d, h1, hv, hu, h2⟩, by decide +kernel⟩
    split
    · rename_i hm
      obtain ⟨d, hd, hn⟩ := hmask.mp hm
      obtain ⟨l, hl, hat⟩ := hd.1
      have hi : indexByte c.from_ c!"@" = some l.length := by
        rw [indexByte_some]; exact ⟨l, d, hl, hat, rfl⟩
      rw [hi]
      refine ⟨k, fun x => ?_⟩
      have hdrop : c.from_.drop (l.length + 1) = d := by
        rw [hl, List.drop_append]; simp
      simp only [hdrop]
      rw [mem_addKey]
      have : ∀ x, HasDomain c.from_ x ↔ x = d := by
        intro x
        constructor
        · rintro ⟨⟨l', h1, h2⟩, -⟩
          rw [hl] at h1
          exact ((split_unique h1 hat h2).2).symm
        · rintro rfl; exact hd
      rw [this]
      constructor
      · rintro (rfl | h)
        · exact Or.inr ⟨hf.1, rfl, hn⟩
        · exact Or.inl h
      · rintro (h | ⟨-, rfl, -⟩)
        · exact Or.inr h
        · exact Or.inl rfl
    · rename_i hm
      refine ⟨k, fun x => ?_⟩
      rw [hmask] at hm
      constructor
      · exact Or.inl
      · rintro (h | ⟨-, h⟩)
        · exact h
        · exact absurd ⟨x, h⟩ hm
  · rename_i hf
    refine ⟨.refl hc, fun x => ?_⟩
    constructor
    · exact Or.inl
    · rintro (h | ⟨h1, h2, -⟩)
      · exact h
      · exfalso
        refine hf ⟨h1, ?_⟩
        intro h0
        obtain ⟨⟨l, h, -⟩, -⟩ := h2
        rw [h0] at h; simp at h

/-- The names that will be looked up are those of the specification. -/
theorem dblName_iff {W : World} {tr : TransR} {m : Mail} {src : Opts} {x : Str} : DblName W tr m src x ↔
    (src &&& (oEhlo ||| oHelo) ≠ 0 ∧ m.heloname ≠ [] ∧ x = m.heloname) ∨
    (src &&& oHost = oHost ∧ ∃ s ∈ tr.rdns.verified ++ tr.rdns.nofwd ++ tr.rdns.inconsist, x = s.dropLast) ∨
    (src &&& oFrom = oFrom ∧ HasDomain m.from_ x ∧ ¬ NoMX W x) := by
  constructor
  · intro h
    cases h with
    | helo h1 h2 => exact Or.inl ⟨h1, h2, rfl⟩
    | host h1 h2 => exact Or.inr (Or.inl ⟨h1, _, h2, rfl⟩)
    | from_ h1 h2 h3 => exact Or.inr (Or.inr ⟨h1, h2, h3⟩)
  · rintro (⟨h1, h2, rfl⟩ | ⟨h1, s, h2, rfl⟩ | ⟨h1, h2, h3⟩)
    · exact .helo h1 h2
    · exact .host h1 h2
    · exact .from_ h1 h2 h3

theorem evalDbl_spec {W : World} (hs : W.Static) {tr : TransR} {c c' : Ctx} (hc : CacheOK W c) {src : Opts} {d : Str} {b : Bool}
    (h : evalDbl W tr src d c = .ok (b, c')) : Keeps W c c' ∧ (b = true ↔ DblHolds W tr c.mail src d) := by
  unfold evalDbl at h
  cases hx : dblNames tr src c with
  | error p => rw [hx] at h; cases h
  | ok chk2 =>
  rw [hx] at h
  have m2 : ∀ x, x ∈ chk2 ↔ (src &&& (oEhlo ||| oHelo) ≠ 0 ∧ c.heloname ≠ [] ∧ x = c.heloname) ∨ (src &&& oHost = oHost ∧
      ∃ s ∈ tr.rdns.verified ++ tr.rdns.nofwd ++ tr.rdns.inconsist, x = s.dropLast) := by
    intro x
    unfold dblNames at hx
    generalize hchk : (if src &&& (oEhlo ||| oHelo) ≠ 0 ∧ c.heloname ≠ [] then [c.heloname] else []) = chk at hx
    have m1 : x ∈ chk ↔ src &&& (oEhlo ||| oHelo) ≠ 0 ∧ c.heloname ≠ [] ∧ x = c.heloname := by
      rw [← hchk]
      split
      · rename_i hx; simp only [List.mem_singleton]; tauto
      · rename_i hx; simp only [List.not_mem_nil, false_iff]; tauto
    split at hx
    · rename_i hh
      rw [dblHosts_spec hx x, m1]; tauto
    · rename_i hh
      cases hx; rw [m1]; tauto
  obtain ⟨k, m3⟩ := dblFrom_spec hs src chk2 hc
  have m4 : ∀ x, x ∈ (dblFrom W src chk2 c).1 ↔ DblName W tr c.mail src x := by
    intro x
    rw [m3, m2, dblName_iff, or_assoc]
    rfl
  simp only [bind, Except.bind, pure, Except.pure] at h
  split at h
  · rename_i h0
    rw [List.length_eq_zero_iff] at h0
    cases h
    refine ⟨k, ?_⟩
    simp only [Bool.false_eq_true, false_iff]
    rintro ⟨n, hn, -⟩
    rw [← m4, h0] at hn
    simp at hn
  · have hkt : Keeps W (dblFrom W src chk2 c).2 { (dblFrom W src chk2 c).2 with trace := .mapIter :: (dblFrom W src chk2 c).2.trace } :=
      ⟨⟨k.cache.files, k.cache.dnsbl, k.cache.domvalid⟩, rfl, rfl⟩
    obtain ⟨k2, h2⟩ := dblLookups_spec hs d (W.mapOrder (dblFrom W src chk2 c).2.trace.length (dblFrom W src chk2 c).1) false hkt.cache
    simp only [Except.ok.injEq] at h
    rw [h] at k2 h2
    refine ⟨k.trans (hkt.trans k2), ?_⟩
    rw [h2]
    simp only [Bool.false_eq_true, false_or, DblHolds]
    constructor
    · rintro ⟨n, hn, hl⟩
      rw [(W.mapOrder_perm _ _).mem_iff] at hn
      exact ⟨n, (m4 n).mp hn, hl⟩
    · rintro ⟨n, hn, hl⟩
      exact ⟨n, (W.mapOrder_perm _ _).mem_iff.mpr ((m4 n).mpr hn), hl⟩

/-! ## Expressions -/

mutual
theorem eval_spec {W : World} (hs : W.Static) {tr : TransR} : ∀ (e : Expr) {c c' : Ctx} {b : Bool}, CacheOK W c →
    eval W tr e c = .ok (b, c') → EvalOK W tr e c b c'
  | .andL ns, c, c', b, hc, h => by
    rw [eval] at h
    obtain ⟨h1, h2, h3, h4⟩ := evalAnd_spec hs ns hc h
    exact ⟨h1, h2, by rw [Misses]; exact h3, by rw [Misses, Holds]; exact h4⟩
  | .notN e, c, c', b, hc, h => by
    rw [eval] at h
    cases he : eval W tr e c with
    | error p => rw [he] at h; cases h
    | ok r =>
      obtain ⟨b1, c1⟩ := r
      rw [he] at h
      cases h
      have k := eval_spec hs e hc he
      refine ⟨k.cache, k.core, by rw [Misses]; exact k.miss, fun hn => ?_⟩
      rw [Misses] at hn
      rw [Holds, ← k.val hn]
      simp
  | .orN l r, c, c', b, hc, h => by
    rw [eval] at h
    cases he : eval W tr l c with
    | error p => rw [he] at h; cases h
    | ok r1 =>
      obtain ⟨b1, c1⟩ := r1
      rw [he] at h
      have k := eval_spec hs l hc he
      cases b1 with
      | true =>
        cases h
        refine ⟨k.cache, k.core, ?_, fun hn => ?_⟩
        · rw [k.miss, Misses]
          have := k.val
          simp only [true_iff] at this
          tauto
        · rw [Misses] at hn
          rw [Holds]
          have := (k.val (fun hm => hn (Or.inl hm))).mp rfl
          simp [this]
      | false =>
        simp only [bind, Except.bind, Bool.false_eq_true, if_false] at h
        have k2 := eval_spec hs r k.cache h
        have v1 := k.val
        have v2 := k2.val
        have mm := k2.miss
        rw [k.mail] at v2 mm
        rw [k.miss] at mm
        simp only [Bool.false_eq_true, false_iff] at v1
        refine ⟨k2.cache, k2.core.trans k.core, ?_, fun hn => ?_⟩
        · rw [mm, Misses]; tauto
        · rw [Misses] at hn
          rw [Holds]
          have h1 : ¬ Misses W tr c.mail l := fun hm => hn (Or.inl hm)
          have h2 := v1 h1
          rw [v2 (fun hm => hn (Or.inr ⟨h2, hm⟩))]
          tauto
  | .all, c, c', b, hc, h => by
    rw [eval] at h; cases h
    exact (Keeps.refl hc).evalOK (by simp [Misses]) (by simp [Holds])
  | .tls on, c, c', b, hc, h => by
    rw [eval] at h; cases h
    exact (Keeps.refl hc).evalOK (by simp [Misses]) (by rw [Holds, beq_iff_eq, eq_comm])
  | .dnsbl d, c, c', b, hc, h => by
    rw [eval] at h
    obtain ⟨k, hv⟩ := evalDnsbl_spec hs tr hc d
    simp only [Except.ok.injEq] at h
    rw [h] at k hv
    exact k.evalOK (by simp [Misses]) (by rw [Holds]; exact hv)
  | .matchN k a, c, c', b, hc, h => by
    rw [eval] at h
    exact evalMatch_spec hs hc h
  | .source a, c, c', b, hc, h => by
    rw [eval] at h
    exact evalSource_spec hs hc h
  | .dbl s d, c, c', b, hc, h => by
    rw [eval] at h
    obtain ⟨k, hv⟩ := evalDbl_spec hs hc h
    exact k.evalOK (by simp [Misses]) (by rw [Holds]; exact hv)
  | .optN k o, c, c', b, hc, h => by
    rw [eval] at h
    obtain ⟨k, hv⟩ := evalOpt_spec hs tr hc k o
    simp only [Except.ok.injEq] at h
    rw [h] at k hv
    exact k.evalOK (by simp [Misses]) hv
theorem evalAnd_spec {W : World} (hs : W.Static) {tr : TransR} : ∀ (es : List Expr) {c c' : Ctx} {b : Bool}, CacheOK W c →
    evalAnd W tr es c = .ok (b, c') → CacheOK W c' ∧ c'.core = c.core ∧
      (c'.rulemiss = true ↔ c.rulemiss = true ∨ MissesAll W tr c.mail es) ∧
      (¬ MissesAll W tr c.mail es → (b = true ↔ HoldsAll W tr c.mail es))
  | [], c, c', b, hc, h => by
    rw [evalAnd] at h; cases h
    exact ⟨hc, rfl, by simp [MissesAll], by simp [HoldsAll]⟩
  | e :: es, c, c', b, hc, h => by
    rw [evalAnd] at h
    cases he : eval W tr e c with
    | error p => rw [he] at h; cases h
    | ok r1 =>
      obtain ⟨b1, c1⟩ := r1
      rw [he] at h
      have k := eval_spec hs e hc he
      cases b1 with
      | false =>
        cases h
        have v := k.val
        simp only [Bool.false_eq_true, false_iff] at v
        refine ⟨k.cache, k.core, ?_, fun hn => ?_⟩
        · rw [k.miss, MissesAll]; tauto
        · rw [MissesAll] at hn
          rw [HoldsAll]
          have := v (fun hm => hn (Or.inl hm))
          simp [this]
      | true =>
        simp only [bind, Except.bind, if_true] at h
        obtain ⟨h1, h2, h3, h4⟩ := evalAnd_spec hs es k.cache h
        have v := k.val
        simp only [true_iff] at v
        rw [k.mail] at h3 h4
        rw [k.miss] at h3
        refine ⟨h1, h2.trans k.core, ?_, fun hn => ?_⟩
        · rw [h3, MissesAll]; tauto
        · rw [MissesAll] at hn
          rw [HoldsAll]
          have h5 := v (fun hm => hn (Or.inl hm))
          rw [h4 (fun hm => hn (Or.inr ⟨h5, hm⟩))]
          tauto
end

end Sink
