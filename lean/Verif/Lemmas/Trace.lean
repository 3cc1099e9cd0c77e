import Verif.Lemmas.Steps

/-!
# The external calls made by evaluation
-/

namespace Sink
open Spec

theorem checkIP_trace (W : World) (d : Str) (t : Trace) : (checkIP W d t).2 = .lookupIP d :: t := by
  unfold checkIP
  simp only
  split
  · split <;> rfl
  · rfl
  · rfl

theorem mxLoop_trace (W : World) (d : Str) : ∀ (mxs : List MX) (best : DnsRes × Option Str) (t : Trace),
    ∃ evs, (mxLoop W d mxs best t).2 = evs ++ t ∧ ∀ ev ∈ evs, ∃ m ∈ mxs, ev = .lookupIP m.host := by
  intro mxs
  induction mxs with
  | nil => intro best t; exact ⟨[], rfl, by simp⟩
  | cons m ms ih =>
    intro best t
    rw [mxLoop]
    split
    · exact ⟨[], rfl, by simp⟩
    · split
      · exact ⟨[], rfl, by simp⟩
      · simp only [checkIP_trace]
        obtain ⟨evs, h1, h2⟩ := ih (if (checkIP W m.host t).1.1.num > best.1.num then (checkIP W m.host t).1 else best)
          (.lookupIP m.host :: t)
        refine ⟨evs ++ [.lookupIP m.host], by rw [h1]; simp, ?_⟩
        intro ev hev
        rcases List.mem_append.mp hev with hev | hev
        · obtain ⟨m', hm', he⟩ := h2 ev hev
          exact ⟨m', List.mem_cons_of_mem _ hm', he⟩
        · exact ⟨m, by simp, by simpa using hev⟩

/-- A lookup made to find out whether `d` can receive mail. -/
def MailLookup (W : World) (d : Str) (t : Trace) (ev : Ev) : Prop :=
  ev = .lookupMX (d ++ b!".") ∨ ev = .lookupIP (d ++ b!".") ∨
    ∃ mxs, W.lookupMX t.length (d ++ b!".") = .ok mxs ∧ ∃ m ∈ mxs, ev = .lookupIP m.host

theorem validDomain_trace (W : World) (d : Str) (t : Trace) :
    ∃ evs, (validDomain W d t).2 = evs ++ t ∧ ∀ ev ∈ evs, MailLookup W d t ev := by
  unfold validDomain
  simp only
  cases hl : W.lookupMX t.length (d ++ b!".") with
  | error e =>
    simp only
    split
    · exact ⟨[.lookupMX (d ++ b!".")], rfl, by simp [MailLookup]⟩
    · exact ⟨[.lookupIP (d ++ b!"."), .lookupMX (d ++ b!".")], by rw [checkIP_trace]; rfl, by simp [MailLookup]⟩
  | ok mxs =>
    obtain ⟨evs, h1, h2⟩ := mxLoop_trace W d mxs (.undef, none) (.lookupMX (d ++ b!".") :: t)
    refine ⟨evs ++ [.lookupMX (d ++ b!".")], by rw [h1]; simp, ?_⟩
    intro ev hev
    rcases List.mem_append.mp hev with hev | hev
    · exact Or.inr (Or.inr ⟨mxs, hl, h2 ev hev⟩)
    · exact Or.inl (by simpa using hev)

/-- A step only adds to the trace. -/
theorem EStep.trace {W : World} {c c' : Ctx} (h : EStep W c c') : c.trace <:+ c'.trace := by
  cases h with
  | lookup n =>
    unfold getDnsblRes
    split
    · exact List.suffix_refl _
    · simp only; split <;> exact ⟨[_], rfl⟩
  | hit _ => unfold addDnsblHit; split <;> exact List.suffix_refl _
  | valid d =>
    unfold Ctx.validDomain
    split
    · exact List.suffix_refl _
    · obtain ⟨evs, h1, -⟩ := validDomain_trace W d c.trace
      exact ⟨evs, h1.symm⟩
  | load _ =>
    simp only
    unfold loadList
    split
    · exact List.suffix_refl _
    · simp only; split
      all_goals first | exact ⟨[_], rfl⟩ | exact ⟨[_, _], rfl⟩
  | domerr => exact List.suffix_refl _
  | miss => exact List.suffix_refl _
  | mapIter => exact ⟨[_], rfl⟩

theorem RStep.trace {W : World} {c c' : Ctx} (h : RStep W c c') : c.trace <:+ c'.trace := by
  cases h with
  | eval h => exact h.trace
  | «with» => exact List.suffix_refl _
  | rcpt => exact List.suffix_refl _
  | reset => exact List.suffix_refl _

theorem RSteps.trace {W : World} {c c' : Ctx} (h : RSteps W c c') : c.trace <:+ c'.trace := by
  induction h with
  | refl => exact List.suffix_refl _
  | tail _ h ih => exact ih.trans h.trace

theorem ESteps.trace {W : World} {c c' : Ctx} (h : ESteps W c c') : c.trace <:+ c'.trace := h.rsteps.trace

/-! ## Address attributes in any world -/

/-- The attribute for a verdict on a domain. -/
def domAttr : DnsRes → Option Attr
  | .good => some .resolves
  | .bad => some .baddom
  | .tempfail => some .unknown
  | .undef => none

/-- The attributes found for an address, and what they were found with. -/
theorem getAddrOpts_dyn (W : World) (a : Str) (c : Ctx) : ∃ P : Attr → Prop,
    (∀ o, o &&& (getAddrOpts W a c).1 ≠ 0 ↔ ∃ x, P x ∧ o &&& x.bit ≠ 0) ∧
    (((∀ d, ¬ HasDomain a d) ∧ (∀ x, P x ↔ ShapeAttr a x) ∧ (getAddrOpts W a c).2 = c) ∨
     (∃ d, HasDomain a d ∧ (∀ x, P x ↔ ShapeAttr a x ∨ domAttr (c.validDomain W d).1.1 = some x) ∧
       (getAddrOpts W a c).2.trace = (c.validDomain W d).2.trace)) := by
  classical
  unfold getAddrOpts
  by_cases ha : a = []
  · rw [if_pos ha]
    refine ⟨ShapeAttr a, fun o => ?_, Or.inl ⟨?_, fun _ => Iff.rfl, rfl⟩⟩
    · simp only [BitVec.and_zero, ne_eq, not_true_eq_false, false_iff, not_exists, not_and, show (0 : Opts) = 0#64 from rfl]
      subst ha
      intro x hx
      exfalso
      cases x <;> simp [ShapeAttr, IsNoat, IsRoute, IsUnqualified, IsQuoted, IsGarbage] at hx
    · subst ha
      rintro d ⟨⟨l, h, -⟩, -⟩
      simp at h
  rw [if_neg ha]
  have hsh := addrShape_eq ha (f := fun x => decide (ShapeAttr a x)) (fun x => by simp)
  simp only
  rw [hsh]
  have hm := bad_mask (fun x => decide (ShapeAttr a x))
  simp only [decide_eq_false_iff_not] at hm
  have hex : ∀ o, o &&& mkOpts (fun x => decide (ShapeAttr a x)) ≠ 0 ↔ ∃ x, ShapeAttr a x ∧ o &&& x.bit ≠ 0 := by
    intro o; rw [and_mkOpts]; simp
  by_cases hbad : mkOpts (fun x => decide (ShapeAttr a x)) &&& (oNoat ||| oUnqualified ||| oGarbage ||| oRoute) = 0
  · rw [if_pos hbad]
    obtain ⟨h1, h2, h3, h4⟩ := hm.mp hbad
    simp only [ShapeAttr] at h1 h2 h3 h4
    have hat : c!"@" ∈ a := by
      by_contra h; exact h1 ⟨ha, h⟩
    obtain ⟨i, hi⟩ := Option.ne_none_iff_exists'.mp (fun hn => indexByte_none.mp hn hat)
    obtain ⟨l, d, rfl, hl, rfl⟩ := indexByte_some.mp hi
    have hd : (l ++ c!"@" :: d).drop (l.length + 1) = d := by
      rw [List.drop_append]; simp
    rw [hi]
    simp only [hd]
    have hdom : HasDomain (l ++ c!"@" :: d) d := by
      rw [hasDomain_iff hl]; exact ⟨rfl, h2, h3, h4⟩
    refine ⟨fun x => ShapeAttr (l ++ c!"@" :: d) x ∨ domAttr (c.validDomain W d).1.1 = some x, fun o => ?_,
      Or.inr ⟨d, hdom, fun _ => Iff.rfl, ?_⟩⟩
    · have hor : (∃ x, (ShapeAttr (l ++ c!"@" :: d) x ∨ domAttr (c.validDomain W d).1.1 = some x) ∧ o &&& x.bit ≠ 0) ↔
          (∃ x, ShapeAttr (l ++ c!"@" :: d) x ∧ o &&& x.bit ≠ 0) ∨ (∃ x, domAttr (c.validDomain W d).1.1 = some x ∧ o &&& x.bit ≠ 0) := by
        constructor
        · rintro ⟨x, h | h, ho⟩
          · exact Or.inl ⟨x, h, ho⟩
          · exact Or.inr ⟨x, h, ho⟩
        · rintro (⟨x, h, ho⟩ | ⟨x, h, ho⟩)
          · exact ⟨x, Or.inl h, ho⟩
          · exact ⟨x, Or.inr h, ho⟩
      rw [hor, ← hex]
      cases ((c.validDomain W d).1).1 with
      | good => simp only [domAttr, Option.some.injEq, exists_eq_left']; rw [and_or_ne]; rfl
      | bad => simp only [domAttr, Option.some.injEq, exists_eq_left']; rw [and_or_ne]; rfl
      | tempfail => simp only [domAttr, Option.some.injEq, exists_eq_left']; rw [and_or_ne]; rfl
      | undef => simp [domAttr]
    · cases ((c.validDomain W d).1).1 <;> rfl
  · rw [if_neg hbad]
    refine ⟨ShapeAttr a, hex, Or.inl ⟨?_, fun _ => Iff.rfl, rfl⟩⟩
    rintro d ⟨⟨l, rfl, hl⟩, h2, h3, h4⟩
    refine hbad (hm.mpr ⟨?_, h2, h3, h4⟩)
    rintro ⟨-, h⟩; simp at h

theorem bit_and_ne {x y : Attr} : x.bit &&& y.bit ≠ 0 ↔ x = y := by
  revert x y
  have : ∀ x ∈ Attr.all, ∀ y ∈ Attr.all, (x.bit &&& y.bit ≠ 0 ↔ x = y) := by decide +kernel
  intro x y
  exact this x (Attr.mem_all x) y (Attr.mem_all y)

end Sink
