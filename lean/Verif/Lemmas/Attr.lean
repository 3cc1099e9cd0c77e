import Verif.Spec.Sem
import Verif.Lemmas.Mx
import Verif.Lemmas.Lists

/-!
# The attribute getters compute the attributes of Spec/Sem.lean
-/

namespace Sink
open Spec

/-- The option set of a set of attributes. -/
def mkOpts (f : Attr → Bool) : Opts := Attr.all.foldr (fun a o => (if f a then a.bit else 0) ||| o) 0

theorem Spec.Attr.mem_all (a : Attr) : a ∈ Attr.all := by cases a <;> decide

theorem and_or_ne {x y z : Opts} : x &&& (y ||| z) ≠ 0 ↔ x &&& y ≠ 0 ∨ x &&& z ≠ 0 := by
  rw [BitVec.and_or_distrib_left, ne_eq, show (0 : Opts) = 0#64 from rfl, BitVec.or_eq_zero_iff]
  tauto

theorem and_mkOpts (o : Opts) (f : Attr → Bool) : o &&& mkOpts f ≠ 0 ↔ ∃ a, f a = true ∧ o &&& a.bit ≠ 0 := by
  have : ∀ l : List Attr, o &&& l.foldr (fun a o => (if f a then a.bit else 0) ||| o) 0 ≠ 0 ↔
      ∃ a ∈ l, f a = true ∧ o &&& a.bit ≠ 0 := by
    intro l
    induction l with
    | nil => simp
    | cons a l ih =>
      simp only [List.foldr_cons, List.mem_cons, exists_eq_or_imp]
      rw [and_or_ne, ih]
      cases f a <;> simp
  rw [mkOpts, this]
  simp [Attr.mem_all]

/-! ## Reverse DNS -/

theorem dns_tab (v n i : Prop) [Decidable v] [Decidable n] [Decidable i] :
    (let o := if v then oNodns else oExists
     let o := if n then o ||| oNofwd else o
     let o := if i then o ||| oInconsist else o
     if o = oExists then o ||| oGood else o) =
    mkOpts (fun a => match a with
      | .nodns => decide v | .exists_ => !decide v | .nofwd => decide n | .inconsist => decide i
      | .good => !decide v && !decide n && !decide i
      | _ => false) := by
  by_cases h1 : v <;> by_cases h2 : n <;> by_cases h3 : i <;>
    simp only [h1, h2, h3, if_true, if_false, decide_true, decide_false] <;> decide +kernel

theorem dnsGetter_eq (tr : TransR) {f : Attr → Bool} (hf : ∀ a, f a = true ↔ DnsAttr tr a) : dnsGetter tr = mkOpts f := by
  unfold dnsGetter
  rw [dns_tab]
  congr 1
  funext a
  rw [Bool.eq_iff_iff, hf]
  cases a <;> simp [DnsAttr, and_assoc, List.length_pos_iff]

/-! ## HELO names -/

theorem bracketed_some {hn t : Str} : bracketed hn = some t ↔ hn = b!"[" ++ t ++ b!"]" ∧ t ≠ [] := by
  unfold bracketed
  constructor
  · intro h
    split at h
    · rename_i hc
      obtain ⟨h1, h2, h3⟩ := hc
      simp only [Option.some.injEq] at h
      subst h
      cases hn with
      | nil => simp at h1
      | cons c hn =>
        simp only [List.head?_cons, Option.some.injEq] at h2
        subst h2
        have hne : hn ≠ [] := by rintro rfl; simp at h1
        have h4 : hn.getLast? = some c!"]" := by rw [← h3]; cases hn <;> simp_all
        simp only [List.drop_one, List.tail_cons]
        refine ⟨?_, ?_⟩
        · have := List.dropLast_append_getLast? _ h4
          simp [this]
        · intro h0
          have : hn.dropLast.length = 0 := by rw [h0]; rfl
          simp at this h1
          omega
    · simp at h
  · rintro ⟨rfl, ht⟩
    have : 0 < t.length := List.length_pos_iff.mpr ht
    rw [if_pos]
    · simp
    · refine ⟨by simp; omega, by simp, ?_⟩
      rw [List.getLast?_append_of_ne_nil _ (by simp)]; rfl

theorem heloIP_unique {L : Lib} {hn t u : Str} (h1 : HeloIP L hn t) (h2 : HeloIP L hn u) : t = u := by
  rcases h1 with h1 | ⟨a1, a2, rfl⟩ | ⟨a1, a2, rfl⟩ <;> rcases h2 with h2 | ⟨b1, b2, rfl⟩ | ⟨b1, b2, rfl⟩
  · have := h1.1.symm.trans h2.1; simpa using this
  · exact absurd h1 (b1 _)
  · exact absurd h1 (b1 _)
  · exact absurd h2 (a1 _)
  · rfl
  · rw [a2] at b2; cases b2
  · exact absurd h2 (a1 _)
  · rw [a2] at b2; cases b2
  · rfl

def Ctx.mail (c : Ctx) : Mail := ⟨c.isHelo, c.heloname, c.from_, c.rcptto⟩

theorem helo_tab (h : Bool) (nd bi pr r l e : Prop) [Decidable nd] [Decidable bi] [Decidable pr] [Decidable r] [Decidable l]
    [Decidable e] :
    (let o := if h then oHelo else oEhlo
     let o := if nd then o ||| oNodots else o
     let o := if bi then o ||| oBareip else o
     let o := if pr then o ||| oProperip else o
     if r then o ||| oRemip else if l then o ||| oMyip else if e then o ||| oOtherip else o) =
    mkOpts (fun a => match a with
      | .helo => h | .ehlo => !h | .nodots => decide nd | .bareip => decide bi | .properip => decide pr
      | .remip => decide r | .myip => !decide r && decide l | .otherip => !decide r && !decide l && decide e
      | _ => false) := by
  by_cases h1 : nd <;> by_cases h2 : bi <;> by_cases h3 : pr <;> by_cases h4 : r <;> by_cases h5 : l <;> by_cases h6 : e <;>
    simp only [h1, h2, h3, h4, h5, h6, if_true, if_false, decide_true, decide_false] <;> cases h <;> decide +kernel

theorem heloGetter_eq (L : Lib) (tr : TransR) (c : Ctx) {f : Attr → Bool} (hf : ∀ a, f a = true ↔ HeloAttr L tr c.mail a) :
    heloGetter L tr c = mkOpts f := by
  unfold heloGetter
  obtain ⟨m, hm⟩ : ∃ m, m = c.mail := ⟨_, rfl⟩
  have e1 : c.isHelo = m.isHelo := by rw [hm]; rfl
  have e2 : c.heloname = m.heloname := by rw [hm]; rfl
  rw [← hm] at hf
  rw [e1, e2]
  clear hm e1 e2
  simp only
  by_cases h0 : m.heloname = []
  · have nb : ∀ t, ¬ Bracketed L m.heloname t := by rintro t ⟨h, -⟩; rw [h0] at h; simp at h
    rw [if_pos h0]
    have : f = fun a => match a with | .helo => m.isHelo | .ehlo => !m.isHelo | .none => true | .nodots => true | _ => false := by
      funext a
      rw [Bool.eq_iff_iff, hf]
      cases a <;> simp [HeloAttr, h0]
      simpa [h0] using nb
    rw [this]
    cases m.isHelo <;> decide +kernel
  rw [if_neg h0]
  by_cases hd : m.heloname = b!"."
  · have nb : ∀ t, ¬ Bracketed L m.heloname t := by
      rintro t ⟨h, -⟩; rw [hd] at h; simp at h
    rw [if_pos hd]
    have : f = fun a => match a with | .helo => m.isHelo | .ehlo => !m.isHelo | .bogus => true | .nodots => true | _ => false := by
      funext a
      rw [Bool.eq_iff_iff, hf]
      cases a <;> simp [HeloAttr, hd]
      simpa [hd] using nb
    rw [this]
    cases m.isHelo <;> decide +kernel
  rw [if_neg hd]
  -- the address text
  have key : ∀ (pr : Prop) [Decidable pr] (hip : Str), HeloIP L m.heloname hip → (pr ↔ ∃ t, Bracketed L m.heloname t) →
      f = (fun a => match a with
      | .helo => m.isHelo | .ehlo => !m.isHelo
      | .nodots => decide (indexByte m.heloname c!"." = none ∧ indexByte m.heloname c!":" = none)
      | .bareip => decide ((L.parseIP m.heloname).isSome = true) | .properip => decide pr
      | .remip => decide (hip = tr.rip) | .myip => !decide (hip = tr.rip) && decide (hip = tr.lip)
      | .otherip => !decide (hip = tr.rip) && !decide (hip = tr.lip) && decide (hip ≠ [])
      | _ => false) := by
    intro pr _ hip hh hpr
    have hu : ∀ t, HeloIP L m.heloname t ↔ hip = t := fun t => ⟨heloIP_unique hh, fun h => h ▸ hh⟩
    funext a
    rw [Bool.eq_iff_iff, hf]
    cases a <;> simp [HeloAttr, h0, hd, hu, indexByte_none, hpr]
    · tauto
    · tauto
  by_cases hbr : ∃ t, Bracketed L m.heloname t
  · obtain ⟨t, hbr⟩ := hbr
    have hb := bracketed_some.mpr ⟨hbr.1, hbr.2.1⟩
    rw [hb]
    simp only [hbr.2.2, if_true]
    rw [key True t (Or.inl hbr) (by simp only [true_iff]; exact ⟨t, hbr⟩), ← helo_tab]
    simp only [if_true]
    by_cases x6 : (L.parseIP m.heloname).isSome = true <;> simp only [x6, if_true, if_false, Bool.false_eq_true]
  · have hnb : ∀ t, ¬ Bracketed L m.heloname t := fun t h => hbr ⟨t, h⟩
    have hno : ∀ t, bracketed m.heloname = some t → (L.parseIP t).isSome = false := by
      intro t hbb
      obtain ⟨h1, h2⟩ := bracketed_some.mp hbb
      by_contra h
      exact hnb t ⟨h1, h2, by rwa [Bool.not_eq_false] at h⟩
    by_cases x6 : (L.parseIP m.heloname).isSome = true
    · rw [key False m.heloname (Or.inr (Or.inl ⟨hnb, x6, rfl⟩)) (by simp [hbr]), ← helo_tab]
      cases hbb : bracketed m.heloname with
      | none => simp only [x6, if_true, if_false]
      | some t => simp only [x6, hno t hbb, Bool.false_eq_true, if_true, if_false]
    · rw [key False [] (Or.inr (Or.inr ⟨hnb, by simpa using x6, rfl⟩)) (by simp [hbr]), ← helo_tab]
      cases hbb : bracketed m.heloname with
      | none => simp only [x6, Bool.false_eq_true, if_false]
      | some t => simp only [x6, hno t hbb, Bool.false_eq_true, if_false]

/-! ## Addresses -/

theorem contains_iff_infix (s sub : Str) : contains s sub = true ↔ sub <:+: s := by
  induction s with
  | nil => simp [contains]
  | cons c s ih =>
    simp only [contains, Bool.or_eq_true, ih, hasPrefix, List.isPrefixOf_iff_prefix]
    rw [List.infix_cons_iff]

theorem addr_tab (n r u q g1 g2 g3 : Prop) [Decidable n] [Decidable r] [Decidable u] [Decidable q] [Decidable g1] [Decidable g2]
    [Decidable g3] (h1 : n → ¬ r ∧ ¬ u ∧ ¬ g1) (h2 : r → ¬ g1) :
    (let o : Opts := if n then oNoat else
      let o := if r then oRoute else if g1 then oGarbage else 0
      if u then o ||| oUnqualified else o
     let o := if g2 then o ||| oGarbage else o
     let o := if g3 then o ||| oGarbage else o
     if q then o ||| oQuoted else o) =
    mkOpts (fun a => match a with
      | .noat => decide n | .route => decide r | .unqualified => decide u | .quoted => decide q
      | .garbage => decide g1 || decide g2 || decide g3
      | _ => false) := by
  by_cases i1 : n
  · obtain ⟨i2, i3, i4⟩ := h1 i1
    by_cases i5 : g2 <;> by_cases i6 : g3 <;> by_cases i7 : q <;>
    simp only [i1, i2, i3, i4, i5, i6, i7, if_true, if_false, decide_true, decide_false] <;> decide +kernel
  · by_cases i2 : r
    · have i4 := h2 i2
      by_cases i3 : u <;> by_cases i5 : g2 <;> by_cases i6 : g3 <;> by_cases i7 : q <;>
      simp only [i1, i2, i3, i4, i5, i6, i7, if_true, if_false, decide_true, decide_false] <;> decide +kernel
    · by_cases i3 : u <;> by_cases i4 : g1 <;> by_cases i5 : g2 <;> by_cases i6 : g3 <;> by_cases i7 : q <;>
      simp only [i1, i2, i3, i4, i5, i6, i7, if_true, if_false, decide_true, decide_false] <;> decide +kernel

/-- The malformations of an address, as a set of attributes. -/
def ShapeAttr (a : Str) : Attr → Prop
  | .noat => IsNoat a
  | .route => IsRoute a
  | .unqualified => IsUnqualified a
  | .quoted => IsQuoted a
  | .garbage => IsGarbage a
  | _ => False

theorem quoted_iff {a : Str} (ha : a ≠ []) :
    (∃ i, indexByte a c!"\"" = some i ∧ i ≠ a.length - 1) ↔ IsQuoted a := by
  unfold IsQuoted
  constructor
  · rintro ⟨i, hi, hne⟩
    obtain ⟨l, r, rfl, hl, rfl⟩ := indexByte_some.mp hi
    have hr : r ≠ [] := by rintro rfl; simp at hne
    rw [List.dropLast_append_of_ne_nil (by simp)]
    rw [List.dropLast_cons_of_ne_nil hr]
    simp
  · intro h
    have hm : c!"\"" ∈ a := List.dropLast_subset _ h
    obtain ⟨i, hi⟩ := Option.ne_none_iff_exists'.mp (fun hn => indexByte_none.mp hn hm)
    refine ⟨i, hi, ?_⟩
    obtain ⟨l, r, rfl, hl, rfl⟩ := indexByte_some.mp hi
    intro he
    have hr : r = [] := by
      cases r with
      | nil => rfl
      | cons => simp at he
    subst hr
    simp at h
    exact hl h

theorem addrShape_eq {a : Str} (ha : a ≠ []) {f : Attr → Bool} (hf : ∀ x, f x = true ↔ ShapeAttr a x) :
    addrShape a = mkOpts f := by
  classical
  have htab := addr_tab (IsNoat a) (IsRoute a) (IsUnqualified a) (IsQuoted a) (∃ r, a = c!"@" :: r ∧ c!"@" ∉ r)
    (a.head? = some c!"<" ∨ a.getLast? = some c!">" ∨ a.getLast? = some c!"\"" ∨ a.getLast? = some c!"]" ∨
      a.getLast? = some c!"." ∨ indexByte a c!"@" = some (a.length - 1))
    (contains a b!".." ∨ contains a b!"@@")
    (by
      rintro ⟨-, h⟩
      refine ⟨?_, ?_, ?_⟩
      · rintro ⟨r, rfl, -⟩; simp at h
      · rintro ⟨l, d, rfl, -⟩; simp at h
      · rintro ⟨r, rfl, -⟩; simp at h)
    (by rintro ⟨r, rfl, h⟩ ⟨r', h', h''⟩; cases h'; exact h'' h)
  have hfun : f = (fun x => match x with
      | .noat => decide (IsNoat a) | .route => decide (IsRoute a) | .unqualified => decide (IsUnqualified a)
      | .quoted => decide (IsQuoted a)
      | .garbage => decide (∃ r, a = c!"@" :: r ∧ c!"@" ∉ r) ||
        decide (a.head? = some c!"<" ∨ a.getLast? = some c!">" ∨ a.getLast? = some c!"\"" ∨ a.getLast? = some c!"]" ∨
          a.getLast? = some c!"." ∨ indexByte a c!"@" = some (a.length - 1)) ||
        decide (contains a b!".." ∨ contains a b!"@@")
      | _ => false) := by
    funext x
    rw [Bool.eq_iff_iff, hf]
    have hat : indexByte a c!"@" = some (a.length - 1) ↔ ∃ l, a = l ++ b!"@" ∧ c!"@" ∉ l := by
      rw [indexByte_some]
      constructor
      · rintro ⟨l, r, rfl, hl, he⟩
        cases r with
        | nil => exact ⟨l, rfl, hl⟩
        | cons => simp at he
      · rintro ⟨l, rfl, hl⟩
        exact ⟨l, [], rfl, hl, by simp⟩
    cases x <;> simp only [ShapeAttr, decide_eq_true_eq, Bool.or_eq_true, Bool.false_eq_true]
    rw [hat, contains_iff_infix, contains_iff_infix]
    unfold IsGarbage
    have : (∃ c, a.getLast? = some c ∧ c ∈ b!">\"].") ↔ (a.getLast? = some c!">" ∨ a.getLast? = some c!"\"" ∨
        a.getLast? = some c!"]" ∨ a.getLast? = some c!".") := by
      cases a.getLast? <;> simp
    rw [this]
    clear this hat hf htab f
    generalize (∃ r, a = c!"@" :: r ∧ c!"@" ∉ r) = p1
    generalize (∃ l, a = l ++ b!"@" ∧ c!"@" ∉ l) = p2
    generalize (a.getLast? = some c!">") = p3
    generalize (a.getLast? = some c!"\"") = p4
    generalize (a.getLast? = some c!"]") = p5
    generalize (a.getLast? = some c!".") = p6
    generalize (a.head? = some c!"<") = p7
    generalize (b!".." <:+: a) = p8
    generalize (b!"@@" <:+: a) = p9
    simp only [or_assoc, or_left_comm, or_comm]
  rw [hfun, ← htab]
  unfold addrShape
  simp only
  have hq : ∀ o : Opts, (match indexByte a c!"\"" with
      | some idx3 => if idx3 ≠ a.length - 1 then o ||| oQuoted else o
      | none => o) = if IsQuoted a then o ||| oQuoted else o := by
    intro o
    by_cases hqa : IsQuoted a
    · obtain ⟨i, hi, hne⟩ := (quoted_iff ha).mpr hqa
      simp [hqa, hi, hne]
    · cases hi : indexByte a c!"\"" with
      | none => simp [hqa]
      | some i =>
        have : i = a.length - 1 := by_contra fun hne => hqa ((quoted_iff ha).mp ⟨i, hi, hne⟩)
        simp [hqa, this]
  refine (hq _).trans ?_
  have h1 : (match indexByte a c!"@" with
      | none => oNoat
      | some idx =>
        if indexByte (a.drop (idx + 1)) c!"." = none then
          (if idx = 0 then (if indexByte (a.drop 1) c!"@" = none then oGarbage else oRoute) else 0) ||| oUnqualified
        else if idx = 0 then (if indexByte (a.drop 1) c!"@" = none then oGarbage else oRoute) else 0) =
      (if IsNoat a then oNoat else
        if IsUnqualified a then
          (if IsRoute a then oRoute else if ∃ r, a = c!"@" :: r ∧ c!"@" ∉ r then oGarbage else 0) ||| oUnqualified
        else (if IsRoute a then oRoute else if ∃ r, a = c!"@" :: r ∧ c!"@" ∉ r then oGarbage else 0)) := by
    cases hi : indexByte a c!"@" with
    | none =>
      have := indexByte_none.mp hi
      simp only
      rw [if_pos ⟨ha, this⟩]
    | some idx =>
      obtain ⟨l, d, rfl, hl, rfl⟩ := indexByte_some.mp hi
      have hn : ¬ IsNoat (l ++ c!"@" :: d) := by rintro ⟨-, h⟩; simp at h
      have hu : IsUnqualified (l ++ c!"@" :: d) ↔ c!"." ∉ d := by
        constructor
        · rintro ⟨l', d', h1, h2, h3⟩
          rw [(split_unique h1 hl h2).2]; exact h3
        · intro h; exact ⟨l, d, rfl, hl, h⟩
      have hd : (l ++ c!"@" :: d).drop (l.length + 1) = d := by
        rw [List.drop_append]; simp
      simp only [if_neg hn, hd, indexByte_none, hu]
      have hx : (if l.length = 0 then (if c!"@" ∉ (l ++ c!"@" :: d).drop 1 then oGarbage else oRoute) else 0) =
          (if IsRoute (l ++ c!"@" :: d) then oRoute else
            if ∃ r, l ++ c!"@" :: d = c!"@" :: r ∧ c!"@" ∉ r then oGarbage else 0) := by
        by_cases hl0 : l = []
        · subst hl0
          by_cases hdd : c!"@" ∈ d
          · have : IsRoute ([] ++ c!"@" :: d) := ⟨d, rfl, hdd⟩
            rw [if_pos this]; simp [hdd]
          · have : ¬ IsRoute ([] ++ c!"@" :: d) := by rintro ⟨r, h, hr⟩; simp at h; subst h; exact hdd hr
            rw [if_neg this]; simp [hdd]
        · have hno : ∀ r, l ++ c!"@" :: d ≠ c!"@" :: r := by
            intro r h
            cases l with
            | nil => exact hl0 rfl
            | cons b l => simp at h; simp [h.1] at hl
          rw [if_neg (by simpa using hl0), if_neg (by rintro ⟨r, h, -⟩; exact hno r h),
            if_neg (by rintro ⟨r, h, -⟩; exact hno r h)]
      rw [hx]
  exact congrArg (fun o : Opts =>
    let o := if a.head? = some c!"<" ∨ a.getLast? = some c!">" ∨ a.getLast? = some c!"\"" ∨ a.getLast? = some c!"]" ∨
      a.getLast? = some c!"." ∨ indexByte a c!"@" = some (a.length - 1) then o ||| oGarbage else o
    let o := if contains a b!".." ∨ contains a b!"@@" then o ||| oGarbage else o
    if IsQuoted a then o ||| oQuoted else o) h1

end Sink
