import Verif.Spec.Conncfg
import Verif.Lemmas.Lists
import Verif.Lemmas.Eval

/-!
# Lemmas about connection parameter files
-/

namespace Sink
open Spec

/-! ## Words -/

/-- No white space sequence begins another one. -/
theorem spaceSeqs_free {q q' : Str} (h : q ∈ spaceSeqs) (h' : q' ∈ spaceSeqs) (hp : q <+: q') : q = q' := by
  have : ∀ q ∈ spaceSeqs, ∀ q' ∈ spaceSeqs, q.isPrefixOf q' = true → q = q' := by decide +kernel
  exact this q h q' h' (List.isPrefixOf_iff_prefix.2 hp)

/-- No white space sequence begins inside another one. -/
theorem spaceSeqs_inner {q q' u : Str} {c : Byte} {v : Str} (h : q ∈ spaceSeqs) (h' : q' ∈ spaceSeqs) (hu : u ≠ []) (hq : q = u ++ c :: v) :
    q'.head? ≠ some c := by
  have : ∀ q ∈ spaceSeqs, ∀ q' ∈ spaceSeqs, q.tail.all (fun c => decide (q'.head? ≠ some c)) = true := by decide +kernel
  have := this q h q' h'
  rw [List.all_eq_true] at this
  refine of_decide_eq_true (this c ?_)
  cases u with
  | nil => exact absurd rfl hu
  | cons x u => rw [hq]; simp

/-- White space does not straddle the end of a word. -/
theorem space_boundary {q v s : Str} (h : q ∈ spaceSeqs) (hv : v ≠ []) (hs : s = [] ∨ ∃ q ∈ spaceSeqs, q <+: s) (hp : q <+: v ++ s) : q <+: v := by
  rcases List.prefix_or_prefix_of_prefix hp (List.prefix_append v s) with hp' | ⟨t, rfl⟩
  · exact hp'
  · have ht := (List.prefix_append_right_inj v).1 hp
    rcases hs with rfl | ⟨q', hq', hs⟩
    · rw [List.prefix_nil] at ht; subst ht; simp
    · cases t with
      | nil => simp
      | cons c t =>
        exfalso
        refine spaceSeqs_inner h hq' hv rfl ?_
        obtain ⟨r, rfl⟩ := ht
        obtain ⟨r', hr'⟩ := hs
        cases q' with
        | nil => exact absurd rfl (spaceSeqs_ne hq')
        | cons x q' => injection hr' with e _; rw [e]; rfl

theorem spaceAt_prefix {q s : Str} (h : q ∈ spaceSeqs) : spaceAt (q ++ s) = some q.length := by
  cases hs : spaceAt (q ++ s) with
  | none => exact absurd (List.prefix_append q s) (spaceAt_none hs q h)
  | some k =>
    obtain ⟨q', hq', hp, rfl⟩ := spaceAt_some hs
    rcases List.prefix_or_prefix_of_prefix hp (List.prefix_append q s) with h1 | h1
    · rw [spaceSeqs_free hq' h h1]
    · rw [spaceSeqs_free h hq' h1]

theorem spaceAt_none_iff {s : Str} : spaceAt s = none ↔ ∀ q ∈ spaceSeqs, ¬ q <+: s := by
  refine ⟨spaceAt_none, fun h => ?_⟩
  cases hs : spaceAt s with
  | none => rfl
  | some k =>
    obtain ⟨q, hq, hp, -⟩ := spaceAt_some hs
    exact absurd hp (h q hq)

theorem fieldsN_words : ∀ (n : Nat) (s : Str), s.length ≤ n → Words s (fieldsN n [] s) ∧
    ∀ w : Str, w ≠ [] → ∃ v s' ws, s = v ++ s' ∧ fieldsN n w s = (w.reverse ++ v) :: ws ∧ (s' = [] ∨ ∃ q ∈ spaceSeqs, q <+: s') ∧
      Words s' ws ∧ ∀ u x, v = u ++ x → x ≠ [] → ∀ q ∈ spaceSeqs, ¬ q <+: x ++ s' := by
  intro n
  induction n with
  | zero =>
    intro s hs
    have : s = [] := by simpa using hs
    subst this
    refine ⟨.nil, fun w hw => ⟨[], [], [], rfl, ?_, .inl rfl, .nil, ?_⟩⟩
    · simp [fieldsN, hw]
    · intro u x h hx
      have : x = [] := by
        have := congrArg List.length h
        simp only [List.length_nil, List.length_append] at this
        exact List.eq_nil_of_length_eq_zero (by omega)
      exact absurd this hx
  | succ n ih =>
    intro s hs
    cases s with
    | nil =>
      refine ⟨.nil, fun w hw => ⟨[], [], [], rfl, ?_, .inl rfl, .nil, ?_⟩⟩
      · simp [fieldsN, hw]
      · intro u x h hx
        have : x = [] := by
          have := congrArg List.length h
          simp only [List.length_nil, List.length_append] at this
          exact List.eq_nil_of_length_eq_zero (by omega)
        exact absurd this hx
    | cons c r =>
      have hr : r.length ≤ n := by simpa using hs
      cases hsp : spaceAt (c :: r) with
      | some k =>
        obtain ⟨q, hq, ⟨t, ht⟩, rfl⟩ := spaceAt_some hsp
        have hq1 : 0 < q.length := List.length_pos_iff.mpr (spaceSeqs_ne hq)
        have hlen : t.length ≤ n := by
          have := congrArg List.length ht
          simp only [List.length_append, List.length_cons] at this
          omega
        have hd : (c :: r).drop q.length = t := by rw [← ht, List.drop_left]
        have h1 := (ih t hlen).1
        constructor
        · rw [fieldsN]
          simp only [hsp, hd, if_true, List.nil_append]
          rw [← ht]
          exact .space hq h1
        · intro w hw
          refine ⟨[], c :: r, fieldsN n [] t, rfl, ?_, .inr ⟨q, hq, ⟨t, ht⟩⟩, ?_, ?_⟩
          · rw [fieldsN]
            simp [hsp, hd, hw]
          · rw [← ht]; exact .space hq h1
          · intro u x h hx
            have : x = [] := by
              have := congrArg List.length h
              simp only [List.length_nil, List.length_append] at this
              exact List.eq_nil_of_length_eq_zero (by omega)
            exact absurd this hx
      | none =>
        have key : ∀ w, ∃ v s' ws, r = v ++ s' ∧ fieldsN (n + 1) w (c :: r) = (w.reverse ++ c :: v) :: ws ∧ (s' = [] ∨ ∃ q ∈ spaceSeqs, q <+: s') ∧
            Words s' ws ∧ ∀ u x, c :: v = u ++ x → x ≠ [] → ∀ q ∈ spaceSeqs, ¬ q <+: x ++ s' := by
          intro w
          obtain ⟨v, s', ws, h1, h2, h3, h4, h5⟩ := (ih r hr).2 (c :: w) (by simp)
          refine ⟨v, s', ws, h1, ?_, h3, h4, ?_⟩
          · rw [fieldsN]
            simp only [hsp, h2, List.reverse_cons, List.append_assoc, List.singleton_append]
          · intro u x hx hne q hq
            cases u with
            | nil =>
              simp only [List.nil_append] at hx
              rw [← hx, List.cons_append, ← h1]
              exact spaceAt_none hsp q hq
            | cons y u =>
              cases hx
              exact h5 u x rfl hne q hq
        constructor
        · obtain ⟨v, s', ws, h1, h2, h3, h4, h5⟩ := key []
          rw [h2, h1, ← List.cons_append]
          refine .word (by simp) ?_ h3 h4
          rintro q hq ⟨a, b, hab⟩
          refine h5 a (q ++ b) (by simpa using hab.symm) ?_ q hq ?_
          · intro h; exact spaceSeqs_ne hq (List.append_eq_nil_iff.1 h).1
          · rw [List.append_assoc]; exact List.prefix_append _ _
        · intro w _
          obtain ⟨v, s', ws, h1, h2, h3, h4, h5⟩ := key w
          exact ⟨c :: v, s', ws, by rw [h1]; rfl, h2, h3, h4, h5⟩

theorem fields_words (s : Str) : Words s (fields s) := (fieldsN_words _ s (Nat.le_succ _)).1

theorem Spec.Words.fieldsN {s : Str} {ws : List Str} (h : Words s ws) : ∀ n, s.length ≤ n → Sink.fieldsN n [] s = ws := by
  induction h with
  | nil => intro n hn; cases n <;> simp [Sink.fieldsN]
  | @space q s ws hq _ ih =>
    intro n hn
    have hq1 : 0 < q.length := List.length_pos_iff.mpr (spaceSeqs_ne hq)
    simp only [List.length_append] at hn
    cases n with
    | zero => omega
    | succ n =>
      cases hqs : q with
      | nil => rw [hqs] at hq1; simp at hq1
      | cons c q' =>
        rw [List.cons_append, Sink.fieldsN]
        have : spaceAt (c :: (q' ++ s)) = some q.length := by rw [← List.cons_append, ← hqs]; exact spaceAt_prefix hq
        simp only [this, if_true, List.nil_append]
        rw [← List.cons_append, ← hqs, List.drop_left]
        exact ih n (by omega)
  | @word w s ws hw hns hs h ih =>
    intro n hn
    have go : ∀ (v a : Str) (n : Nat), (a ≠ [] ∨ v ≠ []) → (v ++ s).length ≤ n → (∀ q ∈ spaceSeqs, ¬ q <:+: v) →
        Sink.fieldsN n a (v ++ s) = (a.reverse ++ v) :: ws := by
      intro v
      induction v with
      | nil =>
        intro a n ha hn _
        have ha : a ≠ [] := by rcases ha with h | h; · exact h
                               · exact absurd rfl h
        simp only [List.nil_append, List.append_nil] at hn ⊢
        rcases hs with rfl | ⟨q, hq, t, rfl⟩
        · have : ws = [] := by cases h' : ws with
            | nil => rfl
            | cons x xs => have := ih 0 (by simp); rw [h'] at this; simp [Sink.fieldsN] at this
          subst this
          cases n <;> simp [Sink.fieldsN, ha]
        · have hq1 : 0 < q.length := List.length_pos_iff.mpr (spaceSeqs_ne hq)
          simp only [List.length_append] at hn
          cases n with
          | zero => omega
          | succ n =>
            have ihn := ih (n + 1) (by simp only [List.length_append]; omega)
            cases hqs : q with
            | nil => rw [hqs] at hq1; simp at hq1
            | cons c q' =>
              have hsp : spaceAt (c :: (q' ++ t)) = some q.length := by rw [← List.cons_append, ← hqs]; exact spaceAt_prefix hq
              rw [hqs, List.cons_append, Sink.fieldsN] at ihn
              simp only [hsp, if_true, List.nil_append] at ihn
              rw [List.cons_append, Sink.fieldsN]
              simp only [hsp, if_neg ha, ihn]
              rfl
      | cons c v ihv =>
        intro a n _ hn hv
        cases n with
        | zero => simp at hn
        | succ n =>
          have hsp : spaceAt (c :: (v ++ s)) = none := by
            rw [spaceAt_none_iff]
            intro q hq hp
            rw [← List.cons_append] at hp
            have := space_boundary hq (by simp) hs hp
            exact hv q hq this.isInfix
          rw [List.cons_append, Sink.fieldsN]
          simp only [hsp]
          rw [ihv (c :: a) n (.inl (by simp)) (by simpa using hn) fun q hq hi => hv q hq (hi.trans (List.suffix_cons c v).isInfix)]
          simp
    have := go w [] n (.inr hw) hn hns
    simpa using this

theorem words_iff {s : Str} {ws : List Str} : Words s ws ↔ fields s = ws :=
  ⟨fun h => h.fieldsN _ (Nat.le_succ _), fun h => h ▸ fields_words s⟩

theorem words_spaces : ∀ {post : List Str}, (∀ q ∈ post, q ∈ spaceSeqs) → Words post.flatten [] := by
  intro post
  induction post with
  | nil => intro _; exact .nil
  | cons q post ih =>
    intro h
    rw [List.flatten_cons]
    exact .space (h q (by simp)) (ih fun x hx => h x (by simp [hx]))

theorem Spec.Words.append_spaces {s : Str} {ws : List Str} (h : Words s ws) {post : List Str} (hp : ∀ q ∈ post, q ∈ spaceSeqs) :
    Words (s ++ post.flatten) ws := by
  induction h with
  | nil => exact words_spaces hp
  | space hq _ ih => rw [List.append_assoc]; exact .space hq ih
  | @word w s ws h1 h2 h3 h4 ih =>
    rw [List.append_assoc]
    refine .word h1 h2 ?_ ih
    rcases h3 with rfl | ⟨q, hq, t, rfl⟩
    · cases post with
      | nil => exact .inl rfl
      | cons q post => exact .inr ⟨q, hp q (by simp), by simp⟩
    · exact .inr ⟨q, hq, by rw [List.append_assoc]; exact List.prefix_append _ _⟩

theorem Spec.Trimmed.words {s t : Str} (h : Trimmed s t) : ∀ {ws}, Words t ws → Words s ws := by
  obtain ⟨pre, post, h1, h2, rfl, -, -⟩ := h
  intro ws hw
  rw [List.append_assoc]
  have := hw.append_spaces h2
  clear hw
  induction pre with
  | nil => exact this
  | cons q pre ih =>
    rw [List.flatten_cons, List.append_assoc]
    exact .space (h1 q (by simp)) (ih fun x hx => h1 x (by simp [hx]))

theorem fields_trim {s t : Str} (h : Trimmed s t) : fields t = fields s := (words_iff.1 (h.words (fields_words t))).symm

/-- The first byte of a trimmed text is the first byte of its first word. -/
theorem Spec.Trimmed.head {s t : Str} (h : Trimmed s t) : (t = [] ↔ fields s = []) ∧ ∀ w ws, fields s = w :: ws → t.head? = w.head? := by
  rw [← fields_trim h]
  obtain ⟨pre, post, -, -, -, h4, -⟩ := h
  have hw := fields_words t
  generalize fields t = ws at hw
  cases hw with
  | nil => exact ⟨⟨fun _ => rfl, fun _ => rfl⟩, fun _ _ h => by cases h⟩
  | space hq => exact absurd (List.prefix_append _ _) (h4 _ hq)
  | @word w s ws hne _ _ _ =>
    refine ⟨⟨fun h => absurd (List.append_eq_nil_iff.1 h).1 hne, fun h => by cases h⟩, fun w' ws' h => ?_⟩
    cases h
    cases w with
    | nil => exact absurd rfl hne
    | cons c w => rfl

/-! ## Settings -/

theorem splitEq_none {s : Str} : splitEq s = none ↔ ∀ k v, ¬ Gives s k v := by
  unfold splitEq
  constructor
  · intro h k v hg
    cases hi : indexByte s c!"=" with
    | none =>
      rw [indexByte_none] at hi
      apply hi; rw [hg]; simp
    | some i => rw [hi] at h; cases h
  · intro h
    cases hi : indexByte s c!"=" with
    | none => rfl
    | some i =>
      obtain ⟨l, r, rfl, -, -⟩ := indexByte_some.1 hi
      exact absurd (show Gives _ l r by simp [Gives]) (h l r)

theorem splitEq_some {s k v : Str} : splitEq s = some (k, v) ↔ Gives s k v ∧ c!"=" ∉ k := by
  unfold splitEq Gives
  constructor
  · intro h
    cases hi : indexByte s c!"=" with
    | none => rw [hi] at h; cases h
    | some i =>
      rw [hi] at h
      obtain ⟨l, r, rfl, hl, rfl⟩ := indexByte_some.1 hi
      simp only [Option.some.injEq, Prod.mk.injEq, List.take_left] at h
      obtain ⟨rfl, rfl⟩ := h
      refine ⟨?_, hl⟩
      rw [← List.drop_drop, List.drop_left]; simp
  · rintro ⟨rfl, hk⟩
    have : indexByte (k ++ b!"=" ++ v) c!"=" = some k.length := indexByte_some.2 ⟨k, v, by simp, hk, rfl⟩
    rw [this]
    simp

theorem Spec.Gives.unique {s k v k' v' : Str} (h : Gives s k v) (h' : Gives s k' v') (hk : c!"=" ∉ k) (hk' : c!"=" ∉ k') : k = k' ∧ v = v' := by
  have h1 := splitEq_some.2 ⟨h, hk⟩
  have h2 := splitEq_some.2 ⟨h', hk'⟩
  rw [h1] at h2
  simpa using h2

/-- The value of a key, starting from another value than empty. -/
def ValueFrom (v0 : Str) (ss : List Str) (key v : Str) : Prop :=
  (∃ l s r, ss = l ++ s :: r ∧ Gives s key v ∧ ∀ x ∈ r, ∀ v', ¬ Gives x key v') ∨ (v = v0 ∧ ∀ x ∈ ss, ∀ v', ¬ Gives x key v')

theorem valueFrom_here {v0 v1 s key v : Str} {ss : List Str} (hk : c!"=" ∉ key) (hs : Gives s key v1) :
    ValueFrom v0 (s :: ss) key v ↔ ValueFrom v1 ss key v := by
  constructor
  · rintro (⟨l, x, r, h1, h2, h3⟩ | ⟨rfl, h⟩)
    · cases l with
      | nil =>
        cases h1
        exact .inr ⟨(h2.unique hs hk hk).2, h3⟩
      | cons y l => cases h1; exact .inl ⟨l, x, r, rfl, h2, h3⟩
    · exact absurd hs (h s (by simp) v1)
  · rintro (⟨l, x, r, rfl, h2, h3⟩ | ⟨rfl, h⟩)
    · exact .inl ⟨s :: l, x, r, rfl, h2, h3⟩
    · exact .inl ⟨[], s, ss, rfl, hs, h⟩

theorem valueFrom_skip {v0 v1 s key key' v : Str} {ss : List Str} (hk : c!"=" ∉ key) (hk' : c!"=" ∉ key') (hne : key' ≠ key) (hs : Gives s key' v1) :
    ValueFrom v0 (s :: ss) key v ↔ ValueFrom v0 ss key v := by
  have hno : ∀ v', ¬ Gives s key v' := fun v' h => hne (hs.unique h hk' hk).1
  constructor
  · rintro (⟨l, x, r, h1, h2, h3⟩ | ⟨rfl, h⟩)
    · cases l with
      | nil => cases h1; exact absurd h2 (hno _)
      | cons y l => cases h1; exact .inl ⟨l, x, r, rfl, h2, h3⟩
    · exact .inr ⟨rfl, fun x hx => h x (by simp [hx])⟩
  · rintro (⟨l, x, r, rfl, h2, h3⟩ | ⟨rfl, h⟩)
    · exact .inl ⟨s :: l, x, r, rfl, h2, h3⟩
    · refine .inr ⟨rfl, fun x hx => ?_⟩
      rcases List.mem_cons.1 hx with rfl | hx
      · exact hno
      · exact h x hx

theorem valueFrom_nil {v0 key v : Str} : ValueFrom v0 [] key v ↔ v = v0 := by
  constructor
  · rintro (⟨l, x, r, h1, -⟩ | ⟨rfl, -⟩)
    · cases l <;> cases h1
    · rfl
  · rintro rfl; exact .inr ⟨rfl, fun x hx => by cases hx⟩

theorem connFields_iff {n : Nat} : ∀ {ss : List Str} {kv kv' : ConnKV}, connFields n ss kv = .ok kv' ↔
    (∀ s ∈ ss, Known s) ∧ ValueFrom kv.host ss b!"hostname" kv'.host ∧ ValueFrom kv.cert ss b!"cert" kv'.cert ∧ ValueFrom kv.key ss b!"key" kv'.key := by
  intro ss
  induction ss with
  | nil =>
    intro kv kv'
    simp only [connFields, valueFrom_nil, Except.ok.injEq]
    constructor
    · rintro rfl; exact ⟨fun _ hs => (nomatch hs), rfl, rfl, rfl⟩
    · rintro ⟨-, h1, h2, h3⟩
      cases kv; cases kv'
      simp only at h1 h2 h3
      rw [h1, h2, h3]
  | cons s ss ih =>
    intro kv kv'
    have n1 : c!"=" ∉ b!"hostname" := by decide
    have n2 : c!"=" ∉ b!"cert" := by decide
    have n3 : c!"=" ∉ b!"key" := by decide
    have kn : ∀ {P : Prop}, Known s → ((∀ x ∈ s :: ss, Known x) ∧ P ↔ (∀ x ∈ ss, Known x) ∧ P) := by
      intro P hs
      simp only [List.mem_cons, forall_eq_or_imp, hs, true_and]
    rw [connFields]
    cases hsp : splitEq s with
    | none =>
      simp only [reduceCtorEq, false_iff]
      rintro ⟨h, -⟩
      obtain ⟨v, h | h | h⟩ := h s (by simp) <;> exact splitEq_none.1 hsp _ _ h
    | some p =>
      obtain ⟨k, v⟩ := p
      obtain ⟨hg, hk⟩ := splitEq_some.1 hsp
      simp only
      split
      · rename_i h; subst h
        rw [ih, kn ⟨v, .inl hg⟩, valueFrom_here n1 hg, valueFrom_skip n2 n1 (by decide) hg, valueFrom_skip n3 n1 (by decide) hg]
      · split
        · rename_i h; subst h
          rw [ih, kn ⟨v, .inr (.inl hg)⟩, valueFrom_here n2 hg, valueFrom_skip n1 n2 (by decide) hg, valueFrom_skip n3 n2 (by decide) hg]
        · split
          · rename_i h; subst h
            rw [ih, kn ⟨v, .inr (.inr hg)⟩, valueFrom_here n3 hg, valueFrom_skip n1 n3 (by decide) hg, valueFrom_skip n2 n3 (by decide) hg]
          · rename_i a b c
            simp only [reduceCtorEq, false_iff]
            rintro ⟨h, -⟩
            obtain ⟨v', h | h | h⟩ := h s (by simp)
            · exact a (hg.unique h hk n1).1
            · exact b (hg.unique h hk n2).1
            · exact c (hg.unique h hk n3).1

/-! ## Certificates -/

theorem splitOn_join {sep : Byte} : ∀ {l : List Str}, l ≠ [] → (∀ x ∈ l, sep ∉ x) → splitOn sep (join [sep] l) = l := by
  have one : ∀ {x : Str}, sep ∉ x → splitOn sep x = [x] := by
    intro x
    induction x with
    | nil => intro _; rfl
    | cons c x ih =>
      intro h
      simp only [List.mem_cons, not_or] at h
      rw [splitOn, if_neg (fun e => h.1 e.symm), ih h.2]
  have more : ∀ {x y : Str}, sep ∉ x → splitOn sep (x ++ sep :: y) = x :: splitOn sep y := by
    intro x
    induction x with
    | nil => intro y _; simp [splitOn]
    | cons c x ih =>
      intro y h
      simp only [List.mem_cons, not_or] at h
      rw [List.cons_append, splitOn, if_neg (fun e => h.1 e.symm), ih h.2]
  intro l
  induction l with
  | nil => intro h; exact absurd rfl h
  | cons x l ih =>
    intro _ h
    cases l with
    | nil => simp only [join]; exact one (h x (by simp))
    | cons y l =>
      rw [join]
      · rw [List.append_assoc, List.singleton_append, more (h x (by simp)), ih (by simp) fun z hz => h z (by simp [hz])]
      · simp

theorem commas_iff {s : Str} {l : List Str} : Commas s l ↔ splitOn c!"," s = l := by
  constructor
  · rintro ⟨h1, rfl, h3⟩; exact splitOn_join h1 h3
  · rintro rfl
    exact splitOn_spec _ _

theorem loadPairs_iff {P : PairOracle} {many : Bool} : ∀ {cs ks : List Str} {r : List TlsCert}, cs.length = ks.length →
    (loadPairs P many cs ks = .ok r ↔ cs = r.map TlsCert.cert ∧ ks = r.map TlsCert.key ∧ ∀ x ∈ r, P x.cert x.key = none) := by
  intro cs
  induction cs with
  | nil =>
    intro ks r hl
    have : ks = [] := by simpa using hl.symm
    subst this
    cases r <;> simp [loadPairs]
  | cons c cs ih =>
    intro ks r hl
    cases ks with
    | nil => simp at hl
    | cons k ks =>
      rw [loadPairs]
      cases hp : P c k with
      | some e =>
        simp only [reduceCtorEq, false_iff]
        rintro ⟨h1, h2, h3⟩
        cases r with
        | nil => cases h1
        | cons x r =>
          simp only [List.map_cons, List.cons.injEq] at h1 h2
          have := h3 x (by simp)
          rw [← h1.1, ← h2.1, hp] at this; cases this
      | none =>
        have hl' : cs.length = ks.length := by simpa using hl
        simp only
        constructor
        · intro h
          split at h
          · rename_i r' hr'
            cases h
            obtain ⟨h1, h2, h3⟩ := (ih hl').1 hr'
            refine ⟨by rw [h1]; rfl, by rw [h2]; rfl, ?_⟩
            intro x hx
            rcases List.mem_cons.1 hx with rfl | hx
            · exact hp
            · exact h3 x hx
          · cases h
        · rintro ⟨h1, h2, h3⟩
          cases r with
          | nil => cases h1
          | cons x r =>
            simp only [List.map_cons, List.cons.injEq] at h1 h2
            have := (ih hl').2 ⟨h1.2, h2.2, fun y hy => h3 y (by simp [hy])⟩
            rw [this]
            simp only [Except.ok.injEq, List.cons.injEq, and_true]
            cases x
            simp only at h1 h2
            rw [h1.1, h2.1]

theorem loadCerts_iff {P : PairOracle} {cert key : Str} {r : List TlsCert} : loadCerts P cert key = .ok r ↔
    Commas cert (r.map TlsCert.cert) ∧ Commas key (r.map TlsCert.key) ∧ ∀ x ∈ r, P x.cert x.key = none := by
  unfold loadCerts
  simp only [commas_iff]
  split
  · rename_i h
    simp only [reduceCtorEq, false_iff]
    rintro ⟨h1, h2, -⟩
    apply h
    rw [h1, h2]; simp
  · rename_i h
    exact loadPairs_iff (not_not.1 h)

theorem connCerts_iff {P : PairOracle} {n : Nat} {kv : ConnKV} {r : List TlsCert} : connCerts P n kv = .ok r ↔ Certs P kv.cert kv.key r := by
  unfold connCerts Certs
  by_cases hc : kv.cert = []
  · by_cases hk : kv.key = []
    · simp [hc, hk, eq_comm]
    · simp [hc, hk]
  · by_cases hk : kv.key = []
    · simp [hc, hk]
    · rw [if_pos ⟨hc, hk⟩]
      simp only [hc, hk, false_and, false_or, ne_eq, not_false_eq_true, true_and]
      rw [← loadCerts_iff]
      cases loadCerts P kv.cert kv.key <;> simp

/-! ## Lines and files -/

theorem connLine_none {P : PairOracle} {n : Nat} {l : Str} : connLine P n l = .ok none ↔ Silent l := by
  have ht := (trimSpace_trimmed l).head
  unfold connLine Silent
  simp only [words_iff, fields_trim (trimSpace_trimmed l)]
  cases hf : fields l with
  | nil =>
    rw [if_pos (.inl (ht.1.2 hf))]
    simp
  | cons w ws =>
    have hne : trimSpace l ≠ [] := fun h => by have := ht.1.1 h; rw [hf] at this; cases this
    rw [ht.2 w ws hf]
    by_cases hc : w.head? = some c!"#"
    · rw [if_pos (.inr hc)]
      simp only [reduceCtorEq, false_or, true_iff]
      exact ⟨w, ws, rfl, hc⟩
    · rw [if_neg (by rintro (h | h); exact hne h; exact hc h)]
      simp only [reduceCtorEq, false_or]
      constructor
      · intro h
        split at h
        · cases h
        · split at h
          · cases h
          · split at h <;> cases h
      · rintro ⟨w', ws', h1, h2⟩
        cases h1
        exact absurd h2 hc

theorem connLine_some {P : PairOracle} {n : Nat} {l : Str} {d : PerDest} : connLine P n l = .ok (some d) ↔ Says P l d := by
  have ht := (trimSpace_trimmed l).head
  unfold connLine Says
  simp only [words_iff, fields_trim (trimSpace_trimmed l)]
  cases hf : fields l with
  | nil =>
    rw [if_pos (.inl (ht.1.2 hf))]
    simp
  | cons w ws =>
    have hne : trimSpace l ≠ [] := fun h => by have := ht.1.1 h; rw [hf] at this; cases this
    rw [ht.2 w ws hf]
    by_cases hc : w.head? = some c!"#"
    · rw [if_pos (.inr hc)]
      simp only [Except.ok.injEq, reduceCtorEq, false_iff]
      rintro ⟨st, c, k, h1, h2, -⟩
      cases h1
      exact h2 hc
    · rw [if_neg (by rintro (h | h); exact hne h; exact hc h)]
      simp only
      constructor
      · intro h
        split at h
        · cases h
        · rename_i hlen
          split at h
          · cases h
          · rename_i kv hkv
            obtain ⟨h1, h2, h3, h4⟩ := connFields_iff.1 hkv
            split at h
            · cases h
            · rename_i certs hcs
              cases h
              exact ⟨ws, kv.cert, kv.key, rfl, hc, by omega, h1, h2, h3, h4, connCerts_iff.1 hcs⟩
      · rintro ⟨st, c, k, h1, h2, h3, h4, h5, h6, h7, h8⟩
        cases h1
        rw [if_neg (by omega)]
        have : connFields n ws {} = .ok ⟨d.myname, c, k⟩ := connFields_iff.2 ⟨h4, h5, h6, h7⟩
        rw [this]
        have : connCerts P n ⟨d.myname, c, k⟩ = .ok d.certs := connCerts_iff.2 h8
        simp only [this]

theorem connLines_iff {P : PairOracle} : ∀ {ls : List Str} {n : Nat} {ds : List PerDest}, connLines P n ls = .ok ds ↔ ConnFile P ls ds := by
  intro ls
  induction ls with
  | nil =>
    intro n ds
    rw [connLines]
    constructor
    · intro h; cases h; exact .nil
    · intro h; cases h; rfl
  | cons l ls ih =>
    intro n ds
    rw [connLines]
    constructor
    · intro h
      split at h
      · cases h
      · rename_i hl
        exact .silent (connLine_none.1 hl) (ih.1 h)
      · rename_i d hl
        split at h
        · cases h
        · rename_i ds' hd
          cases h
          exact .says (connLine_some.1 hl) (ih.1 hd)
    · intro h
      cases h with
      | silent h1 h2 => rw [connLine_none.2 h1]; exact ih.2 h2
      | «says» h1 h2 => rw [connLine_some.2 h1]; simp only [ih.2 h2]

end Sink
