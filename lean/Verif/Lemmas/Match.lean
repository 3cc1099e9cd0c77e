import Verif.Model.Match
import Verif.Spec.Match
import Verif.Lemmas.Bytes

/-!
# Lemmas about pattern matching
-/

namespace Sink
open Spec

theorem sDotNext_none {s : Str} {p : Nat} (h : c!"." ∉ s.drop (p + 1)) : sDotNext s p = ([], p) := by
  unfold sDotNext
  split
  · rfl
  · rw [indexByte_none.mpr h]

theorem sDotNext_some {s x t : Str} {p : Nat} (h : s.drop (p + 1) = x ++ c!"." :: t) (hx : c!"." ∉ x) :
    sDotNext s p = (c!"." :: t, p + x.length + 1) ∧ s.drop (p + x.length + 1 + 1) = t ∧ p + x.length + 1 < s.length := by
  have hlen : s.length - (p + 1) = x.length + (t.length + 1) := by
    have := congrArg List.length h; simpa using this
  have h1 : s.drop (p + x.length + 1) = c!"." :: t := by
    have := congrArg (List.drop x.length) h
    rw [List.drop_drop, List.drop_left] at this
    rw [← this]; congr 1; omega
  have h2 : s.drop (p + x.length + 1 + 1) = t := by
    have := congrArg (List.drop 1) h1
    rwa [List.drop_drop] at this
  refine ⟨?_, h2, by omega⟩
  unfold sDotNext
  rw [if_neg (by omega), indexByte_some.mpr ⟨x, t, h, hx, rfl⟩]
  simp only [h1]

/-- The pattern is a dotted tail after position `p`. -/
def DotTail (s : Str) (p : Nat) (pat : Str) : Prop := ∃ x t, s.drop (p + 1) = x ++ c!"." :: t ∧ pat = c!"." :: t

theorem dotTail_step {s x t pat : Str} {p : Nat} (h : s.drop (p + 1) = x ++ c!"." :: t) (hx : c!"." ∉ x) :
    DotTail s p pat ↔ pat = c!"." :: t ∨ DotTail s (p + x.length + 1) pat := by
  have h2 := (sDotNext_some h hx).2.1
  constructor
  · rintro ⟨x', t', h', rfl⟩
    by_cases hx' : c!"." ∈ x'
    · right
      obtain ⟨i, hi⟩ := Option.ne_none_iff_exists'.mp (fun hn => indexByte_none.mp hn hx')
      obtain ⟨l, r, rfl, hl, -⟩ := indexByte_some.mp hi
      rw [h] at h'
      obtain ⟨rfl, rfl⟩ := split_unique (by simpa using h') hx hl
      exact ⟨r, t', h2, rfl⟩
    · left
      rw [h] at h'
      rw [(split_unique h' hx hx').2]
  · rintro (rfl | ⟨x', t', h', rfl⟩)
    · exact ⟨x, t, h, rfl⟩
    · rw [h2] at h'
      exact ⟨x ++ c!"." :: x', t', by rw [h, h']; simp, rfl⟩

theorem exists_dot {s : Str} (h : c!"." ∈ s) : ∃ x t, s = x ++ c!"." :: t ∧ c!"." ∉ x := by
  obtain ⟨i, hi⟩ := Option.ne_none_iff_exists'.mp (fun hn => indexByte_none.mp hn h)
  obtain ⟨l, r, h1, h2, -⟩ := indexByte_some.mp hi
  exact ⟨l, r, h1, h2⟩

theorem hostLoop_eq {s pat : Str} : ∀ {n p : Nat}, 1 ≤ n → s.length + 1 ≤ n + p →
    ∃ b, hostLoop s pat n p = some b ∧ (b = true ↔ DotTail s p pat) := by
  intro n
  induction n with
  | zero => intro p h1; omega
  | succ n ih =>
    intro p _ hp
    by_cases hd : c!"." ∈ s.drop (p + 1)
    · obtain ⟨x, t, h, hx⟩ := exists_dot hd
      obtain ⟨hn, -, hlt⟩ := sDotNext_some h hx
      rw [hostLoop, hn]
      simp only [reduceCtorEq, if_false]
      rw [dotTail_step h hx]
      by_cases hp' : c!"." :: t = pat
      · exact ⟨true, by rw [if_pos hp'], by simp [hp']⟩
      · rw [if_neg hp']
        obtain ⟨b, hb, hiff⟩ := ih (p := p + x.length + 1) (by omega) (by omega)
        exact ⟨b, hb, by rw [hiff]; simp [Ne.symm hp']⟩
    · rw [hostLoop, sDotNext_none hd]
      refine ⟨false, by simp, ?_⟩
      simp only [Bool.false_eq_true, false_iff]
      rintro ⟨x, t, h, -⟩
      rw [h] at hd; simp at hd

theorem addrLoop_eq {s pat : Str} : ∀ {n p : Nat}, 1 ≤ n → s.length + 1 ≤ n + p →
    ∃ b, addrLoop s pat n p = some b ∧ (b = true ↔ pat = b!"@" ∨ ∃ t, pat = c!"@" :: t ∧ DotTail s p t) := by
  intro n
  induction n with
  | zero => intro p h1; omega
  | succ n ih =>
    intro p _ hp
    by_cases hd : c!"." ∈ s.drop (p + 1)
    · obtain ⟨x, t, h, hx⟩ := exists_dot hd
      obtain ⟨hn, -, hlt⟩ := sDotNext_some h hx
      rw [addrLoop, hn]
      simp only [ne_eq, List.cons.injEq, reduceCtorEq, and_false, not_false_eq_true, if_true]
      by_cases hp' : c!"@" :: c!"." :: t = pat
      · exact ⟨true, by rw [if_pos hp'], by
          simp only [true_iff]; exact Or.inr ⟨_, hp'.symm, (dotTail_step h hx).mpr (Or.inl rfl)⟩⟩
      · rw [if_neg hp']
        obtain ⟨b, hb, hiff⟩ := ih (p := p + x.length + 1) (by omega) (by omega)
        refine ⟨b, hb, ?_⟩
        rw [hiff]
        constructor
        · rintro (h' | ⟨t', h1, h2⟩)
          · exact Or.inl h'
          · exact Or.inr ⟨t', h1, (dotTail_step h hx).mpr (Or.inr h2)⟩
        · rintro (h' | ⟨t', h1, h2⟩)
          · exact Or.inl h'
          · rcases (dotTail_step h hx).mp h2 with rfl | h2
            · exact absurd h1.symm hp'
            · exact Or.inr ⟨t', h1, h2⟩
    · rw [addrLoop, sDotNext_none hd]
      have hno : ∀ t, ¬ DotTail s p t := by
        rintro t ⟨x, t, h, -⟩
        rw [h] at hd; simp at hd
      by_cases hp' : [c!"@"] = pat
      · exact ⟨true, by simp only [if_pos hp'], by simp [← hp']⟩
      · refine ⟨false, by simp only [if_neg hp', ne_eq, not_true_eq_false, if_false], ?_⟩
        simp only [Bool.false_eq_true, false_iff, not_or, not_exists, not_and]
        exact ⟨fun h => hp' h.symm, fun t _ => hno t⟩

/-- The iterator never reports a dot at position 0, but the whole string covers that case. -/
theorem tail_cases {d t : Str} (hd : d ≠ []) :
    TailOf t d ↔ t = d ∨ c!"." :: t = d ∨ DotTail d 0 (c!"." :: t) := by
  unfold TailOf DotTail
  constructor
  · rintro (h | ⟨x, h⟩)
    · exact Or.inl h
    · cases x with
      | nil => exact Or.inr (Or.inl (by simp [h]))
      | cons a x => exact Or.inr (Or.inr ⟨x, t, by simp [h], rfl⟩)
  · rintro (h | h | ⟨x, t', h, h'⟩)
    · exact Or.inl h
    · exact Or.inr ⟨[], by simp [h]⟩
    · simp only [List.cons.injEq, true_and] at h'
      subst h'
      cases d with
      | nil => exact absurd rfl hd
      | cons a d => exact Or.inr ⟨a :: x, by simp at h; simp [h]⟩

theorem matchAddress_spec (L : Lib) (addr pat : Str) :
    ∃ b, matchAddress L addr pat = .ok b ∧ (b = true ↔ AddrMatch (L.lower addr) pat) := by
  unfold matchAddress
  generalize L.lower addr = a
  simp only
  split
  · rename_i h
    refine ⟨true, rfl, by simp only [true_iff]; rcases h with ⟨rfl, rfl⟩ | rfl; exacts [.null, .self _]⟩
  rename_i hself
  simp only [not_or, not_and] at hself
  -- what else can match
  split
  · rename_i hi
    have hat := indexByte_none.mp hi
    by_cases ha : a = []
    · refine ⟨false, by simp [ha], ?_⟩
      simp only [Bool.false_eq_true, false_iff]
      intro hm
      cases hm with
      | self => exact hself.2 rfl
      | null => exact hself.1 rfl rfl
      | name h => exact h ha
      | local_ h => obtain ⟨rfl, _⟩ := h; simp at ha
      | domain h => obtain ⟨rfl, _⟩ := h; simp at ha
      | any h => obtain ⟨rfl, _⟩ := h; simp at ha
      | tail h => obtain ⟨rfl, _⟩ := h; simp at ha
    · rw [if_neg ha]
      refine ⟨_, rfl, ?_⟩
      simp only [beq_iff_eq]
      constructor
      · rintro rfl; exact .name ha hat
      · intro hm
        cases hm with
        | self => exact absurd rfl hself.2
        | null => exact absurd rfl ha
        | name => rfl
        | local_ h => obtain ⟨rfl, _⟩ := h; simp at hat
        | domain h => obtain ⟨rfl, _⟩ := h; simp at hat
        | any h => obtain ⟨rfl, _⟩ := h; simp at hat
        | tail h => obtain ⟨rfl, _⟩ := h; simp at hat
  · rename_i idx hi
    obtain ⟨l, d, rfl, hl, rfl⟩ := indexByte_some.mp hi
    by_cases hedge : l = [] ∨ d = []
    · rw [if_pos (by rcases hedge with rfl | rfl <;> simp)]
      refine ⟨false, rfl, ?_⟩
      have hna : ∀ l' d', ¬ IsAddr (l ++ c!"@" :: d) l' d' := by
        rintro l' d' ⟨h1, h2, h3, h4⟩
        obtain ⟨rfl, rfl⟩ := split_unique h1 hl h2
        rcases hedge with h | h
        · exact h3 h
        · exact h4 h
      simp only [Bool.false_eq_true, false_iff]
      generalize hw : l ++ c!"@" :: d = a at *
      intro hm
      cases hm with
      | self => exact hself.2 rfl
      | null => simp at hw
      | name _ h => rw [← hw] at h; simp at h
      | local_ h => exact hna _ _ h
      | domain h => exact hna _ _ h
      | any h => exact hna _ _ h
      | tail h => exact hna _ _ h
    · simp only [not_or] at hedge
      have ha : IsAddr (l ++ c!"@" :: d) l d := ⟨rfl, hl, hedge.1, hedge.2⟩
      have huniq : ∀ l' d', IsAddr (l ++ c!"@" :: d) l' d' → l' = l ∧ d' = d := by
        rintro l' d' ⟨h1, h2, -, -⟩
        obtain ⟨rfl, rfl⟩ := split_unique h1 hl h2
        exact ⟨rfl, rfl⟩
      have hd1 : 0 < d.length := List.length_pos_iff.mpr hedge.2
      have hl1 : 0 < l.length := List.length_pos_iff.mpr hedge.1
      rw [if_neg (by simp; omega)]
      have e1 : (l ++ c!"@" :: d).take (l.length + 1) = l ++ b!"@" := by
        rw [List.take_append, List.take_of_length_le (by omega)]; simp
      simp only [List.drop_left, e1, List.drop_one, List.tail_cons, List.length_cons]
      have key : AddrMatch (l ++ c!"@" :: d) pat ↔
          l ++ b!"@" = pat ∨ c!"@" :: d = pat ∨ pat = b!"@" ∨ ∃ t, TailOf t d ∧ pat = b!"@." ++ t := by
        constructor
        · generalize hw : l ++ c!"@" :: d = a at *
          intro hm
          cases hm with
          | self => exact absurd rfl hself.2
          | null => simp at hw
          | name _ h => rw [← hw] at h; simp at h
          | local_ h => obtain ⟨rfl, rfl⟩ := huniq _ _ h; exact Or.inl rfl
          | domain h => obtain ⟨rfl, rfl⟩ := huniq _ _ h; exact Or.inr (Or.inl rfl)
          | any h => exact Or.inr (Or.inr (Or.inl rfl))
          | tail h ht => obtain ⟨rfl, rfl⟩ := huniq _ _ h; exact Or.inr (Or.inr (Or.inr ⟨_, ht, rfl⟩))
        · rintro (rfl | rfl | rfl | ⟨t, ht, rfl⟩)
          · exact .local_ ha
          · exact .domain ha
          · exact .any ha
          · exact .tail ha ht
      rw [key]
      split
      · rename_i h
        exact ⟨true, rfl, by simp only [true_iff]; tauto⟩
      rename_i h
      simp only [not_or] at h
      obtain ⟨b, hb, hiff⟩ := addrLoop_eq (s := d) (pat := pat) (n := d.length + 1 + 1) (p := 0) (by omega) (by omega)
      rw [hb]
      cases b with
      | true =>
        refine ⟨true, rfl, ?_⟩
        simp only [true_iff] at hiff ⊢
        rcases hiff with h' | ⟨t, rfl, ht⟩
        · tauto
        · obtain ⟨x, t', h1, rfl⟩ := ht
          exact Or.inr (Or.inr (Or.inr ⟨t', (tail_cases hedge.2).mpr (Or.inr (Or.inr ⟨x, t', h1, rfl⟩)), rfl⟩))
      | false =>
        refine ⟨_, rfl, ?_⟩
        simp only [Bool.false_eq_true, false_iff, not_or, not_exists, not_and, beq_iff_eq] at hiff ⊢
        constructor
        · intro h'; exact Or.inr (Or.inr (Or.inr ⟨d, Or.inl rfl, h'.symm⟩))
        · rintro (h' | h' | h' | ⟨t, ht, rfl⟩)
          · exact absurd h' h.1
          · exact absurd h' h.2
          · exact absurd h' hiff.1
          · rcases (tail_cases hedge.2).mp ht with rfl | rfl | ht
            · rfl
            · exact absurd rfl h.2
            · exact absurd ht (hiff.2 _ rfl)

theorem matchHost2_spec (h pat : Str) :
    ∃ b, matchHost2 h pat = .ok b ∧ (b = true ↔ pat = h ∨ ∃ t, TailOf t h ∧ pat = b!"." ++ t) := by
  unfold matchHost2
  split
  · rename_i hs
    refine ⟨true, rfl, ?_⟩
    simp only [true_iff]
    rcases hs with rfl | rfl
    · exact Or.inl rfl
    · exact Or.inr ⟨h, Or.inl rfl, rfl⟩
  rename_i hs
  simp only [not_or] at hs
  obtain ⟨b, hb, hiff⟩ := hostLoop_eq (s := h) (pat := pat) (n := h.length + 1) (p := 0) (by omega) (by omega)
  rw [hb]
  refine ⟨b, rfl, ?_⟩
  rw [hiff]
  constructor
  · rintro ⟨x, t, h1, rfl⟩
    refine Or.inr ⟨t, ?_, rfl⟩
    cases h with
    | nil => simp at h1
    | cons a h => exact Or.inr ⟨a :: x, by simp at h1; simp [h1]⟩
  · rintro (rfl | ⟨t, ht, rfl⟩)
    · exact absurd rfl hs.1
    · rcases ht with rfl | ⟨x, rfl⟩
      · exact absurd rfl hs.2
      · cases x with
        | nil => exact absurd rfl hs.1
        | cons a x => exact ⟨x, t, by simp, rfl⟩

theorem matchHost_spec (L : Lib) {host pat : Str} (hh : host ≠ []) (hp : pat ≠ [] ∨ (L.lower host).getLast? ≠ some c!".") :
    ∃ b, matchHost L host pat = .ok b ∧ (b = true ↔ HostMatch (L.lower host) pat) := by
  unfold matchHost HostMatch stripFor
  have hh' := lower_ne L hh
  generalize L.lower host = h at *
  simp only
  have hl : h.getLast? ≠ none := by simpa using hh'
  split
  · exact absurd ‹_› hl
  rename_i c hc
  split
  · rename_i hcd
    subst hcd
    split
    · rename_i hpn
      rcases hp with hp | hp
      · simp at hpn; exact absurd hpn hp
      · exact absurd hc hp
    · rename_i d hd
      simp only [hc, hd, Option.some.injEq, ne_eq, true_and]
      exact matchHost2_spec _ _
  · rename_i hcd
    rw [if_neg (by rw [hc]; simp [hcd])]
    exact matchHost2_spec _ _

theorem mask_eq {w : Nat} (a b : BitVec w) (n : Nat) :
    (b &&& cidrMask w n = a &&& cidrMask w n) ↔ ∀ i < n, b.getMsbD i = a.getMsbD i := by
  unfold cidrMask
  constructor
  · intro h i hi
    by_cases hw : i < w
    · have := congrArg (fun v => v.getMsbD i) h
      simp only [BitVec.getMsbD_and, BitVec.getMsbD_shiftLeft, BitVec.getMsbD_allOnes] at this
      have h2 : i + (w - n) < w := by omega
      simpa [h2] using this
    · simp [BitVec.getMsbD_of_ge _ _ (Nat.not_lt.mp hw)]
  · intro h
    apply BitVec.eq_of_getMsbD_eq
    intro i hi
    simp only [BitVec.getMsbD_and, BitVec.getMsbD_shiftLeft, BitVec.getMsbD_allOnes]
    by_cases hn : i < n
    · rw [h i hn]
    · have : ¬ i + (w - n) < w := by omega
      simp [this]

theorem contains_iff (net : IPNet) (ip : IP) : net.contains ip = true ↔ InBlock net ip := by
  cases net <;> cases ip <;> simp [IPNet.contains, InBlock, mask_eq]

theorem matchIp_spec (L : Lib) {rip pat : Str} {ip : IP} (h : L.parseIP rip = some ip) :
    matchIp L rip pat = true ↔ IpMatch L ip pat := by
  unfold matchIp IpMatch
  rw [h]
  cases hp : L.parseIP pat with
  | some ip2 =>
    simp only [ipEqual, beq_iff_eq, Option.some.injEq]
    by_cases he : ip = ip2
    · simp [he]
    · rw [if_neg he]
      cases hc : L.parseCIDR pat with
      | none => simp [Ne.symm he]
      | some net => simp [contains_iff, Ne.symm he]
  | none =>
    simp only [ipEqual, Bool.false_eq_true, if_false, reduceCtorEq, false_or]
    cases hc : L.parseCIDR pat with
    | none => simp
    | some net => simp [contains_iff]

end Sink
