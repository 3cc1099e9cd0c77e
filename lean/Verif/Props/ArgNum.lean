import Mathlib.Data.Nat.Digits.Lemmas
import Verif.Model.ArgNum
import Verif.Spec.ArgNum
import Verif.Props.Flags

/-!
# C110: what numbers and durations on the command line mean
-/

namespace Sink

open Spec

/-! ## Whole numbers -/

theorem digitVal_table : ∀ x : Fin 256, ∀ d : Fin 16, digitVal (UInt8.ofNat x) = some d.val ↔
    (b!"0123456789abcdef"[d.val]? = some (UInt8.ofNat x) ∨ b!"0123456789ABCDEF"[d.val]? = some (UInt8.ofNat x)) := by
  decide +kernel

theorem digitVal_iff {c : UInt8} {d : Nat} (hd : d < 16) : digitVal c = some d ↔ DigitIs c d := by
  have h := digitVal_table ⟨c.toNat, c.toNat_lt⟩ ⟨d, hd⟩
  simpa [DigitIs] using h

theorem digit_lt {c : UInt8} {d : Nat} (h : DigitIs c d) : d < 16 := by
  by_contra hd
  unfold DigitIs at h
  rw [List.getElem?_eq_none (by simpa using hd), List.getElem?_eq_none (by simpa using hd)] at h
  simp at h

def horner (base : Nat) (ds : List Nat) (n : Nat) : Nat := ds.foldl (fun a d => a * base + d) n

theorem horner_ofDigits (base : Nat) (ds : List Nat) : horner base ds 0 = Nat.ofDigits base ds.reverse := by
  rw [Nat.ofDigits_eq_foldr, List.foldr_reverse]
  simp only [horner, Nat.cast_id]
  congr 1
  funext a d
  rw [Nat.mul_comm, Nat.add_comm]

theorem horner_ge {base : Nat} (hb : 1 ≤ base) : ∀ (ds : List Nat) (n : Nat), n ≤ horner base ds n
  | [], n => Nat.le_refl n
  | d :: ds, n => by
    have h := horner_ge hb ds (n * base + d)
    have : n * 1 ≤ n * base := Nat.mul_le_mul_left n hb
    simp only [horner, List.foldl_cons] at h ⊢
    omega

theorem numLoop_iff {base : Nat} (hb : 1 ≤ base) (hb' : base ≤ 16) : ∀ (s : Str) (n0 n : Nat), n0 < 2 ^ 64 → (numLoop base s n0 = some n ↔
    ∃ ds : List Nat, List.Forall₂ DigitIs (s.filter (· != c!"_")) ds ∧ (∀ d ∈ ds, d < base) ∧ n = horner base ds n0 ∧ n < 2 ^ 64)
  | [], n0, n, h0 => by
    simp only [numLoop, Option.some.injEq, List.filter_nil, List.forall₂_nil_left_iff]
    constructor
    · rintro rfl
      exact ⟨[], rfl, by simp, rfl, h0⟩
    · rintro ⟨_, rfl, -, rfl, -⟩
      rfl
  | c :: s, n0, n, h0 => by
    unfold numLoop
    by_cases hc : c = c!"_"
    · rw [if_pos hc, numLoop_iff hb hb' s n0 n h0, List.filter_cons_of_neg (by simp [hc])]
    · rw [if_neg hc, List.filter_cons_of_pos (by simpa using hc)]
      constructor
      · intro h
        split at h
        · cases h
        · rename_i d hd
          split at h
          · cases h
          · rename_i hlt
            split at h
            · cases h
            · rename_i hsm
              obtain ⟨ds, h1, h2, h3, h4⟩ := (numLoop_iff hb hb' s _ n (by omega)).1 h
              exact ⟨d :: ds, .cons ((digitVal_iff (by omega)).1 hd) h1, by simpa using ⟨by omega, h2⟩, h3, h4⟩
      · rintro ⟨ds, h1, h2, h3, h4⟩
        cases h1 with
        | cons hd h1 =>
          rename_i d ds
          have hlt := h2 d (by simp)
          rw [(digitVal_iff (digit_lt hd)).2 hd]
          have hge := horner_ge hb ds (n0 * base + d)
          have h3' : n = horner base ds (n0 * base + d) := h3
          dsimp only
          rw [if_neg (by omega), if_neg (by omega)]
          exact (numLoop_iff hb hb' s _ n (by omega)).2 ⟨ds, h1, fun x hx => h2 x (by simp [hx]), h3', h4⟩

theorem numLoop_written {base : Nat} (hb : 1 ≤ base) (hb' : base ≤ 16) (s : Str) (n : Nat) :
    numLoop base s 0 = some n ↔ Written base s n ∧ n < 2 ^ 64 := by
  rw [numLoop_iff hb hb' s 0 n (by decide)]
  unfold Written
  simp only [horner_ofDigits]
  constructor
  · rintro ⟨ds, h1, h2, h3, h4⟩; exact ⟨⟨ds, h1, h2, h3⟩, h4⟩
  · rintro ⟨⟨ds, h1, h2, h3⟩, h4⟩; exact ⟨ds, h1, h2, h3, h4⟩

/-! ### Underscores -/

def Spaced (s : Str) : Prop := ¬ b!"__" <:+: s ∧ s.getLast? ≠ some c!"_"

theorem fine_nil : Spaced [] := ⟨by decide, by decide⟩

theorem not_fine_one : ¬ Spaced b!"_" := fun h => h.2 rfl

theorem not_fine_two (s : Str) : ¬ Spaced (c!"_" :: c!"_" :: s) := fun h => h.1 ⟨[], s, rfl⟩

theorem fine_cons {x : UInt8} (hx : x ≠ c!"_") (s : Str) : Spaced (x :: s) ↔ Spaced s := by
  unfold Spaced
  rw [List.infix_cons_iff]
  have h1 : ¬ b!"__" <+: x :: s := by
    rintro ⟨t, ht⟩
    injection ht with h _
    exact hx h.symm
  have h2 : (x :: s).getLast? = some c!"_" ↔ s.getLast? = some c!"_" := by
    cases s with
    | nil => simpa using hx
    | cons y s => simp
  simp only [h1, false_or, ne_eq, h2]

theorem fine_under {x : UInt8} (hx : x ≠ c!"_") (s : Str) : Spaced (c!"_" :: x :: s) ↔ Spaced (x :: s) := by
  unfold Spaced
  rw [List.infix_cons_iff]
  have h1 : ¬ b!"__" <+: c!"_" :: x :: s := by
    rintro ⟨t, ht⟩
    injection ht with _ h
    injection h with h _
    exact hx h.symm
  simp only [h1, false_or, List.getLast?_cons_cons]

/-- A digit for `underscoreOK`. -/
def UDigit (hex : Bool) (c : UInt8) : Prop := (c!"0" ≤ c ∧ c ≤ c!"9") ∨ (hex = true ∧ c!"a" ≤ lowLetter c ∧ lowLetter c ≤ c!"f")

theorem uDigit_ne {hex : Bool} {c : UInt8} (h : UDigit hex c) : c ≠ c!"_" := by
  rintro rfl
  unfold UDigit at h
  revert h
  cases hex <;> decide

theorem underLoop_iff (hex : Bool) : ∀ s : Str, (∀ c ∈ s, UDigit hex c ∨ c = c!"_") →
    (underLoop hex s .digit = true ↔ Spaced s) ∧ (underLoop hex s .under = true ↔ Spaced (c!"_" :: s)) ∧
    (underLoop hex s .begin = true ↔ Spaced s ∧ s.head? ≠ some c!"_")
  | [], _ => by
    refine ⟨?_, ?_, ?_⟩
    · simp [underLoop, fine_nil]
    · simp [underLoop, not_fine_one]
    · simp [underLoop, fine_nil]
  | c :: s, h => by
    obtain ⟨h1, h2, -⟩ := underLoop_iff hex s fun x hx => h x (by simp [hx])
    rcases h c (by simp) with hc | rfl
    · have hne := uDigit_ne hc
      have he : ∀ saw, underLoop hex (c :: s) saw = underLoop hex s .digit := fun saw => by
        unfold UDigit at hc
        rw [underLoop, if_pos hc]
      rw [he, he, he, h1, fine_under hne, fine_cons hne]
      exact ⟨Iff.rfl, Iff.rfl, by simp [hne]⟩
    · have hn : ¬ UDigit hex c!"_" := fun hd => uDigit_ne hd rfl
      have he : ∀ saw, underLoop hex (c!"_" :: s) saw = if saw ≠ .digit then false else underLoop hex s .under := fun saw => by
        unfold UDigit at hn
        rw [underLoop, if_neg hn, if_pos rfl]
      rw [he, he, he]
      refine ⟨by simpa using h2, ?_, by simp⟩
      simp [not_fine_two]

theorem fine_none : ∀ {s : Str}, c!"_" ∉ s → Spaced s
  | [], _ => fine_nil
  | x :: s, h => (fine_cons (fun hx => h (by simp [hx])) s).2 (fine_none fun hs => h (by simp [hs]))

theorem letter_table : ∀ x : Fin 256, (¬ UDigit false (UInt8.ofNat x) ∧ UInt8.ofNat x ≠ c!"_") ∨
    (lowLetter (UInt8.ofNat x) ≠ c!"b" ∧ lowLetter (UInt8.ofNat x) ≠ c!"o" ∧ lowLetter (UInt8.ofNat x) ≠ c!"x") := by
  unfold UDigit
  decide +kernel

theorem letter_no {c : UInt8} (h : UDigit false c ∨ c = c!"_") : lowLetter c ≠ c!"b" ∧ lowLetter c ≠ c!"o" ∧ lowLetter c ≠ c!"x" := by
  have h1 := letter_table ⟨c.toNat, c.toNat_lt⟩
  simp only [UInt8.ofNat_toNat] at h1
  rcases h1 with h1 | h1
  · rcases h with h | h
    · exact absurd h h1.1
    · exact absurd h h1.2
  · exact h1

theorem uDigit_table : ∀ x : Fin 256, ∀ d : Fin 16, digitVal (UInt8.ofNat x) = some d.val → UDigit (10 ≤ d.val) (UInt8.ofNat x) := by
  unfold UDigit
  decide +kernel

theorem digit_uDigit {c : UInt8} {d : Nat} (h : DigitIs c d) : UDigit (10 ≤ d) c := by
  have h1 := uDigit_table ⟨c.toNat, c.toNat_lt⟩ ⟨d, digit_lt h⟩
  simp only [UInt8.ofNat_toNat] at h1
  exact h1 ((digitVal_iff (digit_lt h)).2 h)

theorem written_chars {base : Nat} {body : Str} {n : Nat} {hex : Bool} (hh : base ≤ 10 ∨ hex = true) (h : Written base body n) :
    ∀ c ∈ body, UDigit hex c ∨ c = c!"_" := by
  obtain ⟨ds, h1, h2, -⟩ := h
  intro c hc
  by_cases hu : c = c!"_"
  · exact Or.inr hu
  · refine Or.inl ?_
    have hm : c ∈ body.filter (· != c!"_") := List.mem_filter.2 ⟨hc, by simpa using hu⟩
    obtain ⟨d, hd, hcd⟩ : ∃ d ∈ ds, DigitIs c d := by
      clear h2
      generalize body.filter (· != c!"_") = l at h1 hm
      induction h1 with
      | nil => cases hm
      | cons ha _ ih =>
        rcases List.mem_cons.1 hm with rfl | hm
        · exact ⟨_, by simp, ha⟩
        · obtain ⟨d, hd, hx⟩ := ih hm
          exact ⟨d, by simp [hd], hx⟩
    rcases digit_uDigit hcd with h | ⟨h, h'⟩
    · exact Or.inl h
    · have := h2 d hd
      simp only [decide_eq_true_eq] at h
      rcases hh with hh | hh
      · omega
      · exact Or.inr ⟨hh, h'⟩

/-- What the code takes for the base is the prefix. -/
theorem numBase_pre {pre body : Str} {base n : Nat} (hp : (pre, base) ∈ prefixes) (hb : body = [] → pre = b!"0") (hw : Written base body n) :
    numBase (pre ++ body) = (base, body) ∧ (c!"_" ∈ body → (underscoreOK (pre ++ body) = true ↔ Spaced body)) := by
  have hch := written_chars (hex := base == 16) (by
    simp only [prefixes, List.mem_cons, Prod.mk.injEq, List.not_mem_nil, or_false] at hp
    rcases hp with h | h | h | h | h | h | h <;> simp [h.2]) hw
  simp only [prefixes, List.mem_cons, Prod.mk.injEq, List.not_mem_nil, or_false] at hp
  rcases hp with ⟨rfl, rfl⟩ | h
  · cases body with
    | nil => exact ⟨rfl, fun h => by cases h⟩
    | cons y r =>
      obtain ⟨h1, h2, h3⟩ := letter_no (hch y (by simp))
      refine ⟨?_, fun _ => ?_⟩
      · cases r with
        | nil => rfl
        | cons z t => simp [numBase, h1, h2, h3]
      · have hd : ∀ c ∈ c!"0" :: y :: r, UDigit false c ∨ c = c!"_" := by
          intro c hc
          rcases List.mem_cons.1 hc with rfl | hc
          · exact Or.inl (Or.inl (by decide))
          · exact hch c hc
        have := (underLoop_iff false _ hd).2.2
        simp only [List.cons_append, List.nil_append, underscoreOK, h1, h2, h3, or_self, and_false, if_false]
        rw [this, fine_cons (by decide)]
        simp
  · have hne : body ≠ [] := fun h0 => by
      have := hb h0
      subst this
      simp at h
    obtain ⟨z, t, rfl⟩ := List.exists_cons_of_ne_nil hne
    have key := (underLoop_iff _ _ hch).1
    rcases h with ⟨rfl, rfl⟩ | ⟨rfl, rfl⟩ | ⟨rfl, rfl⟩ | ⟨rfl, rfl⟩ | ⟨rfl, rfl⟩ | ⟨rfl, rfl⟩ <;> exact ⟨rfl, fun _ => key⟩

theorem low_table : ∀ x : Fin 256, (lowLetter (UInt8.ofNat x) = c!"b" → UInt8.ofNat x = c!"b" ∨ UInt8.ofNat x = c!"B") ∧
    (lowLetter (UInt8.ofNat x) = c!"o" → UInt8.ofNat x = c!"o" ∨ UInt8.ofNat x = c!"O") ∧
    (lowLetter (UInt8.ofNat x) = c!"x" → UInt8.ofNat x = c!"x" ∨ UInt8.ofNat x = c!"X") := by
  decide +kernel

theorem low_all (y : UInt8) : (lowLetter y = c!"b" → y = c!"b" ∨ y = c!"B") ∧ (lowLetter y = c!"o" → y = c!"o" ∨ y = c!"O") ∧
    (lowLetter y = c!"x" → y = c!"x" ∨ y = c!"X") := by
  simpa only [UInt8.ofNat_toNat] using low_table ⟨y.toNat, y.toNat_lt⟩

theorem numBase_cases {s : Str} (hs : s ≠ []) :
    (∃ pre, (pre, (numBase s).1) ∈ prefixes ∧ s = pre ++ (numBase s).2 ∧ ((numBase s).2 = [] → pre = b!"0")) ∨
    (numBase s = (10, s) ∧ s.head? ≠ some c!"0") := by
  obtain ⟨x, r, rfl⟩ := List.exists_cons_of_ne_nil hs
  by_cases hx : x = c!"0"
  · subst hx
    left
    rcases r with _ | ⟨y, _ | ⟨z, t⟩⟩
    · exact ⟨b!"0", by decide, rfl, fun _ => rfl⟩
    · exact ⟨b!"0", show (b!"0", 8) ∈ prefixes by decide, rfl, fun _ => rfl⟩
    · by_cases h1 : lowLetter y = c!"b"
      · refine ⟨[c!"0", y], ?_, ?_, ?_⟩
        · rcases (low_all y).1 h1 with rfl | rfl <;> (show (_, (2 : Nat)) ∈ prefixes; decide)
        · simp [numBase, h1]
        · simp [numBase, h1]
      · by_cases h2 : lowLetter y = c!"o"
        · refine ⟨[c!"0", y], ?_, ?_, ?_⟩
          · rcases (low_all y).2.1 h2 with rfl | rfl <;> (show (_, (8 : Nat)) ∈ prefixes; decide)
          · simp [numBase, h2]
          · simp [numBase, h2]
        · by_cases h3 : lowLetter y = c!"x"
          · refine ⟨[c!"0", y], ?_, ?_, ?_⟩
            · rcases (low_all y).2.2 h3 with rfl | rfl <;> (show (_, (16 : Nat)) ∈ prefixes; decide)
            · simp [numBase, h3]
            · simp [numBase, h3]
          · exact ⟨b!"0", by simp [numBase, h1, h2, h3, prefixes], by simp [numBase, h1, h2, h3], fun _ => rfl⟩
  · right
    simp [numBase, hx]

theorem parseUint_iff (s : Str) (n : Nat) : parseUint s = some n ↔ Whole s n ∧ n < 2 ^ 64 := by
  have hbase : ∀ {pre : Str} {base : Nat}, (pre, base) ∈ prefixes → 1 ≤ base ∧ base ≤ 16 := by
    intro pre base h
    simp only [prefixes, List.mem_cons, Prod.mk.injEq, List.not_mem_nil, or_false] at h
    rcases h with h | h | h | h | h | h | h <;> simp [h.2]
  have hpre : ∀ {pre body : Str} {base : Nat}, (pre, base) ∈ prefixes → (Spaced (pre ++ body) ↔ Spaced body) ∧ (pre ++ body).head? = some c!"0" := by
    intro pre body base h
    simp only [prefixes, List.mem_cons, Prod.mk.injEq, List.not_mem_nil, or_false] at h
    rcases h with ⟨rfl, -⟩ | ⟨rfl, -⟩ | ⟨rfl, -⟩ | ⟨rfl, -⟩ | ⟨rfl, -⟩ | ⟨rfl, -⟩ | ⟨rfl, -⟩ <;> refine ⟨?_, rfl⟩
    · exact fine_cons (by decide) _
    all_goals exact (fine_cons (by decide) _).trans (fine_cons (by decide) _)
  -- With a prefix.
  have hwith : ∀ {pre body : Str} {base n : Nat}, (pre, base) ∈ prefixes → (body = [] → pre = b!"0") → Written base body n → n < 2 ^ 64 →
      (parseUint (pre ++ body) = some n ↔ Spaced (pre ++ body)) := by
    intro pre body base n h1 h2 h3 h4
    obtain ⟨h5, h6⟩ := numBase_pre h1 h2 h3
    unfold parseUint
    have hne : pre ++ body ≠ [] := fun h0 => by have := (hpre (body := body) h1).2; rw [h0] at this; cases this
    rw [if_neg hne, h5, (numLoop_written (hbase h1).1 (hbase h1).2 _ _).2 ⟨h3, h4⟩, (hpre h1).1]
    dsimp only
    by_cases hu : c!"_" ∈ body
    · rw [← h6 hu]
      cases underscoreOK (pre ++ body) <;> simp [hu]
    · simp [hu, fine_none hu]
  -- Without.
  have hplain : ∀ {t : Str} {n : Nat}, t ≠ [] → t.head? ≠ some c!"0" → Written 10 t n → n < 2 ^ 64 →
      (parseUint t = some n ↔ Spaced t ∧ t.head? ≠ some c!"_") := by
    intro t n h1 h2 h3 h4
    obtain ⟨x, r, rfl⟩ := List.exists_cons_of_ne_nil h1
    have hx : x ≠ c!"0" := by simpa using h2
    have h5 : numBase (x :: r) = (10, x :: r) := by simp [numBase, hx]
    unfold parseUint
    rw [if_neg h1, h5, (numLoop_written (by decide) (by decide) _ _).2 ⟨h3, h4⟩]
    dsimp only
    by_cases hu : c!"_" ∈ x :: r
    · have h6 : underscoreOK (x :: r) = underLoop false (x :: r) .begin := by
        cases r <;> simp [underscoreOK, hx]
      rw [← (underLoop_iff false _ (written_chars (Or.inl (by decide)) h3)).2.2, ← h6]
      cases underscoreOK (x :: r) <;> simp [hu]
    · have : x ≠ c!"_" := fun h => hu (by simp [h])
      simp [hu, fine_none hu, this]
  constructor
  · intro h
    have hne : s ≠ [] := by
      rintro rfl
      simp [parseUint] at h
    have hw : Written (numBase s).1 (numBase s).2 n ∧ n < 2 ^ 64 := by
      have hb : 1 ≤ (numBase s).1 ∧ (numBase s).1 ≤ 16 := by
        rcases numBase_cases hne with ⟨pre, h1, -⟩ | ⟨h1, -⟩
        · exact hbase h1
        · rw [h1]; simp
      unfold parseUint at h
      rw [if_neg hne] at h
      split at h
      · cases h
      · rename_i m hm
        split at h
        · cases h
        · cases h
          exact (numLoop_written hb.1 hb.2 _ _).1 hm
    refine ⟨?_, hw.2⟩
    rcases numBase_cases hne with ⟨pre, h1, h2, h3⟩ | ⟨h1, h2⟩
    · generalize numBase s = nb at h1 h2 h3 hw
      subst h2
      have hf := (hwith h1 h3 hw.1 hw.2).1 h
      exact ⟨Or.inl ⟨pre, _, _, h1, rfl, h3, hw.1⟩, by rw [(hpre h1).2]; decide, hf.1, hf.2⟩
    · rw [h1] at hw
      have hf := (hplain hne h2 hw.1 hw.2).1 h
      exact ⟨Or.inr ⟨hne, h2, hw.1⟩, hf.2, hf.1.1, hf.1.2⟩
  · rintro ⟨⟨⟨pre, base, body, h1, rfl, h3, h4⟩ | ⟨h1, h2, h3⟩, h5, h6, h7⟩, h8⟩
    · exact (hwith h1 h3 h4 h8).2 ⟨h6, h7⟩
    · exact (hplain h1 h2 h3 h8).2 ⟨⟨h6, h7⟩, h5⟩

/-- A number without a sign has none. -/
theorem whole_head {t : Str} {n : Nat} (h : Whole t n) : t ≠ [] ∧ t.head? ≠ some c!"-" ∧ t.head? ≠ some c!"+" := by
  rcases h.1 with ⟨pre, base, body, h1, rfl, -, -⟩ | ⟨h1, -, h3⟩
  · simp only [prefixes, List.mem_cons, Prod.mk.injEq, List.not_mem_nil, or_false] at h1
    rcases h1 with ⟨rfl, -⟩ | ⟨rfl, -⟩ | ⟨rfl, -⟩ | ⟨rfl, -⟩ | ⟨rfl, -⟩ | ⟨rfl, -⟩ | ⟨rfl, -⟩ <;> simp
  · refine ⟨h1, ?_⟩
    obtain ⟨x, r, rfl⟩ := List.exists_cons_of_ne_nil h1
    have := written_chars (hex := false) (Or.inl (by decide)) h3 x (by simp)
    constructor
    all_goals
      intro he
      simp only [List.head?_cons, Option.some.injEq] at he
      subst he
      revert this
      unfold UDigit
      decide

theorem signOf_plain {t : Str} (h1 : t.head? ≠ some c!"-") (h2 : t.head? ≠ some c!"+") : signOf t = (false, t) := by
  cases t with
  | nil => rfl
  | cons x r =>
    simp only [List.head?_cons, ne_eq, Option.some.injEq] at h1 h2
    simp [signOf, h1, h2]

theorem signOf_cases (s : Str) : ∃ sign, s = sign ++ (signOf s).2 ∧
    (((signOf s).1 = false ∧ (sign = [] ∨ sign = b!"+")) ∨ ((signOf s).1 = true ∧ sign = b!"-")) := by
  cases s with
  | nil => exact ⟨[], rfl, Or.inl ⟨rfl, Or.inl rfl⟩⟩
  | cons x r =>
    unfold signOf
    by_cases h1 : x = c!"-"
    · subst h1; exact ⟨b!"-", rfl, Or.inr ⟨rfl, rfl⟩⟩
    · by_cases h2 : x = c!"+"
      · subst h2; exact ⟨b!"+", rfl, Or.inl ⟨rfl, Or.inr rfl⟩⟩
      · exact ⟨[], by simp [h1, h2], Or.inl ⟨by simp [h1, h2], Or.inl rfl⟩⟩

/-- **C110.** What `-dncount` can be given, and which number it is. -/
theorem C110_count (frac : Str → Nat → Nat) (s : Str) (z : Int) : (goArgs frac).int s = some z ↔ Count s z := by
  show parseInt s = some z ↔ _
  constructor
  · intro h
    obtain ⟨sign, hs, hsg⟩ := signOf_cases s
    unfold parseInt at h
    split at h
    · cases h
    · rename_i n hn
      refine ⟨sign, _, n, hs, ((parseUint_iff _ _).1 hn).1, ?_⟩
      rcases hsg with ⟨h1, h2⟩ | ⟨h1, h2⟩
      · rw [h1] at h
        simp only [true_and, Bool.false_eq_true, false_and, if_false] at h
        split at h
        · cases h
        · cases h
          exact Or.inl ⟨h2, rfl, by omega⟩
      · rw [h1] at h
        simp only [Bool.true_eq_false, false_and, if_false, true_and, if_true] at h
        split at h
        · cases h
        · cases h
          exact Or.inr ⟨h2, rfl, by omega⟩
  · rintro ⟨sign, t, n, rfl, hw, hz⟩
    obtain ⟨h0, h1, h2⟩ := whole_head hw
    have hlt : n < 2 ^ 64 := by
      rcases hz with ⟨-, -, h⟩ | ⟨-, -, h⟩ <;> omega
    have hn := (parseUint_iff t n).2 ⟨hw, hlt⟩
    rcases hz with ⟨rfl | rfl, rfl, h⟩ | ⟨rfl, rfl, h⟩
    · unfold parseInt
      rw [List.nil_append, signOf_plain h1 h2, hn]
      simp
      omega
    · unfold parseInt
      rw [show signOf (b!"+" ++ t) = (false, t) from rfl, hn]
      simp
      omega
    · unfold parseInt
      rw [show signOf (b!"-" ++ t) = (true, t) from rfl, hn]
      simp
      omega

/-! ## Durations -/

theorem take_drop {P : UInt8 → Bool} : ∀ {u rest : Str}, (∀ c ∈ u, P c = true) → (∀ c, rest.head? = some c → P c = false) →
    (u ++ rest).takeWhile P = u ∧ (u ++ rest).dropWhile P = rest
  | [], [], _, _ => ⟨rfl, rfl⟩
  | [], c :: r, _, h => by
    have := h c rfl
    simp [this]
  | x :: u, rest, h1, h2 => by
    obtain ⟨h3, h4⟩ := take_drop (fun c hc => h1 c (by simp [hc])) h2 (u := u)
    have := h1 x (by simp)
    simp [this, h3, h4]

theorem drop_head (P : UInt8 → Bool) (s : Str) (c : UInt8) (h : (s.dropWhile P).head? = some c) : P c = false := by
  have := List.head?_dropWhile_not P s
  rw [h] at this
  simpa using this

def decVal (c : UInt8) : Nat := c.toNat - 48

theorem leadingInt_iff : ∀ (s : Str) (x v : Nat) (r : Str), x ≤ 2 ^ 63 → (leadingInt s x = (some v, r) ↔
    r = s.dropWhile isDec ∧ v = horner 10 ((s.takeWhile isDec).map decVal) x ∧ v ≤ 2 ^ 63)
  | [], x, v, r, hx => by
    simp only [leadingInt, Prod.mk.injEq, Option.some.injEq, List.dropWhile_nil, List.takeWhile_nil, List.map_nil, horner, List.foldl_nil]
    constructor
    · rintro ⟨rfl, rfl⟩; exact ⟨rfl, rfl, hx⟩
    · rintro ⟨rfl, rfl, -⟩; exact ⟨rfl, rfl⟩
  | c :: s, x, v, r, hx => by
    unfold leadingInt
    cases hc : isDec c with
    | false =>
      rw [if_pos rfl, List.dropWhile_cons_of_neg (by simp [hc]), List.takeWhile_cons_of_neg (by simp [hc])]
      simp only [Prod.mk.injEq, Option.some.injEq, List.map_nil, horner, List.foldl_nil]
      constructor
      · rintro ⟨rfl, rfl⟩; exact ⟨rfl, rfl, hx⟩
      · rintro ⟨rfl, rfl, -⟩; exact ⟨rfl, rfl⟩
    | true =>
      rw [if_neg (by simp), List.dropWhile_cons_of_pos hc, List.takeWhile_cons_of_pos hc]
      have hge := horner_ge (base := 10) (by decide) ((s.takeWhile isDec).map decVal) (x * 10 + (c.toNat - 48))
      have hstep : horner 10 (((c :: s.takeWhile isDec)).map decVal) x = horner 10 ((s.takeWhile isDec).map decVal) (x * 10 + (c.toNat - 48)) := rfl
      rw [hstep]
      by_cases h1 : x * 10 + (c.toNat - 48) > 2 ^ 63
      · have : (if x > 2 ^ 63 / 10 then ((none, []) : Option Nat × Str) else if x * 10 + (c.toNat - 48) > 2 ^ 63 then (none, []) else
            leadingInt s (x * 10 + (c.toNat - 48))) = (none, []) := by
          rw [if_pos h1]; split <;> rfl
        rw [this]
        constructor
        · intro h; cases h
        · rintro ⟨-, h, h'⟩; omega
      · rw [if_neg (by omega), if_neg h1]
        exact leadingInt_iff s _ v r (by omega)

theorem isDec_table : ∀ x : Fin 256, isDec (UInt8.ofNat x) = true ↔ UInt8.ofNat x ∈ b!"0123456789" := by decide +kernel

theorem isDec_iff (c : UInt8) : isDec c = true ↔ c ∈ b!"0123456789" := by
  simpa only [UInt8.ofNat_toNat] using isDec_table ⟨c.toNat, c.toNat_lt⟩

theorem decimal_iff (s : Str) (n : Nat) : Decimal s n ↔ (∀ c ∈ s, isDec c = true) ∧ n = horner 10 (s.map decVal) 0 := by
  unfold Decimal
  simp only [isDec_iff, horner_ofDigits]
  rfl

theorem units_spec : ∀ x ∈ units, x.1 ≠ [] ∧ (∀ c ∈ x.1, unitChar c = true) ∧ 1 ≤ x.2 ∧ unitNs.lookup x.1 = some x.2 := by decide +kernel

theorem units_of {u : Str} {k : Nat} (h : unitNs.lookup u = some k) : (u, k) ∈ units := by
  have h1 : ∀ l : List (Str × Nat), l.lookup u = some k → (u, k) ∈ l := by
    intro l
    induction l with
    | nil => intro h; cases h
    | cons x l ih =>
      obtain ⟨a, b⟩ := x
      intro h
      rw [List.lookup_cons] at h
      split at h
      · rename_i he
        have : u = a := by simpa using he
        cases h
        subst this
        simp
      · exact List.mem_cons_of_mem _ (ih h)
  exact (by decide : ∀ x ∈ unitNs, x ∈ units) _ (h1 _ h)

/-- What can follow a piece. -/
def Stops (rest : Str) : Prop := ∀ c, rest.head? = some c → unitChar c = false

theorem piece_head {frac : Str → Nat → Nat} {p : Str} {w : Nat} (h : Piece frac p w) (rest : Str) : Stops (p ++ rest) ∧ 2 ≤ p.length := by
  obtain ⟨ds, u, k, n, hu, hd, h⟩ := h
  obtain ⟨h1, -, -, -⟩ := units_spec _ hu
  have hu1 : 1 ≤ u.length := List.length_pos_iff.2 h1
  rw [decimal_iff] at hd
  have hds : ds ≠ [] → ∀ t, Stops (ds ++ t) := by
    intro hne t c hc
    obtain ⟨x, r, rfl⟩ := List.exists_cons_of_ne_nil hne
    simp only [List.cons_append, List.head?_cons, Option.some.injEq] at hc
    subst hc
    simp [unitChar, hd.1 x (by simp)]
  rcases h with ⟨hne, rfl, -⟩ | ⟨hne, rfl, -⟩ | ⟨fs, m, hf, -, rfl, -⟩
  · have := List.length_pos_iff.2 hne
    refine ⟨by rw [List.append_assoc]; exact hds hne _, by simp; omega⟩
  · refine ⟨by rw [List.append_assoc, List.append_assoc]; exact hds hne _, by simp; omega⟩
  · have := List.length_pos_iff.2 hf
    refine ⟨?_, by simp; omega⟩
    by_cases hne : ds = []
    · subst hne
      intro c hc
      simp at hc
      subst hc
      decide
    · simp only [List.append_assoc]; exact hds hne _

theorem durPart_piece {frac : Str → Nat → Nat} {t rest : Str} {w : Nat} (h : durPart frac t = some (w, rest)) :
    ∃ p, t = p ++ rest ∧ Piece frac p w ∧ w ≤ 2 ^ 63 ∧ Stops rest := by
  unfold durPart at h
  split at h
  · cases h
  · rename_i x r
    split at h
    · cases h
    · split at h
      · cases h
      · rename_i v s1 hl
        obtain ⟨hs1, hv, hv63⟩ := (leadingInt_iff _ _ _ _ (by decide)).1 hl
        have ht : x :: r = (x :: r).takeWhile isDec ++ s1 := by rw [hs1, List.takeWhile_append_dropWhile]
        have hd : Decimal ((x :: r).takeWhile isDec) v := by
          rw [decimal_iff]
          exact ⟨fun c hc => (List.mem_takeWhile_imp hc), hv⟩
        generalize (x :: r).takeWhile isDec = ds at ht hd
        generalize x :: r = t at ht h
        subst ht
        dsimp only at h
        have hpre : decide (s1.length ≠ (ds ++ s1).length) = false ↔ ds = [] := by
          simp
        simp only [hpre] at h
        generalize hf : (if s1.head? = some c!"." then s1.tail.takeWhile isDec else []) = f at h
        generalize hs2 : (if s1.head? = some c!"." then s1.tail.dropWhile isDec else s1) = s2 at h
        split at h
        · cases h
        · rename_i hnf
          split at h
          · cases h
          · rename_i hu
            split at h
            · cases h
            · rename_i unit hunit
              split at h
              · cases h
              · rename_i hle
                generalize hg : (if f = [] then 0 else frac f unit) = g at h
                split at h
                · cases h
                · rename_i h63
                  injection h with h
                  injection h with hw hr
                  have hs2' : s2 = s2.takeWhile unitChar ++ rest := by
                    rw [← hr]; exact (List.takeWhile_append_dropWhile (p := unitChar)).symm
                  refine ⟨?_, ?_, ?_, hw ▸ by omega, hr ▸ fun c hc => drop_head unitChar s2 c hc⟩
                  · exact ds ++ (if s1.head? = some c!"." then c!"." :: f else []) ++ s2.takeWhile unitChar
                  · rw [List.append_assoc, List.append_assoc, ← hs2']
                    congr 1
                    split at hs2
                    · rename_i hp
                      obtain ⟨r, rfl⟩ : ∃ r, s1 = c!"." :: r := by
                        cases s1 with
                        | nil => cases hp
                        | cons y r => simp only [List.head?_cons, Option.some.injEq] at hp; exact ⟨r, by rw [hp]⟩
                      rw [if_pos hp] at hf
                      rw [if_pos hp, ← hf, ← hs2]
                      simp
                    · rename_i hp
                      rw [if_neg hp, hs2]; rfl
                  · refine ⟨ds, _, unit, v, units_of hunit, hd, ?_⟩
                    by_cases hp : s1.head? = some c!"."
                    · rw [if_pos hp]
                      by_cases hfe : f = []
                      · right; left
                        rw [if_pos hfe] at hg
                        exact ⟨fun h => hnf ⟨h, hfe⟩, by rw [hfe], by omega⟩
                      · right; right
                        rw [if_neg hfe] at hg
                        rw [if_pos hp] at hf
                        refine ⟨f, _, hfe, (decimal_iff _ _).2 ⟨?_, rfl⟩, by simp, by omega⟩
                        intro c hc
                        rw [← hf] at hc
                        exact List.mem_takeWhile_imp hc
                    · rw [if_neg hp] at hf ⊢
                      subst hf
                      rw [if_pos rfl] at hg
                      left
                      exact ⟨fun h => hnf ⟨h, rfl⟩, by simp, by omega⟩

theorem piece_durPart {frac : Str → Nat → Nat} {p rest : Str} {w : Nat} (h : Piece frac p w) (hw : w ≤ 2 ^ 63) (hr : Stops rest) :
    durPart frac (p ++ rest) = some (w, rest) := by
  obtain ⟨hst, -⟩ := piece_head h rest
  obtain ⟨ds, u, k, n, hu, hd, h⟩ := h
  obtain ⟨hu1, hu2, hk, hlook⟩ := units_spec _ hu
  rw [decimal_iff] at hd
  obtain ⟨hd1, hd2⟩ := hd
  obtain ⟨htw, hdw⟩ := take_drop hu2 hr
  have hufirst : ∀ c, (u ++ rest).head? = some c → isDec c = false ∧ c ≠ c!"." := by
    intro c hc
    obtain ⟨x, r, rfl⟩ := List.exists_cons_of_ne_nil hu1
    simp only [List.cons_append, List.head?_cons, Option.some.injEq] at hc
    subst hc
    have := hu2 x (by simp)
    simp only [unitChar, Bool.and_eq_true, bne_iff_ne, ne_eq, Bool.not_eq_true'] at this
    exact ⟨this.2, this.1⟩
  have hnk : n ≤ 2 ^ 63 → leadingInt (ds ++ u ++ rest) 0 = (some n, u ++ rest) := by
    intro hn
    rw [List.append_assoc]
    obtain ⟨h1, h2⟩ := take_drop (P := isDec) hd1 (rest := u ++ rest) fun c hc => (hufirst c hc).1
    rw [leadingInt_iff _ _ _ _ (by decide), h1, h2]
    exact ⟨rfl, hd2, hn⟩
  have hpk : ∀ v, n ≤ 2 ^ 63 → leadingInt (ds ++ c!"." :: v) 0 = (some n, c!"." :: v) := by
    intro v hn
    obtain ⟨h1, h2⟩ := take_drop (P := isDec) hd1 (rest := c!"." :: v) fun c hc => by
      simp only [List.head?_cons, Option.some.injEq] at hc
      subst hc
      decide
    rw [leadingInt_iff _ _ _ _ (by decide), h1, h2]
    exact ⟨rfl, hd2, hn⟩
  have hmul : n * 1 ≤ n * k := Nat.mul_le_mul_left n hk
  have hdiv : n * k ≤ 2 ^ 63 → ¬ n > 2 ^ 63 / k := fun h => Nat.not_lt.2 ((Nat.le_div_iff_mul_le hk).2 h)
  have hne : p ++ rest ≠ [] := by
    rcases h with ⟨h, rfl, -⟩ | ⟨h, rfl, -⟩ | ⟨fs, m, h, -, rfl, -⟩ <;> simp [h]
  -- The part after the number before the point.
  have tail : ∀ t v s1, t = p ++ rest → t ≠ [] → leadingInt t 0 = (some v, s1) →
      durPart frac t = (if s1.length = t.length ∧ (if s1.head? = some c!"." then s1.tail.takeWhile isDec else []) = [] then none
        else if (if s1.head? = some c!"." then s1.tail.dropWhile isDec else s1).takeWhile unitChar = [] then none
        else match unitNs.lookup ((if s1.head? = some c!"." then s1.tail.dropWhile isDec else s1).takeWhile unitChar) with
          | none => none
          | some unit => if v > 2 ^ 63 / unit then none
            else if v * unit + (if (if s1.head? = some c!"." then s1.tail.takeWhile isDec else []) = [] then 0
              else frac (if s1.head? = some c!"." then s1.tail.takeWhile isDec else []) unit) > 2 ^ 63 then none
            else some (v * unit + (if (if s1.head? = some c!"." then s1.tail.takeWhile isDec else []) = [] then 0
              else frac (if s1.head? = some c!"." then s1.tail.takeWhile isDec else []) unit),
              (if s1.head? = some c!"." then s1.tail.dropWhile isDec else s1).dropWhile unitChar)) := by
    intro t v s1 ht hn hl
    obtain ⟨x, r, rfl⟩ := List.exists_cons_of_ne_nil hn
    have hx : ¬ (x ≠ c!"." ∧ isDec x = false) := by
      have := hst x (by rw [← ht]; rfl)
      simp only [unitChar, Bool.and_eq_false_iff, bne_eq_false_iff_eq, Bool.not_eq_false'] at this
      rintro ⟨h1, h2⟩
      rcases this with h | h
      · exact h1 h
      · rw [h2] at h; cases h
    unfold durPart
    dsimp only
    rw [if_neg hx, hl]
    simp only [decide_eq_false_iff_not, ne_eq, Decidable.not_not]
    rfl
  rcases h with ⟨h, rfl, rfl⟩ | ⟨h, rfl, rfl⟩ | ⟨fs, m, h, hfs, rfl, rfl⟩
  · rw [tail _ n (u ++ rest) rfl hne (hnk (by omega))]
    have hp : (u ++ rest).head? ≠ some c!"." := fun hc => (hufirst _ hc).2 rfl
    simp only [if_neg hp, htw, hdw, hlook, hu1, if_false, if_true]
    rw [if_neg (by simp [h]), if_neg (hdiv hw), if_neg (by omega)]
    rfl
  · have e : ds ++ b!"." ++ u ++ rest = ds ++ c!"." :: (u ++ rest) := by simp
    rw [tail _ n (c!"." :: (u ++ rest)) rfl hne (by rw [e]; exact hpk _ (by omega))]
    obtain ⟨h1, h2⟩ := take_drop (P := isDec) (u := []) (rest := u ++ rest) (by simp) fun c hc => (hufirst c hc).1
    rw [List.nil_append] at h1 h2
    simp only [List.head?_cons, List.tail_cons, if_true, h1, h2, htw, hdw, hlook, hu1, if_false]
    rw [if_neg (by simp [h]), if_neg (hdiv hw), if_neg (by omega)]
    rfl
  · have e : ds ++ b!"." ++ fs ++ u ++ rest = ds ++ c!"." :: (fs ++ (u ++ rest)) := by simp
    rw [tail _ n (c!"." :: (fs ++ (u ++ rest))) rfl hne (by rw [e]; exact hpk _ (by omega))]
    rw [decimal_iff] at hfs
    obtain ⟨h1, h2⟩ := take_drop (P := isDec) hfs.1 (rest := u ++ rest) fun c hc => (hufirst c hc).1
    simp only [List.head?_cons, List.tail_cons, if_true, h1, h2, htw, hdw, hlook, hu1, if_false, h, and_false]
    rw [if_neg (hdiv (by omega)), if_neg (by omega)]

theorem durLoop_iff {frac : Str → Nat → Nat} : ∀ (k : Nat) (t : Str) (d D : Nat), t.length ≤ k → d ≤ 2 ^ 63 → (durLoop frac k t d = some D ↔
    ∃ ps : List (Str × Nat), t = (ps.map (·.1)).flatten ∧ (∀ p ∈ ps, Piece frac p.1 p.2) ∧ D = d + (ps.map (·.2)).sum ∧ D ≤ 2 ^ 63) := by
  intro k
  induction k with
  | zero =>
    intro t d D ht hd
    have : t = [] := by simpa using ht
    subst this
    simp only [durLoop, Option.some.injEq]
    constructor
    · rintro rfl
      exact ⟨[], rfl, by simp, by simp, hd⟩
    · rintro ⟨ps, h1, h2, h3, -⟩
      cases ps with
      | nil => simpa using h3.symm
      | cons p ps =>
        have := (piece_head (h2 p (by simp)) []).2
        have h4 := h1.symm
        simp only [List.map_cons, List.flatten_cons, List.append_eq_nil_iff] at h4
        simp [h4.1] at this
  | succ k ih =>
    intro t d D ht hd
    cases t with
    | nil =>
      simp only [durLoop, Option.some.injEq]
      constructor
      · rintro rfl
        exact ⟨[], rfl, by simp, by simp, hd⟩
      · rintro ⟨ps, h1, h2, h3, -⟩
        cases ps with
        | nil => simpa using h3.symm
        | cons p ps =>
          have := (piece_head (h2 p (by simp)) []).2
          have h4 := h1.symm
          simp only [List.map_cons, List.flatten_cons, List.append_eq_nil_iff] at h4
          simp [h4.1] at this
    | cons c s =>
      unfold durLoop
      constructor
      · intro h
        split at h
        · cases h
        · rename_i w rest hp
          split at h
          · cases h
          · obtain ⟨p, h1, h2, h3, h4⟩ := durPart_piece hp
            have hlen := (piece_head h2 []).2
            have hl := congrArg List.length h1
            simp only [List.length_append] at hl
            obtain ⟨ps, g1, g2, g3, g4⟩ := (ih rest (d + w) D (by omega) (by omega)).1 h
            refine ⟨(p, w) :: ps, by rw [h1, g1]; simp, ?_, by simp; omega, g4⟩
            intro q hq
            rcases List.mem_cons.1 hq with rfl | hq
            · exact h2
            · exact g2 q hq
      · rintro ⟨ps, h1, h2, h3, h4⟩
        cases ps with
        | nil => cases h1
        | cons p ps =>
          simp only [List.map_cons, List.flatten_cons, List.sum_cons] at h1 h3
          have hp := h2 p (by simp)
          have hlen := (piece_head hp []).2
          have hst : Stops (ps.map (·.1)).flatten := by
            cases ps with
            | nil => intro c hc; cases hc
            | cons q ps =>
              simp only [List.map_cons, List.flatten_cons]
              exact (piece_head (h2 q (by simp)) _).1
          have hl := congrArg List.length h1
          simp only [List.length_append] at hl
          rw [h1, piece_durPart hp (by omega) hst]
          dsimp only
          rw [if_neg (by omega)]
          exact (ih _ _ _ (by omega) (by omega)).2 ⟨ps, rfl, fun q hq => h2 q (by simp [hq]), by omega, h4⟩

theorem lasts_head {frac : Str → Nat → Nat} {t : Str} {n : Nat} (h : Lasts frac t n) :
    t ≠ [] ∧ t ≠ b!"0" ∧ t.head? ≠ some c!"-" ∧ t.head? ≠ some c!"+" := by
  obtain ⟨ps, h1, rfl, h3, -⟩ := h
  obtain ⟨p, ps, rfl⟩ := List.exists_cons_of_ne_nil h1
  obtain ⟨hs, hl⟩ := piece_head (h3 p (by simp)) (ps.map (·.1)).flatten
  simp only [List.map_cons, List.flatten_cons]
  have h0 : 2 ≤ (p.1 ++ (ps.map (·.1)).flatten).length := by simp only [List.length_append]; omega
  refine ⟨fun h => ?_, fun h => ?_, fun h => ?_, fun h => ?_⟩
  · rw [h] at h0; simp at h0
  · rw [h] at h0; simp at h0
  · exact absurd (hs _ h) (by decide)
  · exact absurd (hs _ h) (by decide)

/-- **C110.** What `-dndur` can be given, and how long it is. -/
theorem C110_duration (frac : Str → Nat → Nat) (s : Str) (z : Int) : (goArgs frac).dur s = some z ↔ Duration frac s z := by
  show parseDuration frac s = some z ↔ _
  unfold parseDuration
  constructor
  · intro h
    obtain ⟨sign, hs, hsg⟩ := signOf_cases s
    refine ⟨sign, _, hs, ?_⟩
    split at h
    · rename_i h0
      cases h
      refine Or.inl ⟨h0, ?_, rfl⟩
      rcases hsg with ⟨-, rfl | rfl⟩ | ⟨-, rfl⟩ <;> simp
    · split at h
      · cases h
      · rename_i hne
        split at h
        · cases h
        · rename_i d hd
          obtain ⟨ps, h1, h2, h3, h4⟩ := (durLoop_iff _ _ _ _ (Nat.le_refl _) (by decide)).1 hd
          have hps : ps ≠ [] := by
            rintro rfl
            exact hne h1
          refine Or.inr ⟨d, ⟨ps, hps, h1, h2, by omega⟩, ?_⟩
          rcases hsg with ⟨g1, g2⟩ | ⟨g1, g2⟩
          · rw [g1, if_neg (by simp)] at h
            split at h
            · cases h
            · cases h
              exact Or.inl ⟨g2, rfl, by omega⟩
          · rw [g1, if_pos rfl] at h
            cases h
            exact Or.inr ⟨g2, rfl, h4⟩
  · rintro ⟨sign, t, rfl, ⟨rfl, hsign, rfl⟩ | ⟨n, hl, hz⟩⟩
    · simp only [List.mem_cons, List.not_mem_nil, or_false] at hsign
      rcases hsign with rfl | rfl | rfl <;> rfl
    · obtain ⟨h0, h1, h2, h3⟩ := lasts_head hl
      obtain ⟨ps, g1, g2, g3, g4⟩ := hl
      have hn : n ≤ 2 ^ 63 := by rcases hz with ⟨-, -, h⟩ | ⟨-, -, h⟩ <;> omega
      have hd : durLoop frac t.length t 0 = some n := (durLoop_iff _ _ _ _ (Nat.le_refl _) (by decide)).2 ⟨ps, g2, g3, by omega, hn⟩
      rcases hz with ⟨rfl | rfl, rfl, h⟩ | ⟨rfl, rfl, h⟩
      · rw [List.nil_append, signOf_plain h2 h3]
        simp only [h0, h1, if_false, hd, Bool.false_eq_true]
        rw [if_neg (by omega)]
      · rw [show signOf (b!"+" ++ t) = (false, t) from rfl]
        simp only [h0, h1, if_false, hd, Bool.false_eq_true]
        rw [if_neg (by omega)]
      · rw [show signOf (b!"-" ++ t) = (true, t) from rfl]
        simp only [h0, h1, if_false, hd, if_true]

/-! ## What follows for the command line -/

/-- **C110.** These are the values with which the program does not give up on its command line. -/
theorem C110_allows (frac : Str → Nat → Nat) (v : Str) : (Allows (goArgs frac) b!"dncount" v ↔ ∃ z, Count v z) ∧
    (Allows (goArgs frac) b!"dndur" v ↔ ∃ z, Duration frac v z) := by
  unfold Allows
  simp only [← C110_count frac, ← C110_duration, Option.isSome_iff_exists]
  constructor
  · constructor
    · rintro (⟨h, -⟩ | h | ⟨-, h⟩ | ⟨h, -⟩)
      · exact absurd h (by decide)
      · exact absurd h (by decide)
      · exact h
      · exact absurd h (by decide)
    · exact fun h => Or.inr (Or.inr (Or.inl ⟨trivial, h⟩))
  · constructor
    · rintro (⟨h, -⟩ | h | ⟨h, -⟩ | ⟨-, h⟩)
      · exact absurd h (by decide)
      · exact absurd h (by decide)
      · exact absurd h (by decide)
      · exact h
    · exact fun h => Or.inr (Or.inr (Or.inr ⟨trivial, h⟩))

/-- **C110.** A server that was started counts connections up to the number given last, zero if none was given, and remembers them for the time
given last, eight hours if none was given; if it counts at all, the time is a second at least. -/
theorem C110_server {frac : Str → Nat → Nat} {args : List Str} {l : List (Str × Str)} {r : List Str} (h : Reads (goArgs frac) args l r) :
    ∃ c, cmdLine (goArgs frac) args = .ok c ∧ ∀ (V : StartEnv) (cf : Conf), start V c.o = .ok cf →
      (∀ v, lastOf l b!"dncount" = some v → Count v cf.yakCount) ∧ (lastOf l b!"dncount" = none → cf.yakCount = 0) ∧
      (∀ v, lastOf l b!"dndur" = some v → Duration frac v cf.yakTimeout) ∧ (lastOf l b!"dndur" = none → cf.yakTimeout = 8 * 60 * 60 * 1000000000) ∧
      (cf.yakCount > 0 → cf.yakTimeout ≥ 1000000000) := by
  obtain ⟨c, hc, k⟩ := C96_settings h
  have k1 := k.2.2.2.2.2.2.2.2.2.2.2.2.2.2.2.2.2.2.2.2.2.1
  have k2 := k.2.2.2.2.2.2.2.2.2.2.2.2.2.2.2.2.2.2.2.2.2.2
  have given : ∀ n v, lastOf l n = some v → Allows (goArgs frac) n v := by
    intro n v hv
    unfold lastOf at hv
    obtain ⟨x, hx, rfl⟩ := Option.map_eq_some_iff.1 hv
    have h1 := List.mem_of_find?_eq_some hx
    have h2 := List.find?_some hx
    simp only [decide_eq_true_eq] at h2
    rw [← h2]
    exact reads_allows h x (by simpa using h1)
  refine ⟨c, hc, fun V cf hs => ?_⟩
  obtain ⟨-, s1, s2, -, -, -, -, -, -, -, s3, -⟩ := C59_settings hs
  rw [s1, s2, k1, k2]
  rw [s1, s2, k1, k2] at s3
  refine ⟨fun v hv => ?_, fun hv => by rw [hv]; rfl, fun v hv => ?_, fun hv => by rw [hv]; rfl, fun hp => (s3 hp).2⟩
  · obtain ⟨z, hz⟩ := ((C110_allows frac v).1).1 (given _ _ hv)
    have := (C110_count frac v z).2 hz
    rw [hv, Option.bind_some, this]
    exact hz
  · obtain ⟨z, hz⟩ := ((C110_allows frac v).2).1 (given _ _ hv)
    have := (C110_duration frac v z).2 hz
    rw [hv, Option.bind_some, this]
    exact hz

/-- **C110.** A duration needs a unit, except for zero. -/
theorem C110_unit (frac : Str → Nat → Nat) {s : Str} (h : ∀ c ∈ s, c ∈ b!"0123456789") (h0 : s ≠ b!"0") (z : Int) : ¬ Duration frac s z := by
  rintro ⟨sign, t, rfl, hh⟩
  have hsign : ∀ x : UInt8, (x = c!"+" ∨ x = c!"-") → sign = [x] → False := by
    rintro x hx rfl
    have := h x (by simp)
    rcases hx with rfl | rfl <;> exact absurd this (by decide)
  rcases hh with ⟨rfl, hs, -⟩ | ⟨n, ⟨ps, g1, g2, g3, -⟩, hz⟩
  · simp only [List.mem_cons, List.not_mem_nil, or_false] at hs
    rcases hs with rfl | hs | hs
    · exact h0 rfl
    · exact hsign _ (Or.inl rfl) hs
    · exact hsign _ (Or.inr rfl) hs
  · obtain ⟨p, ps, rfl⟩ := List.exists_cons_of_ne_nil g1
    obtain ⟨ds, u, k, m, hu, -, hp⟩ := g3 p (by simp)
    obtain ⟨hu1, hu2, -, -⟩ := units_spec _ hu
    obtain ⟨x, r, rfl⟩ := List.exists_cons_of_ne_nil hu1
    have hx : x ∈ p.1 := by
      rcases hp with ⟨-, e, -⟩ | ⟨-, e, -⟩ | ⟨fs, _, -, -, e, -⟩ <;> simp [e]
    have hd := h x (by rw [g2]; simp [hx])
    have hc := hu2 x (by simp)
    rw [← isDec_iff] at hd
    simp [unitChar, hd] at hc

/-- The usual way to write a number. -/
def Spec.usual (n : Nat) : Str := (Nat.digits 10 n).reverse.map fun d => UInt8.ofNat (48 + d)

theorem usual_digit : ∀ d : Fin 10, DigitIs (UInt8.ofNat (48 + d.val)) d.val ∧ UInt8.ofNat (48 + d.val) ≠ c!"_" ∧ UInt8.ofNat (48 + d.val) ∈ b!"0123456789" ∧
    (UInt8.ofNat (48 + d.val)).toNat - 48 = d.val := by
  unfold DigitIs
  decide +kernel

theorem usual_decimal (n : Nat) : Decimal (usual n) n := by
  have hlt : ∀ d ∈ Nat.digits 10 n, d < 10 := fun d hd => Nat.digits_lt_base (by decide) hd
  constructor
  · intro c hc
    simp only [usual, List.mem_map, List.mem_reverse] at hc
    obtain ⟨d, hd, rfl⟩ := hc
    exact (usual_digit ⟨d, hlt d hd⟩).2.2.1
  · have : (usual n).map (fun c => c.toNat - 48) = (Nat.digits 10 n).reverse := by
      unfold usual
      rw [List.map_map]
      conv_rhs => rw [← List.map_id (Nat.digits 10 n).reverse]
      apply List.map_congr_left
      intro d hd
      exact (usual_digit ⟨d, hlt d (by simpa using hd)⟩).2.2.2
    rw [this, List.reverse_reverse, Nat.ofDigits_digits]

/-- **C110.** Numbers written as usual mean what they say, as a number of connections and as a number of hours, minutes or any other unit, as long as there
is room for them. -/
theorem C110_usual (frac : Str → Nat → Nat) {n : Nat} (hn : 0 < n) : (n < 2 ^ 63 → Count (usual n) n) ∧
    ∀ u k, (u, k) ∈ units → n * k < 2 ^ 63 → Duration frac (usual n ++ u) (n * k : Nat) := by
  have hlt : ∀ d ∈ Nat.digits 10 n, d < 10 := fun d hd => Nat.digits_lt_base (by decide) hd
  have hne : usual n ≠ [] := by
    unfold usual
    simp [Nat.digits_ne_nil_iff_ne_zero, Nat.pos_iff_ne_zero.1 hn]
  have hu : ∀ c ∈ usual n, c ≠ c!"_" := by
    intro c hc
    simp only [usual, List.mem_map, List.mem_reverse] at hc
    obtain ⟨d, hd, rfl⟩ := hc
    exact (usual_digit ⟨d, hlt d hd⟩).2.1
  refine ⟨fun h => ⟨[], usual n, n, rfl, ⟨Or.inr ⟨hne, ?_, (Nat.digits 10 n).reverse, ?_, ?_, ?_⟩, ?_, ?_⟩, Or.inl ⟨Or.inl rfl, rfl, h⟩⟩,
    fun u k hk h => ⟨[], usual n ++ u, rfl, Or.inr ⟨n * k, ⟨[(usual n ++ u, n * k)], by simp, by simp, ?_, by simp⟩, Or.inl ⟨Or.inl rfl, rfl, h⟩⟩⟩⟩
  · unfold usual
    rw [List.head?_map, List.head?_reverse]
    have h1 := Nat.getLast_digit_ne_zero 10 (Nat.pos_iff_ne_zero.1 hn)
    rw [List.getLast?_eq_some_getLast (Nat.digits_ne_nil_iff_ne_zero.2 (Nat.pos_iff_ne_zero.1 hn))]
    have h2 := hlt _ (List.getLast_mem (Nat.digits_ne_nil_iff_ne_zero.2 (Nat.pos_iff_ne_zero.1 hn)))
    generalize List.getLast _ _ = d at h1 h2
    intro he
    simp only [Option.map_some, Option.some.injEq] at he
    have := (usual_digit ⟨d, h2⟩).2.2.2
    rw [he] at this
    exact h1 this.symm
  · rw [List.filter_eq_self.2 fun c hc => by simpa using hu c hc]
    unfold usual
    rw [List.forall₂_map_left_iff, List.forall₂_same]
    intro d hd
    exact (usual_digit ⟨d, hlt d (by simpa using hd)⟩).1
  · intro d hd
    exact hlt d (by simpa using hd)
  · rw [List.reverse_reverse, Nat.ofDigits_digits]
  · intro he
    exact hu _ (List.mem_of_mem_head? he) rfl
  · exact fine_none fun h => hu _ h rfl
  · intro p hp
    simp only [List.mem_singleton] at hp
    subst hp
    exact ⟨usual n, u, k, n, hk, usual_decimal n, Or.inl ⟨hne, rfl, rfl⟩⟩

/-! Examples. -/

/-- Only for fractions like those below. -/
def halves : Str → Nat → Nat := fun _ k => k / 2

/-- A leading zero makes a number octal, as in Go programs. -/
example : Count b!"10" 10 ∧ Count b!"010" 8 ∧ Count b!"0x1F" 31 ∧ Count b!"-1_000" (-1000) ∧ (∀ z, ¬ Count b!"08" z) ∧ (∀ z, ¬ Count b!"1__0" z) ∧
    (∀ z, ¬ Count b!"ten" z) ∧ ∀ z, ¬ Count b!"9223372036854775808" z := by
  simp only [← C110_count fun _ _ => 0]
  refine ⟨by decide +kernel, by decide +kernel, by decide +kernel, by decide +kernel, ?_, ?_, ?_, ?_⟩ <;> intro z h
  · exact absurd (h.symm.trans (by decide +kernel : _ = none)) (by simp)
  · exact absurd (h.symm.trans (by decide +kernel : _ = none)) (by simp)
  · exact absurd (h.symm.trans (by decide +kernel : _ = none)) (by simp)
  · exact absurd (h.symm.trans (by decide +kernel : _ = none)) (by simp)

example (frac : Str → Nat → Nat) : Duration halves b!"1h30m" 5400000000000 ∧ Duration halves b!"-2ms" (-2000000) ∧ Duration halves b!"0" 0 ∧
    Duration halves b!"1.5h" 5400000000000 ∧ (∀ z, ¬ Duration halves b!"2d" z) ∧ (∀ z, ¬ Duration halves b!"1h 30m" z) ∧ ∀ z, ¬ Duration frac b!"90" z := by
  refine ⟨?_, ?_, ?_, ?_, ?_, ?_, C110_unit frac (by decide) (by decide)⟩
  · rw [← C110_duration]; decide +kernel
  · rw [← C110_duration]; decide +kernel
  · rw [← C110_duration]; decide +kernel
  · rw [← C110_duration]; decide +kernel
  · intro z h
    rw [← C110_duration] at h
    exact absurd (h.symm.trans (by decide +kernel : _ = none)) (by simp)
  · intro z h
    rw [← C110_duration] at h
    exact absurd (h.symm.trans (by decide +kernel : _ = none)) (by simp)

/-- A command line with which a server starts; ten is meant to be eight here. -/
def numDemo : List Str := [b!"-M", b!"--smtplog=-", b!"-dncount", b!"010", b!"-dndur=1h30m", b!":25"]

theorem numDemo_reads : Reads (goArgs halves) numDemo
    [(b!"M", b!"true"), (b!"smtplog", b!"-"), (b!"dncount", b!"010"), (b!"dndur", b!"1h30m")] [b!":25"] :=
  .switch (d := b!"-") (n := b!"M") (.inl rfl) (by decide) <|
  .equals (d := b!"--") (n := b!"smtplog") (v := b!"-") (.inr rfl) (.inr (.inl (by decide))) <|
  .next (d := b!"-") (n := b!"dncount") (.inl rfl) (by decide) ((C110_allows halves _).1.2 ⟨8, (C110_count halves _ _).1 (by decide +kernel)⟩) <|
  .equals (d := b!"-") (n := b!"dndur") (v := b!"1h30m") (.inl rfl)
    ((C110_allows halves _).2.2 ⟨5400000000000, (C110_duration halves _ _).1 (by decide +kernel)⟩) <|
  .stop (.inl (by decide))

example : ((cmdLine (goArgs halves) numDemo).toOption.bind fun c => (start startDemo c.o).toOption.map fun cf => (cf.yakCount, cf.yakTimeout)) =
    some (8, 5400000000000) := by
  decide +kernel

end Sink
