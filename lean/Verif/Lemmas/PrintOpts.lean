import Verif.Lemmas.Print

/-! # Printed option lists -/

namespace Sink

open Gram (OptClass optBits)

/-- The union of a list of option words of one family. -/
def wordsBits (c : OptClass) : List Str → Option Opts
  | [] => none
  | [w] => (keyword? w).bind (optBits c)
  | w :: ws => ((keyword? w).bind (optBits c)).bind fun o => (wordsBits c ws).map (o ||| ·)

/-- The tokens of a printed option list. -/
def optToks : List Str → List (Tok × Str)
  | [] => []
  | [w] => [(wordTok w, w)]
  | w :: ws => (wordTok w, w) :: (.comma, b!",") :: optToks ws

/-- Canonical item of a token. -/
def mkI (t : Tok × Str) : Item := ⟨t.1, t.2, 0⟩

theorem map_mkI_tv (ts : List (Tok × Str)) : (ts.map mkI).map Item.tv = ts := by
  simp only [List.map_map]
  exact List.map_id'' (fun _ => rfl) ts

theorem opts_of_wordsBits {c : OptClass} : ∀ {ws : List Str} {o : Opts}, wordsBits c ws = some o →
    Gram.Opts c ((optToks ws).map mkI) o
  | [], o, h => by simp [wordsBits] at h
  | [w], o, h => by
    rw [wordsBits, Option.bind_eq_some_iff] at h
    obtain ⟨k, hk, ho⟩ := h
    exact .one (k := k) (by simp [mkI, wordTok, hk]) ho
  | w :: w' :: ws, o, h => by
    rw [wordsBits, Option.bind_eq_some_iff] at h
    · obtain ⟨o1, h1, h2⟩ := h
      rw [Option.bind_eq_some_iff] at h1
      obtain ⟨k, hk, ho⟩ := h1
      rw [Option.map_eq_some_iff] at h2
      obtain ⟨o2, h2, rfl⟩ := h2
      exact .more (k := k) (by simp [mkI, wordTok, hk]) ho rfl (opts_of_wordsBits h2)
    · simp

/-! ## Families -/

/-- The `n` consecutive bits starting at `s`. -/
def fam (s n : Nat) (o : Opts) : Prop := o ≠ 0#64 ∧ o &&& BitVec.ofNat 64 ((2 ^ n - 1) <<< s) = o

theorem fam_or {s n : Nat} {a b : Opts} (ha : fam s n a) (hb : fam s n b) : fam s n (a ||| b) := by
  refine ⟨?_, ?_⟩
  · intro h
    apply ha.1
    have : a = a &&& (a ||| b) := by ext i hi; simp; tauto
    rw [this, h]; simp
  · have e : (a ||| b) &&& BitVec.ofNat 64 ((2 ^ n - 1) <<< s) =
        (a &&& BitVec.ofNat 64 ((2 ^ n - 1) <<< s)) ||| (b &&& BitVec.ofNat 64 ((2 ^ n - 1) <<< s)) := by
      ext i hi; simp only [BitVec.getElem_and, BitVec.getElem_or]
      cases a[i] <;> cases b[i] <;> simp
    rw [e, ha.2, hb.2]

theorem fam_enum {s n : Nat} {o : Opts} (hs : s + n ≤ 64) (h : fam s n o) :
    ∃ k, k < 2 ^ n ∧ k ≠ 0 ∧ o = BitVec.ofNat 64 (k <<< s) := by
  have hm : (2 ^ n - 1) <<< s < 2 ^ 64 := by
    rw [Nat.shiftLeft_eq]
    calc (2 ^ n - 1) * 2 ^ s < 2 ^ n * 2 ^ s := by
          apply Nat.mul_lt_mul_of_pos_right _ (by positivity)
          have : 0 < 2 ^ n := by positivity
          omega
      _ = 2 ^ (s + n) := by rw [← pow_add, Nat.add_comm]
      _ ≤ 2 ^ 64 := Nat.pow_le_pow_right (by norm_num) hs
  have h2 : o.toNat = o.toNat &&& ((2 ^ n - 1) <<< s) := by
    have := congrArg BitVec.toNat h.2
    rw [BitVec.toNat_and, BitVec.toNat_ofNat, Nat.mod_eq_of_lt hm] at this
    exact this.symm
  have h3 : o.toNat = ((o.toNat >>> s) % 2 ^ n) <<< s := by
    rw [h2]
    apply Nat.eq_of_testBit_eq
    intro i
    rw [← h2]
    conv_lhs => rw [h2]
    simp only [Nat.testBit_and, Nat.testBit_shiftLeft, Nat.testBit_two_pow_sub_one, Nat.testBit_mod_two_pow, Nat.testBit_shiftRight]
    by_cases hi : s ≤ i
    · simp [hi, Nat.add_sub_cancel' hi, Bool.and_comm]
    · simp [hi]
  refine ⟨(o.toNat >>> s) % 2 ^ n, Nat.mod_lt _ (by positivity), ?_, ?_⟩
  · intro h0
    rw [h0, Nat.zero_shiftLeft] at h3
    exact h.1 (BitVec.eq_of_toNat_eq (by simpa using h3))
  · apply BitVec.eq_of_toNat_eq
    rw [BitVec.toNat_ofNat, ← h3, Nat.mod_eq_of_lt o.isLt]

/-- Membership of a family, as a check. -/
def famB : OptClass → Opts → Bool
  | .addr, o => o != 0#64 && o &&& BitVec.ofNat 64 ((2 ^ 8 - 1) <<< 16) == o
  | .helo, o => o != 0#64 && o &&& BitVec.ofNat 64 ((2 ^ 10 - 1) <<< 1) == o
  | .dns, o => o != 0#64 && o &&& BitVec.ofNat 64 ((2 ^ 5 - 1) <<< 11) == o
  | .dbl, o => [oHost, oEhlo, oFrom, oHost ||| oEhlo, oHost ||| oFrom, oEhlo ||| oFrom, oAny].contains o

theorem optBits_famB (c : OptClass) (k : Kw) : (optBits c k).all (famB c) = true := by
  cases c <;> cases k <;> decide +kernel

/-- The option sets of a family. -/
def Fam : OptClass → Opts → Prop
  | .addr, o => fam 16 8 o
  | .helo, o => fam 1 10 o
  | .dns, o => fam 11 5 o
  | .dbl, o => o ∈ [oHost, oEhlo, oFrom, oHost ||| oEhlo, oHost ||| oFrom, oEhlo ||| oFrom, oAny]

theorem optBits_fam {c : OptClass} {k : Kw} {o : Opts} (h : optBits c k = some o) :
    Fam c o := by
  have := optBits_famB c k
  rw [h, Option.all_some] at this
  cases c with
  | dbl => exact List.contains_iff_mem.mp this
  | _ =>
    simp only [famB, Bool.and_eq_true, bne_iff_ne, beq_iff_eq] at this
    exact this

/-- The option sets of `dbl`. -/
def dblSets : List Opts := [oHost, oEhlo, oFrom, oHost ||| oEhlo, oHost ||| oFrom, oEhlo ||| oFrom, oAny]

theorem dbl_closed : dblSets.all (fun a => dblSets.all fun b => dblSets.contains (a ||| b)) = true := by decide +kernel

theorem opts_fam {c : OptClass} {ts o} (h : Gram.Opts c ts o) :
    Fam c o := by
  induction h with
  | one _ h => exact optBits_fam h
  | more _ h _ _ ih =>
    have := optBits_fam h
    cases c with
    | addr => exact fam_or this ih
    | helo => exact fam_or this ih
    | dns => exact fam_or this ih
    | dbl =>
      have h1 := List.all_eq_true.mp dbl_closed _ this
      exact List.contains_iff_mem.mp (List.all_eq_true.mp h1 _ ih)

theorem addr_print : ∀ k < 2 ^ 8, k ≠ 0 → wordsBits .addr (sortStrs (optWords (BitVec.ofNat 64 (k <<< 16)))) = some (BitVec.ofNat 64 (k <<< 16)) := by
  decide +kernel
theorem helo_print : ∀ k < 2 ^ 10, k ≠ 0 → wordsBits .helo (sortStrs (optWords (BitVec.ofNat 64 (k <<< 1)))) = some (BitVec.ofNat 64 (k <<< 1)) := by
  decide +kernel
theorem dns_print : ∀ k < 2 ^ 5, k ≠ 0 → wordsBits .dns (sortStrs (optWords (BitVec.ofNat 64 (k <<< 11)))) = some (BitVec.ofNat 64 (k <<< 11)) := by
  decide +kernel
theorem dbl_print : dblSets.all (fun o => wordsBits .dbl (sortStrs (optWords o)) == some o) = true := by
  decide +kernel

/-- A printed option set reads back as itself, for every set a rule can have. -/
theorem opts_print {c : OptClass} {ts o} (h : Gram.Opts c ts o) : Gram.Opts c ((optToks (sortStrs (optWords o))).map mkI) o := by
  apply opts_of_wordsBits
  have hf := opts_fam h
  cases c with
  | addr => obtain ⟨k, h1, h2, rfl⟩ := fam_enum (by norm_num) hf; exact addr_print k h1 h2
  | helo => obtain ⟨k, h1, h2, rfl⟩ := fam_enum (by norm_num) hf; exact helo_print k h1 h2
  | dns => obtain ⟨k, h1, h2, rfl⟩ := fam_enum (by norm_num) hf; exact dns_print k h1 h2
  | dbl => exact beq_iff_eq.mp (List.all_eq_true.mp dbl_print _ hf)

/-! ## Lexing -/

instance (w : Str) : Decidable (PlainWord w) := by
  unfold PlainWord
  have : Decidable (∀ t, w ≠ c!"\"" :: t) :=
    decidable_of_iff (w.head? ≠ some c!"\"") (by cases w <;> simp)
  infer_instance

theorem optWords_plain (o : Opts) : ∀ w ∈ sortStrs (optWords o), PlainWord w := by
  intro w hw
  rw [(sortStrs_perm _).mem_iff] at hw
  have hrev : ∀ p ∈ revMap, PlainWord p.2 := by decide +kernel
  have h3 : PlainWord b!"bad" ∧ PlainWord b!"ip" ∧ PlainWord b!"any" := by decide +kernel
  have hl : ∀ (l : List Str) (o : Opts), (∀ w ∈ l, PlainWord w) →
      ∀ w ∈ l ++ (revMap.filter (fun (k, _) => k &&& o = k)).map (·.2), PlainWord w := by
    intro l o hl w hw
    rcases List.mem_append.mp hw with hw | hw
    · exact hl w hw
    · obtain ⟨p, hp, rfl⟩ := List.mem_map.mp hw
      exact hrev p (List.mem_filter.mp hp).1
  have h4 : ∀ l : List Str, (∀ w ∈ l, w = b!"bad" ∨ w = b!"ip" ∨ w = b!"any") → ∀ w ∈ l, PlainWord w := by
    intro l hl w hw
    rcases hl w hw with rfl | rfl | rfl
    · exact h3.1
    · exact h3.2.1
    · exact h3.2.2
  clear h3 hrev
  unfold optWords at hw
  split_ifs at hw <;> dsimp only at hw <;> split_ifs at hw <;> dsimp only at hw <;>
    exact hl _ _ (h4 _ (by simp)) w hw

theorem Lx.opts : ∀ {ws : List Str}, (∀ w ∈ ws, PlainWord w) → Lx (join b!"," ws) (optToks ws)
  | [], _ => Lx.nil
  | [w], h => Lx.word (h w (by simp))
  | w :: w' :: ws, h => by
    have ih := Lx.opts (ws := w' :: ws) (fun v hv => h v (by simp [hv]))
    have hw := Lx.word (h w (by simp))
    have hw' := h w' (by simp)
    have e : ∃ s, join b!"," (w' :: ws) = w' ++ s := by
      cases ws with
      | nil => exact ⟨[], by simp [join]⟩
      | cons a ws => exact ⟨b!"," ++ join b!"," (a :: ws), by simp [join]⟩
    obtain ⟨s, hs⟩ := e
    rw [hs] at ih
    have := hw.append (Lx.comma hw' ih) (.inr ⟨c!",", _, rfl, by decide⟩)
    rw [join, hs, List.append_assoc]
    · exact this
    · simp

theorem Lx.optStr (o : Opts) : Lx (optStr o) (optToks (sortStrs (optWords o))) := Lx.opts (optWords_plain o)

end Sink
