import Verif.Spec.Flags
import Verif.Props.Main
import Verif.Props.Greet

/-!
# C96: the options of the command line
-/

namespace Sink
open Spec

/-- All names of options. -/
def optNames : List Str := switches ++ texts ++ [b!"dncount", b!"dndur"]

theorem flag_mem {n : Str} {f : Flag} (h : flags.lookup n = some f) : (n, f) ∈ flags := by
  have : ∀ l : List (Str × Flag), l.lookup n = some f → (n, f) ∈ l := by
    intro l
    induction l with
    | nil => simp
    | cons x l ih =>
      intro h
      rw [List.lookup_cons] at h
      split at h
      · rename_i he
        cases h
        have : n = x.1 := by simpa using he
        simp [this]
      · exact List.mem_cons_of_mem _ (ih h)
  exact this _ h

theorem lookup_name {n : Str} (h : n ∈ optNames) : ∃ f, flags.lookup n = some f := by
  have : ∀ n ∈ optNames, (flags.lookup n).isSome = true := by decide +kernel
  exact Option.isSome_iff_exists.1 (this n h)

theorem allows_name {P : ArgLib} {n v : Str} (h : Allows P n v) : n ∈ optNames := by
  simp only [optNames, List.mem_append, List.mem_cons, List.not_mem_nil, or_false]
  rcases h with h | h | h | h
  · exact .inl (.inl h.1)
  · exact .inl (.inr h)
  · exact .inr (.inl h.1)
  · exact .inr (.inr h.1)

/-- What the table says about each option. -/
theorem flags_case {n : Str} {f : Flag} (h : (n, f) ∈ flags) :
    (∃ g, f = .bool g ∧ n ∈ switches) ∨ (∃ g, f = .str g ∧ n ∈ texts ∧ n ∉ switches) ∨ (∃ g, f = .int g ∧ n = b!"dncount") ∨
    (∃ g, f = .dur g ∧ n = b!"dndur") := by
  simp only [flags, List.mem_cons, Prod.mk.injEq, List.not_mem_nil, or_false] at h
  rcases h with ⟨rfl, rfl⟩ | ⟨rfl, rfl⟩ | ⟨rfl, rfl⟩ | ⟨rfl, rfl⟩ | ⟨rfl, rfl⟩ | ⟨rfl, rfl⟩ | ⟨rfl, rfl⟩ | ⟨rfl, rfl⟩ | ⟨rfl, rfl⟩ | ⟨rfl, rfl⟩ |
    ⟨rfl, rfl⟩ | ⟨rfl, rfl⟩ | ⟨rfl, rfl⟩ | ⟨rfl, rfl⟩ | ⟨rfl, rfl⟩ | ⟨rfl, rfl⟩ | ⟨rfl, rfl⟩ | ⟨rfl, rfl⟩ | ⟨rfl, rfl⟩ | ⟨rfl, rfl⟩ |
    ⟨rfl, rfl⟩ | ⟨rfl, rfl⟩
  all_goals first
    | exact .inl ⟨_, rfl, by decide⟩
    | exact .inr (.inl ⟨_, rfl, by decide, by decide⟩)
    | exact .inr (.inr (.inl ⟨_, rfl, rfl⟩))
    | exact .inr (.inr (.inr ⟨_, rfl, rfl⟩))

theorem parseBool_yes {v : Str} : parseBool v = some true ↔ v ∈ yes := by
  unfold parseBool
  split
  · rename_i h
    simp only [true_iff]
    revert h; simp only [yes, List.mem_cons]; tauto
  · rename_i h
    constructor
    · intro h'; split at h' <;> simp at h'
    · intro h'; exfalso; apply h; revert h'; simp only [yes, List.mem_cons]; tauto

theorem parseBool_some {v : Str} : (parseBool v).isSome = true ↔ v ∈ yes ∨ v ∈ no := by
  unfold parseBool
  split
  · rename_i h
    simp only [Option.isSome_some, true_iff]
    left; revert h; simp only [yes, List.mem_cons]; tauto
  · rename_i h
    split
    · rename_i h'
      simp only [Option.isSome_some, true_iff]
      right; revert h'; simp only [no, List.mem_cons]; tauto
    · rename_i h'
      simp only [Option.isSome_none, Bool.false_eq_true, false_iff, not_or]
      refine ⟨fun hy => h ?_, fun hn => h' ?_⟩
      · revert hy; simp only [yes, List.mem_cons]; tauto
      · revert hn; simp only [no, List.mem_cons]; tauto

theorem isBool_iff {n : Str} {f : Flag} (h : (n, f) ∈ flags) : f.isBool = true ↔ n ∈ switches := by
  rcases flags_case h with ⟨g, rfl, hn⟩ | ⟨g, rfl, _, hn⟩ | ⟨g, rfl, rfl⟩ | ⟨g, rfl, rfl⟩
  · simp [Flag.isBool, hn]
  · simp [Flag.isBool, hn]
  · simp only [Flag.isBool, Bool.false_eq_true, false_iff]; decide
  · simp only [Flag.isBool, Bool.false_eq_true, false_iff]; decide

theorem set_allows {P : ArgLib} {n v : Str} {f : Flag} {c : CmdLine} (h : (n, f) ∈ flags) : (f.set P c v).isSome = true ↔ Allows P n v := by
  rcases flags_case h with ⟨g, rfl, hn⟩ | ⟨g, rfl, ht, hn⟩ | ⟨g, rfl, rfl⟩ | ⟨g, rfl, rfl⟩
  · have h1 : n ∉ texts := (by decide : ∀ n ∈ switches, n ∉ texts) n hn
    have h2 : n ≠ b!"dncount" := by rintro rfl; revert hn; decide
    have h3 : n ≠ b!"dndur" := by rintro rfl; revert hn; decide
    simp [Flag.set, Allows, parseBool_some, hn, h1, h2, h3]
  · simp [Flag.set, Allows, ht]
  · have h1 : b!"dncount" ∉ switches := by decide
    have h2 : b!"dncount" ∉ texts := by decide
    have h3 : b!"dncount" ≠ b!"dndur" := by decide
    simp [Flag.set, Allows, h1, h2, h3]
  · have h1 : b!"dndur" ∉ switches := by decide
    have h2 : b!"dndur" ∉ texts := by decide
    have h3 : b!"dndur" ≠ b!"dncount" := by decide
    simp [Flag.set, Allows, h1, h2, h3]

/-! ## Single arguments -/

theorem takeWhile_all {p : Byte → Bool} : ∀ {l : Str}, (∀ x ∈ l, p x = true) → l.takeWhile p = l ∧ l.dropWhile p = [] := by
  intro l h
  exact ⟨List.takeWhile_eq_self_iff.2 h, List.dropWhile_eq_nil_iff.2 h⟩

/-- Names are words that can be recognized. -/
theorem name_shape {n : Str} (h : n ∈ optNames) : ∃ x t, n = x :: t ∧ x ≠ c!"-" ∧ x ≠ c!"=" ∧ ∀ y ∈ n, (y != c!"=") = true := by
  have : ∀ n ∈ optNames, n.head?.any (fun x => x ≠ c!"-" ∧ x ≠ c!"=") = true ∧ ∀ y ∈ n, (y != c!"=") = true := by decide +kernel
  obtain ⟨h1, h2⟩ := this n h
  cases n with
  | nil => simp at h1
  | cons x t => simp at h1; exact ⟨x, t, rfl, h1.1, h1.2, h2⟩

theorem wordOf_dash {d n : Str} (hd : Dash d) {x : Byte} {t : Str} (hn : n = x :: t) (hx : x ≠ c!"-") : wordOf (d ++ n) = wordName n := by
  subst hn
  rcases hd with rfl | rfl <;> simp [wordOf, hx]

theorem wordOf_name {d n : Str} (hd : Dash d) (h : n ∈ optNames) : wordOf (d ++ n) = .flag n none := by
  obtain ⟨x, t, rfl, h1, h2, h3⟩ := name_shape h
  obtain ⟨-, h4⟩ := takeWhile_all h3
  rw [wordOf_dash hd rfl h1, wordName, if_neg (by simp [h1, h2]), h4]

theorem wordOf_equals {d n v : Str} (hd : Dash d) (h : n ∈ optNames) : wordOf (d ++ n ++ b!"=" ++ v) = .flag n (some v) := by
  obtain ⟨x, t, rfl, h1, h2, h3⟩ := name_shape h
  have h4 : (x :: t ++ c!"=" :: v).dropWhile (· != c!"=") = c!"=" :: v := by
    rw [List.dropWhile_append_of_pos h3]; simp
  have h5 : (x :: t ++ c!"=" :: v).takeWhile (· != c!"=") = x :: t := by
    rw [List.takeWhile_append_of_pos h3]; simp
  rw [List.append_assoc, List.append_assoc, show x :: t ++ (b!"=" ++ v) = x :: (t ++ c!"=" :: v) from rfl, wordOf_dash hd rfl h1, wordName,
    if_neg (by simp [h1, h2])]
  simp only [List.cons_append] at h4 h5
  rw [h4, h5]

theorem wordName_flag {s n : Str} {v : Option Str} (h : wordName s = .flag n v) : s = n ++ v.elim [] fun v => b!"=" ++ v := by
  unfold wordName at h
  split at h
  · cases h
  · rename_i x t
    split at h
    · cases h
    · split at h
      · cases h; simp
      · rename_i y v' hv
        cases h
        have : y = c!"=" := by
          have h1 := List.head?_dropWhile_not (p := (· != c!"=")) (l := x :: t)
          rw [hv] at h1
          simpa using h1
        subst this
        have h2 := List.takeWhile_append_dropWhile (p := (· != c!"=")) (l := x :: t)
        rw [hv] at h2
        exact h2.symm

theorem wordOf_flag {s n : Str} {v : Option Str} (h : wordOf s = .flag n v) :
    ∃ d, Dash d ∧ s = d ++ n ++ v.elim [] fun v => b!"=" ++ v := by
  match s with
  | [] => cases h
  | [a] => cases h
  | a :: b :: r =>
    simp only [wordOf] at h
    split at h
    · cases h
    · rename_i ha
      simp only [ne_eq, not_not] at ha
      subst ha
      split at h
      · rename_i hb
        subst hb
        split at h
        · cases h
        · exact ⟨b!"--", .inr rfl, by rw [wordName_flag h]; simp⟩
      · exact ⟨b!"-", .inl rfl, by rw [wordName_flag h]; simp⟩

theorem wordName_not {s : Str} : wordName s ≠ .plain ∧ wordName s ≠ .dashes := by
  unfold wordName
  split
  · simp
  · split
    · simp
    · split <;> simp

theorem wordOf_plain {s : Str} : wordOf s = .plain ↔ s.head? ≠ some c!"-" ∨ s = b!"-" := by
  match s with
  | [] => simp [wordOf]
  | [a] => simp only [wordOf, true_iff, List.head?_cons, ne_eq, Option.some.injEq]; by_cases h : a = c!"-" <;> simp [h]
  | a :: b :: r =>
    have h1 := (wordName_not (s := r)).1
    have h2 := (wordName_not (s := b :: r)).1
    by_cases h : a = c!"-"
    · by_cases hb : b = c!"-" <;> by_cases hr : r = [] <;> simp [wordOf, h, hb, hr]
      all_goals first | simpa [hb, hr] using h1 | simpa [hb, hr] using h2
    · simp [wordOf, h]

theorem wordOf_dashes {s : Str} : wordOf s = .dashes ↔ s = b!"--" := by
  match s with
  | [] => simp [wordOf]
  | [a] => simp [wordOf]
  | a :: b :: r =>
    have h1 := (wordName_not (s := r)).2
    have h2 := (wordName_not (s := b :: r)).2
    by_cases h : a = c!"-"
    · by_cases hb : b = c!"-" <;> by_cases hr : r = [] <;> simp [wordOf, h, hb, hr]
      all_goals first | simpa [hb, hr] using h1 | simpa [hb, hr] using h2
    · simp [wordOf, h]

/-! ## The whole line -/

/-- Setting the options one after the other. -/
def setAll (P : ArgLib) : List (Str × Str) → CmdLine → CmdLine
  | [], c => c
  | (n, v) :: l, c => setAll P l (((flags.lookup n).bind fun f => f.set P c v).getD c)

theorem parseArgs_reads {P : ArgLib} {args : List Str} {l : List (Str × Str)} {r : List Str} (h : Reads P args l r) :
    ∀ c, parseArgs P args c = .ok { setAll P l c with o.args := r } := by
  induction h with
  | none => intro c; rfl
  | @stop a args h =>
    intro c
    rw [parseArgs.eq_def]
    simp only [wordOf_plain.2 h]
    rfl
  | dashes => intro c; rfl
  | @equals d n v args l r hd ha _ ih =>
    intro c
    obtain ⟨f, hf⟩ := lookup_name (allows_name ha)
    have := (set_allows (P := P) (v := v) (c := c) (flag_mem hf)).2 ha
    obtain ⟨c', hc⟩ := Option.isSome_iff_exists.1 this
    rw [parseArgs.eq_def]
    simp only [wordOf_equals hd (allows_name ha), hf, hc, ih, setAll, Option.bind_some, Option.getD_some]
  | @switch d n args l r hd hn _ ih =>
    intro c
    have hm : n ∈ optNames := by simp [optNames, hn]
    obtain ⟨f, hf⟩ := lookup_name hm
    have := (set_allows (P := P) (v := b!"true") (c := c) (flag_mem hf)).2 (.inl ⟨hn, .inl (by decide)⟩)
    obtain ⟨c', hc⟩ := Option.isSome_iff_exists.1 this
    rw [parseArgs.eq_def]
    simp only [wordOf_name hd hm, hf, hc, ih, setAll, Option.bind_some, Option.getD_some, (isBool_iff (flag_mem hf)).2 hn, if_true]
  | @next d n v args l r hd hn ha _ ih =>
    intro c
    obtain ⟨f, hf⟩ := lookup_name (allows_name ha)
    have := (set_allows (P := P) (v := v) (c := c) (flag_mem hf)).2 ha
    obtain ⟨c', hc⟩ := Option.isSome_iff_exists.1 this
    have hb : f.isBool = false := by
      have := isBool_iff (flag_mem hf)
      cases hx : f.isBool <;> simp_all
    rw [parseArgs.eq_def]
    simp [wordOf_name hd (allows_name ha), hf, hc, ih, setAll, hb]

theorem reads_of_ok {P : ArgLib} : ∀ (k : Nat) {args : List Str} {c c' : CmdLine}, args.length ≤ k → parseArgs P args c = .ok c' →
    ∃ l r, Reads P args l r := by
  intro k
  induction k with
  | zero =>
    intro args c c' hk _
    cases args with
    | nil => exact ⟨_, _, .none⟩
    | cons => simp at hk
  | succ k ih =>
    intro args c c' hk h
    cases args with
    | nil => exact ⟨_, _, .none⟩
    | cons s rest =>
      simp only [List.length_cons, Nat.add_le_add_iff_right] at hk
      rw [parseArgs.eq_def] at h
      simp only at h
      cases hw : wordOf s with
      | plain => exact ⟨_, _, .stop (wordOf_plain.1 hw)⟩
      | dashes => rw [wordOf_dashes.1 hw]; exact ⟨_, _, .dashes⟩
      | bad => rw [hw] at h; cases h
      | flag n v =>
        rw [hw] at h
        simp only at h
        obtain ⟨d, hd, hs⟩ := wordOf_flag hw
        cases hf : flags.lookup n with
        | none => rw [hf] at h; cases h
        | some f =>
          rw [hf] at h
          have hm := flag_mem hf
          cases v with
          | some v =>
            simp only at h hs
            cases hx : f.set P c v with
            | none => rw [hx] at h; cases h
            | some c1 =>
              rw [hx] at h
              obtain ⟨l, r, hr⟩ := ih hk h
              rw [hs, Option.elim_some, ← List.append_assoc]
              exact ⟨_, _, .equals hd ((set_allows (c := c) hm).1 (by simp [hx])) hr⟩
          | none =>
            simp only at h hs
            by_cases hb : f.isBool = true
            · rw [if_pos hb] at h
              cases hx : f.set P c b!"true" with
              | none => rw [hx] at h; cases h
              | some c1 =>
                rw [hx] at h
                obtain ⟨l, r, hr⟩ := ih hk h
                rw [hs, Option.elim_none, List.append_nil]
                exact ⟨_, _, .switch hd ((isBool_iff hm).1 hb) hr⟩
            · rw [if_neg hb] at h
              cases rest with
              | nil => cases h
              | cons v rest =>
                simp only at h
                cases hx : f.set P c v with
                | none => rw [hx] at h; cases h
                | some c1 =>
                  rw [hx] at h
                  obtain ⟨l, r, hr⟩ := ih (by simp at hk; omega) h
                  rw [hs, Option.elim_none, List.append_nil]
                  exact ⟨_, _, .next hd (fun hn => hb ((isBool_iff hm).2 hn)) ((set_allows (c := c) hm).1 (by simp [hx])) hr⟩

/-- **C96.** The program goes on exactly with command lines that can be read. -/
theorem C96_reads (P : ArgLib) (args : List Str) : (∃ c, cmdLine P args = .ok c) ↔ ∃ l r, Reads P args l r :=
  ⟨fun ⟨_, h⟩ => reads_of_ok _ (Nat.le_refl _) h, fun ⟨_, _, h⟩ => ⟨_, parseArgs_reads h _⟩⟩

/-! ## The settings -/

theorem lastOf_cons {n v m : Str} {l : List (Str × Str)} : lastOf ((n, v) :: l) m = (lastOf l m).or (if n = m then some v else none) := by
  unfold lastOf
  rw [List.reverse_cons, List.find?_append, Option.map_or]
  congr 1
  by_cases h : n = m <;> simp [h]

/-- A setting that one option makes and no other touches. -/
theorem setAll_get {P : ArgLib} {α : Type} (get : CmdLine → α) (name : Str) (val : Str → Option α)
    (h1 : ∀ x ∈ flags, x.1 = name → ∀ c v, (x.2.set P c v).map get = val v)
    (h2 : ∀ x ∈ flags, x.1 ≠ name → ∀ c v c', x.2.set P c v = some c' → get c' = get c) :
    ∀ (l : List (Str × Str)), (∀ x ∈ l, Allows P x.1 x.2) → ∀ c, get (setAll P l c) = ((lastOf l name).bind val).getD (get c) := by
  intro l
  induction l with
  | nil => intro _ c; simp [setAll, lastOf]
  | cons x l ih =>
    obtain ⟨n, v⟩ := x
    intro ha c
    have hn := ha (n, v) (by simp)
    rw [setAll, ih (fun x hx => ha x (by simp [hx])), lastOf_cons]
    obtain ⟨f, hf⟩ := lookup_name (allows_name hn)
    have hm := flag_mem hf
    obtain ⟨c', hc⟩ := Option.isSome_iff_exists.1 ((set_allows (c := c) hm).2 hn)
    simp only [hf, Option.bind_some, hc, Option.getD_some]
    cases hg : lastOf l name with
    | some w =>
      simp only [Option.some_or, Option.bind_some]
      by_cases he : n = name
      · -- the value given later is legal, so it counts
        have hw : (val w).isSome = true := by
          have : (name, w) ∈ l := by
            unfold lastOf at hg
            simp only [Option.map_eq_some_iff] at hg
            obtain ⟨y, hy, rfl⟩ := hg
            have h1 := List.mem_of_find?_eq_some hy
            have h2 := List.find?_some hy
            simp only [decide_eq_true_eq] at h2
            rw [← h2]
            simpa using h1
          have hb := ha (name, w) (by simp [this])
          rw [← h1 (n, f) hm he c w]
          simp only [Option.isSome_map]
          exact (set_allows hm).2 (by rw [he]; exact hb)
        obtain ⟨a, ha⟩ := Option.isSome_iff_exists.1 hw
        simp [ha]
      · rw [h2 (n, f) hm he c v c' hc]
    | none =>
      simp only [Option.none_or, Option.bind_none, Option.getD_none]
      by_cases he : n = name
      · have := h1 (n, f) hm he c v
        simp only [hc, Option.map_some] at this
        simp [he, ← this]
      · rw [if_neg he, h2 (n, f) hm he c v c' hc]
        simp

theorem reads_allows {P : ArgLib} {args : List Str} {l : List (Str × Str)} {r : List Str} (h : Reads P args l r) : ∀ x ∈ l, Allows P x.1 x.2 := by
  induction h with
  | none | stop | dashes => simp
  | equals _ ha _ ih => simp only [List.mem_cons, forall_eq_or_imp]; exact ⟨ha, ih⟩
  | switch _ hn _ ih => simp only [List.mem_cons, forall_eq_or_imp]; exact ⟨.inl ⟨hn, .inl (by decide)⟩, ih⟩
  | next _ _ ha _ ih => simp only [List.mem_cons, forall_eq_or_imp]; exact ⟨ha, ih⟩

/-- For a setting of `setAll_get`: look at each option. -/
macro "each_flag" : tactic => `(tactic| (
  intro x hx
  simp only [flags, List.mem_cons, List.not_mem_nil, or_false] at hx
  rcases hx with hx | hx | hx | hx | hx | hx | hx | hx | hx | hx | hx | hx | hx | hx | hx | hx | hx | hx | hx | hx | hx | hx
  all_goals subst hx
  all_goals first
    | (intro he; exact absurd he (by decide))
    | (intro _ c v; rfl)
    | (intro _ c v c' h; cases h; rfl)
    | (intro _ c v c' h; obtain ⟨_, _, h⟩ := Option.map_eq_some_iff.1 h; subst h; rfl)
    | (intro _ c v; simp only [Flag.set, Option.map_map, Function.comp_def, Option.map_id'])))

theorem set_text {P : ArgLib} {l : List (Str × Str)} (h : ∀ x ∈ l, Allows P x.1 x.2) (get : CmdLine → Str) (name : Str)
    (h1 : ∀ x ∈ flags, x.1 = name → ∀ c v, (x.2.set P c v).map get = some v)
    (h2 : ∀ x ∈ flags, x.1 ≠ name → ∀ c v c', x.2.set P c v = some c' → get c' = get c) (c : CmdLine) :
    get (setAll P l c) = (lastOf l name).getD (get c) := by
  rw [setAll_get get name some h1 h2 l h]
  simp

theorem set_switch {P : ArgLib} {l : List (Str × Str)} (h : ∀ x ∈ l, Allows P x.1 x.2) (get : CmdLine → Bool) (name : Str)
    (h1 : ∀ x ∈ flags, x.1 = name → ∀ c v, (x.2.set P c v).map get = parseBool v)
    (h2 : ∀ x ∈ flags, x.1 ≠ name → ∀ c v c', x.2.set P c v = some c' → get c' = get c) {c : CmdLine} (hc : get c = false) :
    get (setAll P l c) = true ↔ On l name := by
  rw [setAll_get get name parseBool h1 h2 l h, hc]
  unfold On
  cases lastOf l name with
  | none => simp
  | some v =>
    simp only [Option.bind_some, Option.some.injEq]
    constructor
    · intro hv
      refine ⟨v, ?_, rfl⟩
      rw [← parseBool_yes]
      cases hp : parseBool v <;> simp_all
    · rintro ⟨w, hw, rfl⟩
      rw [parseBool_yes.2 hw]
      rfl

/-- **C96.** Each option sets what the manual says, the last one counts, and what no option sets has its default value; what follows the
options are the addresses to listen on. -/
theorem C96_settings {P : ArgLib} {args : List Str} {l : List (Str × Str)} {r : List Str} (h : Reads P args l r) :
    ∃ c, cmdLine P args = .ok c ∧ c.o.args = r ∧
      (c.o.failgotdata = true ↔ On l b!"M") ∧ (c.slow = true ↔ On l b!"S") ∧ (c.o.force = true ↔ On l b!"force-receive") ∧
      (c.o.nostdrules = true ↔ On l b!"nostdrules") ∧ (c.statsperip = true ↔ On l b!"statsperip") ∧
      c.o.srvname = (lastOf l b!"helo").getD [] ∧ c.o.certfile = (lastOf l b!"c").getD [] ∧ c.o.keyfile = (lastOf l b!"k").getD [] ∧
      c.o.connfile = (lastOf l b!"conncfg").getD [] ∧ c.o.logfile = (lastOf l b!"l").getD [] ∧ c.o.smtplog = (lastOf l b!"smtplog").getD [] ∧
      c.o.dnlog = (lastOf l b!"dnlog").getD [] ∧ c.o.savedir = (lastOf l b!"d").getD [] ∧ c.o.hashtype = (lastOf l b!"save-hash").getD b!"all" ∧
      c.o.rfiles = (lastOf l b!"r").getD [] ∧ c.o.minphase = (lastOf l b!"minphase").getD b!"helo" ∧ c.pprof = (lastOf l b!"pprof").getD [] ∧
      c.o.fromreject = (lastOf l b!"fromreject").getD [] ∧ c.o.toaccept = (lastOf l b!"toaccept").getD [] ∧
      c.o.heloreject = (lastOf l b!"heloreject").getD [] ∧
      c.o.dncount = ((lastOf l b!"dncount").bind P.int).getD 0 ∧
      c.o.dndur = ((lastOf l b!"dndur").bind P.dur).getD (8 * 3600 * 1000000000) := by
  have ha := reads_allows h
  refine ⟨_, parseArgs_reads h _, rfl, ?_, ?_, ?_, ?_, ?_, ?_, ?_, ?_, ?_, ?_, ?_, ?_, ?_, ?_, ?_, ?_, ?_, ?_, ?_, ?_, ?_, ?_⟩
  · exact set_switch ha (fun c => c.o.failgotdata) _ (by each_flag) (by each_flag) rfl
  · exact set_switch ha (fun c => c.slow) _ (by each_flag) (by each_flag) rfl
  · exact set_switch ha (fun c => c.o.force) _ (by each_flag) (by each_flag) rfl
  · exact set_switch ha (fun c => c.o.nostdrules) _ (by each_flag) (by each_flag) rfl
  · exact set_switch ha (fun c => c.statsperip) _ (by each_flag) (by each_flag) rfl
  · exact set_text ha (fun c => c.o.srvname) _ (by each_flag) (by each_flag) _
  · exact set_text ha (fun c => c.o.certfile) _ (by each_flag) (by each_flag) _
  · exact set_text ha (fun c => c.o.keyfile) _ (by each_flag) (by each_flag) _
  · exact set_text ha (fun c => c.o.connfile) _ (by each_flag) (by each_flag) _
  · exact set_text ha (fun c => c.o.logfile) _ (by each_flag) (by each_flag) _
  · exact set_text ha (fun c => c.o.smtplog) _ (by each_flag) (by each_flag) _
  · exact set_text ha (fun c => c.o.dnlog) _ (by each_flag) (by each_flag) _
  · exact set_text ha (fun c => c.o.savedir) _ (by each_flag) (by each_flag) _
  · exact set_text ha (fun c => c.o.hashtype) _ (by each_flag) (by each_flag) _
  · exact set_text ha (fun c => c.o.rfiles) _ (by each_flag) (by each_flag) _
  · exact set_text ha (fun c => c.o.minphase) _ (by each_flag) (by each_flag) _
  · exact set_text ha (fun c => c.pprof) _ (by each_flag) (by each_flag) _
  · exact set_text ha (fun c => c.o.fromreject) _ (by each_flag) (by each_flag) _
  · exact set_text ha (fun c => c.o.toaccept) _ (by each_flag) (by each_flag) _
  · exact set_text ha (fun c => c.o.heloreject) _ (by each_flag) (by each_flag) _
  · exact setAll_get (fun c => c.o.dncount) _ P.int (by each_flag) (by each_flag) l ha _
  · exact setAll_get (fun c => c.o.dndur) _ P.dur (by each_flag) (by each_flag) l ha _

/-! ## What follows for the server -/

/-- **C96.** A server started with `-M` on its command line, whatever else is there, never accepts a message. -/
theorem C96_M {P : ArgLib} {args : List Str} {l : List (Str × Str)} {r : List Str} (h : Reads P args l r) (hM : On l b!"M") :
    ∃ c, cmdLine P args = .ok c ∧ ∀ (V : StartEnv) (cf : Conf), start V c.o = .ok cf → ∀ (E : Env) (ll : List Step) (s : Sess), Life cf E ll s →
      ∀ st ∈ ll, ∀ id lost, st.pre.pc = .decide id lost → replies st.out = [.rejected] ∨ replies st.out = [.deferred] := by
  obtain ⟨c, hc, -, h1, -⟩ := C96_settings h
  refine ⟨c, hc, fun V cf hs E ll s hl st hst id lost hp => ?_⟩
  have hb : Built c.o.base cf := (C59_settings hs).2.2.2.2.2.2.2.2.2.2.2.2.2.2.2.1
  exact (C35_M hb (h1.2 hM) hl hst).2 id lost hp

/-- **C96.** Without a directory to save messages in, the server only starts if one of `-M` and `-force-receive` is on. -/
theorem C96_no_directory {P : ArgLib} {args : List Str} {l : List (Str × Str)} {r : List Str} (h : Reads P args l r)
    (hd : (lastOf l b!"d").getD [] = []) (hM : ¬ On l b!"M") (hf : ¬ On l b!"force-receive") :
    ∃ c, cmdLine P args = .ok c ∧ ∀ V : StartEnv, ∃ why, start V c.o = .error why := by
  obtain ⟨c, hc, -, h1, -, h3, -, -, -, -, -, -, -, -, -, h4, -⟩ := C96_settings h
  refine ⟨c, hc, C59_refused fun hs => ?_⟩
  rcases hs.safe with h | h | h
  · exact h (h4.trans hd)
  · exact hM (h1.1 h)
  · exact hf (h3.1 h)

/-- **C96.** `-S` slows down everyone, and without it only do-nothing clients are slowed down. -/
theorem C96_S {P : ArgLib} {args : List Str} {l : List (Str × Str)} {r : List Str} (h : Reads P args l r) :
    ∃ c, cmdLine P args = .ok c ∧ ∀ (cf : Conf) (hh h0 : List Hap) (g : Server) (k : Nat) (E E' : Env) (now : Int) (s : Sess), Server.Runs cf hh g →
      BeganAt hh k E now h0 → g.conns k = some (E', s) →
      (On l b!"S" ∨ DoNothing cf E.rip now h0 → (smtpdConf c.slow s).delay = 100000000) ∧
      (¬ (On l b!"S" ∨ DoNothing cf E.rip now h0) → (smtpdConf c.slow s).delay = 0) := by
  obtain ⟨c, hc, -, -, h2, -⟩ := C96_settings h
  refine ⟨c, hc, fun cf hh h0 g k E E' now s hr hb hk => ?_⟩
  have h3 := C94_slow hr hb hk c.slow
  rwa [h2] at h3

/-- **C96.** Times are kept per local address if the server listens on several or `-statsperip` is on, and they are shown if `-pprof` has a value. -/
theorem C96_stat {P : ArgLib} {args : List Str} {l : List (Str × Str)} {r : List Str} (h : Reads P args l r) :
    ∃ c, cmdLine P args = .ok c ∧ (c.stat.manyIps = true ↔ r.length > 1 ∨ On l b!"statsperip") ∧
      (c.stat.pprof = true ↔ ∃ v, v ≠ [] ∧ lastOf l b!"pprof" = some v) := by
  obtain ⟨c, hc, h0, -, -, -, -, h5, -, -, -, -, -, -, -, -, -, -, -, hp, -⟩ := C96_settings h
  refine ⟨c, hc, ?_, ?_⟩
  · simp only [CmdLine.stat, Bool.or_eq_true, decide_eq_true_eq, h0, h5]
  · simp only [CmdLine.stat, decide_eq_true_eq, hp]
    cases lastOf l b!"pprof" <;> simp

/-- **C96.** Nothing else counts: neither how the options are written, nor in what order different options are given, nor earlier values of the same option. -/
theorem C96_same {P : ArgLib} {args args' : List Str} {l l' : List (Str × Str)} {r : List Str} (h : Reads P args l r) (h' : Reads P args' l' r)
    (he : ∀ n, lastOf l n = lastOf l' n) : cmdLine P args = cmdLine P args' := by
  obtain ⟨c, hc, k⟩ := C96_settings h
  obtain ⟨c', hc', k'⟩ := C96_settings h'
  have ho : ∀ n, On l n ↔ On l' n := fun n => by simp only [On, he]
  simp only [he, ho] at k
  rw [hc, hc']
  obtain ⟨⟨⟩, a2, a3, a4⟩ := c
  obtain ⟨⟨⟩, b2, b3, b4⟩ := c'
  dsimp only at k k'
  obtain ⟨k1, k2, k3, k4, k5, k6, k7, k8, k9, k10, k11, k12, k13, k14, k15, k16, k17, k18, k19, k20, k21, k22, k23⟩ := k
  obtain ⟨q1, q2, q3, q4, q5, q6, q7, q8, q9, q10, q11, q12, q13, q14, q15, q16, q17, q18, q19, q20, q21, q22, q23⟩ := k'
  have e2 := Bool.eq_iff_iff.2 (k2.trans q2.symm)
  have e3 := Bool.eq_iff_iff.2 (k3.trans q3.symm)
  have e4 := Bool.eq_iff_iff.2 (k4.trans q4.symm)
  have e5 := Bool.eq_iff_iff.2 (k5.trans q5.symm)
  have e6 := Bool.eq_iff_iff.2 (k6.trans q6.symm)
  subst_vars
  rfl

/-! Examples. -/

/-- Numbers are not needed here. -/
def argDemo : ArgLib := ⟨fun s => if s = b!"5" then some 5 else none, fun s => if s = b!"2h" then some 7200000000000 else none⟩

/-- Both ways to write a value, a switch, and two dashes; what comes after the first address is no option. -/
def argsDemo : List Str := [b!"-d", b!"/mail", b!"--smtplog=/log", b!"-M", b!"-dncount=5", b!"-dndur", b!"2h", b!"-M=false", b!":25", b!"-S"]

theorem argsDemo_reads : Reads argDemo argsDemo [(b!"d", b!"/mail"), (b!"smtplog", b!"/log"), (b!"M", b!"true"), (b!"dncount", b!"5"), (b!"dndur", b!"2h"),
    (b!"M", b!"false")] [b!":25", b!"-S"] :=
  .next (d := b!"-") (n := b!"d") (.inl rfl) (by decide) (.inr (.inl (by decide))) <|
  .equals (d := b!"--") (n := b!"smtplog") (v := b!"/log") (.inr rfl) (.inr (.inl (by decide))) <|
  .switch (d := b!"-") (n := b!"M") (.inl rfl) (by decide) <|
  .equals (d := b!"-") (n := b!"dncount") (v := b!"5") (.inl rfl) (.inr (.inr (.inl (by decide)))) <|
  .next (d := b!"-") (n := b!"dndur") (.inl rfl) (by decide) (.inr (.inr (.inr (by decide)))) <|
  .equals (d := b!"-") (n := b!"M") (v := b!"false") (.inl rfl) (.inl (by decide)) <|
  .stop (.inl (by decide))

/-- What a command line sets, in short. -/
def lineOf (args : List Str) : Except FlagErr (List Str × Str × Str × Bool × Int × Int × Bool) :=
  (cmdLine argDemo args).map fun c => (c.o.args, c.o.savedir, c.o.smtplog, c.o.failgotdata, c.o.dncount, c.o.dndur, c.slow)

example : lineOf argsDemo = .ok ([b!":25", b!"-S"], b!"/mail", b!"/log", false, 5, 7200000000000, false) := rfl
example : lineOf [b!"-M", b!"-S", b!"--", b!"-S"] = .ok ([b!"-S"], [], [], true, 0, 28800000000000, true) := rfl
example : lineOf [b!"-M", b!"false", b!":25"] = .ok ([b!"false", b!":25"], [], [], true, 0, 28800000000000, false) := rfl
/-- The next argument is the value, whatever it is. -/
example : lineOf [b!"-d", b!"-M", b!":25"] = .ok ([b!":25"], b!"-M", [], false, 0, 28800000000000, false) := rfl
example : lineOf [b!"-dncount", b!"many", b!":25"] = .error (.badValue b!"dncount" b!"many") := rfl
example : lineOf [b!"-n", b!":25"] = .error (.undefined b!"n") := rfl
example : lineOf [b!"-h"] = .error .help := rfl
example : lineOf [b!"-d"] = .error (.needsArg b!"d") := rfl
example : lineOf [b!"---d", b!":25"] = .error (.badSyntax b!"---d") := rfl
example : On [(b!"M", b!"0"), (b!"M", b!"T")] b!"M" := ⟨b!"T", by decide, rfl⟩
example : ¬ On [(b!"M", b!"true"), (b!"M", b!"false")] b!"M" := by rintro ⟨v, hv, h⟩; cases h; revert hv; decide

end Sink
