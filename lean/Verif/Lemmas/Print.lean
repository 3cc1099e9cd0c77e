import Verif.Props.Lex
import Verif.Spec.Print
import Verif.Lemmas.Mx
import Mathlib.Data.Nat.Bitwise

/-! # Printed rules: their tokens -/

namespace Sink

/-! ## Lexing text piece by piece -/

/-- A word ends here. -/
def Bnd (r : Str) : Prop := r = [] ∨ ∃ c t, r = c :: t ∧ isSpecialChar c = true

/-- The text `s`, in the middle of a line and before a word boundary, has the tokens `ts`. -/
def Lx (s : Str) (ts : List (Tok × Str)) : Prop :=
  ∀ r, Bnd r → toksFrom .lineRunning (s ++ r) = (toksFrom .lineRunning r).map (ts ++ ·)

theorem except_map_map {ε α β γ} (x : Except ε α) (f : α → β) (g : β → γ) : (x.map f).map g = x.map (fun a => g (f a)) := by
  cases x <;> rfl

theorem toksFrom_step {f : LexFn} {r : Str} (hg : LexGood f ⟨r, 0⟩) {its f' s'} (ho : lexStep f ⟨r, 0⟩ = .ok ⟨its, some f', s'⟩)
    (hg' : LexGood f' s') : toksFrom f r = (toksFrom f' s'.rest).map (its.map Item.tv ++ ·) := by
  rw [toksFrom, lexFrom_next hg ho, ← toksFrom_eq (p := s'.pos) hg', except_map_map, except_map_map]
  simp

theorem toksFrom_silent {f : LexFn} {r : Str} (hg : LexGood f ⟨r, 0⟩) {f' s'} (ho : lexStep f ⟨r, 0⟩ = .ok ⟨[], some f', s'⟩)
    (hg' : LexGood f' s') : toksFrom f r = toksFrom f' s'.rest := by
  rw [toksFrom_step hg ho hg']
  cases toksFrom f' s'.rest <;> simp [Except.map]

theorem skipWs_nonblank {c : Byte} {r : Str} {p} (h1 : c ≠ c!" ") (h2 : c ≠ c!"\t") : skipWs ⟨c :: r, p⟩ = ⟨c :: r, p⟩ := by
  simp [skipWs, skipWsLoop, h1, h2]

/-- What the lexer makes of a bare word. -/
def wordTok (w : Str) : Tok :=
  match keyword? w with
  | some k => .kw k
  | none => if w.head? = some c!"/" ∨ hasPrefix w b!"./" ∨ hasPrefix w b!"file:" then .filename else .value

theorem takeWhile_plain {w r : Str} (hw : ∀ c ∈ w, isSpecialChar c = false) (hr : Bnd r) :
    (w ++ r).takeWhile (fun c => !isSpecialChar c) = w := by
  induction w with
  | nil =>
    rcases hr with rfl | ⟨c, t, rfl, hc⟩
    · rfl
    · simp [hc]
  | cons c w ih =>
    rw [List.cons_append, takeWhile_word (hw c (by simp)), ih (fun d hd => hw d (by simp [hd]))]

theorem hasPrefix_len5 {v : Str} (h : hasPrefix v b!"file:" = true) (hl : v.length ≤ 5) : v = b!"file:" := by
  match v, hl with
  | [], _ => simp [hasPrefix] at h
  | [a], _ => simp [hasPrefix] at h
  | [a, b], _ => simp [hasPrefix] at h
  | [a, b, c], _ => simp [hasPrefix] at h
  | [a, b, c, d], _ => simp [hasPrefix] at h
  | [a, b, c, d, e], _ => simp [hasPrefix] at h; obtain ⟨rfl, rfl, rfl, rfl, rfl⟩ := h; rfl

theorem toksFrom_word {w r : Str} (hw : PlainWord w) (hr : Bnd r) :
    toksFrom .word (w ++ r) = (toksFrom .lineRunning r).map ([(wordTok w, w)] ++ ·) := by
  obtain ⟨hne, hs, hq, hf, hb⟩ := hw
  obtain ⟨c, w', rfl⟩ := List.exists_cons_of_ne_nil hne
  have hg : LexGood .word ⟨c :: w' ++ r, 0⟩ := ⟨c, w' ++ r, rfl, hs c (by simp)⟩
  have htw := takeWhile_plain hs hr
  have hd : (c :: w' ++ r).drop (c :: w').length = r := by simp
  have key : lexStep .word ⟨c :: w' ++ r, 0⟩ =
      .ok ⟨[⟨wordTok (c :: w'), c :: w', 0⟩], some .lineRunning, ⟨r, 0 + (c :: w').length⟩⟩ := by
    simp only [lexStep, lexWord, htw, hd]
    cases hk : keyword? (c :: w') with
    | some k => simp [wordTok, hk]
    | none =>
      simp only [wordTok, hk, List.head?_cons, Option.some.injEq]
      by_cases h1 : c = c!"/" ∨ hasPrefix (c :: w') b!"./" = true
      · have : c = c!"/" ∨ hasPrefix (c :: w') b!"./" = true ∨ hasPrefix (c :: w') b!"file:" = true := by tauto
        rw [if_pos h1, if_pos this]
      · rw [if_neg h1]
        by_cases h2 : hasPrefix (c :: w') b!"file:" = true
        · rw [if_pos h2, if_neg (fun hl => hf (hasPrefix_len5 h2 hl)), if_pos (.inr (.inr h2))]
        · have : ¬ (c = c!"/" ∨ hasPrefix (c :: w') b!"./" = true ∨ hasPrefix (c :: w') b!"file:" = true) := by tauto
          rw [if_neg h2, if_neg this]
  rw [toksFrom_step hg key trivial]
  rfl

theorem Lx.word {w : Str} (hw : PlainWord w) : Lx w [(wordTok w, w)] := by
  intro r hr
  rw [← toksFrom_word hw hr]
  obtain ⟨hne, hs, hq, hf, hb⟩ := hw
  obtain ⟨c, w', rfl⟩ := List.exists_cons_of_ne_nil hne
  have hc := hs c (by simp)
  have hc' : ¬ isSpecialChar c = true := by simp [hc]
  rw [isSpecialChar_eq] at hc'
  push Not at hc'
  obtain ⟨n1, n2, n3, n4, n5, n6, n7⟩ := hc'
  have hsp : ¬ (special? c).isSome = true := by rw [special?_isSome]; simp [n1, n2, n3, n4, n5]
  have hcq : c ≠ c!"\"" := fun h => hq w' (by rw [h])
  have hbs : ¬ (c = c!"\\" ∧ (w' ++ r).head? = some c!"\n") := by
    rintro ⟨rfl, h⟩
    cases w' with
    | nil => exact hb rfl
    | cons d w'' =>
      simp only [List.cons_append, List.head?_cons, Option.some.injEq] at h
      subst h
      have := hs c!"\n" (by simp)
      revert this; decide
  have key : lexStep .lineRunning ⟨c :: w' ++ r, 0⟩ = .ok ⟨[], some .word, ⟨c :: w' ++ r, 0⟩⟩ := by
    simp only [lexStep, lexLineRunning, List.cons_append, skipWs_nonblank n6 n7, if_neg hbs, if_neg hsp, if_neg hcq]
  exact toksFrom_silent (f := .lineRunning) trivial key ⟨c, w' ++ r, rfl, hc⟩

/-- At the start of a line, for words that are neither comments nor continuations. -/
theorem toksFrom_lineStart_word {w r : Str} (hw : PlainWord w) (h1 : w.head? ≠ some c!"#") (h2 : w.head? ≠ some c!"\\") (hr : Bnd r) :
    toksFrom .lineStart (w ++ r) = (toksFrom .lineRunning r).map ([(wordTok w, w)] ++ ·) := by
  rw [← toksFrom_word hw hr]
  obtain ⟨hne, hs, hq, hf, hb⟩ := hw
  obtain ⟨c, w', rfl⟩ := List.exists_cons_of_ne_nil hne
  have hc := hs c (by simp)
  have hc' : ¬ isSpecialChar c = true := by simp [hc]
  rw [isSpecialChar_eq] at hc'
  push Not at hc'
  obtain ⟨n1, n2, n3, n4, n5, n6, n7⟩ := hc'
  have hsp : ¬ (c ≠ c!"\n" ∧ (special? c).isSome = true) := by rw [special?_isSome]; simp [n1, n2, n3, n4, n5]
  have hcq : c ≠ c!"\"" := fun h => hq w' (by rw [h])
  have hh : c ≠ c!"#" := fun h => h1 (by rw [h]; rfl)
  have hbs : c ≠ c!"\\" := fun h => h2 (by rw [h]; rfl)
  have key : lexStep .lineStart ⟨c :: w' ++ r, 0⟩ = .ok ⟨[], some .word, ⟨c :: w' ++ r, 0⟩⟩ := by
    simp only [lexStep, lexLineStart, List.cons_append, skipWs_nonblank n6 n7, if_neg hsp, if_neg hcq, if_neg hh, if_neg hbs, if_neg n5]
  exact toksFrom_silent (f := .lineStart) trivial key ⟨c, w' ++ r, rfl, hc⟩

theorem toksFrom_blank (r : Str) : toksFrom .lineRunning (b!" " ++ r) = toksFrom .lineRunning r := by
  have h1 := toksFrom_eq (f := .lineRunning) (r := r) (p := 1) trivial
  rw [← h1]
  unfold toksFrom
  congr 1
  obtain ⟨o, ho, -, -⟩ := lexStep_ok (f := .lineRunning) (s := ⟨r, 1⟩) trivial
  have ho' : lexStep .lineRunning ⟨b!" " ++ r, 0⟩ = .ok o := by
    rw [← ho]
    simp [lexStep, lexLineRunning, skipWs, skipWsLoop]
  rw [lexFrom_eq (f := .lineRunning) trivial ho, lexFrom_eq (f := .lineRunning) trivial ho']

theorem Lx.blank {s ts} (h : Lx s ts) : Lx (b!" " ++ s) ts := by
  intro r hr
  rw [List.append_assoc, toksFrom_blank]
  exact h r hr

theorem Lx.nil : Lx [] [] := by
  intro r _
  cases h : toksFrom .lineRunning r <;> simp [h, Except.map]

/-- Text that starts with a special character. -/
def Cut (s : Str) : Prop := ∃ c t, s = c :: t ∧ isSpecialChar c = true

theorem Lx.append {s ts s' ts'} (h : Lx s ts) (h' : Lx s' ts') (hc : s' = [] ∨ Cut s') : Lx (s ++ s') (ts ++ ts') := by
  intro r hr
  have hb : Bnd (s' ++ r) := by
    rcases hc with rfl | ⟨c, t, rfl, hc⟩
    · exact hr
    · exact .inr ⟨c, t ++ r, rfl, hc⟩
  rw [List.append_assoc, h _ hb, h' _ hr, except_map_map]
  simp

theorem toksFrom_special {c : Byte} {t : Tok} {r : Str} (h : special? c = some t) (hn : c ≠ c!"\n") (hb : c ≠ c!" ") (ht : c ≠ c!"\t")
    (hbs : c ≠ c!"\\") (hcm : ¬ (c = c!"," ∧ commaStop r = true)) :
    toksFrom .lineRunning (c :: r) = (toksFrom .lineRunning r).map ([(t, [c])] ++ ·) := by
  have key : lexStep .lineRunning ⟨c :: r, 0⟩ = .ok ⟨[], some .special, ⟨c :: r, 0⟩⟩ := by
    simp [lexStep, lexLineRunning, skipWs_nonblank hb ht, hbs, h]
  have hg : LexGood .special ⟨c :: r, 0⟩ := .inr ⟨c, r, t, rfl, h⟩
  rw [toksFrom_silent (f := .lineRunning) trivial key hg]
  have key2 : lexStep .special ⟨c :: r, 0⟩ = .ok ⟨[⟨t, [c], 0⟩], some .lineRunning, ⟨r, 1⟩⟩ := by
    simp only [lexStep, lexSpecial, h, Option.getD_some, if_neg hn, if_neg hcm]
  rw [toksFrom_step hg key2 trivial]
  rfl

theorem Lx.lparen : Lx b!"(" [(.lparen, b!"(")] := fun r _ =>
  toksFrom_special (c := c!"(") (by decide) (by decide) (by decide) (by decide) (by decide) (fun h => absurd h.1 (by decide))
theorem Lx.rparen : Lx b!")" [(.rparen, b!")")] := fun r _ =>
  toksFrom_special (c := c!")") (by decide) (by decide) (by decide) (by decide) (by decide) (fun h => absurd h.1 (by decide))
theorem Lx.semicolon : Lx b!";" [(.semicolon, b!";")] := fun r _ =>
  toksFrom_special (c := c!";") (by decide) (by decide) (by decide) (by decide) (by decide) (fun h => absurd h.1 (by decide))

theorem Lx.comma {w : Str} {ts} (hw : PlainWord w) {s} (h : Lx (w ++ s) ts) : Lx (b!"," ++ (w ++ s)) ((.comma, b!",") :: ts) := by
  intro r hr
  have hst : commaStop (w ++ s ++ r) = false := by
    obtain ⟨hne, hs, -⟩ := hw
    obtain ⟨c, w', rfl⟩ := List.exists_cons_of_ne_nil hne
    have hc := hs c (by simp)
    have hc' : ¬ isSpecialChar c = true := by simp [hc]
    rw [isSpecialChar_eq] at hc'
    simp only [List.cons_append, commaStop, decide_eq_false_iff_not]
    tauto
  have := toksFrom_special (c := c!",") (t := .comma) (r := w ++ s ++ r) (by decide) (by decide) (by decide) (by decide) (by decide)
    (fun h => by rw [hst] at h; simp at h)
  rw [show b!"," ++ (w ++ s) ++ r = c!"," :: (w ++ s ++ r) by simp, this, h r hr, except_map_map]
  rfl

theorem toksFrom_newline (r : Str) :
    toksFrom .lineRunning (b!"\n" ++ r) = (toksFrom .lineStart r).map ([(.eol, b!"\n")] ++ ·) := by
  have key : lexStep .lineRunning ⟨b!"\n" ++ r, 0⟩ = .ok ⟨[], some .special, ⟨b!"\n" ++ r, 0⟩⟩ := by
    simp [lexStep, lexLineRunning, skipWs, skipWsLoop, special?]
  have hg : LexGood .special ⟨b!"\n" ++ r, 0⟩ := .inr ⟨c!"\n", r, .eol, rfl, by decide⟩
  rw [toksFrom_silent (f := .lineRunning) trivial key hg]
  have key2 : lexStep .special ⟨b!"\n" ++ r, 0⟩ = .ok ⟨[⟨.eol, b!"\n", 0⟩], some .lineStart, ⟨r, 1⟩⟩ := by
    simp [lexStep, lexSpecial, special?]
  rw [toksFrom_step hg key2 trivial]
  rfl

theorem scanQuote_of_body {raw v : Str} (h : QuoteBody raw v) (r : Str) : scanQuote (raw ++ c!"\"" :: r) = some (v, r) := by
  induction h with
  | nil => cases r <;> simp [scanQuote]
  | @escaped d raw v hd _ ih => simp [scanQuote, hd, ih]
  | @plain c raw v h1 h2 _ ih =>
    cases hraw : raw ++ c!"\"" :: r with
    | nil => simp at hraw
    | cons d t =>
      rw [List.cons_append, hraw, scanQuote, if_neg h1, if_neg (by tauto), ← hraw, ih]
      rfl
  | @backslash d raw v h1 h2 _ ih =>
    rw [List.cons_append, List.cons_append, scanQuote, if_neg (by decide), if_neg (by tauto), ← List.cons_append, ih]
    rfl

theorem Lx.quoted {v : Str} (h : QuoteBody v v) : Lx (b!"\"" ++ v ++ b!"\"") [(.value, v)] := by
  intro r _
  have e : b!"\"" ++ v ++ b!"\"" ++ r = c!"\"" :: (v ++ c!"\"" :: r) := by simp
  have key : lexStep .lineRunning ⟨c!"\"" :: (v ++ c!"\"" :: r), 0⟩ = .ok ⟨[], some .quote, ⟨c!"\"" :: (v ++ c!"\"" :: r), 0⟩⟩ := by
    simp [lexStep, lexLineRunning, skipWs, skipWsLoop, special?]
  have hg : LexGood .quote ⟨c!"\"" :: (v ++ c!"\"" :: r), 0⟩ := ⟨_, rfl⟩
  rw [e, toksFrom_silent (f := .lineRunning) trivial key hg]
  have key2 := lexStep_ok hg
  have key3 : ∃ p, lexStep .quote ⟨c!"\"" :: (v ++ c!"\"" :: r), 0⟩ = .ok ⟨[⟨.value, v, 0⟩], some .lineRunning, ⟨r, p⟩⟩ := by
    simp only [lexStep, lexQuote, scanQuote_of_body h]
    exact ⟨_, rfl⟩
  obtain ⟨p, key3⟩ := key3
  rw [toksFrom_step hg key3 trivial]
  rfl

theorem toksFrom_end : toksFrom .lineRunning [] = .ok [(.eof, [])] := by
  rw [toksFrom, lexFrom_nil _ (.inr rfl)]; rfl

theorem toksFrom_start_end : toksFrom .lineStart [] = .ok [(.eof, [])] := by
  rw [toksFrom, lexFrom_nil _ (.inl rfl)]; rfl

end Sink
