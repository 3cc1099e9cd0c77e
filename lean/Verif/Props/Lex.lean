import Verif.Spec.Lex
import Verif.Lemmas.Lex
import Mathlib.Data.List.TakeWhile

/-! # C01 – C04: the lexer -/

namespace Sink

/-! ## C01 -/

theorem lexFrom_terminal : ∀ f s its, LexGood f s → lexFrom f s = .ok its →
    ∃ pre last, its = pre ++ [last] ∧ (last.typ = .eof ∨ last.typ = .error) ∧
      ∀ it ∈ pre, it.typ ≠ .eof ∧ it.typ ≠ .error := by
  apply lexFrom_induct
  · intro f s o hg ho hn
    cases f with
    | lineStart =>
      cases ho; simp only [lexLineStart] at hn
      split at hn
      · simp at hn
      · split_ifs at hn
    | lineRunning =>
      cases ho; simp only [lexLineRunning] at hn
      split at hn
      · simp at hn
      · split_ifs at hn
    | special =>
      cases ho
      rcases hg with h | ⟨c, r, t, h, ht⟩
      · simp only [lexSpecial, h]; exact ⟨[], _, rfl, .inl rfl, by simp⟩
      · simp only [lexSpecial, h] at hn ⊢
        split_ifs at hn ⊢ with h1 h2
        refine ⟨[_], _, rfl, .inr rfl, ?_⟩
        simp [h2.1, special?]
    | word =>
      obtain ⟨c, r, h1, h2⟩ := hg
      simp only [lexStep, lexWord, h1, takeWhile_word h2] at ho
      split at ho
      · cases ho; simp at hn
      · try dsimp only at ho
        split_ifs at ho
        · cases ho; simp at hn
        · cases ho; exact ⟨[], _, rfl, .inr rfl, by simp⟩
        · cases ho; simp at hn
        · cases ho; simp at hn
    | quote =>
      obtain ⟨r, h1⟩ := hg
      cases ho
      simp only [lexQuote, h1] at hn ⊢
      cases h : scanQuote r with
      | none => exact ⟨[], _, rfl, .inr rfl, by simp⟩
      | some p => simp [h] at hn
    | comment => cases ho; simp [lexComment] at hn
  · intro f s o f' its hg ho hn hg' hl ih
    obtain ⟨pre, last, rfl, h1, h2⟩ := ih
    refine ⟨o.items ++ pre, last, by simp, h1, ?_⟩
    intro it hit
    rcases List.mem_append.1 hit with hit | hit
    swap; · exact h2 it hit
    cases f with
    | lineStart =>
      cases ho; simp only [lexLineStart] at hit
      split at hit
      · simp at hit
      · split_ifs at hit <;> simp at hit
    | lineRunning =>
      cases ho; simp only [lexLineRunning] at hit
      split at hit
      · simp at hit
      · split_ifs at hit <;> simp at hit
    | special =>
      cases ho
      rcases hg with h | ⟨c, r, t, h, ht⟩
      · simp [lexSpecial, h] at hn
      · have hs : t ≠ .eof ∧ t ≠ .error := by
          unfold special? at ht
          split_ifs at ht <;> cases ht <;> simp
        simp only [lexSpecial, h, ht] at hn hit
        split_ifs at hn hit with h1 h2
        · simp at hit; subst hit; exact hs
        · simp at hit; subst hit; exact hs
    | word =>
      obtain ⟨c, r, h1, h2⟩ := hg
      simp only [lexStep, lexWord, h1, takeWhile_word h2] at ho
      split at ho
      · cases ho; simp at hit; subst hit; simp
      · try dsimp only at ho
        split_ifs at ho
        · cases ho; simp at hit; subst hit; simp
        · cases ho; simp at hn
        · cases ho; simp at hit; subst hit; simp
        · cases ho; simp at hit; subst hit; simp
    | quote =>
      obtain ⟨r, h1⟩ := hg
      cases ho
      simp only [lexQuote, h1] at hn hit
      cases h : scanQuote r with
      | none => simp [h] at hn
      | some p => simp [h] at hit; subst hit; simp
    | comment => cases ho; simp [lexComment] at hit

/-- **C01.** Every input lexes without panic and within the step bound, and the token stream is a sequence of proper
tokens followed by exactly one end-of-file or error token. -/
theorem C01_lex_total (input : Str) :
    ∃ pre last, lex input = .ok (pre ++ [last]) ∧ (last.typ = .eof ∨ last.typ = .error) ∧
      ∀ it ∈ pre, it.typ ≠ .eof ∧ it.typ ≠ .error := by
  rw [lex_eq_lexFrom]
  obtain ⟨its, h⟩ := lexFrom_ok (f := .lineStart) (s := ⟨input, 0⟩) trivial
  obtain ⟨pre, last, rfl, h1, h2⟩ := lexFrom_terminal .lineStart ⟨input, 0⟩ _ trivial h
  exact ⟨pre, last, h, h1, h2⟩

/-- C01 covers files with every kind of lexical element ... -/
example : (tokens b!"# c\n\naccept from \"a\\\"b\" \\\n or (not to file:/x) ; dns good,exists\n") =
    .ok [(.kw .accept, b!"accept"), (.kw .from_, b!"from"), (.value, b!"a\"b"), (.kw .or, b!"or"), (.lparen, b!"("),
      (.kw .not_, b!"not"), (.kw .to, b!"to"), (.filename, b!"file:/x"), (.rparen, b!")"), (.semicolon, b!";"),
      (.kw .dns, b!"dns"), (.kw .good, b!"good"), (.comma, b!","), (.kw .exists, b!"exists"), (.eol, b!"\n"),
      (.eof, [])] := by decide +kernel

/-- ... and broken ones. -/
example : (tokens b!"reject \"abc") =
    .ok [(.kw .reject, b!"reject"), (.error, b!"unterminated quoted value")] := by decide +kernel

/-! ## C02 -/

theorem scanQuote_quoteText (v rest : Str) :
    scanQuote ((v.flatMap fun c => if c = c!"\"" ∨ c = c!"\\" then [c!"\\", c] else [c]) ++ c!"\"" :: rest) =
      some (v, rest) := by
  induction v with
  | nil => cases rest <;> simp [scanQuote]
  | cons c v ih =>
    by_cases h : c = c!"\"" ∨ c = c!"\\"
    · simp only [List.flatMap_cons, h, if_true, List.cons_append, List.nil_append]
      rw [scanQuote, if_neg (by decide), if_pos ⟨rfl, h⟩, ih]; rfl
    · simp only [List.flatMap_cons, h, if_false, List.cons_append, List.nil_append]
      rw [not_or] at h
      generalize hq : (v.flatMap fun c => if c = c!"\"" ∨ c = c!"\\" then [c!"\\", c] else [c]) ++ c!"\"" :: rest = q at ih ⊢
      cases q with
      | nil => simp at hq
      | cons d q =>
        rw [scanQuote, if_neg h.1, if_neg (by tauto), ih]; rfl

theorem skipWsLoop_append {w t : Str} (hw : ∀ c ∈ w, c = c!" " ∨ c = c!"\t") (p : Nat) :
    skipWsLoop (w ++ t) p = skipWsLoop t (p + w.length) := by
  induction w generalizing p with
  | nil => simp
  | cons c w ih =>
    have h1 : c = c!" " ∨ c = c!"\t" := hw c (by simp)
    have h2 : ∀ c ∈ w, c = c!" " ∨ c = c!"\t" := fun d hd => hw d (by simp [hd])
    simp only [List.cons_append, skipWsLoop, h1, if_true, ih h2, List.length_cons]
    congr 1; omega

/-- **C02**, in any lexing position where a token may start (`f` is line start or inside a line). -/
theorem C02_quoted_at (f : LexFn) (hf : f = .lineStart ∨ f = .lineRunning) (w v rest : Str)
    (hw : ∀ c ∈ w, c = c!" " ∨ c = c!"\t") (p : Nat) :
    lexFrom f ⟨w ++ quoteText v ++ rest, p⟩ =
      (lexFrom .lineRunning ⟨rest, p + w.length + (quoteText v).length⟩).map (⟨.value, v, p + w.length⟩ :: ·) := by
  set q := (v.flatMap fun c => if c = c!"\"" ∨ c = c!"\\" then [c!"\\", c] else [c]) with hq
  have e : w ++ quoteText v ++ rest = w ++ c!"\"" :: (q ++ c!"\"" :: rest) := by simp [quoteText, hq]
  have e2 : (quoteText v).length = q.length + 2 := by simp [quoteText, hq]
  have hstep : lexStep f ⟨w ++ quoteText v ++ rest, p⟩ =
      .ok ⟨[], some .quote, ⟨c!"\"" :: (q ++ c!"\"" :: rest), p + w.length⟩⟩ := by
    rcases hf with rfl | rfl
    · simp only [lexStep, lexLineStart, skipWs, e, skipWsLoop_append hw]
      simp [skipWsLoop, special?]
    · simp only [lexStep, lexLineRunning, skipWs, e, skipWsLoop_append hw]
      simp [skipWsLoop, special?]
  have hg : LexGood f ⟨w ++ quoteText v ++ rest, p⟩ := by rcases hf with rfl | rfl <;> trivial
  rw [lexFrom_silent hg hstep]
  have hstep2 : lexStep .quote ⟨c!"\"" :: (q ++ c!"\"" :: rest), p + w.length⟩ =
      .ok ⟨[⟨.value, v, p + w.length⟩], some .lineRunning, ⟨rest, p + w.length + (q.length + 2)⟩⟩ := by
    simp only [lexStep, lexQuote, hq, scanQuote_quoteText]
    simp; omega
  rw [lexFrom_next (f := .quote) ⟨_, rfl⟩ hstep2, e2]
  rfl

/-- **C02.** A file starting (after blanks) with the quoted rendition of `v` yields the plain value `v` as its first
token, and the remaining tokens are those of the text after the closing quote. -/
theorem C02_quoted (w v rest : Str) (hw : ∀ c ∈ w, c = c!" " ∨ c = c!"\t") :
    ∃ its, lex (w ++ quoteText v ++ rest) = .ok (⟨.value, v, w.length⟩ :: its) ∧
      lexFrom .lineRunning ⟨rest, w.length + (quoteText v).length⟩ = .ok its := by
  rw [lex_eq_lexFrom, C02_quoted_at _ (.inl rfl) _ _ _ hw]
  obtain ⟨its, h⟩ := lexFrom_ok (f := .lineRunning) (s := ⟨rest, 0 + w.length + (quoteText v).length⟩) trivial
  rw [h]
  exact ⟨its, by simp [Except.map], by simpa using h⟩

theorem lexFrom_nil (f : LexFn) (hf : f = .lineStart ∨ f = .lineRunning) (p : Nat) :
    lexFrom f ⟨[], p⟩ = .ok [⟨.eof, [], p⟩] := by
  rcases hf with rfl | rfl <;>
    simp [lexFrom, lexMu, lexRun, lexStep, lexLineStart, lexLineRunning, skipWs, skipWsLoop, lexSpecial]

theorem C02_quoted_list_aux (vs : List Str) (f : LexFn) (hf : f = .lineStart ∨ f = .lineRunning) (p : Nat) :
    (lexFrom f ⟨vs.flatMap fun v => c!" " :: quoteText v, p⟩).map (·.map Item.tv) =
      .ok (vs.map (fun v => (Tok.value, v)) ++ [(.eof, [])]) := by
  induction vs generalizing f p with
  | nil => simp [lexFrom_nil f hf, Except.map, Item.tv]
  | cons v vs ih =>
    have e : ((v :: vs).flatMap fun v => c!" " :: quoteText v) =
        [c!" "] ++ quoteText v ++ (vs.flatMap fun v => c!" " :: quoteText v) := by simp
    rw [e, C02_quoted_at f hf _ _ _ (by simp)]
    have := ih .lineRunning (.inr rfl) (p + [c!" "].length + (quoteText v).length)
    revert this
    cases lexFrom .lineRunning ⟨vs.flatMap fun v => c!" " :: quoteText v, p + [c!" "].length + (quoteText v).length⟩ with
    | error => intro h; simp [Except.map] at h
    | ok its => intro h; simp [Except.map, Item.tv] at h ⊢; exact h

/-- **C02** for whole files: a file of blank-separated quoted strings yields exactly those values, whatever bytes they
contain. -/
theorem C02_quoted_list (vs : List Str) :
    tokens (vs.flatMap fun v => c!" " :: quoteText v) = .ok (vs.map (fun v => (Tok.value, v)) ++ [(.eof, [])]) := by
  rw [tokens, lex_eq_lexFrom]
  exact C02_quoted_list_aux vs _ (.inl rfl) 0

/-- A value with quotes, backslashes, a newline, a keyword and specials. -/
example : tokens (c!" " :: quoteText b!"or \"x\\ (\n,") = .ok [(.value, b!"or \"x\\ (\n,"), (.eof, [])] := by
  decide +kernel

/-! ## C03 -/

theorem Gap.append {g h : Str} (hg : Gap g) (hh : Gap h) : Gap (g ++ h) := by
  induction hg with
  | nil => simpa
  | white h1 _ ih => exact .white h1 ih
  | continuation _ ih => exact .continuation ih
  | comment h1 _ ih => simpa using Gap.comment h1 ih

theorem Gap.blanks {w : Str} (hw : ∀ c ∈ w, c = c!" " ∨ c = c!"\t") : Gap w := by
  induction w with
  | nil => exact .nil
  | cons c w ih => exact .white (by have := hw c (by simp); tauto) (ih fun d hd => hw d (by simp [hd]))

theorem Tiled.gap {g : Str} (hg : Gap g) {p q : Nat} {r : Str} {its} (h : Tiled q r its) (e : q = p + g.length) :
    Tiled p (g ++ r) its := by
  subst e
  cases h with
  | eof h => 
    rw [Nat.add_assoc, ← List.length_append]; exact .eof (hg.append h)
  | @err _ g' r' m h =>
    rw [Nat.add_assoc, ← List.length_append, ← List.append_assoc]; exact .err (hg.append h)
  | @tok _ g' it t r' its' h1 h2 h3 h4 h5 h6 =>
    rw [← List.append_assoc, ← List.append_assoc]
    refine .tok (hg.append h1) (by rw [h2]; simp; omega) h3 h4 h5 ?_
    rw [List.length_append, ← Nat.add_assoc]; exact h6

theorem scanQuote_body {q v t : Str} (h : scanQuote q = some (v, t)) :
    ∃ raw, q = raw ++ c!"\"" :: t ∧ QuoteBody raw v := by
  induction q using scanQuote.induct generalizing v t with
  | case1 => simp [scanQuote] at h
  | case2 => simp [scanQuote] at h; exact ⟨[], by simp [h], by simp [h]; exact .nil⟩
  | case3 c hc => simp [scanQuote, hc] at h
  | case4 d r => simp [scanQuote] at h; exact ⟨[], by simp [h], by simp [h]; exact .nil⟩
  | case5 c d r h1 h2 ih =>
    rw [scanQuote, if_neg h1, if_pos h2] at h
    simp only [Option.map_eq_some_iff, Prod.exists, Prod.mk.injEq] at h
    obtain ⟨v', t', h', rfl, rfl⟩ := h
    obtain ⟨u, hu, hb⟩ := ih h'
    obtain ⟨rfl, h2⟩ := h2
    exact ⟨_ :: d :: u, by simp [hu], .escaped h2 hb⟩
  | case6 c d r h1 h2 ih =>
    rw [scanQuote, if_neg h1, if_neg h2] at h
    simp only [Option.map_eq_some_iff, Prod.exists, Prod.mk.injEq] at h
    obtain ⟨v', t', h', rfl, rfl⟩ := h
    obtain ⟨u, hu, hb⟩ := ih h'
    refine ⟨c :: u, by simp [hu], ?_⟩
    by_cases hc : c = c!"\\"
    · subst hc
      cases u with
      | nil =>
        simp at hu
        exact absurd ⟨rfl, .inl hu.1⟩ h2
      | cons e u =>
        simp at hu
        obtain ⟨rfl, _⟩ := hu
        refine .backslash (fun h => h2 ⟨rfl, .inl h⟩) (fun h => h2 ⟨rfl, .inr h⟩) hb
    · exact .plain h1 hc hb

theorem word_tiled {s : LexSt} {v' r' : Str} {its} {it : Item} (h : s.rest = v' ++ r') (hv : v' ≠ [])
    (h1 : it.pos = s.pos) (h2 : it.val = v') (h3 : it.typ ≠ .error) (h4 : it.typ ≠ .eof)
    (ht : Tiled (s.pos + v'.length) r' its) : Tiled s.pos s.rest (it :: its) := by
  have := Tiled.tok (p := s.pos) (g := []) (it := it) (t := v') (r := r') .nil (by simpa) h3 h4
    (by rw [← h2]; exact .plain (by rwa [h2])) (by simpa using ht)
  rw [h]; simpa using this

theorem lexFrom_tiled : ∀ f s its, LexGood f s → lexFrom f s = .ok its →
    (f ≠ .comment → Tiled s.pos s.rest its) ∧
    (f = .comment → ∃ t r, s.rest = t ++ r ∧ (∀ c ∈ t, c ≠ c!"\n") ∧ Tiled (s.pos + t.length) r its) := by
  apply lexFrom_induct
  · intro f s o hg ho hn
    cases f with
    | lineStart =>
      cases ho; simp only [lexLineStart] at hn
      split at hn
      · simp at hn
      · split_ifs at hn
    | lineRunning =>
      cases ho; simp only [lexLineRunning] at hn
      split at hn
      · simp at hn
      · split_ifs at hn
    | special =>
      refine ⟨fun _ => ?_, by simp⟩
      cases ho
      rcases hg with h | ⟨c, r, t, h, ht⟩
      · simp only [lexSpecial, h]; exact .eof (p := s.pos) .nil
      · simp only [lexSpecial, h] at hn ⊢
        split_ifs at hn ⊢ with h1 h2
        rw [← h]
        have ht' : t ≠ .error ∧ t ≠ .eof := by
          unfold special? at ht
          split_ifs at ht <;> cases ht <;> simp
        exact word_tiled (v' := [c]) (r' := r) (by simp [h]) (by simp) rfl rfl (by simp [ht, ht']) (by simp [ht, ht'])
          (.err (p := s.pos + 1) (g := []) .nil)
    | word =>
      refine ⟨fun _ => ?_, by simp⟩
      obtain ⟨c, r, h1, h2⟩ := hg
      simp only [lexStep, lexWord, h1, takeWhile_word h2] at ho
      split at ho
      · cases ho; simp at hn
      · try dsimp only at ho
        split_ifs at ho
        · cases ho; simp at hn
        · cases ho; exact .err (p := s.pos) (g := []) .nil
        · cases ho; simp at hn
        · cases ho; simp at hn
    | quote =>
      refine ⟨fun _ => ?_, by simp⟩
      obtain ⟨r, h1⟩ := hg
      cases ho
      simp only [lexQuote, h1] at hn ⊢
      cases h : scanQuote r with
      | none => exact .err (p := s.pos) (g := []) .nil
      | some p => simp [h] at hn
    | comment => cases ho; simp [lexComment] at hn
  · intro f s o f' its hg ho hn hg' hl ih
    cases f with
    | lineStart =>
      refine ⟨fun _ => ?_, by simp⟩
      obtain ⟨w, t, h1, h2, h3, h4⟩ := skipWs_spec s
      cases ho
      simp only [lexLineStart, h3] at hn ih ⊢
      rw [h1]
      cases t with
      | nil => cases hn; exact Tiled.gap (.blanks h2) (ih.1 (by simp)) rfl
      | cons c r =>
        dsimp only at hn ih ⊢
        split_ifs at hn ih ⊢ with a1 a2 a3 a4 a5 a6
        · cases hn; exact Tiled.gap (.blanks h2) (ih.1 (by simp)) rfl
        · cases hn; exact Tiled.gap (.blanks h2) (ih.1 (by simp)) rfl
        · cases hn
          obtain ⟨t, r', hr, ht, hT⟩ := ih.2 rfl
          dsimp only at hr hT
          subst hr a3
          have e : w ++ c!"#" :: (t ++ r') = (w ++ (c!"#" :: t ++ [])) ++ r' := by simp
          rw [e]
          refine Tiled.gap ((Gap.blanks h2).append (.comment ht .nil)) hT ?_
          simp; omega
        · cases r with
          | nil => simp at a5
          | cons d r =>
            cases hn
            simp at a5; subst a5 a4
            have e : w ++ c!"\\" :: c!"\n" :: r = (w ++ [c!"\\", c!"\n"]) ++ r := by simp
            rw [e]
            exact Tiled.gap ((Gap.blanks h2).append (.continuation .nil)) (ih.1 (by simp)) (by simp; omega)
        · cases hn; exact Tiled.gap (.blanks h2) (ih.1 (by simp)) rfl
        · cases hn
          subst a6
          have e : w ++ c!"\n" :: r = (w ++ [c!"\n"]) ++ r := by simp
          rw [e]
          exact Tiled.gap ((Gap.blanks h2).append (.white (by simp) .nil)) (ih.1 (by simp)) (by simp; omega)
        · cases hn; exact Tiled.gap (.blanks h2) (ih.1 (by simp)) rfl
    | lineRunning =>
      refine ⟨fun _ => ?_, by simp⟩
      obtain ⟨w, t, h1, h2, h3, h4⟩ := skipWs_spec s
      cases ho
      simp only [lexLineRunning, h3] at hn ih ⊢
      rw [h1]
      cases t with
      | nil => cases hn; exact Tiled.gap (.blanks h2) (ih.1 (by simp)) rfl
      | cons c r =>
        dsimp only at hn ih ⊢
        split_ifs at hn ih ⊢ with a1 a2 a3
        · cases r with
          | nil => simp at a1
          | cons d r =>
            cases hn
            obtain ⟨a4, a5⟩ := a1
            simp at a5; subst a5 a4
            have e : w ++ c!"\\" :: c!"\n" :: r = (w ++ [c!"\\", c!"\n"]) ++ r := by simp
            rw [e]
            exact Tiled.gap ((Gap.blanks h2).append (.continuation .nil)) (ih.1 (by simp)) (by simp; omega)
        · cases hn; exact Tiled.gap (.blanks h2) (ih.1 (by simp)) rfl
        · cases hn; exact Tiled.gap (.blanks h2) (ih.1 (by simp)) rfl
        · cases hn; exact Tiled.gap (.blanks h2) (ih.1 (by simp)) rfl
    | special =>
      refine ⟨fun _ => ?_, by simp⟩
      cases ho
      rcases hg with h | ⟨c, r, t, h, ht⟩
      · simp [lexSpecial, h] at hn
      · have hs : t ≠ .error ∧ t ≠ .eof := by
          unfold special? at ht
          split_ifs at ht <;> cases ht <;> simp
        simp only [lexSpecial, h, ht] at hn ih ⊢
        rw [← h]
        split_ifs at hn ih ⊢ with h1 h2
        · cases hn; exact word_tiled (v' := [c]) (r' := r) (by simp [h]) (by simp) rfl rfl hs.1 hs.2 (ih.1 (by simp))
        · cases hn; exact word_tiled (v' := [c]) (r' := r) (by simp [h]) (by simp) rfl rfl hs.1 hs.2 (ih.1 (by simp))
    | word =>
      refine ⟨fun _ => ?_, by simp⟩
      obtain ⟨c, r, h1, h2⟩ := hg
      have happ := takeWhile_append_drop (fun c => !isSpecialChar c) (c :: r)
      rw [takeWhile_word h2] at happ
      simp only [lexStep, lexWord, h1, takeWhile_word h2] at ho
      have key : ∀ ty : Tok, ty ≠ .error → ty ≠ .eof →
          o = ⟨[⟨ty, c :: r.takeWhile (fun c => !isSpecialChar c), s.pos⟩], some .lineRunning,
            ⟨(c :: r).drop (c :: r.takeWhile (fun c => !isSpecialChar c)).length,
              s.pos + (c :: r.takeWhile (fun c => !isSpecialChar c)).length⟩⟩ →
          Tiled s.pos s.rest (o.items ++ its) := by
        rintro ty t1 t2 rfl
        cases hn
        exact word_tiled (v' := c :: r.takeWhile (fun c => !isSpecialChar c)) (by rw [h1]; exact happ.symm) (by simp)
          rfl rfl t1 t2 (ih.1 (by simp))
      split at ho
      · cases ho; exact key _ (by simp) (by simp) rfl
      · try dsimp only at ho
        split_ifs at ho
        · cases ho; exact key _ (by simp) (by simp) rfl
        · cases ho; simp at hn
        · cases ho; exact key _ (by simp) (by simp) rfl
        · cases ho; exact key _ (by simp) (by simp) rfl
    | quote =>
      refine ⟨fun _ => ?_, by simp⟩
      obtain ⟨r, h1⟩ := hg
      cases ho
      simp only [lexQuote, h1] at hn ih ⊢
      cases h : scanQuote r with
      | none => simp [h] at hn
      | some p =>
        obtain ⟨v, t⟩ := p
        simp only [h] at hn ih ⊢
        cases hn
        obtain ⟨raw, rfl, hb⟩ := scanQuote_body h
        have e : c!"\"" :: (raw ++ c!"\"" :: t) = [] ++ (c!"\"" :: raw ++ [c!"\""]) ++ t := by simp
        rw [e]
        refine .tok .nil rfl (by simp) (by simp) (.quoted hb) ?_
        have hT := ih.1 (by simp)
        have e3 : s.pos + ((c!"\"" :: (raw ++ c!"\"" :: t)).length - t.length) =
          s.pos + ([] : Str).length + (c!"\"" :: raw ++ [c!"\""]).length := by simp; omega
        rw [e3] at hT
        exact hT
    | comment =>
      refine ⟨by simp, fun _ => ?_⟩
      cases ho
      cases hn
      have h := List.takeWhile_append_dropWhile (p := fun c => c != c!"\n") (l := s.rest)
      refine ⟨_, _, h.symm, ?_, ?_⟩
      · intro c hc
        have := List.mem_takeWhile_imp hc
        simpa using this
      · have hT := ih.1 (by simp)
        have := congrArg List.length h
        simp only [List.length_append] at this
        simp only [lexComment, List.nil_append] at hT ⊢
        convert hT using 1
        omega

/-- **C03.** The token stream is a tiling of the file: every token's text stands at its reported position, and what is
between two tokens is only white space, blank lines, comments and continuations. -/
theorem C03_tiled (input : Str) : ∃ its, lex input = .ok its ∧ Tiled 0 input its := by
  rw [lex_eq_lexFrom]
  obtain ⟨its, h⟩ := lexFrom_ok (f := .lineStart) (s := ⟨input, 0⟩) trivial
  exact ⟨its, h, (lexFrom_tiled .lineStart ⟨input, 0⟩ _ trivial h).1 (by simp)⟩

theorem Tiled.pos_bounds {p r its} (h : Tiled p r its) :
    (∀ it ∈ its, p ≤ it.pos ∧ it.pos ≤ p + r.length) ∧ its.Pairwise (fun a b => a.pos < b.pos) := by
  induction h with
  | eof => simp
  | err => simp
  | @tok p g it t r its h1 h2 h3 h4 h5 _ ih =>
    have ht : 0 < t.length := by
      cases h5 with
      | plain h => exact List.length_pos_iff.2 h
      | quoted => simp
    refine ⟨?_, ?_⟩
    · intro i hi
      rcases List.mem_cons.1 hi with rfl | hi
      · simp; omega
      · have := ih.1 i hi; simp; omega
    · rw [List.pairwise_cons]
      refine ⟨fun i hi => ?_, ih.2⟩
      have := ih.1 i hi; omega

/-- **C03.** All reported positions are inside the file and strictly increase. -/
theorem C03_positions {input : Str} {its : List Item} (h : lex input = .ok its) :
    (∀ it ∈ its, it.pos ≤ input.length) ∧ its.Pairwise (fun a b => a.pos < b.pos) := by
  obtain ⟨its', h', ht⟩ := C03_tiled input
  rw [h] at h'; cases h'
  have := ht.pos_bounds
  exact ⟨fun it hi => by have := (this.1 it hi).2; omega, this.2⟩

/-- **C03.** The text of every proper token is found in the file at the reported position. -/
theorem C03_text {input : Str} {its : List Item} (h : lex input = .ok its) :
    ∀ it ∈ its, it.typ ≠ .error → it.typ ≠ .eof →
      ∃ before text after, input = before ++ text ++ after ∧ before.length = it.pos ∧ TokText it text := by
  obtain ⟨its', h', ht⟩ := C03_tiled input
  rw [h] at h'; cases h'
  have key : ∀ p r its, Tiled p r its → ∀ it ∈ its, it.typ ≠ .error → it.typ ≠ .eof →
      ∃ before text after, r = before ++ text ++ after ∧ p + before.length = it.pos ∧ TokText it text := by
    intro p r its ht
    induction ht with
    | eof => simp
    | err => simp
    | @tok p g it t r its h1 h2 h3 h4 h5 _ ih =>
      intro i hi e1 e2
      rcases List.mem_cons.1 hi with rfl | hi
      · exact ⟨g, t, r, rfl, h2.symm, h5⟩
      · obtain ⟨b, te, a, rfl, hp, hT⟩ := ih i hi e1 e2
        exact ⟨g ++ t ++ b, te, a, by simp, by simp; omega, hT⟩
  intro it hi e1 e2
  obtain ⟨b, te, a, h1, h2, h3⟩ := key _ _ _ ht it hi e1 e2
  exact ⟨b, te, a, h1, by omega, h3⟩

theorem splitOn_count (t : Str) : (splitOn c!"\n" t).length = 1 + t.count c!"\n" := by
  induction t with
  | nil => rfl
  | cons c t ih =>
    by_cases h : c = c!"\n"
    · simp [splitOn, h, ih]; omega
    · simp only [splitOn, h, if_false]
      have : (splitOn c!"\n" t) ≠ [] := by intro e; rw [e] at ih; simp at ih; omega
      cases hs : splitOn c!"\n" t with
      | nil => exact absurd hs this
      | cons w ws =>
        rw [hs] at ih
        have hc : (c == c!"\n") = false := by simp [h]
        simp only [List.length_cons] at ih ⊢
        rw [List.count_cons_of_ne h]; exact ih

theorem splitOn_last (t : Str) : ((splitOn c!"\n" t).getLast?.getD []).length = lineCol t := by
  unfold lineCol
  induction t with
  | nil => rfl
  | cons c t ih =>
    have hne : splitOn c!"\n" t ≠ [] := by
      intro e; have := splitOn_count t; rw [e] at this; simp at this; omega
    have hrev : ((c :: t).reverse.takeWhile (fun c => c != c!"\n")).length =
        if c!"\n" ∈ t then (t.reverse.takeWhile (fun c => c != c!"\n")).length
        else if c = c!"\n" then t.length else t.length + 1 := by
      rw [List.reverse_cons, List.takeWhile_append]
      by_cases hm : c!"\n" ∈ t
      · have hlt : (t.reverse.takeWhile (fun c => c != c!"\n")).length ≠ t.reverse.length := by
          intro e
          have e2 := (List.takeWhile_prefix (fun c => c != c!"\n") (l := t.reverse)).eq_of_length e
          have := List.mem_takeWhile_imp (l := t.reverse) (p := fun c => c != c!"\n") (x := c!"\n")
            (by rw [e2]; simpa using hm)
          simp at this
        rw [if_neg hlt, if_pos hm]
      · have e2 : t.reverse.takeWhile (fun c => c != c!"\n") = t.reverse := by
          rw [List.takeWhile_eq_self_iff]
          intro d hd; simp at hd ⊢; rintro rfl; exact hm hd
        rw [e2]
        by_cases hc : c = c!"\n" <;> simp [hm, hc]
    rw [hrev]
    by_cases h : c = c!"\n"
    · subst h
      simp only [splitOn, if_true]
      rw [List.getLast?_cons]
      simp only [Option.getD_some]
      cases hs : (splitOn c!"\n" t).getLast? with
      | none => simp [List.getLast?_eq_none_iff] at hs; exact absurd hs hne
      | some l =>
        rw [hs] at ih
        simp only [Option.getD_some] at ih ⊢
        rw [ih]
        split_ifs with hm
        · rfl
        · have e2 : t.reverse.takeWhile (fun c => c != c!"\n") = t.reverse := by
            rw [List.takeWhile_eq_self_iff]
            intro d hd; simp at hd ⊢; rintro rfl; exact hm hd
          rw [e2]; simp
    · simp only [splitOn, h, if_false]
      cases hs : splitOn c!"\n" t with
      | nil => exact absurd hs hne
      | cons w ws =>
        rw [hs] at ih
        have hcnt := splitOn_count t
        rw [hs] at hcnt
        dsimp only
        cases ws with
        | nil =>
          have hm : c!"\n" ∉ t := by
            intro hm
            have := List.count_pos_iff.2 hm
            simp at hcnt; omega
          simp at ih ⊢
          have e2 : t.reverse.takeWhile (fun c => c != c!"\n") = t.reverse := by
            rw [List.takeWhile_eq_self_iff]
            intro d hd; simp at hd ⊢; rintro rfl; exact hm hd
          rw [e2] at ih
          simp [hm]; simpa using ih
        | cons x ws =>
          have hm : c!"\n" ∈ t := by
            apply List.count_pos_iff.1
            simp at hcnt; omega
          simp only [hm, if_true]
          simp at ih ⊢
          exact ih

/-- **C03.** For every position inside the file, the reported line is the number of lines of the text before it, and the
reported column is one more than the length of the last of these lines. -/
theorem C03_lineInfo (input : Str) (pos : Nat) (h : pos ≤ input.length) :
    lineInfo input pos = .ok ((splitOn c!"\n" (input.take pos)).length,
      ((splitOn c!"\n" (input.take pos)).getLast?.getD []).length + 1) := by
  rw [splitOn_last, splitOn_count, lineInfo, if_neg (by omega), Nat.add_comm 1 (lineCol _)]

example : lineInfo b!"ab\ncd\nef" 7 = .ok (3, 2) := by decide +kernel


/-! ## C04 -/

/-- Running the lexer on a text does not depend on the offset at which the text stands, except for the positions. -/
theorem lexStep_shift (f : LexFn) (r : Str) (p q : Nat) {o : LexOut} (h : lexStep f ⟨r, p⟩ = .ok o) :
    ∃ o', lexStep f ⟨r, q⟩ = .ok o' ∧ o'.items.map Item.tv = o.items.map Item.tv ∧ o'.next = o.next ∧
      o'.st.rest = o.st.rest := by
  have hs : (skipWs ⟨r, p⟩).rest = (skipWs ⟨r, q⟩).rest := by
    simp only [skipWs]
    clear h
    induction r generalizing p q with
    | nil => rfl
    | cons c r ih =>
      simp only [skipWsLoop]; split_ifs
      · exact ih _ _
      · rfl
  cases f with
  | lineStart =>
    cases h
    refine ⟨_, rfl, ?_⟩
    simp only [lexLineStart, hs]
    cases (skipWs ⟨r, q⟩).rest with
    | nil => simp [hs]
    | cons c t => dsimp only; split_ifs <;> simp [hs]
  | lineRunning =>
    cases h
    refine ⟨_, rfl, ?_⟩
    simp only [lexLineRunning, hs]
    cases (skipWs ⟨r, q⟩).rest with
    | nil => simp [hs]
    | cons c t => dsimp only; split_ifs <;> simp [hs]
  | special =>
    cases h
    refine ⟨_, rfl, ?_⟩
    cases r with
    | nil => simp [lexSpecial, Item.tv]
    | cons c t => simp only [lexSpecial]; split_ifs <;> simp [Item.tv]
  | word =>
    simp only [lexStep, lexWord] at h ⊢
    split at h
    · cases h; exact ⟨_, rfl, by simp [Item.tv]⟩
    · split at h
      · cases h
      · split_ifs at h ⊢ <;> cases h <;> exact ⟨_, rfl, by simp [Item.tv]⟩
  | quote =>
    cases h
    refine ⟨_, rfl, ?_⟩
    cases r with
    | nil => simp [lexQuote, Item.tv]
    | cons c t =>
      simp only [lexQuote]
      cases scanQuote t <;> simp [Item.tv]
  | comment => cases h; exact ⟨_, rfl, by simp [lexComment]⟩

theorem LexGood_shift {f : LexFn} {r : Str} {p : Nat} (q : Nat) (h : LexGood f ⟨r, p⟩) : LexGood f ⟨r, q⟩ := by
  cases f <;> exact h

theorem lexFrom_shift : ∀ f s its, LexGood f s → lexFrom f s = .ok its →
    ∀ q, ∃ its', lexFrom f ⟨s.rest, q⟩ = .ok its' ∧ its'.map Item.tv = its.map Item.tv := by
  apply lexFrom_induct
  · intro f s o hg ho hn q
    obtain ⟨o', h1, h2, h3, h4⟩ := lexStep_shift f s.rest s.pos q ho
    exact ⟨o'.items, by rw [lexFrom_eq (LexGood_shift q hg) h1, h3, hn], h2⟩
  · intro f s o f' its hg ho hn hg' hl ih q
    obtain ⟨o', h1, h2, h3, h4⟩ := lexStep_shift f s.rest s.pos q ho
    obtain ⟨its', h5, h6⟩ := ih o'.st.pos
    rw [← h4] at h5
    exact ⟨o'.items ++ its', by rw [lexFrom_eq (LexGood_shift q hg) h1, h3, hn]; dsimp only; rw [h5]; rfl,
      by simp [h2, h6]⟩

/-- The tokens (types and values) of a text, from a lexing state. -/
def toksFrom (f : LexFn) (r : Str) : Except Panic (List (Tok × Str)) := (lexFrom f ⟨r, 0⟩).map (·.map Item.tv)

theorem toksFrom_eq {f : LexFn} {r : Str} {p : Nat} (hg : LexGood f ⟨r, p⟩) :
    (lexFrom f ⟨r, p⟩).map (·.map Item.tv) = toksFrom f r := by
  obtain ⟨its, h⟩ := lexFrom_ok hg
  obtain ⟨its', h', h2⟩ := lexFrom_shift _ _ _ hg h 0
  dsimp only at h'
  rw [toksFrom, h, h']
  simp [Except.map, h2]

theorem tokens_eq_toksFrom (input : Str) : tokens input = toksFrom .lineStart input := by
  rw [tokens, lex_eq_lexFrom, toksFrom]

/-- `Reaches f s its f' s'`: the lexer, started in state function `f` at `s`, emits `its` and is then in `f'` at `s'`. -/
inductive Reaches : LexFn → LexSt → List Item → LexFn → LexSt → Prop
  | refl {f s} : Reaches f s [] f s
  | step {f s o f' its f'' s''} : lexStep f s = .ok o → o.next = some f' → Reaches f' o.st its f'' s'' →
      Reaches f s (o.items ++ its) f'' s''

theorem Reaches.lexFrom_eq {f s its f' s'} (h : Reaches f s its f' s') (hg : LexGood f s) :
    lexFrom f s = (lexFrom f' s').map (its ++ ·) ∧ LexGood f' s' := by
  induction h with
  | @refl f s => exact ⟨by cases lexFrom f s <;> rfl, hg⟩
  | step ho hn _ ih =>
    obtain ⟨o', ho', _, hnext⟩ := lexStep_ok hg
    rw [ho] at ho'; cases ho'
    obtain ⟨ih, hg2⟩ := ih (hnext _ hn).1
    refine ⟨?_, hg2⟩
    rw [Sink.lexFrom_eq hg ho, hn]
    dsimp only
    rw [ih]
    cases lexFrom _ _ <;> simp [Except.map]

theorem Reaches.rest_le {f s its f' s'} (h : Reaches f s its f' s') (hg : LexGood f s) :
    s'.rest.length ≤ s.rest.length := by
  induction h with
  | refl => exact Nat.le_refl _
  | step ho hn _ ih =>
    obtain ⟨o', ho', ⟨u, hu, _⟩, hnext⟩ := lexStep_ok hg
    rw [ho] at ho'; cases ho'
    have := ih (hnext _ hn).1
    rw [hu]; simp; omega

theorem scanQuote_append {q v t : Str} (b : Str) (h : scanQuote q = some (v, t)) : scanQuote (q ++ b) = some (v, t ++ b) := by
  induction q using scanQuote.induct generalizing v t with
  | case1 => simp [scanQuote] at h
  | case2 => simp [scanQuote] at h; obtain ⟨rfl, rfl⟩ := h; cases b <;> simp [scanQuote]
  | case3 c hc => simp [scanQuote, hc] at h
  | case4 d r => simp [scanQuote] at h; obtain ⟨rfl, rfl⟩ := h; simp [scanQuote]
  | case5 c d r h1 h2 ih =>
    rw [scanQuote, if_neg h1, if_pos h2] at h
    simp only [Option.map_eq_some_iff, Prod.exists, Prod.mk.injEq] at h
    obtain ⟨v', t', h', rfl, rfl⟩ := h
    rw [List.cons_append, List.cons_append, scanQuote, if_neg h1, if_pos h2, ih h']; rfl
  | case6 c d r h1 h2 ih =>
    rw [scanQuote, if_neg h1, if_neg h2] at h
    simp only [Option.map_eq_some_iff, Prod.exists, Prod.mk.injEq] at h
    obtain ⟨v', t', h', rfl, rfl⟩ := h
    have := ih h'
    rw [List.cons_append] at this
    rw [List.cons_append, List.cons_append, scanQuote, if_neg h1, if_neg h2, this]; rfl

theorem skipWs_append {r b : Str} {p : Nat} {c : Byte} {t : Str} {p' : Nat} (h : skipWs ⟨r, p⟩ = ⟨c :: t, p'⟩) :
    skipWs ⟨r ++ b, p⟩ = ⟨c :: t ++ b, p'⟩ := by
  simp only [skipWs] at *
  induction r generalizing p with
  | nil => simp [skipWsLoop] at h
  | cons d r ih =>
    simp only [skipWsLoop, List.cons_append] at *
    split_ifs at * with h1
    · exact ih h
    · cases h; rfl

/-- Locality: as long as a step leaves some text, what follows the text does not influence the step, provided the text
ends in a newline, blank or tab. -/
theorem lexStep_local {f : LexFn} {r b : Str} {d : Byte} {p : Nat} {o : LexOut} {f'}
    (hd : d = c!"\n" ∨ d = c!" " ∨ d = c!"\t")
    (hg : LexGood f ⟨r ++ [d], p⟩) (ho : lexStep f ⟨r ++ [d], p⟩ = .ok o) (hn : o.next = some f') (hr : o.st.rest ≠ []) :
    lexStep f ⟨r ++ d :: b, p⟩ = .ok ⟨o.items, some f', ⟨o.st.rest ++ b, o.st.pos⟩⟩ ∧
      ∃ r', o.st.rest = r' ++ [d] := by
  have hsuf : ∃ r', o.st.rest = r' ++ [d] := by
    obtain ⟨o', ho', ⟨u, hu, _⟩, _⟩ := lexStep_ok hg
    rw [ho] at ho'; cases ho'
    dsimp only at hu
    rcases List.eq_nil_or_concat o.st.rest with h | ⟨r', d', h⟩
    · exact absurd h hr
    · rw [List.concat_eq_append] at h
      rw [h, ← List.append_assoc] at hu
      have := List.append_inj' hu rfl
      exact ⟨r', by rw [h]; simp at this; simp [this.2]⟩
  refine ⟨?_, hsuf⟩
  have e : r ++ d :: b = (r ++ [d]) ++ b := by simp
  rw [e]
  have hlast : (r ++ [d]).getLast? = some d := by simp
  generalize hR : r ++ [d] = R at *
  cases f with
  | lineStart =>
    cases ho
    obtain ⟨w, t, h1, h2, h3, h4⟩ := skipWs_spec ⟨R, p⟩
    dsimp only at h1 h3
    simp only [lexStep, lexLineStart, h3] at hn hr ⊢
    cases t with
    | nil => simp at hr
    | cons c t =>
      rw [skipWs_append h3]
      dsimp only at hn hr ⊢
      have hh : c = c!"\\" → (t ++ b).head? = t.head? ∧ t ≠ [] := by
        intro hc
        have : t ≠ [] := by
          rintro rfl; subst hc
          rw [h1] at hlast; simp at hlast
          subst hlast; rcases hd with hd | hd | hd <;> simp at hd
        cases t with
        | nil => exact absurd rfl this
        | cons => simp
      simp only [List.cons_append]
      by_cases hc : c = c!"\\"
      · obtain ⟨h5, h6⟩ := hh hc
        rw [h5, List.drop_append_of_le_length (by cases t; exact absurd rfl h6; simp)]
        split_ifs at hn hr ⊢ <;> cases hn <;> rfl
      · simp only [hc, if_false, false_and] at hn hr ⊢
        split_ifs at hn hr ⊢ <;> cases hn <;> rfl
  | lineRunning =>
    cases ho
    obtain ⟨w, t, h1, h2, h3, h4⟩ := skipWs_spec ⟨R, p⟩
    dsimp only at h1 h3
    simp only [lexStep, lexLineRunning, h3] at hn hr ⊢
    cases t with
    | nil => simp at hr
    | cons c t =>
      rw [skipWs_append h3]
      dsimp only at hn hr ⊢
      have hh : c = c!"\\" → (t ++ b).head? = t.head? ∧ t ≠ [] := by
        intro hc
        have : t ≠ [] := by
          rintro rfl; subst hc
          rw [h1] at hlast; simp at hlast
          subst hlast; rcases hd with hd | hd | hd <;> simp at hd
        cases t with
        | nil => exact absurd rfl this
        | cons => simp
      simp only [List.cons_append]
      by_cases hc : c = c!"\\"
      · obtain ⟨h5, h6⟩ := hh hc
        rw [h5, List.drop_append_of_le_length (by cases t; exact absurd rfl h6; simp)]
        split_ifs at hn hr ⊢ <;> cases hn <;> rfl
      · simp only [hc, if_false, false_and] at hn hr ⊢
        split_ifs at hn hr ⊢ <;> cases hn <;> rfl
  | special =>
    cases ho
    rcases hg with h | ⟨c, r', t, h, ht⟩
    · subst hR; simp at h
    · dsimp only at h; subst h
      simp only [lexStep, lexSpecial, List.cons_append] at hn hr ⊢
      have hcs : r' ≠ [] → commaStop (r' ++ b) = commaStop r' := by
        intro h; cases r' with
        | nil => exact absurd rfl h
        | cons => rfl
      split_ifs at hn hr with a1 a2
      · cases hn; simp [a1]
      · cases hn
        dsimp only at hr
        rw [hcs hr]; simp [a1, a2]
  | word =>
    obtain ⟨c, r', h, h2⟩ := hg
    dsimp only at h; subst h
    have happ := takeWhile_append_drop (fun c => !isSpecialChar c) (c :: r')
    have htw : ((c :: r') ++ b).takeWhile (fun c => !isSpecialChar c) = (c :: r').takeWhile (fun c => !isSpecialChar c) := by
      rw [List.takeWhile_append, if_neg]
      intro hlen
      have e2 := (List.takeWhile_prefix (fun c => !isSpecialChar c) (l := c :: r')).eq_of_length hlen
      have hm : d ∈ (c :: r').takeWhile (fun c => !isSpecialChar c) := by
        rw [e2]; exact List.mem_of_getLast? hlast
      have := List.mem_takeWhile_imp hm
      rcases hd with rfl | rfl | rfl <;> simp [isSpecialChar] at this
    simp only [lexStep, lexWord, htw] at ho ⊢
    have hdrop : ((c :: r') ++ b).drop ((c :: r').takeWhile (fun c => !isSpecialChar c)).length =
        (c :: r').drop ((c :: r').takeWhile (fun c => !isSpecialChar c)).length ++ b := by
      rw [List.drop_append_of_le_length]
      exact List.IsPrefix.length_le (List.takeWhile_prefix _)
    rw [hdrop]
    rw [takeWhile_word h2] at ho ⊢
    split at ho
    · cases ho; cases hn; rfl
    · dsimp only at ho ⊢
      split_ifs at ho ⊢ <;> cases ho <;> cases hn <;> rfl
  | quote =>
    obtain ⟨r', h⟩ := hg
    dsimp only at h; subst h
    cases ho
    simp only [lexStep, lexQuote, List.cons_append] at hn ⊢
    cases hq : scanQuote r' with
    | none => simp [hq] at hn
    | some vt =>
      obtain ⟨v, t⟩ := vt
      simp only [hq] at hn ⊢
      cases hn
      rw [scanQuote_append b hq]
      simp; omega
  | comment =>
    cases ho; cases hn
    simp only [lexStep, lexComment] at hr ⊢
    have hdw : ∃ x y, R.dropWhile (fun c => c != c!"\n") = x :: y := by
      cases h : R.dropWhile (fun c => c != c!"\n") with
      | nil => exact absurd h hr
      | cons x y => exact ⟨x, y, rfl⟩
    have e2 : (R ++ b).dropWhile (fun c => c != c!"\n") = R.dropWhile (fun c => c != c!"\n") ++ b := by
      rw [List.dropWhile_append]; simp at hr
      simp; intro h; exfalso
      exact h _ hr rfl
    rw [e2]
    simp; omega

theorem Reaches.local_ {f : LexFn} {s s' : LexSt} {its f'} {d : Byte} (hd : d = c!"\n" ∨ d = c!" " ∨ d = c!"\t")
    (h : Reaches f s its f' s') (hs' : s'.rest = [d]) (b : Str) :
    LexGood f s → (∃ r, s.rest = r ++ [d]) → Reaches f ⟨s.rest ++ b, s.pos⟩ its f' ⟨d :: b, s'.pos⟩ := by
  induction h with
  | @refl f s => intro _ _; rw [hs']; exact .refl
  | @step f s o f' its f'' s'' ho hn hR ih =>
    rintro hg ⟨r, hr⟩
    obtain ⟨o', ho', _, hnext⟩ := lexStep_ok hg
    rw [ho] at ho'; cases ho'
    have hle := hR.rest_le (hnext _ hn).1
    have hne : o.st.rest ≠ [] := by
      intro e; rw [e, hs'] at hle; simp at hle
    obtain ⟨rest, pos⟩ := s
    dsimp only at hr; subst hr
    obtain ⟨h1, h2⟩ := lexStep_local (b := b) hd hg ho hn hne
    have := ih hs' (hnext _ hn).1 h2
    refine Reaches.step (o := ⟨o.items, some f', ⟨o.st.rest ++ b, o.st.pos⟩⟩) ?_ rfl this
    simpa using h1

/-- Text that may stand between lines without effect: blanks, a blank line, or a comment line. -/
inductive Neutral : Str → Prop
  | blanks {w} : (∀ c ∈ w, c = c!" " ∨ c = c!"\t") → Neutral w
  | blankLine {w} : (∀ c ∈ w, c = c!" " ∨ c = c!"\t") → Neutral (w ++ [c!"\n"])
  | continued {w} : (∀ c ∈ w, c = c!" " ∨ c = c!"\t") → Neutral (w ++ [c!"\\", c!"\n"])
  | commentLine {w t} : (∀ c ∈ w, c = c!" " ∨ c = c!"\t") → (∀ c ∈ t, c ≠ c!"\n") → Neutral (w ++ c!"#" :: t ++ [c!"\n"])

theorem lexFrom_blanks {f : LexFn} (hf : f = .lineStart ∨ f = .lineRunning) {w : Str}
    (hw : ∀ c ∈ w, c = c!" " ∨ c = c!"\t") (b : Str) (p : Nat) :
    lexFrom f ⟨w ++ b, p⟩ = lexFrom f ⟨b, p + w.length⟩ := by
  have hg : ∀ s, LexGood f s := by rcases hf with rfl | rfl <;> intro s <;> trivial
  have hst : lexStep f ⟨w ++ b, p⟩ = lexStep f ⟨b, p + w.length⟩ := by
    rcases hf with rfl | rfl
    · simp only [lexStep, lexLineStart, skipWs, skipWsLoop_append hw]
    · simp only [lexStep, lexLineRunning, skipWs, skipWsLoop_append hw]
  obtain ⟨o, ho, _⟩ := lexStep_ok (hg ⟨w ++ b, p⟩)
  rw [lexFrom_eq (hg _) ho, lexFrom_eq (hg _) (hst ▸ ho)]

theorem lexFrom_newline (b : Str) (p : Nat) :
    lexFrom .lineStart ⟨c!"\n" :: b, p⟩ = lexFrom .lineStart ⟨b, p + 1⟩ := by
  apply lexFrom_silent (f := .lineStart) trivial
  simp [lexStep, lexLineStart, skipWs, skipWsLoop]

theorem lexFrom_continuation {f : LexFn} (hf : f = .lineStart ∨ f = .lineRunning) (b : Str) (p : Nat) :
    lexFrom f ⟨c!"\\" :: c!"\n" :: b, p⟩ = lexFrom f ⟨b, p + 2⟩ := by
  rcases hf with rfl | rfl
  · apply lexFrom_silent (f := .lineStart) trivial
    simp [lexStep, lexLineStart, skipWs, skipWsLoop, special?]
  · apply lexFrom_silent (f := .lineRunning) trivial
    simp [lexStep, lexLineRunning, skipWs, skipWsLoop]

theorem lexFrom_comment {t : Str} (ht : ∀ c ∈ t, c ≠ c!"\n") (b : Str) (p : Nat) :
    lexFrom .lineStart ⟨c!"#" :: t ++ c!"\n" :: b, p⟩ = lexFrom .lineStart ⟨b, p + t.length + 2⟩ := by
  have h1 : lexStep .lineStart ⟨c!"#" :: t ++ c!"\n" :: b, p⟩ = .ok ⟨[], some .comment, ⟨t ++ c!"\n" :: b, p + 1⟩⟩ := by
    simp [lexStep, lexLineStart, skipWs, skipWsLoop, special?]
  have h2 : lexStep .comment ⟨t ++ c!"\n" :: b, p + 1⟩ = .ok ⟨[], some .lineStart, ⟨c!"\n" :: b, p + 1 + t.length⟩⟩ := by
    have : (t ++ c!"\n" :: b).dropWhile (fun c => c != c!"\n") = c!"\n" :: b := by
      rw [List.dropWhile_append_of_pos]
      · simp
      · intro c hc; simpa using ht c hc
    simp only [lexStep, lexComment, this]
    simp
  rw [lexFrom_silent (f := .lineStart) trivial h1, lexFrom_silent (f := .comment) trivial h2, lexFrom_newline]
  congr 2; omega

theorem lexFrom_neutral {n : Str} (hn : Neutral n) (b : Str) (p : Nat) :
    lexFrom .lineStart ⟨n ++ b, p⟩ = lexFrom .lineStart ⟨b, p + n.length⟩ := by
  cases hn with
  | blanks hw => exact lexFrom_blanks (.inl rfl) hw b p
  | blankLine hw =>
    rw [List.append_assoc, lexFrom_blanks (.inl rfl) hw, List.singleton_append, lexFrom_newline]
    congr 2; simp; omega
  | continued hw =>
    rw [List.append_assoc, lexFrom_blanks (.inl rfl) hw]
    simp only [List.cons_append, List.nil_append]
    rw [lexFrom_continuation (.inl rfl)]
    congr 2; simp; omega
  | @commentLine w t hw ht =>
    rw [show w ++ c!"#" :: t ++ [c!"\n"] ++ b = w ++ (c!"#" :: t ++ c!"\n" :: b) by simp,
      lexFrom_blanks (.inl rfl) hw, lexFrom_comment ht]
    congr 2; simp; omega

/-- **C04** at the start of a file: a comment line, a blank line or leading blanks do not change the tokens. -/
theorem C04_neutral_first {n : Str} (hn : Neutral n) (b : Str) : tokens (n ++ b) = tokens b := by
  rw [tokens, lex_eq_lexFrom, lexFrom_neutral hn, toksFrom_eq (f := .lineStart) trivial, tokens_eq_toksFrom]

/-- `LineEnd a its`: after reading `a` and having emitted `its`, the lexer of the file `a ++ "\n"` is between tokens at
the final newline: the newline is neither in a comment or quote nor part of a continuation. -/
def LineEnd (a : Str) (its : List Item) : Prop :=
  ∃ f, (f = .lineStart ∨ f = .lineRunning) ∧ Reaches .lineStart ⟨a ++ [c!"\n"], 0⟩ its f ⟨[c!"\n"], a.length⟩

theorem lexFrom_lineEnd {a : Str} {its : List Item} (h : LineEnd a its) :
    ∃ its', ∀ b, lexFrom .lineStart ⟨a ++ c!"\n" :: b, 0⟩ =
      (lexFrom .lineStart ⟨b, a.length + 1⟩).map (its' ++ ·) := by
  obtain ⟨f, hf, h⟩ := h
  have h2 := fun b => h.local_ (.inl rfl) rfl b trivial ⟨a, rfl⟩
  rcases hf with rfl | rfl
  · refine ⟨its, fun b => ?_⟩
    have := ((h2 b).lexFrom_eq trivial).1
    simp only [List.append_assoc, List.singleton_append] at this
    rw [this, lexFrom_newline]
  · refine ⟨its ++ [⟨.eol, [c!"\n"], a.length⟩], fun b => ?_⟩
    have := ((h2 b).lexFrom_eq trivial).1
    simp only [List.append_assoc, List.singleton_append] at this
    have s1 : lexStep .lineRunning ⟨c!"\n" :: b, a.length⟩ = .ok ⟨[], some .special, ⟨c!"\n" :: b, a.length⟩⟩ := by
      simp [lexStep, lexLineRunning, skipWs, skipWsLoop, special?]
    have s2 : lexStep .special ⟨c!"\n" :: b, a.length⟩ =
        .ok ⟨[⟨.eol, [c!"\n"], a.length⟩], some .lineStart, ⟨b, a.length + 1⟩⟩ := by
      simp [lexStep, lexSpecial, special?]
    rw [this, lexFrom_silent (f := .lineRunning) trivial s1,
      lexFrom_next (f := .special) (.inr ⟨_, _, _, rfl, rfl⟩) s2]
    cases lexFrom .lineStart ⟨b, a.length + 1⟩ <;> simp [Except.map]

theorem map_tv_append (l : List Item) (e : Except Panic (List Item)) :
    (e.map (l ++ ·)).map (·.map Item.tv) = (e.map (·.map Item.tv)).map (l.map Item.tv ++ ·) := by
  cases e <;> simp [Except.map]

/-- **C04** between lines: if a line ends after `a`, inserting a comment line, a blank line, a continuation or leading
blanks before the rest of the file does not change the tokens. -/
theorem C04_neutral {a : Str} {its : List Item} (h : LineEnd a its) {n : Str} (hn : Neutral n) (b : Str) :
    tokens (a ++ c!"\n" :: (n ++ b)) = tokens (a ++ c!"\n" :: b) := by
  obtain ⟨its', h⟩ := lexFrom_lineEnd h
  simp only [tokens, lex_eq_lexFrom, h, map_tv_append]
  rw [lexFrom_neutral hn, toksFrom_eq (f := .lineStart) trivial, toksFrom_eq (f := .lineStart) trivial]

/-- **C04** continuations: where a blank separates tokens inside a line, backslash-newline may follow the blank. -/
theorem C04_continuation {a : Str} {d : Byte} {its : List Item} (hd : d = c!" " ∨ d = c!"\t")
    (h : Reaches .lineStart ⟨a ++ [d], 0⟩ its .lineRunning ⟨[d], a.length⟩) (b : Str) :
    tokens (a ++ d :: c!"\\" :: c!"\n" :: b) = tokens (a ++ d :: b) := by
  have h2 := fun b => ((h.local_ (.inr hd) rfl b trivial ⟨a, rfl⟩).lexFrom_eq trivial).1
  simp only [List.append_assoc, List.singleton_append] at h2
  simp only [tokens, lex_eq_lexFrom, h2, map_tv_append]
  have hw : ∀ c ∈ [d], c = c!" " ∨ c = c!"\t" := by simpa using hd
  have e1 := lexFrom_blanks (.inr rfl) hw (c!"\\" :: c!"\n" :: b) a.length
  have e2 := lexFrom_blanks (.inr rfl) hw b a.length
  simp only [List.singleton_append] at e1 e2
  rw [e1, e2, lexFrom_continuation (.inr rfl), toksFrom_eq (f := .lineRunning) trivial,
    toksFrom_eq (f := .lineRunning) trivial]

/-- **C04** continuations: also where a token has ended of itself, whatever follows (after parentheses, semicolons and quoted strings). -/
theorem C04_continuation_closed {a : Str} {its : List Item} (h : ∀ t, Reaches .lineStart ⟨a ++ t, 0⟩ its .lineRunning ⟨t, a.length⟩) (b : Str) :
    tokens (a ++ c!"\\" :: c!"\n" :: b) = tokens (a ++ b) := by
  have h2 := fun t => ((h t).lexFrom_eq trivial).1
  simp only [tokens, lex_eq_lexFrom, h2, map_tv_append]
  rw [lexFrom_continuation (.inr rfl), toksFrom_eq (f := .lineRunning) trivial, toksFrom_eq (f := .lineRunning) trivial]

/-- After a closing parenthesis or quote, for instance. -/
example : ∀ t, Reaches .lineStart ⟨b!"(\"a\")" ++ t, 0⟩ [⟨.lparen, b!"(", 0⟩, ⟨.value, b!"a", 1⟩, ⟨.rparen, b!")", 4⟩] .lineRunning ⟨t, 5⟩ := by
  intro t
  refine .step (o := ⟨[], some .special, ⟨b!"(\"a\")" ++ t, 0⟩⟩) rfl rfl ?_
  refine .step (o := ⟨[⟨.lparen, b!"(", 0⟩], some .lineRunning, ⟨b!"\"a\")" ++ t, 1⟩⟩) rfl rfl ?_
  refine .step (o := ⟨[], some .quote, ⟨b!"\"a\")" ++ t, 1⟩⟩) rfl rfl ?_
  refine .step (o := ⟨[⟨.value, b!"a", 1⟩], some .lineRunning, ⟨b!")" ++ t, 4⟩⟩) ?_ rfl ?_
  · simp [lexStep, lexQuote, scanQuote]
  refine .step (o := ⟨[], some .special, ⟨b!")" ++ t, 4⟩⟩) rfl rfl ?_
  exact .step (o := ⟨[⟨.rparen, b!")", 4⟩], some .lineRunning, ⟨t, 5⟩⟩) rfl rfl .refl

/-- Decidable check that the lexer passes a configuration, used for the concrete cases below. -/
def reachesB : Nat → LexFn → LexSt → LexFn → LexSt → Bool
  | 0, _, _, _, _ => false
  | n + 1, f, s, f', s' =>
    (f == f' && s == s') || match lexStep f s with
      | .ok o => match o.next with
        | some g => reachesB n g o.st f' s'
        | none => false
      | .error _ => false

theorem reachesB_sound {n f s f' s'} (h : reachesB n f s f' s' = true) : ∃ its, Reaches f s its f' s' := by
  induction n generalizing f s with
  | zero => simp [reachesB] at h
  | succ n ih =>
    simp only [reachesB, Bool.or_eq_true, Bool.and_eq_true, beq_iff_eq] at h
    rcases h with ⟨rfl, rfl⟩ | h
    · exact ⟨_, .refl⟩
    · split at h
      · split at h
        · obtain ⟨its, hr⟩ := ih h
          exact ⟨_, .step (by assumption) (by assumption) hr⟩
        · simp at h
      · simp at h

/-- The hypotheses of `C04_neutral` hold, e.g., after a rule with a quoted newline. -/
example : ∃ its, LineEnd b!"accept from \"a\nb\"" its := by
  obtain ⟨its, h⟩ := reachesB_sound (n := 20) (f := .lineStart) (s := ⟨b!"accept from \"a\nb\"" ++ [c!"\n"], 0⟩)
    (f' := .lineRunning) (s' := ⟨[c!"\n"], 17⟩) (by decide +kernel)
  exact ⟨its, _, .inr rfl, h⟩

/-- Those of `C04_continuation` hold after a keyword. -/
example : ∃ its, Reaches .lineStart ⟨b!"accept" ++ [c!" "], 0⟩ its .lineRunning ⟨[c!" "], 6⟩ :=
  reachesB_sound (n := 20) (by decide +kernel)

/-- The condition is needed: inside a quoted string an inserted comment line is part of the value. -/
example : tokens b!"\"a\n#x\nb\"" ≠ tokens b!"\"a\nb\"" := by decide +kernel

end Sink
