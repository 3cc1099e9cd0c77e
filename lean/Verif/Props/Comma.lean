import Verif.Props.Lex

/-!
# C62: a comma always joins
-/

namespace Sink

/-- What may not follow a comma: white space, the end of the line, the end of the file. -/
def Spec.Breaks (r : Str) : Prop := r = [] ∨ ∃ c t, r = c :: t ∧ (c = c!" " ∨ c = c!"\t" ∨ c = c!"\n")

theorem commaStop_iff (r : Str) : commaStop r = true ↔ Spec.Breaks r := by
  cases r <;> simp [commaStop, Spec.Breaks]

/-- Only `lexSpecial` makes commas, and what it does then. -/
theorem lexStep_comma {f : LexFn} {s : LexSt} {o : LexOut} (hg : LexGood f s) (ho : lexStep f s = .ok o) :
    (∃ r, s.rest = c!"," :: r ∧ o.st.rest = r ∧ o.st.pos = s.pos + 1 ∧
      ((Spec.Breaks r ∧ o.next = none ∧ o.items = [⟨.comma, b!",", s.pos⟩, ⟨.error, b!"comma followed by whitespace, EOL, or EOF", s.pos + 1⟩]) ∨
        (¬ Spec.Breaks r ∧ o.next = some .lineRunning ∧ o.items = [⟨.comma, b!",", s.pos⟩]))) ∨
      (o.items = [] ∨ ∃ x, o.items = [x] ∧ x.typ ≠ .comma) := by
  cases f with
  | lineStart =>
    right; left
    cases ho; simp only [lexLineStart]
    split
    · rfl
    · split_ifs <;> rfl
  | lineRunning =>
    right; left
    cases ho; simp only [lexLineRunning]
    split
    · rfl
    · split_ifs <;> rfl
  | special =>
    cases ho
    rcases hg with h | ⟨c, r, t, h, ht⟩
    · right; right; simp [lexSpecial, h]
    · by_cases hc : c = c!","
      · left
        subst hc
        refine ⟨r, h, ?_⟩
        have e : special? c!"," = some .comma := rfl
        by_cases hb : commaStop r = true
        · simp only [lexSpecial, h, hb, e]
          exact ⟨rfl, rfl, .inl ⟨(commaStop_iff r).1 hb, rfl, rfl⟩⟩
        · simp only [lexSpecial, h, hb, e]
          exact ⟨rfl, rfl, .inr ⟨fun x => hb ((commaStop_iff r).2 x), rfl, rfl⟩⟩
      · right; right
        have hs : t ≠ .comma := by
          unfold special? at ht
          rw [if_neg hc] at ht
          split_ifs at ht <;> cases ht <;> simp
        simp only [lexSpecial, h, ht]
        split_ifs with h1 h2
        · exact ⟨_, rfl, hs⟩
        · exact absurd h2.1 hc
        · exact ⟨_, rfl, hs⟩
  | word =>
    right; right
    obtain ⟨c, r, h1, h2⟩ := hg
    simp only [lexStep, lexWord, h1, takeWhile_word h2] at ho
    split at ho
    · cases ho; exact ⟨_, rfl, by simp⟩
    · try dsimp only at ho
      split_ifs at ho
      all_goals (cases ho; exact ⟨_, rfl, by simp⟩)
  | quote =>
    right; right
    obtain ⟨r, h1⟩ := hg
    cases ho
    simp only [lexQuote, h1]
    cases scanQuote r <;> exact ⟨_, rfl, by simp⟩
  | comment => right; left; cases ho; rfl

theorem lexFrom_comma : ∀ f s its, LexGood f s → lexFrom f s = .ok its →
    ∀ pre it post, its = pre ++ it :: post → it.typ = .comma → ∃ b r, s.rest = b ++ c!"," :: r ∧ it.pos = s.pos + b.length ∧
      (Spec.Breaks r → post = [⟨.error, b!"comma followed by whitespace, EOL, or EOF", it.pos + 1⟩]) := by
  apply lexFrom_induct
  · intro f s o hg ho hn pre it post hi ht
    rcases lexStep_comma hg ho with ⟨r, h1, h2, h3, ⟨hb, -, h5⟩ | ⟨-, h4, -⟩⟩ | h | ⟨x, h, hx⟩
    · refine ⟨[], r, h1, ?_⟩
      rw [h5] at hi
      cases pre with
      | nil => cases hi; exact ⟨rfl, fun _ => rfl⟩
      | cons y pre =>
        cases pre with
        | nil => cases hi; cases ht
        | cons z pre => injection hi with _ hi; injection hi with _ hi; cases pre <;> cases hi
    · rw [hn] at h4; cases h4
    · rw [h] at hi; cases pre <;> cases hi
    · rw [h] at hi
      cases pre with
      | nil => cases hi; exact absurd ht hx
      | cons y pre => injection hi with _ hi; cases pre <;> cases hi
  · intro f s o f' its hg ho hn hg' hl ih pre it post hi ht
    obtain ⟨o', ho', ⟨u, hu, hp⟩, -⟩ := lexStep_ok hg
    rw [ho] at ho'; cases ho'
    have next : ∀ pre', its = pre' ++ it :: post → ∃ b r, s.rest = b ++ c!"," :: r ∧ it.pos = s.pos + b.length ∧
        (Spec.Breaks r → post = [⟨.error, b!"comma followed by whitespace, EOL, or EOF", it.pos + 1⟩]) := by
      intro pre' hp'
      obtain ⟨b, r, h1, h2, h3⟩ := ih pre' it post hp' ht
      exact ⟨u ++ b, r, by rw [hu, h1]; simp, by rw [h2, hp]; simp; omega, h3⟩
    rcases lexStep_comma hg ho with ⟨r, h1, h2, h3, ⟨-, h4, -⟩ | ⟨hb, -, h5⟩⟩ | h | ⟨x, h, hx⟩
    · rw [hn] at h4; cases h4
    · rw [h5] at hi
      cases pre with
      | nil => cases hi; exact ⟨[], r, h1, rfl, fun h => absurd h hb⟩
      | cons y pre => injection hi with _ hi; exact next pre hi
    · rw [h] at hi; exact next pre hi
    · rw [h] at hi
      cases pre with
      | nil => cases hi; exact absurd ht hx
      | cons y pre => injection hi with _ hi; exact next pre hi

/-- **C62.** Every comma token stands for a comma in the file, and if white space, the end of the line or the end of the
file follows it there, the file is refused right after it. -/
theorem C62_comma {input : Str} {pre post : List Item} {it : Item} (h : lex input = .ok (pre ++ it :: post)) (ht : it.typ = .comma) :
    ∃ before after, input = before ++ c!"," :: after ∧ before.length = it.pos ∧
      (Spec.Breaks after → post = [⟨.error, b!"comma followed by whitespace, EOL, or EOF", it.pos + 1⟩]) := by
  rw [lex_eq_lexFrom] at h
  obtain ⟨b, r, h1, h2, h3⟩ := lexFrom_comma .lineStart ⟨input, 0⟩ _ trivial h pre it post rfl ht
  exact ⟨b, r, h1, by rw [h2]; simp, h3⟩

/-- A joined and a separated comma. -/
example : tokens b!"dns good,exists" = .ok [(.kw .dns, b!"dns"), (.kw .good, b!"good"), (.comma, b!","), (.kw .exists, b!"exists"), (.eof, [])] ∧
    tokens b!"dns good,\texists" = .ok [(.kw .dns, b!"dns"), (.kw .good, b!"good"), (.comma, b!","),
      (.error, b!"comma followed by whitespace, EOL, or EOF")] := by decide +kernel

end Sink
