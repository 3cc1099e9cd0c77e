import Verif.Props.Parse
import Verif.Props.Priority
import Verif.Props.Answers
import Verif.Props.Crash

/-!
# C113: rules files put end to end
-/

namespace Sink
open Spec Gram

/-- The text is made of complete lines: nothing, or text ended by a newline that is not behind a backslash. -/
def Spec.Lined (a : Str) : Prop := a = [] ∨ ∃ x, a = x ++ [c!"\n"] ∧ x.getLast? ≠ some c!"\\"

/-! ## The lexer -/

/-- The step that reads the final newline. -/
theorem last_newline {f : LexFn} {x : Str} {p : Nat} {o : LexOut} {f' : LexFn} (hx : x.getLast? ≠ some c!"\\")
    (hg : LexGood f ⟨x ++ [c!"\n"], p⟩) (ho : lexStep f ⟨x ++ [c!"\n"], p⟩ = .ok o) (hn : o.next = some f') (hr : o.st.rest = []) :
    f' = .lineStart ∧ o.st.pos = p + x.length + 1 ∧
    (f = .lineStart ∧ o.items = [] ∨ f = .special ∧ ∃ q, o.items = [⟨.eol, [c!"\n"], q⟩]) ∧
    ∀ b, lexStep f ⟨x ++ c!"\n" :: b, p⟩ = .ok ⟨o.items, some .lineStart, ⟨b, p + x.length + 1⟩⟩ := by
  have hback : ∀ w : Str, x ++ [c!"\n"] = w ++ [c!"\\", c!"\n"] → False := by
    intro w h
    have e : x ++ [c!"\n"] = (w ++ [c!"\\"]) ++ [c!"\n"] := by simpa using h
    have := (List.append_inj' e rfl).1
    subst this
    simp at hx
  cases f with
  | lineStart =>
    cases ho
    obtain ⟨w, t, h1, h2, h3, h4⟩ := skipWs_spec ⟨x ++ [c!"\n"], p⟩
    dsimp only at h1 h3
    simp only [lexStep, lexLineStart, h3] at hn hr ⊢
    cases t with
    | nil =>
      exfalso
      have : c!"\n" ∈ w := by rw [List.append_nil] at h1; rw [← h1]; simp
      rcases h2 _ this with h | h <;> simp at h
    | cons c r =>
      dsimp only at hn hr ⊢
      by_cases e1 : c ≠ c!"\n" ∧ (special? c).isSome = true
      · rw [if_pos e1] at hr; cases hr
      rw [if_neg e1] at hn hr ⊢
      by_cases e2 : c = c!"\""
      · rw [if_pos e2] at hr; cases hr
      rw [if_neg e2] at hn hr ⊢
      by_cases e3 : c = c!"#"
      · rw [if_pos e3] at hr
        dsimp only at hr
        subst hr; subst e3
        have := congrArg List.getLast? h1
        simp at this
      rw [if_neg e3] at hn hr ⊢
      by_cases e4 : c = c!"\\"
      · rw [if_pos e4] at hr
        exfalso
        split at hr
        · rename_i e5
          cases r with
          | nil => simp at e5
          | cons d r =>
            simp at e5 hr
            subst e5; subst hr; subst e4
            exact hback w h1
        · cases hr
      rw [if_neg e4] at hn hr ⊢
      by_cases e5 : c = c!"\n"
      · rw [if_pos e5] at hn hr ⊢
        dsimp only at hn hr ⊢
        subst hr; subst e5
        have hw : x = w := (List.append_inj' h1 rfl).1
        subst hw
        refine ⟨by cases hn; rfl, rfl, .inl ⟨trivial, rfl⟩, fun b => ?_⟩
        have h5 := skipWs_append (b := b) h3
        simp only [List.append_assoc, List.singleton_append] at h5
        rw [h5]
        simp
      · rw [if_neg e5] at hr; cases hr
  | lineRunning =>
    exfalso
    cases ho
    obtain ⟨w, t, h1, h2, h3, h4⟩ := skipWs_spec ⟨x ++ [c!"\n"], p⟩
    dsimp only at h1 h3
    simp only [lexLineRunning, h3] at hn hr
    cases t with
    | nil =>
      have : c!"\n" ∈ w := by rw [List.append_nil] at h1; rw [← h1]; simp
      rcases h2 _ this with h | h <;> simp at h
    | cons c r =>
      dsimp only at hn hr
      split_ifs at hr with e1
      dsimp only at hr
      obtain ⟨rfl, e5⟩ := e1
      cases r with
      | nil => simp at e5
      | cons d r =>
        simp at e5 hr
        subst e5; subst hr
        exact hback w h1
  | special =>
    cases ho
    cases x with
    | nil =>
      refine ⟨by simp [lexSpecial] at hn; exact hn.symm, by simp [lexSpecial], .inr ⟨rfl, p, by simp [lexSpecial, special?]⟩, fun b => ?_⟩
      simp [lexStep, lexSpecial]
    | cons c r =>
      exfalso
      simp only [lexSpecial, List.cons_append] at hr hn
      split_ifs at hr hn <;> simp at hr hn
  | word =>
    exfalso
    obtain ⟨o', ho', ⟨u, hu, _⟩, _⟩ := lexStep_ok hg
    rw [ho] at ho'; cases ho'
    simp only [lexStep, lexWord] at ho
    generalize hv : (x ++ [c!"\n"]).takeWhile (fun c => !isSpecialChar c) = v at ho
    have hrest : o.st.rest = (x ++ [c!"\n"]).drop v.length := by
      split at ho
      · cases ho; rfl
      · split at ho
        · cases ho
        · split_ifs at ho <;> cases ho <;> rfl
    rw [hr] at hrest
    have hlen : (x ++ [c!"\n"]).length ≤ v.length := List.drop_eq_nil_iff.1 hrest.symm
    have hpre : v <+: x ++ [c!"\n"] := hv ▸ List.takeWhile_prefix _
    have : v = x ++ [c!"\n"] := hpre.eq_of_length_le hlen
    have hm : c!"\n" ∈ v := by rw [this]; simp
    rw [← hv] at hm
    have := List.mem_takeWhile_imp hm
    simp [isSpecialChar] at this
  | quote =>
    exfalso
    cases ho
    obtain ⟨r, hr'⟩ := hg
    dsimp only at hr'
    simp only [lexQuote, hr'] at hr hn
    cases hq : scanQuote r with
    | none => rw [hq] at hn; cases hn
    | some vt =>
      obtain ⟨v, t⟩ := vt
      rw [hq] at hr
      dsimp only at hr
      subst hr
      obtain ⟨raw, e, -⟩ := scanQuote_body hq
      rw [e] at hr'
      have := congrArg List.getLast? hr'
      simp [List.getLast?_cons] at this
  | comment =>
    exfalso
    cases ho
    simp only [lexComment] at hr
    rw [List.dropWhile_eq_nil_iff] at hr
    have := hr c!"\n" (by simp)
    simp at this

/-- A lexer that finds no fault in a text of complete lines continues behind it as at the beginning of a file. -/
theorem lexFrom_lined : ∀ f s its, LexGood f s → lexFrom f s = .ok its →
    ∀ x, s.rest = x ++ [c!"\n"] → x.getLast? ≠ some c!"\\" → (∀ it ∈ its, it.typ ≠ .error) →
    ∃ u, its = u ++ [⟨.eof, [], s.pos + s.rest.length⟩] ∧
      ((f = .lineStart ∨ f = .comment) ∧ u = [] ∨ ∃ u' nl, u = u' ++ [nl] ∧ nl.typ = .eol) ∧
      ∀ b, lexFrom f ⟨s.rest ++ b, s.pos⟩ = (lexFrom .lineStart ⟨b, s.pos + s.rest.length⟩).map (u ++ ·) := by
  apply lexFrom_induct
  · intro f s o hg ho hn x hs hx hne
    exfalso
    obtain ⟨rest, p⟩ := s
    dsimp only at hs; subst hs
    cases f with
    | lineStart =>
      cases ho
      simp only [lexLineStart] at hn
      split at hn
      · cases hn
      · split_ifs at hn
    | lineRunning =>
      cases ho
      simp only [lexLineRunning] at hn
      split at hn
      · cases hn
      · split_ifs at hn
    | special =>
      cases ho
      cases x with
      | nil => simp [lexSpecial] at hn
      | cons c r =>
        simp only [lexSpecial, List.cons_append] at hn hne
        split_ifs at hn hne
        exact hne _ (.tail _ (.head _)) rfl
    | word =>
      simp only [lexStep, lexWord] at ho
      split at ho
      · cases ho; cases hn
      · split at ho
        · cases ho
        · split_ifs at ho <;> cases ho <;> first | exact hne _ (.head _) rfl | cases hn
    | quote =>
      cases ho
      obtain ⟨r, hr'⟩ := hg
      dsimp only at hr'
      simp only [lexQuote, hr'] at hn hne
      cases hq : scanQuote r with
      | none => rw [hq] at hne; exact hne _ (.head _) rfl
      | some vt => rw [hq] at hn; cases hn
    | comment => cases ho; cases hn
  · intro f s o f' its hg ho hn hg' hl ih x hs hx hne
    obtain ⟨rest, p⟩ := s
    dsimp only at hs; subst hs
    dsimp only
    have hgb : ∀ b, LexGood f ⟨x ++ c!"\n" :: b, p⟩ := by
      intro b
      cases f with
      | word =>
        obtain ⟨c, r, h1, h2⟩ := hg
        exact ⟨c, r ++ b, by rw [show x ++ c!"\n" :: b = (x ++ [c!"\n"]) ++ b by simp]; dsimp only at h1; rw [h1]; rfl, h2⟩
      | quote =>
        obtain ⟨r, h1⟩ := hg
        exact ⟨r ++ b, by rw [show x ++ c!"\n" :: b = (x ++ [c!"\n"]) ++ b by simp]; dsimp only at h1; rw [h1]; rfl⟩
      | special =>
        rcases hg with h1 | ⟨c, r, t, h1, h2⟩
        · simp at h1
        · exact .inr ⟨c, r ++ b, t, by rw [show x ++ c!"\n" :: b = (x ++ [c!"\n"]) ++ b by simp]; dsimp only at h1; rw [h1]; rfl, h2⟩
      | _ => trivial
    by_cases hr : o.st.rest = []
    · obtain ⟨rfl, g2, g3, g4⟩ := last_newline hx hg ho hn hr
      have e : o.st = ⟨[], p + x.length + 1⟩ := by
        calc o.st = ⟨o.st.rest, o.st.pos⟩ := rfl
          _ = _ := by rw [hr, g2]
      rw [e, lexFrom_nil _ (.inl rfl)] at hl
      cases hl
      refine ⟨o.items, by simp; omega, ?_, fun b => ?_⟩
      · rcases g3 with ⟨h1, h2⟩ | ⟨h1, q, h2⟩
        · exact .inl ⟨.inl h1, h2⟩
        · exact .inr ⟨[], _, h2, rfl⟩
      · rw [List.append_assoc, List.singleton_append, lexFrom_eq (hgb b) (g4 b)]
        dsimp only
        rw [show p + x.length + 1 = p + (x ++ [c!"\n"]).length by simp; omega]
    · have hloc := fun b => lexStep_local (b := b) (.inl rfl) hg ho hn hr
      obtain ⟨x', hx'⟩ := (hloc []).2
      obtain ⟨o', ho', ⟨v, hv, hp⟩, _⟩ := lexStep_ok hg
      rw [ho] at ho'; cases ho'
      dsimp only at hv hp
      have hlast : x'.getLast? ≠ some c!"\\" := by
        rw [hx', ← List.append_assoc] at hv
        have := (List.append_inj' hv rfl).1
        intro h
        rw [this, List.getLast?_append, h] at hx
        exact hx rfl
      obtain ⟨u, h1, h2, h3⟩ := ih x' hx' hlast (fun it hit => hne it (List.mem_append_right _ hit))
      have hpos : o.st.pos + o.st.rest.length = p + (x ++ [c!"\n"]).length := by rw [hv, hp]; simp; omega
      rw [hpos] at h1 h3
      refine ⟨o.items ++ u, by rw [h1]; simp, ?_, fun b => ?_⟩
      · rcases h2 with ⟨h4, h5⟩ | ⟨u', nl, h4, h5⟩
        · subst h5
          cases f with
          | lineStart =>
            cases ho
            refine .inl ⟨.inl rfl, ?_⟩
            simp only [lexLineStart]
            split
            · rfl
            · split_ifs <;> rfl
          | comment => cases ho; exact .inl ⟨.inr rfl, rfl⟩
          | special =>
            cases ho
            right
            cases x with
            | nil => simp [lexSpecial] at hr
            | cons c r =>
              simp only [lexSpecial, List.cons_append] at hn hr ⊢
              split_ifs at hn hr ⊢ with e1 e2
              · exact ⟨[], _, rfl, by subst e1; rfl⟩
              · cases hn
                rcases h4 with h4 | h4 <;> cases h4
          | lineRunning =>
            exfalso
            cases ho
            simp only [lexLineRunning] at hn
            split at hn
            · cases hn; rcases h4 with h4 | h4 <;> cases h4
            · split_ifs at hn <;> cases hn <;> rcases h4 with h4 | h4 <;> cases h4
          | word =>
            exfalso
            simp only [lexStep, lexWord] at ho
            split at ho
            · cases ho; cases hn; rcases h4 with h4 | h4 <;> cases h4
            · split at ho
              · cases ho
              · split_ifs at ho <;> cases ho <;> cases hn <;> rcases h4 with h4 | h4 <;> cases h4
          | quote =>
            exfalso
            cases ho
            obtain ⟨r, hr'⟩ := hg
            dsimp only at hr'
            simp only [lexQuote, hr'] at hn
            cases hq : scanQuote r with
            | none => rw [hq] at hn; cases hn
            | some vt => rw [hq] at hn; cases hn; rcases h4 with h4 | h4 <;> cases h4
        · exact .inr ⟨o.items ++ u', nl, by rw [h4]; simp, h5⟩
      · rw [List.append_assoc, List.singleton_append, lexFrom_eq (hgb b) (hloc b).1]
        dsimp only
        rw [h3 b]
        cases lexFrom .lineStart ⟨b, p + (x ++ [c!"\n"]).length⟩ <;> simp [Except.map]

/-! ## The grammar -/

theorem Gram.Opts.noEol {c ts o} (h : Gram.Opts c ts o) : ∀ t ∈ ts, t.typ ≠ .eol := by
  induction h with
  | one h1 _ => simp [h1]
  | more h1 _ h2 _ ih =>
    intro t ht
    simp only [List.mem_cons] at ht
    rcases ht with rfl | rfl | ht
    · simp [h1]
    · simp [h2]
    · exact ih t ht

theorem gram_noEol (L : Lib) : ∀ n : Nat, (∀ ts e, Term L ts e → 3 * ts.length ≤ n → ∀ t ∈ ts, t.typ ≠ .eol) ∧
    (∀ ts e, Orl L ts e → 3 * ts.length + 1 ≤ n → ∀ t ∈ ts, t.typ ≠ .eol) ∧
    (∀ ts es, Andl L ts es → 3 * ts.length + 2 ≤ n → ∀ t ∈ ts, t.typ ≠ .eol) := by
  intro n
  induction n with
  | zero =>
    refine ⟨?_, fun _ _ _ h => by omega, fun _ _ _ h => by omega⟩
    intro ts e h hl
    obtain ⟨t, ts', rfl, -⟩ := h.start
    simp at hl
  | succ n ih =>
    obtain ⟨ihT, ihO, ihA⟩ := ih
    refine ⟨?_, ?_, ?_⟩
    · intro ts e h hl
      cases h with
      | arg _ h1 h2 => simp [h1, h2.1]
      | ip h1 h2 => rcases h2 with h2 | ⟨h2, -⟩ <;> simp [h1, h2]
      | dnsbl h1 h2 => simp [h1, h2.1]
      | tlsOn h1 h2 => simp [h1, h2]
      | tlsOff h1 h2 => simp [h1, h2]
      | all h1 => simp [h1]
      | has _ h1 h2 => simpa [h1] using h2.noEol
      | dbl h1 h2 h3 =>
        intro t ht
        simp only [List.mem_cons, List.mem_append, List.not_mem_nil, or_false] at ht
        rcases ht with rfl | ht | rfl
        · simp [h1]
        · exact h2.noEol t ht
        · simp [h3.1]
      | not_ h1 h2 => simpa [h1] using ihT _ _ h2 (by simp only [List.length_cons] at hl; omega)
      | paren h1 h2 h3 =>
        intro t ht
        simp only [List.mem_cons, List.mem_append, List.not_mem_nil, or_false] at ht
        rcases ht with rfl | ht | rfl
        · simp [h1]
        · exact ihA _ _ h2 (by simp only [List.length_cons, List.length_append] at hl; omega) t ht
        · simp [h3]
    · intro ts e h hl
      cases h with
      | one h => exact ihT _ _ h (by omega)
      | or h1 h2 h3 =>
        simp only [List.length_cons, List.length_append] at hl
        intro t ht
        simp only [List.mem_cons, List.mem_append] at ht
        rcases ht with ht | rfl | ht
        · exact ihT _ _ h1 (by omega) t ht
        · simp [h2]
        · exact ihO _ _ h3 (by omega) t ht
    · intro ts es h hl
      cases h with
      | one h => exact ihO _ _ h (by omega)
      | more h1 h2 =>
        obtain ⟨t0, ts2, rfl, -⟩ := h1.start
        simp only [List.length_cons, List.length_append] at hl
        intro t ht
        rcases List.mem_append.1 ht with ht | ht
        · exact ihO _ _ h1 (by simp only [List.length_cons]; omega) t ht
        · exact ihA _ _ h2 (by omega) t ht

theorem Gram.Andl.noEol {L : Lib} {ts es} (h : Andl L ts es) : ∀ t ∈ ts, t.typ ≠ .eol := (gram_noEol L _).2.2 ts es h le_rfl

theorem Gram.WTerms.noEol {w ts w'} (h : WTerms w ts w') : ∀ t ∈ ts, t.typ ≠ .eol := by
  induction h with
  | nil => simp
  | message h1 _ h2 _ ih => simpa [h1, h2.1] using ih
  | note h1 _ h2 _ _ ih => simpa [h1, h2.1] using ih
  | savedir h1 _ h2 _ ih => simpa [h1, h2.1] using ih
  | tlsOpt h1 _ h2 _ _ ih => simpa [h1, h2.1] using ih
  | makeYakker h1 _ _ ih => simpa [h1] using ih

theorem Gram.Clause.noEol {L ts c} (h : Clause L ts c) : ∀ t ∈ ts, t.typ ≠ .eol := by
  cases h with
  | plain h => exact h.noEol
  | withs h1 h2 _ h3 =>
    intro t ht
    simp only [List.mem_cons, List.mem_append] at ht
    rcases ht with ht | rfl | ht
    · exact h1.noEol t ht
    · simp [h2]
    · exact h3.noEol t ht

/-- A statement does not end in an end of line. -/
theorem Gram.Clauses.last {L a ts cs} (h : Clauses L a ts cs) : ∀ u nl, ts = u ++ [nl] → nl.typ ≠ .eol := by
  have suffix : ∀ {l us : List Item}, (∀ u nl, us = u ++ [nl] → nl.typ ≠ .eol) → (us = [] → ∀ u nl, l = u ++ [nl] → nl.typ ≠ .eol) →
      ∀ u nl, l ++ us = u ++ [nl] → nl.typ ≠ .eol := by
    intro l us h1 h2 u nl h
    rcases List.eq_nil_or_concat us with rfl | ⟨v, x, rfl⟩
    · exact h2 rfl u nl (by simpa using h)
    · rw [List.concat_eq_append, ← List.append_assoc] at h
      have := (List.append_inj' h rfl).2
      simp only [List.cons.injEq, and_true] at this
      subst this
      exact h1 v x (List.concat_eq_append)
  induction h with
  | one h _ => rintro u nl rfl; exact h.noEol nl (by simp)
  | @more ts c sc us cs h _ hs hc ih =>
    have := suffix (l := ts ++ [sc]) ih (fun _ u nl e => by
      have := (List.append_inj' e rfl).2
      simp only [List.cons.injEq, and_true] at this
      subst this; simp [hs])
    simpa using this
  | @moreNl ts c sc nl us cs h _ hs hn hc ih =>
    have hne : us ≠ [] := by
      have hA : ∀ {ts es}, Andl L ts es → ts ≠ [] := by
        intro ts es h
        cases h with
        | one h => obtain ⟨t, ts', rfl, -⟩ := h.start; simp
        | more h _ => obtain ⟨t, ts', rfl, -⟩ := h.start; simp
      have hC : ∀ {ts c}, Clause L ts c → ts ≠ [] := by
        intro ts c h
        cases h with
        | plain h => exact hA h
        | withs => simp
      cases hc with
      | one h => exact hC h
      | more => simp
      | moreNl => simp
    have := suffix (l := ts ++ [sc, nl]) ih (fun e => absurd e hne)
    simpa using this

theorem Gram.Stmt.last {L I i ts rs} (h : Stmt L I i ts rs) : ∀ u nl, ts = u ++ [nl] → nl.typ ≠ .eol := by
  have tail : ∀ {x : Item} {ts : List Item}, (∀ u nl, ts = u ++ [nl] → nl.typ ≠ .eol) → x.typ ≠ .eol →
      ∀ u nl, x :: ts = u ++ [nl] → nl.typ ≠ .eol := by
    intro x ts h hx u nl e
    cases u with
    | nil => simp only [List.nil_append, List.cons.injEq] at e; rw [← e.1]; exact hx
    | cons y u => simp only [List.cons_append, List.cons.injEq] at e; exact h u nl e.2
  cases h with
  | rule h =>
    cases h with
    | plain h1 _ h2 => exact tail h2.last (by simp [h1])
    | phased h1 _ h2 _ h3 _ => exact tail (tail h3.last (by simp [h2])) (by simp [h1])
  | incl h1 h2 _ => exact tail (tail (by simp) h2.1) (by simp [h1])

/-- The statements of a file whose last token before the end is an end of line are complete lines. -/
theorem Gram.File.lines {L I i ts rs} (h : Gram.File L I i ts rs) : ∀ u e, ts = u ++ [e] → (u = [] ∨ ∃ u' nl, u = u' ++ [nl] ∧ nl.typ = .eol) →
    ∃ j, Lines L I i u rs j := by
  induction h with
  | eof _ =>
    intro u e h _
    have : u = [] := by cases u with | nil => rfl | cons _ _ => simp at h
    subst this
    exact ⟨_, .nil⟩
  | last hs _ =>
    intro u e h hu
    have := (List.append_inj' h rfl).1
    subst this
    rcases hu with rfl | ⟨u', nl, rfl, hnl⟩
    · cases hs with
      | rule h => cases h
    · exact absurd hnl (hs.last u' nl rfl)
  | @line i ts rs nl us qs hs hnl hf ih =>
    intro u e h hu
    have hne : us ≠ [] := by cases hf <;> simp
    obtain ⟨v, x, rfl⟩ := (List.eq_nil_or_concat us).resolve_left hne
    rw [List.concat_eq_append, show ts ++ nl :: (v ++ [x]) = (ts ++ nl :: v) ++ [x] by simp] at h
    obtain ⟨rfl, hx⟩ := List.append_inj' h rfl
    obtain ⟨j, hj⟩ := ih v x List.concat_eq_append (by
      rcases List.eq_nil_or_concat v with rfl | ⟨v', y, rfl⟩
      · exact .inl rfl
      · refine .inr ⟨v', y, List.concat_eq_append, ?_⟩
        rcases hu with hu | ⟨u', nl', hu, hnl'⟩
        · simp at hu
        · rw [List.concat_eq_append, show ts ++ nl :: (v' ++ [y]) = (ts ++ nl :: v') ++ [y] by simp] at hu
          have := (List.append_inj' hu rfl).2
          simp only [List.cons.injEq, and_true] at this
          rw [this]; exact hnl')
    exact ⟨j, .cons hs hnl hj⟩

theorem Gram.File.ends {L I i ts rs} (h : Gram.File L I i ts rs) : ∃ u e, ts = u ++ [e] ∧ e.typ = .eof := by
  induction h with
  | eof he => exact ⟨[], _, rfl, he⟩
  | last _ he => exact ⟨_, _, rfl, he⟩
  | @line i ts rs nl us qs _ _ _ ih => obtain ⟨u, e, rfl, he⟩ := ih; exact ⟨ts ++ nl :: u, e, by simp, he⟩

theorem Wf.noError {ts : List Item} (h : Wf ts) : ∀ u e, ts = u ++ [e] → e.typ ≠ .error → ∀ t ∈ ts, t.typ ≠ .error := by
  induction h with
  | last _ =>
    intro u e h he
    cases u with
    | nil => cases h; simpa using he
    | cons _ _ => simp at h
  | @cons t r _ h2 h3 ih =>
    intro u e h he
    cases u with
    | nil => cases h; cases h3
    | cons y u =>
      simp only [List.cons_append, List.cons.injEq] at h
      simpa [h2] using ih u e h.2 he

theorem Gram.File.shift {L} {I : Nat → Str → List Rule → Prop} {j i ts rs} : Gram.File L I (j + i) ts rs ↔ Gram.File L (fun n => I (j + n)) i ts rs := by
  have st : ∀ {i ts rs}, Stmt L I (j + i) ts rs ↔ Stmt L (fun n => I (j + n)) i ts rs := by
    intro i ts rs
    constructor
    · rintro (h | ⟨h1, h2, h3⟩)
      · exact .rule h
      · exact .incl h1 h2 h3
    · rintro (h | ⟨h1, h2, h3⟩)
      · exact .rule h
      · exact .incl h1 h2 h3
  constructor
  · intro h
    generalize hk : j + i = k at h
    induction h generalizing i with
    | eof h => exact .eof h
    | last hs he => subst hk; exact .last (st.1 hs) he
    | line hs hn _ ih => subst hk; exact .line (st.1 hs) hn (ih rfl)
  · intro h
    induction h with
    | eof h => exact .eof h
    | last hs he => exact .last (st.2 hs) he
    | line hs hn _ ih => exact .line (st.2 hs) hn ih

/-! ## The parser -/

/-- **C113.** A text of complete lines that is in order gives its rules before any other text, which gives the rules that it gives
on its own; its included files are read as the ones after those of the first text. -/
theorem C113_joined {L : Lib} {load : Nat → Str → Except Fail (List Rule)} {a : Str} {ra : List Rule} (ha : Lined a)
    (h : parseWith L load a = .ok ra) :
    ∃ j, ∀ b rs, parseWith L load (a ++ b) = .ok rs ↔ ∃ rb, parseWith L (fun i f => load (j + i) f) b = .ok rb ∧ rs = ra ++ rb := by
  rcases ha with rfl | ⟨x, rfl, hx⟩
  · have : parseWith L load [] = .ok [] := by
      rw [C06_file_iff]
      exact ⟨[⟨.eof, [], 0⟩], by rw [lex_eq_lexFrom, lexFrom_nil _ (.inl rfl)], .eof rfl⟩
    rw [this] at h
    cases h
    exact ⟨0, fun b rs => by simp⟩
  · obtain ⟨toks, hl, hf⟩ := (C06_file_iff _ _ _ _).1 h
    have hl' := hl
    rw [lex_eq_lexFrom] at hl'
    have hne : ∀ it ∈ toks, it.typ ≠ .error := by
      obtain ⟨v, e, hv, he⟩ := hf.ends
      exact (wf_of_lex hl).noError v e hv (by simp [he])
    obtain ⟨u, rfl, hu, hjoin⟩ := lexFrom_lined .lineStart _ _ trivial hl' x rfl hx hne
    dsimp only at hjoin
    obtain ⟨j, hj⟩ := hf.lines u _ rfl (hu.imp (·.2) id)
    refine ⟨j, fun b rs => ?_⟩
    obtain ⟨tb, hb⟩ := lexFrom_ok (f := .lineStart) (s := ⟨b, 0⟩) trivial
    obtain ⟨tb', hb', htv⟩ := lexFrom_shift .lineStart _ _ trivial hb (0 + (x ++ [c!"\n"]).length)
    dsimp only at hb'
    have hab : lex (x ++ [c!"\n"] ++ b) = .ok (u ++ tb') := by
      rw [lex_eq_lexFrom, hjoin b, hb']; rfl
    have hb0 : lex b = .ok tb := by rw [lex_eq_lexFrom, hb]
    have hF : ∀ rb, Gram.File L (fun i f rs => load i f = .ok rs) j tb' rb ↔ parseWith L (fun i f => load (j + i) f) b = .ok rb := by
      intro rb
      rw [C06_file_iff, hb0]
      have := Gram.File.shift (L := L) (I := fun i f rs => load i f = .ok rs) (j := j) (i := 0) (ts := tb') (rs := rb)
      rw [Nat.add_zero] at this
      rw [this]
      constructor
      · intro h; exact ⟨tb, rfl, h.tv htv.symm⟩
      · rintro ⟨t, ht, h⟩; cases ht; exact h.tv htv
    constructor
    · intro hp
      have hwf := wf_of_lex hab
      have hne : tb' ≠ [] := by
        rintro rfl
        rw [List.map_nil] at htv
        have : tb = [] := by simpa using htv.symm
        have := wf_of_lex hb0
        subst tb; cases this
      obtain ⟨t, ws, rfl⟩ := List.exists_cons_of_ne_nil hne
      by_cases ht : t.typ = .eof
      · have hws : ws = [] := by
          have := hwf.suffix (by simp)
          cases this with
          | last => rfl
          | cons h => exact absurd ht h
        subst hws
        have h0 : parseWith L load (x ++ [c!"\n"] ++ b) = .ok (ra ++ []) :=
          (C06_file_iff _ _ _ _).2 ⟨_, hab, hj.file (.eof ht)⟩
        rw [h0] at hp
        cases hp
        exact ⟨[], (hF []).1 (.eof ht), rfl⟩
      · obtain ⟨rb, h1, h2⟩ := (parse_after_lines L load hab hj ht rs).1 hp
        exact ⟨rb, (hF rb).1 h2, h1⟩
    · rintro ⟨rb, h1, rfl⟩
      exact (C06_file_iff _ _ _ _).2 ⟨_, hab, hj.file ((hF rb).2 h1)⟩

/-! ## Connections -/

theorem loadRules_steady {L : Lib} {fs : Files} (hfs : ∀ p q f, fs p f = fs q f) (d : Nat) :
    ∀ p q f, loadRules L fs d p f = loadRules L fs d q f := by
  induction d with
  | zero => intro p q f; rfl
  | succ d ih =>
    intro p q f
    rw [loadRules, loadRules, hfs p q f]
    have : (fun i f => loadRules L fs d (i :: p) f) = fun i f => loadRules L fs d (i :: q) f := by
      funext i f; exact ih _ _ _
    rw [this]

theorem accumAll_steady {L : Lib} {fs : Files} (hfs : ∀ p q f, fs p f = fs q f) {d : Nat} : ∀ {fns : List Str} {i j : Nat} {base : List Rule},
    accumAll L fs d i base fns = accumAll L fs d j base fns := by
  intro fns
  induction fns with
  | nil => intros; rfl
  | cons f fns ih =>
    intro i j base
    rw [accumAll, accumAll]
    have : accumRules L fs d i base f = accumRules L fs d j base f := by
      unfold accumRules
      rw [loadRules_steady hfs d [i] [j] f]
    rw [this]
    split
    · exact ih
    · rfl

theorem accumAll_append {L : Lib} {fs : Files} (hfs : ∀ p q f, fs p f = fs q f) {d : Nat} {more : List Str} {rules : List Rule} :
    ∀ {fns : List Str} {base : List Rule},
    accumAll L fs d 0 base (fns ++ more) = .ok rules ↔ ∃ rs, accumAll L fs d 0 base fns = .ok rs ∧ accumAll L fs d 0 rs more = .ok rules := by
  intro fns
  induction fns with
  | nil => intro base; simp [accumAll]
  | cons f fns ih =>
    intro base
    rw [List.cons_append, accumAll, accumAll]
    cases accumRules L fs d 0 base f with
    | error e => simp
    | ok rs =>
      simp only
      rw [accumAll_steady hfs (j := 0), ih, accumAll_steady hfs (i := 0 + 1) (j := 0)]

theorem accumAll_joined {L : Lib} {fs : Files} (hfs : ∀ p q f, fs p f = fs q f) {d : Nat} {pre post : List Str} {f g h a b : Str}
    {base rules ra : List Rule} (hn : f ≠ [] ∧ g ≠ [] ∧ h ≠ []) (hf : fs [] f = .data a) (hg : fs [] g = .data b) (hh : fs [] h = .data (a ++ b))
    (ha : Lined a) (hok : loadRules L fs d [] f = .ok ra) :
    accumAll L fs d 0 base (pre ++ f :: g :: post) = .ok rules ↔ accumAll L fs d 0 base (pre ++ h :: post) = .ok rules := by
  rw [accumAll_append hfs, accumAll_append hfs]
  refine exists_congr fun rs => and_congr_right fun _ => ?_
  simp only [accumAll, accumRules, if_neg hn.1, if_neg hn.2.1, if_neg hn.2.2, loadRules_steady hfs d [0] [] _, loadRules_steady hfs d [0 + 1] [] _, hok]
  cases d with
  | zero => cases hok
  | succ d =>
    rw [loadRules, hf] at hok
    rw [loadRules, loadRules, hg, hh]
    dsimp only at hok ⊢
    have hld : (fun i f => loadRules L fs d (i :: []) f) = fun _ f => loadRules L fs d [] f := by
      funext i f; exact loadRules_steady hfs d _ _ _
    rw [hld] at hok ⊢
    have hpa : parseWith L (fun _ f => loadRules L fs d [] f) a = .ok ra := by
      split at hok
      · cases hok
      · exact hok
    obtain ⟨j, hj⟩ := C113_joined ha hpa
    have hj := hj b
    cases hb : parseWith L (fun _ f => loadRules L fs d [] f) b with
    | ok rb =>
      rw [(hj (ra ++ rb)).2 ⟨rb, hb, rfl⟩]
      dsimp only
      rw [List.append_assoc, accumAll_steady hfs]
    | error e =>
      have hne : ∀ rs', parseWith L (fun _ f => loadRules L fs d [] f) (a ++ b) ≠ .ok rs' := by
        intro rs' h
        obtain ⟨rb, h1, -⟩ := (hj rs').1 h
        rw [hb] at h1; cases h1
      cases hab : parseWith L (fun _ f => loadRules L fs d [] f) (a ++ b) with
      | ok rs' => exact absurd hab (hne rs')
      | error e' => cases e <;> cases e' <;> simp

theorem setupRules_same {L : Lib} {fs : Files} {d : Nat} {st base : List Rule} {rf rf' : List Str}
    (h : ∀ rules, accumAll L fs d 0 base rf = .ok rules ↔ accumAll L fs d 0 base rf' = .ok rules) {r : List Rule} {good : Bool} {w : Option Str}
    (hs : setupRules L fs d st base rf = .ok (r, good, w)) : ∃ w', setupRules L fs d st base rf' = .ok (r, good, w') := by
  unfold setupRules at hs ⊢
  cases hx : accumAll L fs d 0 base rf with
  | ok rs =>
    rw [hx] at hs
    rw [(h rs).1 hx]
    cases hs
    exact ⟨none, rfl⟩
  | error e =>
    rw [hx] at hs
    obtain ⟨f, e⟩ := e
    cases e with
    | panic p => cases hs
    | err m =>
      cases hs
      obtain ⟨⟨r, good, w⟩, hT⟩ := setupRules_total L fs d st base rf'
      unfold setupRules at hT
      cases hy : accumAll L fs d 0 base rf' with
      | ok rs => rw [(h rs).2 hy] at hx; cases hx
      | error e =>
        rw [hy] at hT
        obtain ⟨f', e⟩ := e
        cases e with
        | panic p => cases hT
        | err m' => exact ⟨_, rfl⟩

theorem sstep_rulefiles (cf : Conf) (rf : List Str) : sstep { cf with rulefiles := rf } = sstep cf := rfl

theorem life_same {cf : Conf} {E : Env} {rf rf' : List Str}
    (h : ∀ rules, accumAll E.W.lib E.fs E.fds 0 cf.base rf = .ok rules ↔ accumAll E.W.lib E.fs E.fds 0 cf.base rf' = .ok rules)
    {l : List Step} {s : Sess} (hl : Life { cf with rulefiles := rf } E l s) : Life { cf with rulefiles := rf' } E l s := by
  obtain ⟨sh, i, s0, sh0, o, hs, hr⟩ := hl
  have hr' : Run { cf with rulefiles := rf' } E s0 l s := by
    induction hr with
    | nil => exact .nil _
    | snoc _ h1 ih => exact .snoc ih h1
  simp only [startSess] at hs
  cases hx : setupRules E.W.lib E.fs E.fds cf.stallall cf.base rf with
  | error p => rw [hx] at hs; cases hs
  | ok x =>
    obtain ⟨r, good, w⟩ := x
    obtain ⟨w', hx'⟩ := setupRules_same h hx
    rw [hx] at hs
    have key : ∃ o', startSess { cf with rulefiles := rf' } E sh i = .ok (s0, sh0, o') := by
      simp only [startSess]
      rw [hx']
      simp only [bind, Except.bind, pure, Except.pure] at hs ⊢
      have e : serverName { cf with rulefiles := rf' } E [] = serverName { cf with rulefiles := rf } E [] := rfl
      rw [e]
      cases hsn : serverName { cf with rulefiles := rf } E [] with
      | error p => rw [hsn] at hs; cases hs
      | ok y =>
        rw [hsn] at hs
        simp only [Except.ok.injEq, Prod.mk.injEq] at hs ⊢
        obtain ⟨rfl, rfl, -⟩ := hs
        exact ⟨_, rfl, rfl, rfl⟩
    obtain ⟨o', ho'⟩ := key
    exact ⟨sh, i, s0, sh0, o', ho', hr'⟩

/-- **C113.** While files do not change: giving two rules files one after the other with `-r`, and giving one file that has the text of
both, makes no difference to any connection, when the first file is in order and made of complete lines. -/
theorem C113_files {cf : Conf} {E : Env} (hfs : ∀ p q f, E.fs p f = E.fs q f) {pre post : List Str} {f g h a b : Str} {ra : List Rule}
    (hn : f ≠ [] ∧ g ≠ [] ∧ h ≠ []) (hf : E.fs [] f = .data a) (hg : E.fs [] g = .data b) (hh : E.fs [] h = .data (a ++ b)) (ha : Lined a)
    (hok : Contributes E.W.lib (readable E.fs) E.fds [] f ra) (l : List Step) (s : Sess) :
    Life { cf with rulefiles := pre ++ f :: g :: post } E l s ↔ Life { cf with rulefiles := pre ++ h :: post } E l s := by
  have hok := (C10_load_iff _ _ _ _ _ _).2 hok
  exact ⟨life_same fun rules => accumAll_joined hfs hn hf hg hh ha hok, life_same fun rules => (accumAll_joined hfs hn hf hg hh ha hok).symm⟩

/-! ## Cases -/

/-- Two files, the first with an include, a rule over two lines and a comment; and the text of both. -/
def joinA : Str := b!"include /more\nreject from a@b.c ;\n  helo x\n# end \\\n\n"
def joinB : Str := b!"include /more\naccept to d@e.f"

def joinFiles : Files := fun _ f =>
  if f = b!"/a" then .data joinA else if f = b!"/b" then .data joinB else if f = b!"/ab" then .data (joinA ++ joinB)
  else if f = b!"/more" then .data b!"stall all with note m\n" else .notExist b!"no such file"

def joinRules : List Rule :=
  [⟨[⟨.all, { note := some b!"m" }⟩], .stall, .any, .any⟩,
   ⟨[⟨.matchN .from_ b!"a@b.c", {}⟩, ⟨.matchN .helo b!"x", {}⟩], .reject, .mfrom, .any⟩]

theorem joinA_lined : Lined joinA := .inr ⟨b!"include /more\nreject from a@b.c ;\n  helo x\n# end \\\n", by decide, by decide⟩

theorem joinA_gives : loadRules demoLib joinFiles 5 [] b!"/a" = .ok joinRules := by decide +kernel

/-- Giving both, or the one file with the text of both, is the same to every connection. -/
example (cf : Conf) (E : Env) (hfs : E.fs = joinFiles) (hfd : E.fds = 5) (hL : E.W.lib = demoLib) (l : List Step) (s : Sess) :
    Life { cf with rulefiles := [b!"/more", b!"/a", b!"/b", b!"/more"] } E l s ↔ Life { cf with rulefiles := [b!"/more", b!"/ab", b!"/more"] } E l s :=
  C113_files (pre := [b!"/more"]) (post := [b!"/more"]) (f := b!"/a") (g := b!"/b") (h := b!"/ab") (a := joinA) (b := joinB) (ra := joinRules)
    (by rw [hfs]; intros; rfl) (by decide) (by rw [hfs]; rfl) (by rw [hfs]; rfl) (by rw [hfs]; rfl) joinA_lined
    (by rw [hfs, hfd, hL]; exact (C10_load_iff _ _ _ _ _ _).1 joinA_gives) l s

/-- The rules of both: three files' worth, the included one twice. -/
example : accumAll demoLib joinFiles 5 0 [] [b!"/a", b!"/b"] = .ok (joinRules ++ [⟨[⟨.all, { note := some b!"m" }⟩], .stall, .any, .any⟩, ⟨[⟨.matchN .to b!"d@e.f", {}⟩], .accept, .rto, .any⟩]) ∧
    accumAll demoLib joinFiles 5 0 [] [b!"/ab"] = .ok (joinRules ++ [⟨[⟨.all, { note := some b!"m" }⟩], .stall, .any, .any⟩, ⟨[⟨.matchN .to b!"d@e.f", {}⟩], .accept, .rto, .any⟩]) := by decide +kernel

/-- **C113.** Both conditions are needed.  A last line that is continued, or has no end, runs on into the next file; and a quote that
is not closed may be closed by the next file. -/
theorem C113_conditions_needed :
    (∃ a b ra rb, parseWith demoLib (fun _ _ => .error (.err [])) a = .ok ra ∧ parseWith demoLib (fun _ _ => .error (.err [])) b = .ok rb ∧
      a.getLast? = some c!"\n" ∧ ∀ rs, parseWith demoLib (fun _ _ => .error (.err [])) (a ++ b) ≠ .ok rs) ∧
    (∃ a b ra rb, parseWith demoLib (fun _ _ => .error (.err [])) a = .ok ra ∧ parseWith demoLib (fun _ _ => .error (.err [])) b = .ok rb ∧
      a.getLast? ≠ some c!"\\" ∧ ∃ rs, parseWith demoLib (fun _ _ => .error (.err [])) (a ++ b) = .ok rs ∧ rs ≠ ra ++ rb) ∧
    (∃ a b rs, Lined a ∧ (∀ ra, parseWith demoLib (fun _ _ => .error (.err [])) a ≠ .ok ra) ∧
      parseWith demoLib (fun _ _ => .error (.err [])) (a ++ b) = .ok rs) := by
  have ne : ∀ {a : Str}, (parseWith demoLib (fun _ _ => .error (.err [])) a).isOk = false → ∀ rs, parseWith demoLib (fun _ _ => .error (.err [])) a ≠ .ok rs := by
    intro a h rs e; rw [e] at h; cases h
  refine ⟨⟨b!"reject all \\\n", b!"accept all\n", [⟨[⟨.all, {}⟩], .reject, .any, .any⟩], [⟨[⟨.all, {}⟩], .accept, .any, .any⟩],
    by decide +kernel, by decide +kernel, by decide, ne (by decide +kernel)⟩,
    ⟨b!"reject from a@b", b!"#\n", [⟨[⟨.matchN .from_ b!"a@b", {}⟩], .reject, .mfrom, .any⟩], [],
      by decide +kernel, by decide +kernel, by decide, [⟨[⟨.matchN .from_ b!"a@b#", {}⟩], .reject, .mfrom, .any⟩], by decide +kernel, by decide⟩,
    ⟨b!"reject from \"x\n", b!"y\"\n", [⟨[⟨.matchN .from_ b!"x\ny", {}⟩], .reject, .mfrom, .any⟩], .inr ⟨b!"reject from \"x", by decide, by decide⟩,
      ne (by decide +kernel), by decide +kernel⟩⟩

end Sink
