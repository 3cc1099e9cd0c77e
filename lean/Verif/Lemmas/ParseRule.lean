import Verif.Lemmas.Parse

/-!
# Soundness of with clauses, rules and files
-/

namespace Sink

open Gram

theorem getD_nil {o : Option Str} : ¬ o.getD [] ≠ [] ↔ o = none ∨ o = some [] := by
  cases o <;> simp

theorem indexByte_isSome {s : Str} {c : Byte} : (indexByte s c).isSome = true ↔ c ∈ s := by
  unfold indexByte
  rw [List.findIdx?_isSome, List.any_eq_true]
  simp

theorem pWClause_sound {E : PEnv} {n : Nat} {w w' : Withs} {got got' : Bool} {s s' : PSt} (hw : Wf s.toks)
    (h : pWClause E n w got s = .ok ((w', got'), s')) :
    Wf s'.toks ∧ s'.req = s.req ∧ ∃ ts, s.toks = ts ++ s'.toks ∧ WTerms w ts w' ∧ (got' = true ↔ got = true ∨ ts ≠ []) := by
  induction n generalizing w got s with
  | zero => cases h
  | succ n ih =>
    unfold pWClause at h
    dsimp only at h
    split at h
    · rename_i hk
      split at h
      · cases h
      · rename_i hr
        simp only [bind_ok] at h
        obtain ⟨s1, hc, ⟨a, s2⟩, h2, h⟩ := h
        obtain ⟨q1, r1, w1⟩ := consume_inv' hk hc hw
        obtain ⟨ha, rfl, q2, r2, w2⟩ := pArg_sound w1 h2
        obtain ⟨w3, r3, ts, q3, g, hg⟩ := ih w2 h
        refine ⟨w3, by rw [r3, r2, r1], s.cur :: s1.cur :: ts, by rw [q1, q2, q3]; simp,
          .message hk (getD_nil.mp hr) ha g, by simp [hg]⟩
    · rename_i hk
      split at h
      · cases h
      · rename_i hr
        simp only [bind_ok] at h
        obtain ⟨s1, hc, ⟨a, s2⟩, h2, h⟩ := h
        dsimp only at h
        split at h
        · cases h
        · rename_i hnl
          obtain ⟨q1, r1, w1⟩ := consume_inv' hk hc hw
          obtain ⟨ha, rfl, q2, r2, w2⟩ := pArg_sound w1 h2
          obtain ⟨w3, r3, ts, q3, g, hg⟩ := ih w2 h
          refine ⟨w3, by rw [r3, r2, r1], s.cur :: s1.cur :: ts, by rw [q1, q2, q3]; simp,
            .note hk (getD_nil.mp hr) ha (fun hm => hnl (indexByte_isSome.mpr hm)) g, by simp [hg]⟩
    · rename_i hk
      split at h
      · cases h
      · rename_i hr
        simp only [bind_ok] at h
        obtain ⟨s1, hc, ⟨a, s2⟩, h2, h⟩ := h
        obtain ⟨q1, r1, w1⟩ := consume_inv' hk hc hw
        obtain ⟨ha, rfl, q2, r2, w2⟩ := pArg_sound w1 h2
        obtain ⟨w3, r3, ts, q3, g, hg⟩ := ih w2 h
        refine ⟨w3, by rw [r3, r2, r1], s.cur :: s1.cur :: ts, by rw [q1, q2, q3]; simp,
          .savedir hk (getD_nil.mp hr) ha g, by simp [hg]⟩
    · rename_i hk
      split at h
      · cases h
      · rename_i hr
        simp only [bind_ok] at h
        obtain ⟨s1, hc, h⟩ := h
        obtain ⟨q1, r1, w1⟩ := consume_inv' hk hc hw
        split at h
        · cases h
        · cases h
        · rename_i a s2 h2
          split at h
          · cases h
          · rename_i hv
            obtain ⟨ha, rfl, q2, r2, w2⟩ := pArg_sound w1 h2
            obtain ⟨w3, r3, ts, q3, g, hg⟩ := ih w2 h
            refine ⟨w3, by rw [r3, r2, r1], s.cur :: s1.cur :: ts, by rw [q1, q2, q3]; simp,
              .tlsOpt hk (by simpa using hr) ha (by tauto) g, by simp [hg]⟩
    · rename_i hk
      split at h
      · cases h
      · rename_i hr
        simp only [bind_ok] at h
        obtain ⟨s1, hc, h⟩ := h
        obtain ⟨q1, r1, w1⟩ := consume_inv' hk hc hw
        obtain ⟨w3, r3, ts, q3, g, hg⟩ := ih w1 h
        refine ⟨w3, by rw [r3, r1], s.cur :: ts, by rw [q1, q3]; simp, .makeYakker hk (by simpa using hr) g, by simp [hg]⟩
    · simp only [pure_ok] at h
      cases h
      exact ⟨hw, rfl, [], rfl, .nil, by simp⟩

/-- Meaning of a successful `pWith`. -/
theorem pWith_sound {E : PEnv} {n : Nat} {w : Withs} {s s' : PSt} (hw : Wf s.toks) (h : pWith E n s = .ok (w, s')) :
    Wf s'.toks ∧ s'.req = s.req ∧ ((s' = s ∧ w = {} ∧ s.cur.typ ≠ .kw .with_) ∨
      (isERule s' = true ∧ ∃ wi us, wi.typ = .kw .with_ ∧ us ≠ [] ∧ s.toks = wi :: us ++ s'.toks ∧ WTerms {} us w)) := by
  unfold pWith at h
  split at h
  · rename_i hk
    cases h
    exact ⟨hw, rfl, .inl ⟨rfl, rfl, hk⟩⟩
  · rename_i hk
    simp only [ne_eq, not_not] at hk
    simp only [bind_ok] at h
    obtain ⟨s1, hc, ⟨⟨w1, good⟩, s2⟩, h1, h⟩ := h
    dsimp only at h
    obtain ⟨q1, r1, v1⟩ := consume_inv' hk hc hw
    obtain ⟨v2, r2, ts, q2, g, hg⟩ := pWClause_sound v1 h1
    split at h
    · cases h
    · rename_i c1
      split at h
      · cases h
      · rename_i c2
        simp only [pure_ok] at h
        cases h
        have he : isERule s' = true := by simpa using c2
        refine ⟨v2, by rw [r2, r1], .inr ⟨he, s.cur, ts, hk, ?_, by rw [q1, q2]; simp, g⟩⟩
        simp only [he, true_and] at c1
        have : good = true := by simpa using c1
        simpa using hg.mp this

theorem Gram.WTerms.nonempty_aux {w ts w'} (h : WTerms w ts w') : w ≠ {} ∨ ts ≠ [] → w' ≠ {} := by
  have mk : ∀ (w : Withs), (w.message.isSome ∨ w.note.isSome ∨ w.savedir.isSome ∨ w.tlsOpt.isSome ∨ w.makeYakker.isSome) →
      w ≠ {} := by
    rintro w h rfl; simp at h
  induction h with
  | nil => simp
  | message _ _ _ _ ih => intro _; exact ih (.inl (mk _ (by simp)))
  | note _ _ _ _ _ ih => intro _; exact ih (.inl (mk _ (by simp)))
  | savedir _ _ _ _ ih => intro _; exact ih (.inl (mk _ (by simp)))
  | tlsOpt _ _ _ _ _ ih => intro _; exact ih (.inl (mk _ (by simp)))
  | makeYakker _ _ _ ih => intro _; exact ih (.inl (mk _ (by simp)))

theorem pRClause_sound {E : PEnv} {act : Action} {n k : Nat} {cls cls' : List RClause} {s s' : PSt} (hw : Wf s.toks)
    (h : pRClause E act n k cls s = .ok (cls', s')) :
    Wf s'.toks ∧ isEol s' = true ∧ ∃ cs ts, cls' = cls ++ cs ∧ s.toks = ts ++ s'.toks ∧ Clauses E.lib act ts cs ∧
      s'.req = later s.req (needsC cs) := by
  induction k generalizing cls s with
  | zero => cases h
  | succ k ih =>
    unfold pRClause at h
    simp only [bind_ok] at h
    obtain ⟨⟨e, s1⟩, h1, ⟨w, s2⟩, h2, h⟩ := h
    dsimp only at h
    obtain ⟨⟨v1, es, ts, q1, g1, he, r1, -, -⟩, -⟩ := (parse_sound E n).2.2 _ _ _ _ hw h1
    obtain ⟨v2, r2, g2⟩ := pWith_sound v1 h2
    split at h
    · cases h
    · rename_i her
      simp only [Bool.not_eq_true', Bool.not_eq_false] at her
      split at h
      · cases h
      · rename_i e
        have hne : es ≠ [] := by rintro rfl; simp [mkAnd] at he
        have g1' : Andl E.lib ts es := by tauto
        rw [List.nil_append, mkAnd_eq hne] at he
        cases he
        split at h
        · cases h
        · rename_i hset
          have hset' : act = .noresult → w ≠ {} := by
            intro ha hw0; exact hset ⟨ha, by simp [Withs.isEmpty, hw0]⟩
          -- the clause itself
          obtain ⟨us, q2, gc⟩ : ∃ us, s.toks = us ++ s2.toks ∧ Clause E.lib us ⟨conj es, w⟩ := by
            rcases g2 with ⟨rfl, rfl, -⟩ | ⟨-, wi, us, hwi, hus, q2, g⟩
            · exact ⟨ts, q1, .plain g1'⟩
            · exact ⟨ts ++ wi :: us, by rw [q1, q2]; simp, .withs g1' hwi hus g⟩
          have rq : s2.req = later s.req (needs (conj es)) := by rw [r2, r1, needs_conj]
          split at h
          · rename_i heol
            simp only [pure_ok] at h
            cases h
            exact ⟨v2, heol, [⟨conj es, w⟩], us, rfl, q2, .one gc hset', by rw [rq]; simp [needsC, later_any]⟩
          · rename_i heol
            have hsemi : s2.cur.typ = .semicolon := by
              simp only [isERule, decide_eq_true_eq] at her
              rcases her with h' | h'
              · exact absurd h' heol
              · exact h'
            simp only [bind_ok] at h
            obtain ⟨s3, hc, h⟩ := h
            obtain ⟨q3, r3, v3⟩ := consume_inv' hsemi hc v2
            split at h
            · rename_i hnl
              simp only [bind_ok] at h
              obtain ⟨s4, hc4, h⟩ := h
              obtain ⟨q4, r4, v4⟩ := consume_inv' hnl hc4 v3
              obtain ⟨v5, he5, cs, ts5, rfl, q5, g5, r5⟩ := ih v4 h
              refine ⟨v5, he5, ⟨conj es, w⟩ :: cs, us ++ s2.cur :: s3.cur :: ts5, by simp,
                by rw [q2, q3, q4, q5]; simp, .moreNl gc hset' hsemi hnl g5, ?_⟩
              rw [r5, r4, r3, rq, later_assoc]; rfl
            · obtain ⟨v5, he5, cs, ts5, rfl, q5, g5, r5⟩ := ih v3 h
              refine ⟨v5, he5, ⟨conj es, w⟩ :: cs, us ++ s2.cur :: ts5, by simp,
                by rw [q2, q3, q5]; simp, .more gc hset' hsemi g5, ?_⟩
              rw [r5, r3, rq, later_assoc]; rfl

theorem consume_eof {s : PSt} (h : s.cur.typ = .eof) : consume s = .ok s := by simp [consume, h]

theorem phaseOf_ne {t : Tok} (h : phaseOf t ≠ .any) : ∃ k, t = .kw k ∧ PhaseWord k (phaseOf t) := by
  cases t with
  | kw k => cases k <;> first | exact absurd rfl h | exact ⟨_, rfl, by constructor⟩
  | _ => exact absurd rfl h

theorem actionOf_ne {t : Tok} (h : actionOf t ≠ .error) : ∃ k, t = .kw k ∧ ActionWord k (actionOf t) := by
  cases t with
  | kw k => cases k <;> first | exact absurd rfl h | exact ⟨_, rfl, by constructor⟩
  | _ => exact absurd rfl h

theorem later_le_iff {a b : Phase} : ¬ (a < b) ↔ b ≤ a := by
  show ¬ (a.num < b.num) ↔ b.num ≤ a.num; omega

/-- How a statement ends: an end of line, which is skipped, or the end of the file, which stays. -/
def StmtEnd (rest : List Item) (s' : PSt) : Prop :=
  (∃ nl, nl.typ = .eol ∧ rest = nl :: s'.toks) ∨ (s'.cur.typ = .eof ∧ rest = s'.toks)

theorem stmtEnd_of {s s' : PSt} (hw : Wf s.toks) (h : isEol s = true) (hc : consume s = .ok s') :
    Wf s'.toks ∧ StmtEnd s.toks s' := by
  simp only [isEol, decide_eq_true_eq] at h
  rcases h with h | h
  · obtain ⟨q, -, v⟩ := consume_inv' h hc hw
    exact ⟨v, .inl ⟨s.cur, h, q⟩⟩
  · rw [consume_eof h] at hc; cases hc
    exact ⟨hw, .inr ⟨h, rfl⟩⟩

theorem pRule_sound {E : PEnv} {n : Nat} {s s' : PSt} {r : Option Rule} (hw : Wf s.toks) (h : pRule E n s = .ok (r, s')) :
    Wf s'.toks ∧ match r with
    | none => s.cur.typ = .eof ∧ s'.toks = s.toks
    | some r => s.cur.typ ≠ .eof ∧ ∃ ts rest, s.toks = ts ++ rest ∧ RuleG E.lib ts r ∧ StmtEnd rest s' := by
  unfold pRule at h
  dsimp only at h
  split at h
  · rename_i he; cases h; exact ⟨hw, he, rfl⟩
  · rename_i hne
    simp only [bind_ok] at h
    obtain ⟨⟨dt, s1⟩, h1, h⟩ := h
    dsimp only at h
    split at h
    · cases h
    · rename_i hact
      simp only [bind_ok] at h
      obtain ⟨s2, hc2, ⟨cls, s3⟩, h3, h⟩ := h
      dsimp only at h
      split at h
      · cases h
      · rename_i hph
        simp only [bind_ok, pure_ok] at h
        obtain ⟨s4, hc4, h⟩ := h
        cases h
        obtain ⟨ak, hak, haw⟩ := actionOf_ne hact
        have hp : Wf s1.toks ∧ s1.req = .any ∧ ((dt = .any ∧ s1.toks = s.toks) ∨
            ∃ pk, s.cur.typ = .kw pk ∧ PhaseWord pk dt ∧ s.toks = s.cur :: s1.toks) := by
          unfold pPhase at h1
          split at h1
          · rename_i hpp
            simp only [bind_ok, pure_ok] at h1
            obtain ⟨s1', hc1, h1⟩ := h1
            cases h1
            obtain ⟨pk, hpk, hpw⟩ := phaseOf_ne hpp
            obtain ⟨q, r, v⟩ := consume_inv' (s := { s with req := .any }) hpk hc1 hw
            exact ⟨v, r, .inr ⟨pk, hpk, hpw, q⟩⟩
          · cases h1
            exact ⟨hw, rfl, .inl ⟨rfl, rfl⟩⟩
        obtain ⟨v1, r1, hp⟩ := hp
        obtain ⟨q2, r2, v2⟩ := consume_inv' hak hc2 v1
        obtain ⟨v3, he3, cs, ts, rfl, q3, g3, r3⟩ := pRClause_sound v2 h3
        rw [r2, r1, any_later] at r3
        obtain ⟨v4, se⟩ := stmtEnd_of v3 he3 hc4
        refine ⟨v4, hne, ?_⟩
        rcases hp with ⟨rfl, qp⟩ | ⟨pk, hpk, hpw, qp⟩
        · refine ⟨s1.cur :: ts, s3.toks, by rw [← qp, q2, q3]; simp, ?_, se⟩
          rw [r3]
          exact .plain hak haw g3
        · refine ⟨s.cur :: s1.cur :: ts, s3.toks, by rw [qp, q2, q3]; simp, ?_, se⟩
          rw [r3]
          refine .phased hpk hpw hak haw g3 ?_
          rw [r3] at hph
          rw [← later_le_iff]
          intro hlt
          exact hph ⟨by cases hpw <;> simp, hlt⟩

theorem pInclude_sound {E : PEnv} {load : Str → Except Fail (List Rule)} {s s' : PSt} {rs : List Rule} (hw : Wf s.toks)
    (hk : s.cur.typ = .kw .include_) (h : pInclude E load s = .ok (rs, s')) :
    Wf s'.toks ∧ ∃ a rest, s.toks = s.cur :: a :: rest ∧ IsArg a ∧ load a.val = .ok rs ∧ StmtEnd rest s' := by
  unfold pInclude at h
  simp only [bind_ok] at h
  obtain ⟨s1, hc, ⟨f, s2⟩, h2, h⟩ := h
  obtain ⟨q1, -, v1⟩ := consume_inv' hk hc hw
  obtain ⟨ha, rfl, q2, -, v2⟩ := pArg_sound v1 h2
  dsimp only at h
  split at h
  · cases h
  · cases h
  · rename_i rules hl
    split at h
    · cases h
    · rename_i he
      simp only [bind_ok, pure_ok] at h
      obtain ⟨s3, hc3, h⟩ := h
      cases h
      obtain ⟨v3, se⟩ := stmtEnd_of v2 (by simpa using he) hc3
      exact ⟨v3, s1.cur, s2.toks, by rw [q1, q2], ha, hl, se⟩

theorem wf_eof {s : PSt} (hw : Wf s.toks) (h : s.cur.typ = .eof) : s.toks = [s.cur] := by
  obtain ⟨c, r, q⟩ := s
  cases hw with
  | last _ => rfl
  | cons h1 _ _ => exact absurd h h1

theorem file_of_stmt {L Incl i ts rs us qs rest} {s' : PSt} (hw : Wf s'.toks) (g : Stmt L Incl i ts rs) (se : StmtEnd rest s')
    (hu : us = s'.toks) (g2 : File L Incl (i + 1) us qs) : File L Incl i (ts ++ rest) (rs ++ qs) := by
  subst hu
  rcases se with ⟨nl, hnl, rfl⟩ | ⟨he, rfl⟩
  · exact .line g hnl g2
  · rw [wf_eof hw he] at g2 ⊢
    generalize hx : [s'.cur] = x at g2
    cases g2 with
    | eof h => simpa using File.last g h
    | last gs _ => cases gs with
      | rule gr => cases gr <;> simp at hx
      | incl => simp at hx
    | line gs _ _ => cases gs with
      | rule gr => cases gr <;> simp at hx
      | incl => simp at hx

theorem pFile_sound {E : PEnv} {load : Nat → Str → Except Fail (List Rule)} {n k i : Nat} {rules rules' : List Rule} {s : PSt}
    (hw : Wf s.toks) (h : pFile E load n k i rules s = .ok rules') :
    ∃ rs, rules' = rules ++ rs ∧ File E.lib (fun i f rs => load i f = .ok rs) i s.toks rs := by
  induction k generalizing i rules s with
  | zero => cases h
  | succ k ih =>
    unfold pFile at h
    split at h
    · rename_i hk
      simp only [bind_ok] at h
      obtain ⟨⟨rl, s1⟩, h1, h⟩ := h
      obtain ⟨v1, a, rest, q, ha, hl, se⟩ := pInclude_sound hw hk h1
      obtain ⟨rs, rfl, g⟩ := ih v1 h
      refine ⟨rl ++ rs, by simp, ?_⟩
      rw [q]
      exact file_of_stmt (ts := [s.cur, a]) v1 (.incl hk ha hl) se rfl g
    · rename_i hk
      simp only [bind_ok] at h
      obtain ⟨⟨r, s1⟩, h1, h⟩ := h
      dsimp only at h
      obtain ⟨v1, g1⟩ := pRule_sound hw h1
      split at h
      · rename_i he
        simp only [pure_ok] at h
        subst h
        cases r with
        | none =>
          refine ⟨[], by simp, ?_⟩
          obtain ⟨hs, q⟩ := g1
          rw [← q, wf_eof v1 he]
          exact .eof he
        | some r =>
          obtain ⟨hs, ts, rest, q, g, se⟩ := g1
          refine ⟨[r], by simp, ?_⟩
          rw [q]
          have := file_of_stmt (L := E.lib) (Incl := fun i f rs => load i f = .ok rs) (i := i) v1 (.rule g) se rfl
            (by rw [wf_eof v1 he]; exact .eof he)
          simpa using this
      · rename_i he
        cases r with
        | none =>
          obtain ⟨hs, q⟩ := g1
          have : s1.cur = s.cur := by
            unfold PSt.toks at q; exact (List.cons.inj q).1
          rw [this] at he
          exact absurd hs he
        | some r =>
          obtain ⟨hs, ts, rest, q, g, se⟩ := g1
          obtain ⟨rs, rfl, g2⟩ := ih v1 h
          refine ⟨r :: rs, by simp, ?_⟩
          rw [q]
          exact file_of_stmt (rs := [r]) v1 (.rule g) se rfl g2

end Sink
