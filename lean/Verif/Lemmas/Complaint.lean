import Verif.Lemmas.ParseRule
import Verif.Lemmas.ParseSafe
import Verif.Spec.Complaint

/-!
# Which complaint the parser makes
-/

namespace Sink

open Gram Spec

theorem bind_bad {α β : Type} {x : Except Fail α} {f : α → Except Fail β} {e : Fail} :
    (x >>= f) = .error e ↔ x = .error e ∨ ∃ a, x = .ok a ∧ f a = .error e := by
  cases x <;> simp [bind, Except.bind]

theorem consume_bad {s : PSt} {m : Str} : consume s ≠ .error (.err m) := by
  unfold consume
  split
  · simp
  · simp
  · split <;> simp

/-- The message is a true complaint about one of the words `ts`, which come after the words `p`. -/
def Blames (E : PEnv) (p ts : List Item) (m : Str) : Prop :=
  ∃ d t rest ln lp chr what, ts = d ++ t :: rest ∧ lineInfo E.inp t.pos = .ok (ln, lp) ∧ Complaint E.lib (p ++ d) t chr what ∧
    m = (if chr then atLineChar ln lp else b!"at line " ++ decDigits ln ++ b!": ") ++ what

theorem Blames.shift {E : PEnv} {p d ts : List Item} {m : Str} (h : Blames E (p ++ d) ts m) : Blames E p (d ++ ts) m := by
  obtain ⟨e, t, rest, ln, lp, chr, what, rfl, h1, h2, h3⟩ := h
  exact ⟨d ++ e, t, rest, ln, lp, chr, what, by simp, h1, by simpa using h2, h3⟩

theorem Blames.shift1 {E : PEnv} {p ts : List Item} {d : Item} {m : Str} (h : Blames E (p ++ [d]) ts m) : Blames E p (d :: ts) m := h.shift

theorem blame_gen {E : PEnv} {s : PSt} {p : List Item} {w m : Str} (hw : Wants E.lib p s.cur w) (h : genError E s w = .err m) : Blames E p s.toks m := by
  unfold genError at h
  cases hl : lineInfo E.inp s.cur.pos with
  | error _ => rw [hl] at h; cases h
  | ok q =>
    obtain ⟨ln, lp⟩ := q
    rw [hl] at h
    dsimp only at h
    refine ⟨[], s.cur, s.rest, ln, lp, true, ?_⟩
    split at h <;> rename_i ht <;> cases h
    · exact ⟨_, rfl, hl, by simpa using Complaint.broken hw ht, by simp⟩
    · exact ⟨_, rfl, hl, by simpa using Complaint.wants hw (by simp [ht]), by simp [found, ht]⟩
    · exact ⟨_, rfl, hl, by simpa using Complaint.wants hw (by simp [ht]), by simp [found, ht]⟩
    · rename_i h1 h2
      exact ⟨_, rfl, hl, by simpa using Complaint.wants hw (by simpa using h1), by simp [found, show ¬ s.cur.typ = .eof from h2, show ¬ s.cur.typ = .eol from ht]⟩

theorem blame_pos {E : PEnv} {s : PSt} {p : List Item} {w m : Str} (hw : Objects E.lib p s.cur w) (h : posError E s w = .err m) : Blames E p s.toks m := by
  unfold posError at h
  cases hl : lineInfo E.inp s.cur.pos with
  | error _ => rw [hl] at h; cases h
  | ok q =>
    rw [hl] at h
    cases h
    exact ⟨[], s.cur, s.rest, q.1, q.2, true, w, rfl, hl, by simpa using Complaint.says hw, rfl⟩

theorem blame_line {E : PEnv} {s : PSt} {p : List Item} {w m : Str} (hw : OfRule E.lib p s.cur w) (h : lineError E s w = .err m) : Blames E p s.toks m := by
  unfold lineError at h
  cases hl : lineInfo E.inp s.cur.pos with
  | error _ => rw [hl] at h; cases h
  | ok q =>
    rw [hl] at h
    cases h
    exact ⟨[], s.cur, s.rest, q.1, q.2, false, w, rfl, hl, by simpa using Complaint.ofRule hw, rfl⟩

variable {E : PEnv}

theorem err_inj {e : Fail} {α : Type} {m : Str} (h : (Except.error e : Except Fail α) = .error (.err m)) : e = .err m := by injection h

theorem pArg_blame {s : PSt} {m : Str} {p : List Item} {k : Item} {w : Kw} (hk : k.typ = .kw w) (ht : TakesArg w)
    (h : pArg E s = .error (.err m)) : Blames E (p ++ [k]) s.toks m := by
  unfold pArg at h
  split at h
  · replace h := bind_bad.1 h
    rcases h with h | ⟨a, -, h⟩
    · exact absurd h consume_bad
    · cases h
  · rename_i hv
    refine blame_gen (.argument hk ht fun ha => hv ?_) (err_inj h)
    exact (hasValue_iff _).2 ha

theorem pDomain_blame {s : PSt} {m : Str} {p q : List Item} (hq : DomainNext q) (h : pDomain E s = .error (.err m)) : Blames E (p ++ q) s.toks m := by
  unfold pDomain at h
  split at h
  · rename_i hv
    exact blame_gen (.domain hq hv) (err_inj h)
  · rename_i hv
    dsimp only at h
    split at h
    · rename_i hi
      refine blame_pos (.noDot hq (not_not.1 hv) fun hm => ?_) (err_inj h)
      have := indexByte_isSome.2 hm
      rw [hi] at this; cases this
    · split at h
      · cases h
      · replace h := bind_bad.1 h
        rcases h with h | ⟨a, -, h⟩
        · exact absurd h consume_bad
        · cases h

theorem pIPArg_blame {s : PSt} {m : Str} {p : List Item} {k : Item} (hk : k.typ = .kw .ip) (h : pIPArg E s = .error (.err m)) :
    Blames E (p ++ [k]) s.toks m := by
  unfold pIPArg at h
  split at h
  · replace h := bind_bad.1 h
    rcases h with h | ⟨a, -, h⟩
    · exact absurd h consume_bad
    · cases h
  · rename_i ht
    split at h
    · rename_i hn
      refine blame_gen (.ip hk ht fun hi => ?_) (err_inj h)
      rcases hi with hi | ⟨-, hi⟩
      · rw [ht] at hi; cases hi
      · rcases hi with hi | hi
        · rw [Option.isNone_iff_eq_none] at hn; rw [Option.isNone_iff_eq_none] at hn; rw [hn.2] at hi; cases hi
        · rw [Option.isNone_iff_eq_none] at hn; rw [hn.1] at hi; cases hi
    · replace h := bind_bad.1 h
      rcases h with h | ⟨a, -, h⟩
      · exact absurd h consume_bad
      · cases h
  · rename_i h1 h2
    exact blame_gen (.ipWord hk (by simpa using h2) (by simpa using h1)) (err_inj h)

theorem pOnOff_blame {s : PSt} {m : Str} {p : List Item} {k : Item} (hk : k.typ = .kw .tls) (h : pOnOff E s = .error (.err m)) :
    Blames E (p ++ [k]) s.toks m := by
  unfold pOnOff at h
  split at h
  · replace h := bind_bad.1 h
    rcases h with h | ⟨a, -, h⟩
    · exact absurd h consume_bad
    · cases h
  · replace h := bind_bad.1 h
    rcases h with h | ⟨a, -, h⟩
    · exact absurd h consume_bad
    · cases h
  · rename_i h1 h2
    exact blame_pos (.onOff hk (by simpa using h1) (by simpa using h2)) (err_inj h)

theorem Gram.Opts.join {c ts o cm us o'} (h : Gram.Opts c ts o) (hc : cm.typ = .comma) (h' : Gram.Opts c us o') :
    ∃ o'', Gram.Opts c (ts ++ cm :: us) o'' := by
  induction h with
  | one h1 h2 => exact ⟨_, .more h1 h2 hc h'⟩
  | more h1 h2 h3 _ ih =>
    obtain ⟨o'', ih⟩ := ih
    exact ⟨_, .more h1 h2 h3 ih⟩

theorem isOpt_iff {c : OptClass} {t : Item} : optFor (mapOf c) t.typ ≠ oZero ↔ IsOpt c t := by
  unfold IsOpt optFor
  cases ht : t.typ with
  | kw k =>
    simp only [Tok.kw.injEq, mapOf_spec]
    constructor
    · intro h; exact ⟨k, mapOf c k, rfl, by rw [if_neg h]⟩
    · rintro ⟨k', o, rfl, h⟩ h0
      rw [if_pos h0] at h; cases h
  | _ => simp

theorem pCommaOpts_blame {c : OptClass} {k : Item} {w : Kw} (hk : k.typ = .kw w) (ht : TakesOpts w c) {m : Str} {p : List Item} :
    ∀ {n : Nat} {o0 : Sink.Opts} {s : PSt} {q : List Item}, Wf s.toks → (q = [k] ∨ ∃ ts o cm, q = k :: (ts ++ [cm]) ∧ Gram.Opts c ts o ∧ cm.typ = .comma) →
    pCommaOpts E (mapOf c) n o0 s = .error (.err m) → Blames E (p ++ q) s.toks m := by
  intro n
  induction n with
  | zero => intro o0 s q hw hq h; cases h
  | succ n ih =>
    intro o0 s q hw hq h
    simp only [pCommaOpts] at h
    split at h
    · rename_i ho
      refine blame_gen ?_ (err_inj h)
      have hn : ¬ IsOpt c s.cur := fun hi => isOpt_iff.2 hi ho
      rcases hq with rfl | ⟨ts, o, cm, rfl, h1, h2⟩
      · exact .option hk ht hn
      · exact .nextOption hk ht h1 h2 hn
    · rename_i ho
      obtain ⟨k', o', hk', ho'⟩ := isOpt_iff.1 ho
      replace h := bind_bad.1 h
      rcases h with h | ⟨s1, h1, h⟩
      · exact absurd h consume_bad
      · obtain ⟨q1, -, v1⟩ := consume_inv' hk' h1 hw
        split at h
        · rename_i hc
          replace h := bind_bad.1 h
          rcases h with h | ⟨s2, h2, h⟩
          · exact absurd h consume_bad
          · obtain ⟨q2, -, v2⟩ := consume_inv' hc h2 v1
            rw [q1, q2]
            refine Blames.shift (d := [s.cur, s1.cur]) ?_
            rw [List.append_assoc]
            refine ih v2 (.inr ?_) h
            rcases hq with rfl | ⟨ts, o, cm, rfl, g1, g2⟩
            · exact ⟨[s.cur], o', s1.cur, rfl, .one hk' ho', hc⟩
            · obtain ⟨o'', g⟩ := g1.join g2 (.one hk' ho')
              exact ⟨ts ++ cm :: [s.cur], o'', s1.cur, by simp, g, hc⟩
        · cases h

theorem pAtom_blame {s : PSt} {n : Nat} {m : Str} {p : List Item} (hw : Wf s.toks) (h : pAtom E n s = .error (.err m)) : Blames E p s.toks m := by
  unfold pAtom at h
  split at h
  case h_2 => cases h
  rename_i k hk
  dsimp only at h
  have hk' : (bump s (minReq k)).cur.typ = .kw k := by simpa using hk
  have hw' : Wf (bump s (minReq k)).toks := by simpa using hw
  rw [← bump_toks s (minReq k)]
  generalize bump s (minReq k) = s at h hk' hw'
  have cons : ∀ {f : PSt → Except Fail (Option Expr × PSt)}, (consume s >>= f) = .error (.err m) →
      ∃ s1, s.toks = s.cur :: s1.toks ∧ Wf s1.toks ∧ f s1 = .error (.err m) := by
    intro f h
    replace h := bind_bad.1 h
    rcases h with h | ⟨s1, h1, h⟩
    · exact absurd h consume_bad
    · obtain ⟨q1, -, v1⟩ := consume_inv' hk' h1 hw'
      exact ⟨s1, q1, v1, h⟩
  have arg : ∀ {mk}, TakesArg k → pArgTerm E mk s = .error (.err m) → Blames E p s.toks m := by
    intro mk ht h
    obtain ⟨s1, q1, v1, h⟩ := cons h
    rw [q1]
    replace h := bind_bad.1 h
    rcases h with h | ⟨a, -, h⟩
    · exact Blames.shift1 (pArg_blame hk' ht h)
    · cases h
  have opt : ∀ {c ok}, TakesOpts k c → pOptTerm E n (mapOf c) ok s = .error (.err m) → Blames E p s.toks m := by
    intro c ok ht h
    obtain ⟨s1, q1, v1, h⟩ := cons h
    rw [q1]
    replace h := bind_bad.1 h
    rcases h with h | ⟨a, -, h⟩
    · exact Blames.shift1 (pCommaOpts_blame hk' ht v1 (.inl rfl) h)
    · cases h
  cases k <;> dsimp only at h <;> first
    | cases h
    | exact arg (.op .from_) h
    | exact arg (.op .to) h
    | exact arg (.op .helo) h
    | exact arg (.op .ehlo) h
    | exact arg (.op .host) h
    | exact arg (.op .source) h
    | exact opt (c := .addr) (.has .fromHas) h
    | exact opt (c := .addr) (.has .toHas) h
    | exact opt (c := .dns) (.has .dns) h
    | exact opt (c := .helo) (.has .heloHas) h
    | skip
  all_goals
    obtain ⟨s1, q1, v1, h⟩ := cons h
    rw [q1]
  all_goals first
    | cases h
    | skip
  all_goals
    replace h := bind_bad.1 h
    rcases h with h | ⟨a, -, h⟩
  all_goals first
    | cases h
    | exact Blames.shift1 (pIPArg_blame hk' h)
    | exact Blames.shift1 (pDomain_blame (.dnsbl hk') h)
    | exact Blames.shift1 (pOnOff_blame hk' h)
    | skip
  unfold pDblArgs at h
  replace h := bind_bad.1 h
  rcases h with h | ⟨⟨o, s2⟩, h2, h⟩
  · exact Blames.shift1 (pCommaOpts_blame hk' .dbl v1 (.inl rfl) h)
  · obtain ⟨ts, o1, q2, g, -⟩ := pCommaOpts_sound (c := .dbl) v1 h2
    replace h := bind_bad.1 h
    rcases h with h | ⟨a, -, h⟩
    · rw [q2]
      exact Blames.shift (d := s.cur :: ts) (pDomain_blame (.dbl hk' g) h)
    · cases h

/-! ## Expressions -/

theorem not_begins {t : Item} (h : termStart t.typ = false) : ¬ Begins t := by
  rintro ⟨L, it, ts, e, ht, g⟩
  rw [← ht] at h
  generalize hx : it :: ts = x at g
  cases g <;> simp only [List.cons.injEq] at hx <;> obtain ⟨rfl, -⟩ := hx
  case arg ho ha hk => rw [hk] at h; cases ho <;> cases h
  case has ho ha hk => rw [hk] at h; cases ho <;> cases h
  case ip _ hk => rw [hk] at h; cases h
  case dnsbl _ hk => rw [hk] at h; cases h
  case tlsOn _ hk => rw [hk] at h; cases h
  case tlsOff _ hk => rw [hk] at h; cases h
  case all hk => rw [hk] at h; cases h
  case dbl _ _ hk => rw [hk] at h; cases h
  case not_ _ hk => rw [hk] at h; cases h
  case paren _ _ hk => rw [hk] at h; cases h

/-- An `or` here has nothing to its left. -/
def NoLeft (L : Lib) (p : List Item) : Prop := ∀ t : Item, t.typ = .kw .or → Objects L p t b!"empty left side of an or"

theorem mkAnd_none {es : List Expr} (h : none = mkAnd es) : es = [] := by
  match es, h with
  | [], _ => rfl
  | [_], h => cases h
  | _ :: _ :: _, h => cases h

theorem isERule_iff {s : PSt} : isERule s = true ↔ EndsClause s.cur := by
  unfold isERule isEol EndsClause EndsStmt
  simp

theorem isEol_iff {s : PSt} : isEol s = true ↔ EndsStmt s.cur := by
  unfold isEol EndsStmt
  simp

theorem pExpr_blame (E : PEnv) {m : Str} : ∀ n,
    (∀ s p, Wf s.toks → pTerm E n s = .error (.err m) → Blames E p s.toks m) ∧
    (∀ s p, Wf s.toks → (s.cur.typ = .kw .or → NoLeft E.lib p) → pOrl E n s = .error (.err m) → Blames E p s.toks m) ∧
    (∀ acc s p, Wf s.toks → (s.cur.typ = .kw .or → NoLeft E.lib p) → pAndl E n acc s = .error (.err m) → Blames E p s.toks m) := by
  intro n
  induction n with
  | zero => refine ⟨?_, ?_, ?_⟩ <;> intros <;> rename_i h <;> simp [pTerm, pOrl, pAndl] at h
  | succ n ih =>
    obtain ⟨ihT, ihO, ihA⟩ := ih
    obtain ⟨soT, soO, soA⟩ := parse_sound E n
    refine ⟨?_, ?_, ?_⟩
    · intro s p hw h
      simp only [pTerm] at h
      split at h
      · rename_i hk
        unfold pNot at h
        replace h := bind_bad.1 h
        rcases h with h | ⟨s1, h1, h⟩
        · exact absurd h consume_bad
        obtain ⟨q1, -, v1⟩ := consume_inv' hk h1 hw
        rw [q1]
        refine Blames.shift1 ?_
        replace h := bind_bad.1 h
        rcases h with h | ⟨⟨e, s2⟩, h2, h⟩
        · exact ihT _ _ v1 h
        obtain ⟨v2, hr⟩ := soT _ _ _ v1 h2
        cases e with
        | none =>
          obtain ⟨rfl, hb⟩ := hr
          exact blame_gen (.not_ hk (not_begins hb)) (err_inj h)
        | some e => cases h
      · rename_i hk
        unfold pParen at h
        replace h := bind_bad.1 h
        rcases h with h | ⟨s1, h1, h⟩
        · exact absurd h consume_bad
        obtain ⟨q1, -, v1⟩ := consume_inv' hk h1 hw
        rw [q1]
        replace h := bind_bad.1 h
        rcases h with h | ⟨⟨e, s2⟩, h2, h⟩
        · exact Blames.shift1 (ihA _ _ _ v1 (fun _ t ht => .emptyLeft (.inl hk) ht) h)
        obtain ⟨⟨v2, es, ts, q2, hes, he, -, hb, hsame⟩, hor⟩ := soA _ _ _ _ v1 h2
        dsimp only at h
        split at h
        · rename_i hr
          rw [q2]
          refine Blames.shift (d := s.cur :: ts) (blame_gen (.close hk ?_ hr (not_begins hb) hor) (err_inj h))
          rcases hes with ⟨-, h⟩ | h
          · exact .inl h
          · exact .inr ⟨es, h⟩
        · rename_i hr
          cases e with
          | none =>
            have := mkAnd_none he
            have hs := hsame (by simpa using this)
            subst hs
            exact Blames.shift1 (blame_pos (.emptyParen hk (not_not.1 hr)) (err_inj h))
          | some e =>
            dsimp only at h
            replace h := bind_bad.1 h
            rcases h with h | ⟨s3, h3, h⟩
            · exact absurd h consume_bad
            · cases h
      · exact pAtom_blame hw h
    · intro s p hw hl h
      simp only [pOrl] at h
      replace h := bind_bad.1 h
      rcases h with h | ⟨⟨l, s1⟩, h1, h⟩
      · exact ihT _ _ hw h
      obtain ⟨v1, hr⟩ := soT _ _ _ hw h1
      dsimp only at h
      split at h
      · cases h
      · rename_i ho
        have ho := not_not.1 ho
        cases l with
        | none =>
          obtain ⟨rfl, -⟩ := hr
          exact blame_pos (hl ho _ ho) (err_inj h)
        | some l =>
          obtain ⟨ts, q1, -, -⟩ := hr
          dsimp only at h
          replace h := bind_bad.1 h
          rcases h with h | ⟨s2, h2, h⟩
          · exact absurd h consume_bad
          obtain ⟨q2, -, v2⟩ := consume_inv' ho h2 v1
          rw [q1, q2]
          refine Blames.shift (d := ts) (Blames.shift1 ?_)
          replace h := bind_bad.1 h
          rcases h with h | ⟨⟨r, s3⟩, h3, h⟩
          · exact ihO _ _ v2 (fun _ t ht => .emptyLeft (.inr ho) ht) h
          obtain ⟨⟨v3, hr3⟩, hor⟩ := soO _ _ _ v2 h3
          cases r with
          | none =>
            obtain ⟨rfl, hb⟩ := hr3
            dsimp only at h
            split at h
            · rename_i he
              refine blame_pos (.emptyRight ho ?_) (err_inj h)
              rwa [isERule_iff] at he
            · rename_i he
              rw [isERule_iff] at he
              exact blame_gen (.operation ho (not_begins hb) (fun h => he (.inl h)) (fun h => he (.inr h)) hor) (err_inj h)
          | some r => cases h
    · intro acc s p hw hl h
      simp only [pAndl] at h
      replace h := bind_bad.1 h
      rcases h with h | ⟨⟨e, s1⟩, h1, h⟩
      · exact ihO _ _ hw hl h
      obtain ⟨⟨v1, hr⟩, hor⟩ := soO _ _ _ hw h1
      cases e with
      | none => cases h
      | some e =>
        obtain ⟨ts, q1, -, -⟩ := hr
        rw [q1]
        exact Blames.shift (ihA _ _ _ v1 (fun h => absurd h hor) h)

/-! ## With options -/

theorem Gram.WTerms.trans {w us w1 vs w2} (h : WTerms w us w1) (h2 : WTerms w1 vs w2) : WTerms w (us ++ vs) w2 := by
  induction h with
  | nil => exact h2
  | message a b c _ ih => exact .message a b c (ih h2)
  | note a b c d _ ih => exact .note a b c d (ih h2)
  | savedir a b c _ ih => exact .savedir a b c (ih h2)
  | tlsOpt a b c d _ ih => exact .tlsOpt a b c d (ih h2)
  | makeYakker a b _ ih => exact .makeYakker a b (ih h2)

theorem pArg_inv {s : PSt} {α : Type} {m : Str} {f : Str × PSt → Except Fail α} {k : Item} {w : Kw} {p : List Item} (hk : k.typ = .kw w) (ht : TakesArg w)
    (hw : Wf s.toks) (h : (pArg E s >>= f) = .error (.err m)) :
    Blames E (p ++ [k]) s.toks m ∨ ∃ s1, IsArg s.cur ∧ s.toks = s.cur :: s1.toks ∧ Wf s1.toks ∧ f (s.cur.val, s1) = .error (.err m) := by
  replace h := bind_bad.1 h
  rcases h with h | ⟨⟨a, s1⟩, h1, h⟩
  · exact .inl (pArg_blame hk ht h)
  · obtain ⟨ha, rfl, q, -, v⟩ := pArg_sound hw h1
    exact .inr ⟨s1, ha, q, v, h⟩

theorem pWClause_blame {m : Str} {p : List Item} {wi : Item} (hwi : wi.typ = .kw .with_) :
    ∀ {n : Nat} {w : Withs} {got : Bool} {s : PSt} {us : List Item}, Wf s.toks → WTerms {} us w →
    pWClause E n w got s = .error (.err m) → Blames E (p ++ wi :: us) s.toks m := by
  intro n
  induction n with
  | zero => intro w got s us hw hu h; cases h
  | succ n ih =>
    intro w got s us hw hu h
    have rep : ∀ {r : Fail}, posError E s (b!"repeated '" ++ s.cur.val ++ b!"' option in with clause") = r → Given w s.cur → r = .err m →
        Blames E (p ++ wi :: us) s.toks m := by
      intro r hr hg h
      exact blame_pos (.repeated hwi hu hg) (hr.trans h)
    have cons : ∀ {T : Kw} {f : PSt → Except Fail ((Withs × Bool) × PSt)}, s.cur.typ = .kw T → (consume s >>= f) = .error (.err m) →
        ∃ s1, s.toks = s.cur :: s1.toks ∧ Wf s1.toks ∧ f s1 = .error (.err m) := by
      intro T f hT h
      replace h := bind_bad.1 h
      rcases h with h | ⟨s1, h1, h⟩
      · exact absurd h consume_bad
      · obtain ⟨q1, -, v1⟩ := consume_inv' hT h1 hw
        exact ⟨s1, q1, v1, h⟩
    have nx : ∀ {w' : Withs} {s2 : PSt} {vs : List Item}, WTerms w vs w' → s.toks = vs ++ s2.toks → Wf s2.toks → ∀ {g},
        pWClause E n w' g s2 = .error (.err m) → Blames E (p ++ wi :: us) s.toks m := by
      intro w' s2 vs hv q v g h
      rw [q]
      refine Blames.shift ?_
      have := ih (us := us ++ vs) v (hu.trans hv) h
      simpa using this
    simp only [pWClause] at h
    split at h
    · rename_i hk
      split at h
      · rename_i hr
        refine rep rfl (.inl ⟨hk, ?_⟩) (err_inj h)
        cases hm : w.message with
        | none => rw [hm] at hr; exact absurd rfl hr
        | some x => rw [hm] at hr; exact ⟨x, rfl, hr⟩
      · rename_i hr
        obtain ⟨s1, q1, v1, h⟩ := cons hk h
        rcases pArg_inv (p := p ++ wi :: us) hk .message v1 h with hb | ⟨s2, ha, q2, v2, h⟩
        · rw [q1]; exact Blames.shift1 hb
        · exact nx (.message hk (getD_nil.1 hr) ha .nil) (by rw [q1, q2]; rfl) v2 h
    · rename_i hk
      split at h
      · rename_i hr
        refine rep rfl (.inr (.inl ⟨hk, ?_⟩)) (err_inj h)
        cases hm : w.note with
        | none => rw [hm] at hr; exact absurd rfl hr
        | some x => rw [hm] at hr; exact ⟨x, rfl, hr⟩
      · rename_i hr
        obtain ⟨s1, q1, v1, h⟩ := cons hk h
        rcases pArg_inv (p := p ++ wi :: us) hk .note v1 h with hb | ⟨s2, ha, q2, v2, h⟩
        · rw [q1]; exact Blames.shift1 hb
        · dsimp only at h
          split at h
          · rename_i hn
            rw [q1, q2]
            refine Blames.shift (d := [s.cur, s1.cur]) (blame_pos (.newline hk ha (indexByte_isSome.1 hn)) (err_inj h))
          · rename_i hn
            exact nx (.note hk (getD_nil.1 hr) ha (fun hm => hn (indexByte_isSome.2 hm)) .nil) (by rw [q1, q2]; rfl) v2 h
    · rename_i hk
      split at h
      · rename_i hr
        refine rep rfl (.inr (.inr (.inl ⟨hk, ?_⟩))) (err_inj h)
        cases hm : w.savedir with
        | none => rw [hm] at hr; exact absurd rfl hr
        | some x => rw [hm] at hr; exact ⟨x, rfl, hr⟩
      · rename_i hr
        obtain ⟨s1, q1, v1, h⟩ := cons hk h
        rcases pArg_inv (p := p ++ wi :: us) hk .savedir v1 h with hb | ⟨s2, ha, q2, v2, h⟩
        · rw [q1]; exact Blames.shift1 hb
        · exact nx (.savedir hk (getD_nil.1 hr) ha .nil) (by rw [q1, q2]; rfl) v2 h
    · rename_i hk
      split at h
      · rename_i hr
        exact rep rfl (.inr (.inr (.inr (.inl ⟨hk, Option.isSome_iff_exists.1 hr⟩)))) (err_inj h)
      · rename_i hr
        obtain ⟨s1, q1, v1, h⟩ := cons hk h
        split at h
        · cases h
        · rename_i hp
          rw [q1]
          refine Blames.shift1 (blame_pos (.noTlsOpt hk fun ha => ?_) (err_inj h))
          unfold pArg at hp
          rw [if_pos ((hasValue_iff _).2 ha)] at hp
          rcases bind_bad.1 hp with hp | ⟨_, -, hp⟩
          · exact absurd hp consume_bad
          · cases hp
        · rename_i a s2 hp
          obtain ⟨ha, rfl, q2, -, v2⟩ := pArg_sound v1 hp
          split at h
          · rename_i hn
            rw [q1, q2]
            exact Blames.shift (d := [s.cur, s1.cur]) (blame_pos (.tlsOpt hk ha hn.1 hn.2) (err_inj h))
          · rename_i hn
            refine nx (.tlsOpt hk (by simpa using hr) ha ?_ .nil) (by rw [q1, q2]; rfl) v2 h
            by_cases h0 : s1.cur.val = b!"off"
            · exact .inl h0
            · exact .inr (not_not.1 fun h1 => hn ⟨h0, h1⟩)
    · rename_i hk
      split at h
      · rename_i hr
        exact rep rfl (.inr (.inr (.inr (.inr ⟨hk, Option.isSome_iff_exists.1 hr⟩)))) (err_inj h)
      · rename_i hr
        obtain ⟨s1, q1, v1, h⟩ := cons hk h
        exact nx (.makeYakker hk (by simpa using hr) .nil) (by rw [q1]; rfl) v1 h
    · cases h

theorem pWClause_stops : ∀ {n : Nat} {w : Withs} {got : Bool} {s : PSt} {x s'}, pWClause E n w got s = .ok (x, s') → ¬ WithWord s'.cur := by
  intro n
  induction n with
  | zero => intro w got s x s' h; cases h
  | succ n ih =>
    intro w got s x s' h
    simp only [pWClause] at h
    split at h
    case h_6 =>
      rename_i h1 h2 h3 h4 h5
      cases h
      unfold WithWord
      simp only [List.mem_cons, List.not_mem_nil, or_false]
      rintro (h | h | h | h | h)
      · exact h1 h
      · exact h2 h
      · exact h3 h
      · exact h4 h
      · exact h5 h
    all_goals
      split at h
      · cases h
    case h_5 =>
      obtain ⟨_, -, h⟩ := bind_ok.1 h
      exact ih h
    case h_4 =>
      obtain ⟨_, -, h⟩ := bind_ok.1 h
      split at h
      · cases h
      · cases h
      · split at h
        · cases h
        · exact ih h
    all_goals
      obtain ⟨_, -, h⟩ := bind_ok.1 h
      obtain ⟨_, -, h⟩ := bind_ok.1 h
      first
      | exact ih h
      | (split at h
         · cases h
         · exact ih h)

theorem pWith_blame {n : Nat} {s : PSt} {m : Str} {p : List Item} (hw : Wf s.toks) (h : pWith E n s = .error (.err m)) : Blames E p s.toks m := by
  unfold pWith at h
  split at h
  · cases h
  · rename_i hk
    have hk := not_not.1 hk
    replace h := bind_bad.1 h
    rcases h with h | ⟨s1, h1, h⟩
    · exact absurd h consume_bad
    obtain ⟨q1, -, v1⟩ := consume_inv' hk h1 hw
    rw [q1]
    refine Blames.shift1 ?_
    replace h := bind_bad.1 h
    rcases h with h | ⟨⟨⟨w, good⟩, s2⟩, h2, h⟩
    · exact pWClause_blame hk v1 .nil h
    obtain ⟨v2, -, ts, q2, g, hg⟩ := pWClause_sound v1 h2
    dsimp only at h
    rw [q2]
    split at h
    · rename_i he
      have : ts = [] := by
        by_contra hne
        have := hg.2 (.inr hne)
        rw [this] at he; simp at he
      subst this
      exact Blames.shift (d := []) (by simpa using blame_pos (.emptyWith hk (isERule_iff.1 he.1)) (err_inj h))
    · split at h
      · rename_i he
        refine Blames.shift ?_
        rw [List.append_assoc]
        refine blame_gen (.withOption hk g (pWClause_stops h2) fun hc => ?_) (err_inj h)
        rw [isERule_iff.2 hc] at he; simp at he
      · cases h

/-! ## Rules -/

theorem Gram.Andl.some {es : List Expr} {e : Expr} (h : some e = mkAnd es) : es ≠ [] ∧ e = conj es := by
  match es, h with
  | [_], h => cases h; exact ⟨by simp, rfl⟩
  | _ :: _ :: _, h => cases h; exact ⟨by simp, rfl⟩

theorem pRClause_blame {act : Action} {n : Nat} {m : Str} : ∀ {k : Nat} {cls : List RClause} {s : PSt} {p : List Item}, Wf s.toks → Opening E.lib act p →
    pRClause E act n k cls s = .error (.err m) → Blames E p s.toks m := by
  intro k
  induction k with
  | zero => intro cls s p hw ho h; cases h
  | succ k ih =>
    intro cls s p hw ho h
    simp only [pRClause] at h
    replace h := bind_bad.1 h
    rcases h with h | ⟨⟨e, s1⟩, h1, h⟩
    · exact (pExpr_blame E n).2.2 _ _ _ hw (fun _ t ht => .emptyLeftFirst ho ht) h
    obtain ⟨⟨v1, es, ts, q1, hes, he, -, hb, -⟩, hor⟩ := (parse_sound E n).2.2 _ _ _ _ hw h1
    rw [q1]
    refine Blames.shift ?_
    replace h := bind_bad.1 h
    rcases h with h | ⟨⟨w, s2⟩, h2, h⟩
    · exact pWith_blame v1 h
    obtain ⟨v2, -, hwith⟩ := pWith_sound v1 h2
    dsimp only at h
    split at h
    · rename_i hx
      rcases hwith with ⟨rfl, -, hnw⟩ | ⟨hx', -⟩
      · refine blame_gen (.endOfClause ho ?_ (not_begins hb) hor hnw fun hc => ?_) (err_inj h)
        · rcases hes with ⟨-, h⟩ | h
          · exact .inl h
          · exact .inr ⟨es, h⟩
        · rw [isERule_iff.2 hc] at hx; simp at hx
      · rw [hx'] at hx; simp at hx
    · rename_i hx
      have hx : EndsClause s2.cur := isERule_iff.1 (by simpa using hx)
      cases e with
      | none =>
        have hes0 : es = [] := by simpa using mkAnd_none he
        have hts : ts = [] := by
          rcases hes with ⟨-, h⟩ | h
          · exact h
          · exact absurd hes0 h.ne_nil
        subst hts
        rw [List.append_nil]
        rcases hwith with ⟨rfl, -, hnw⟩ | ⟨-, wi, us, hwi, hus, q2, g⟩
        · have := blame_line (.noOperation ho (.inl rfl) hx) (err_inj h)
          simpa using this
        · rw [q2]
          exact Blames.shift (blame_line (.noOperation ho (.inr ⟨wi, us, w, rfl, hwi, hus, g⟩) hx) (err_inj h))
      | some e =>
        obtain ⟨hne, rfl⟩ := Gram.Andl.some he
        have hand : Andl E.lib ts es := by
          rcases hes with ⟨h0, -⟩ | h
          · exact absurd (by simpa using h0) hne
          · exact h
        have hcl : ∃ ws, s1.toks = ws ++ s2.toks ∧ Clause E.lib (ts ++ ws) ⟨conj es, w⟩ ∧ (w = {} → ws = []) := by
          rcases hwith with ⟨rfl, rfl, -⟩ | ⟨-, wi, us, hwi, hus, q2, g⟩
          · exact ⟨[], rfl, by simpa using Clause.plain hand, fun _ => rfl⟩
          · exact ⟨wi :: us, q2, .withs hand hwi hus g, fun h0 => absurd h0 (g.nonempty_aux (.inr hus))⟩
        obtain ⟨ws, q2, hcl, hemp⟩ := hcl
        rw [q2]
        refine Blames.shift ?_
        dsimp only at h
        split at h
        · rename_i hs
          obtain ⟨rfl, hwe⟩ := hs
          have : w = {} := by
            obtain ⟨a, b, c, d, f⟩ := w
            simp [Withs.isEmpty] at hwe
            simp [hwe]
          rw [hemp this, List.append_nil]
          exact blame_line (.noWith ho hand hx) (err_inj h)
        · rename_i hs
          have hset : act = .noresult → w ≠ {} := by
            rintro rfl rfl
            exact hs ⟨rfl, rfl⟩
          split at h
          · cases h
          · rename_i hn
            have hsc : s2.cur.typ = .semicolon := by
              rcases hx with hx | hx
              · exact absurd (isEol_iff.2 hx) hn
              · exact hx
            replace h := bind_bad.1 h
            rcases h with h | ⟨s3, h3, h⟩
            · exact absurd h consume_bad
            obtain ⟨q3, -, v3⟩ := consume_inv' hsc h3 v2
            split at h
            · rename_i hnl
              replace h := bind_bad.1 h
              rcases h with h | ⟨s4, h4, h⟩
              · exact absurd h consume_bad
              obtain ⟨q4, -, v4⟩ := consume_inv' hnl h4 v3
              rw [q3, q4]
              refine Blames.shift (d := [s2.cur, s3.cur]) (ih v4 ?_ h)
              have := Opening.semiNl ho hcl hset hsc hnl
              simpa using this
            · rw [q3]
              refine Blames.shift1 (ih v3 ?_ h)
              have := Opening.semi ho hcl hset hsc
              simpa using this

theorem no_action {t : Item} (h : actionOf t.typ = .error) : ∀ k a, t.typ = .kw k → ¬ ActionWord k a := by
  intro k a hk ha
  rw [hk] at h
  cases ha <;> cases h

theorem no_phase {t : Item} (h : ¬ phaseOf t.typ ≠ .any) : ∀ k ph, t.typ = .kw k → ¬ PhaseWord k ph := by
  intro k a hk ha
  rw [hk] at h
  cases ha <;> exact h (by decide)

theorem pRule_blame {n : Nat} {s : PSt} {m : Str} (hw : Wf s.toks) (hi : s.cur.typ ≠ .kw .include_) (h : pRule E n s = .error (.err m)) : Blames E [] s.toks m := by
  unfold pRule at h
  dsimp only at h
  split at h
  · cases h
  · rename_i hne
    replace h := bind_bad.1 h
    rcases h with h | ⟨⟨dt, s1⟩, h1, h⟩
    · unfold pPhase at h
      split at h
      · replace h := bind_bad.1 h
        rcases h with h | ⟨_, -, h⟩
        · exact absurd h consume_bad
        · cases h
      · cases h
    have hp : Wf s1.toks ∧ s1.req = .any ∧ ((dt = .any ∧ s1.toks = s.toks ∧ ∀ k ph, s1.cur.typ = .kw k → ¬ PhaseWord k ph) ∨
        ∃ pk, s.cur.typ = .kw pk ∧ PhaseWord pk dt ∧ s.toks = s.cur :: s1.toks) := by
      unfold pPhase at h1
      split at h1
      · rename_i hpp
        simp only [bind_ok, pure_ok] at h1
        obtain ⟨s1', hc1, h1⟩ := h1
        cases h1
        obtain ⟨pk, hpk, hpw⟩ := phaseOf_ne hpp
        obtain ⟨q, r, v⟩ := consume_inv' (s := { s with req := .any }) hpk hc1 hw
        exact ⟨v, r, .inr ⟨pk, hpk, hpw, q⟩⟩
      · rename_i hpp
        cases h1
        exact ⟨hw, rfl, .inl ⟨rfl, rfl, no_phase hpp⟩⟩
    obtain ⟨v1, r1, hp⟩ := hp
    dsimp only at h
    split at h
    · rename_i hact
      rcases hp with ⟨-, q, hnp⟩ | ⟨pk, hpk, hpw, q⟩
      · have hc : s1.cur = s.cur := by unfold PSt.toks at q; exact (List.cons.inj q).1
        rw [← q]
        exact blame_gen (.statement (no_action hact) hnp (by rw [hc]; exact hi) (by rw [hc]; exact hne)) (err_inj h)
      · rw [q]
        exact Blames.shift1 (blame_gen (.action hpk hpw (no_action hact)) (err_inj h))
    · rename_i hact
      obtain ⟨ak, hak, haw⟩ := actionOf_ne hact
      replace h := bind_bad.1 h
      rcases h with h | ⟨s2, h2, h⟩
      · exact absurd h consume_bad
      obtain ⟨q2, r2, v2⟩ := consume_inv' hak h2 v1
      replace h := bind_bad.1 h
      rcases h with h | ⟨⟨cls, s3⟩, h3, h⟩
      · rcases hp with ⟨-, q, -⟩ | ⟨pk, hpk, hpw, q⟩
        · rw [← q, q2]
          exact Blames.shift1 (pRClause_blame v2 (.plain hak haw) h)
        · rw [q, q2]
          exact Blames.shift (d := [s.cur, s1.cur]) (pRClause_blame v2 (.phased hpk hpw hak haw) h)
      obtain ⟨v3, he3, cs, ts, rfl, q3, g3, r3⟩ := pRClause_sound v2 h3
      rw [r2, r1, any_later] at r3
      dsimp only at h
      split at h
      · rename_i hlt
        rcases hp with ⟨rfl, -⟩ | ⟨pk, hpk, hpw, q⟩
        · exact absurd rfl hlt.1
        · rw [q, q2, q3]
          refine Blames.shift (d := s.cur :: s1.cur :: ts) (blame_line (.early hpk hpw hak haw g3 ?_ (isEol_iff.1 he3)) (err_inj h))
          rw [← r3]; exact hlt.2
      · replace h := bind_bad.1 h
        rcases h with h | ⟨_, -, h⟩
        · exact absurd h consume_bad
        · cases h

/-- The complaint is about a file that cannot be included. -/
def BlamesFile (E : PEnv) (load : Str → Except Fail (List Rule)) (ts : List Item) (m : Str) : Prop :=
  ∃ inc a t rest ln lp why, ts = inc :: a :: t :: rest ∧ inc.typ = .kw .include_ ∧ IsArg a ∧ load a.val = .error (.err why) ∧
    lineInfo E.inp t.pos = .ok (ln, lp) ∧ m = b!"at line " ++ decDigits ln ++ b!": while including '" ++ a.val ++ b!"': " ++ why

theorem pInclude_blame {load : Str → Except Fail (List Rule)} {s : PSt} {m : Str} (hw : Wf s.toks) (hk : s.cur.typ = .kw .include_)
    (h : pInclude E load s = .error (.err m)) : Blames E [] s.toks m ∨ BlamesFile E load s.toks m := by
  unfold pInclude at h
  replace h := bind_bad.1 h
  rcases h with h | ⟨s1, h1, h⟩
  · exact absurd h consume_bad
  obtain ⟨q1, -, v1⟩ := consume_inv' hk h1 hw
  rcases pArg_inv (p := []) hk .include_ v1 h with hb | ⟨s2, ha, q2, v2, h⟩
  · rw [q1]; exact .inl (Blames.shift1 hb)
  dsimp only at h
  split at h
  · cases h
  · rename_i why hl
    right
    have h := err_inj h
    unfold lineError at h
    cases hli : lineInfo E.inp s2.cur.pos with
    | error _ => rw [hli] at h; cases h
    | ok q =>
      rw [hli] at h
      cases h
      exact ⟨s.cur, s1.cur, s2.cur, s2.rest, q.1, q.2, why, by rw [q1, q2]; rfl, hk, ha, hl, hli, by simp⟩
  · split at h
    · rename_i he
      left
      rw [q1, q2]
      refine Blames.shift (d := [s.cur, s1.cur]) (blame_gen (.endOfLine hk ha fun hE => ?_) (err_inj h))
      rw [isEol_iff.2 hE] at he; simp at he
    · replace h := bind_bad.1 h
      rcases h with h | ⟨_, -, h⟩
      · exact absurd h consume_bad
      · cases h

/-! ## Files -/

/-- After complete statements there is a complaint about the next one. -/
theorem pFile_blame {load : Nat → Str → Except Fail (List Rule)} {n : Nat} {m : Str} : ∀ {k i : Nat} {rules : List Rule} {s : PSt}, Wf s.toks →
    pFile E load n k i rules s = .error (.err m) →
    ∃ done rs j ts, s.toks = done ++ ts ∧ Lines E.lib (fun i f rs => load i f = .ok rs) i done rs j ∧ (Blames E [] ts m ∨ BlamesFile E (load j) ts m) := by
  intro k
  induction k with
  | zero => intro i rules s hw h; cases h
  | succ k ih =>
    intro i rules s hw h
    unfold pFile at h
    split at h
    · rename_i hk
      replace h := bind_bad.1 h
      rcases h with h | ⟨⟨rl, s1⟩, h1, h⟩
      · exact ⟨[], [], i, s.toks, rfl, .nil, pInclude_blame hw hk h⟩
      obtain ⟨v1, a, rest, q, ha, hl, se⟩ := pInclude_sound hw hk h1
      dsimp only at h
      rcases se with ⟨nl, hnl, rfl⟩ | ⟨he, -⟩
      · obtain ⟨done, rs, j, ts, q1, g, hb⟩ := ih v1 h
        exact ⟨[s.cur, a] ++ nl :: done, _, j, ts, by rw [q, q1]; simp, .cons (.incl hk ha hl) hnl g, hb⟩
      · exact absurd h (by cases k <;> simp [pFile, he, pRule])
    · rename_i hk
      replace h := bind_bad.1 h
      rcases h with h | ⟨⟨r, s1⟩, h1, h⟩
      · exact ⟨[], [], i, s.toks, rfl, .nil, .inl (pRule_blame hw hk h)⟩
      obtain ⟨v1, g1⟩ := pRule_sound hw h1
      dsimp only at h
      split at h
      · cases h
      · rename_i he
        cases r with
        | none =>
          obtain ⟨hs, q⟩ := g1
          have : s1.cur = s.cur := by unfold PSt.toks at q; exact (List.cons.inj q).1
          rw [this] at he
          exact absurd hs he
        | some r =>
          obtain ⟨hs, ts, rest, q, g, se⟩ := g1
          rcases se with ⟨nl, hnl, rfl⟩ | ⟨he', -⟩
          · obtain ⟨done, rs, j, ts', q1, g', hb⟩ := ih v1 h
            exact ⟨ts ++ nl :: done, _, j, ts', by rw [q, q1]; simp, .cons (.rule g) hnl g', hb⟩
          · exact absurd he' he

end Sink
