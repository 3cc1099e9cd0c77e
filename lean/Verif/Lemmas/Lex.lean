import Verif.Model.Lex
import Verif.Lemmas.Tac

/-! # Lexer lemmas: termination measure, fuel independence, unfolding equations -/

namespace Sink

/-- Termination measure of the lexer machine. -/
def lexMu : LexFn → LexSt → Nat
  | .lineStart, s | .lineRunning, s => 3 * s.rest.length + 1
  | .special, s | .word, s | .quote, s => 3 * s.rest.length
  | .comment, s => 3 * s.rest.length + 2

/-- Entry conditions of the state functions. -/
def LexGood : LexFn → LexSt → Prop
  | .word, s => ∃ c r, s.rest = c :: r ∧ isSpecialChar c = false
  | .quote, s => ∃ r, s.rest = c!"\"" :: r
  | .special, s => s.rest = [] ∨ ∃ c r t, s.rest = c :: r ∧ special? c = some t
  | _, _ => True

theorem skipWsLoop_spec (r : Str) (p : Nat) :
    ∃ w t, r = w ++ t ∧ (∀ c ∈ w, c = c!" " ∨ c = c!"\t") ∧ skipWsLoop r p = ⟨t, p + w.length⟩ ∧
      (∀ c t', t = c :: t' → c ≠ c!" " ∧ c ≠ c!"\t") := by
  induction r generalizing p with
  | nil => exact ⟨[], [], by simp [skipWsLoop]⟩
  | cons c r ih =>
    by_cases h : c = c!" " ∨ c = c!"\t"
    · obtain ⟨w, t, h1, h2, h3, h4⟩ := ih (p + 1)
      refine ⟨c :: w, t, by simp [h1], ?_, ?_, h4⟩
      · intro d hd
        rcases List.mem_cons.1 hd with rfl | hd
        · exact h
        · exact h2 d hd
      · simp only [skipWsLoop, h, if_true, h3, List.length_cons]
        congr 1; omega
    · refine ⟨[], c :: r, by simp, by simp, by simp [skipWsLoop, h], ?_⟩
      intro d t' e
      cases e
      exact ⟨fun e => h (.inl e), fun e => h (.inr e)⟩

theorem skipWs_spec (s : LexSt) :
    ∃ w t, s.rest = w ++ t ∧ (∀ c ∈ w, c = c!" " ∨ c = c!"\t") ∧ skipWs s = ⟨t, s.pos + w.length⟩ ∧
      (∀ c t', t = c :: t' → c ≠ c!" " ∧ c ≠ c!"\t") := skipWsLoop_spec _ _

theorem isSpecialChar_eq (c : Byte) : isSpecialChar c = true ↔
    c = c!"(" ∨ c = c!")" ∨ c = c!"," ∨ c = c!";" ∨ c = c!"\n" ∨ c = c!" " ∨ c = c!"\t" := by
  simp [isSpecialChar]

theorem special?_isSome (c : Byte) : (special? c).isSome = true ↔
    c = c!"(" ∨ c = c!")" ∨ c = c!"," ∨ c = c!";" ∨ c = c!"\n" := by
  unfold special?
  split_ifs <;> simp_all

theorem not_special {c : Byte} (h1 : ¬ (special? c).isSome = true) (h2 : c ≠ c!" " ∧ c ≠ c!"\t") :
    isSpecialChar c = false := by
  rw [special?_isSome] at h1
  by_contra h
  rw [Bool.not_eq_false, isSpecialChar_eq] at h
  tauto

/-- Decomposition of a successful quote scan: the consumed text is a prefix. -/
theorem scanQuote_suffix {q v t : Str} (h : scanQuote q = some (v, t)) : ∃ u, u ≠ [] ∧ q = u ++ t := by
  induction q using scanQuote.induct generalizing v t with
  | case1 => simp [scanQuote] at h
  | case2 => simp [scanQuote] at h; exact ⟨[c!"\""], by simp, by simp [h]⟩
  | case3 c hc => simp [scanQuote, hc] at h
  | case4 d r => simp [scanQuote] at h; exact ⟨[c!"\""], by simp, by simp [h]⟩
  | case5 c d r h1 h2 ih =>
    rw [scanQuote, if_neg h1, if_pos h2] at h
    simp only [Option.map_eq_some_iff, Prod.exists, Prod.mk.injEq] at h
    obtain ⟨v', t', h', rfl, rfl⟩ := h
    obtain ⟨u, _, hu⟩ := ih h'
    exact ⟨c :: d :: u, by simp, by simp [hu]⟩
  | case6 c d r h1 h2 ih =>
    rw [scanQuote, if_neg h1, if_neg h2] at h
    simp only [Option.map_eq_some_iff, Prod.exists, Prod.mk.injEq] at h
    obtain ⟨v', t', h', rfl, rfl⟩ := h
    obtain ⟨u, _, hu⟩ := ih h'
    exact ⟨c :: u, by simp, by simp [hu]⟩

theorem keyword?_nil : keyword? [] = none := by decide +kernel

theorem takeWhile_word {c : Byte} {r : Str} (h : isSpecialChar c = false) :
    (c :: r).takeWhile (fun c => !isSpecialChar c) = c :: r.takeWhile (fun c => !isSpecialChar c) := by
  simp [h]

theorem takeWhile_append_drop {α} (p : α → Bool) (l : List α) :
    l.takeWhile p ++ l.drop (l.takeWhile p).length = l := by
  induction l with
  | nil => simp
  | cons a l ih => by_cases h : p a <;> simp [h, ih]

/-- What a well-entered step does: it succeeds; consumed text is a prefix `u` of the input; the successor state is
well-entered and smaller. -/
theorem lexStep_ok {f : LexFn} {s : LexSt} (hg : LexGood f s) :
    ∃ o, lexStep f s = .ok o ∧
      (∃ u, s.rest = u ++ o.st.rest ∧ o.st.pos = s.pos + u.length) ∧
      ∀ f', o.next = some f' → LexGood f' o.st ∧ lexMu f' o.st < lexMu f s := by
  obtain ⟨rest, pos⟩ := s
  cases f with
  | lineStart =>
    refine ⟨_, rfl, ?_⟩
    obtain ⟨w, t, h1, h2, h3, h4⟩ := skipWs_spec ⟨rest, pos⟩
    simp only at h1; subst h1
    simp only [lexLineStart, h3]
    cases t with
    | nil => refine ⟨⟨w, by simp⟩, ?_⟩; intro f' hf; cases hf; simp [LexGood, lexMu]
    | cons c r =>
      have h5 := h4 c r rfl
      dsimp only
      split_ifs with a1 a2 a3 a4 a5 a6
      · refine ⟨⟨w, by simp⟩, ?_⟩; intro f' hf; cases hf
        obtain ⟨t, ht⟩ := Option.isSome_iff_exists.1 a1.2
        refine ⟨.inr ⟨c, r, t, rfl, ht⟩, ?_⟩; simp [lexMu]; omega
      · refine ⟨⟨w, by simp⟩, ?_⟩; intro f' hf; cases hf
        subst a2; refine ⟨⟨r, rfl⟩, ?_⟩; simp [lexMu]; omega
      · refine ⟨⟨w ++ [c], by simp, by simp [Nat.add_assoc]⟩, ?_⟩; intro f' hf; cases hf
        refine ⟨trivial, ?_⟩; simp [lexMu]; omega
      · cases r with
        | nil => simp at a5
        | cons d r =>
          refine ⟨⟨w ++ [c, d], by simp, by simp [Nat.add_assoc]⟩, ?_⟩; intro f' hf; cases hf
          refine ⟨trivial, ?_⟩; simp [lexMu]; omega
      · refine ⟨⟨w, by simp⟩, ?_⟩; intro f' hf; cases hf
        subst a4; refine ⟨⟨_, r, rfl, by decide⟩, ?_⟩; simp [lexMu]; omega
      · refine ⟨⟨w ++ [c], by simp, by simp [Nat.add_assoc]⟩, ?_⟩; intro f' hf; cases hf
        refine ⟨trivial, ?_⟩; simp [lexMu]; omega
      · refine ⟨⟨w, by simp⟩, ?_⟩; intro f' hf; cases hf
        refine ⟨⟨_, r, rfl, ?_⟩, ?_⟩
        · apply not_special _ h5
          intro hh; exact a1 ⟨a6, hh⟩
        · simp [lexMu]; omega
  | lineRunning =>
    refine ⟨_, rfl, ?_⟩
    obtain ⟨w, t, h1, h2, h3, h4⟩ := skipWs_spec ⟨rest, pos⟩
    simp only at h1; subst h1
    simp only [lexLineRunning, h3]
    cases t with
    | nil => refine ⟨⟨w, by simp⟩, ?_⟩; intro f' hf; cases hf; simp [LexGood, lexMu]
    | cons c r =>
      have h5 := h4 c r rfl
      dsimp only
      split_ifs with a1 a2 a3
      · cases r with
        | nil => simp at a1
        | cons d r =>
          refine ⟨⟨w ++ [c, d], by simp, by simp [Nat.add_assoc]⟩, ?_⟩; intro f' hf; cases hf
          refine ⟨trivial, ?_⟩; simp [lexMu]; omega
      · refine ⟨⟨w, by simp⟩, ?_⟩; intro f' hf; cases hf
        obtain ⟨t, ht⟩ := Option.isSome_iff_exists.1 a2
        refine ⟨.inr ⟨c, r, t, rfl, ht⟩, ?_⟩; simp [lexMu]; omega
      · refine ⟨⟨w, by simp⟩, ?_⟩; intro f' hf; cases hf
        subst a3; refine ⟨⟨r, rfl⟩, ?_⟩; simp [lexMu]; omega
      · refine ⟨⟨w, by simp⟩, ?_⟩; intro f' hf; cases hf
        refine ⟨⟨_, r, rfl, not_special a2 h5⟩, ?_⟩
        simp [lexMu]; omega
  | special =>
    refine ⟨_, rfl, ?_⟩
    cases rest with
    | nil => exact ⟨⟨[], rfl, rfl⟩, fun f' h => by simp [lexSpecial] at h⟩
    | cons c r =>
      simp only [lexSpecial]
      split_ifs
      · refine ⟨⟨[c], by simp⟩, ?_⟩; intro f' hf; cases hf; simp [LexGood, lexMu]; omega
      · exact ⟨⟨[c], by simp⟩, fun f' h => by simp at h⟩
      · refine ⟨⟨[c], by simp⟩, ?_⟩; intro f' hf; cases hf; simp [LexGood, lexMu]; omega
  | word =>
    obtain ⟨c, r, h1, h2⟩ := hg
    simp only at h1; subst h1
    have key : ∃ v' , (c :: r).takeWhile (fun c => !isSpecialChar c) = c :: v' := ⟨_, takeWhile_word h2⟩
    obtain ⟨v', hv⟩ := key
    have happ := takeWhile_append_drop (fun c => !isSpecialChar c) (c :: r)
    rw [hv] at happ
    simp only [lexStep, lexWord, hv]
    have hu : ∃ u, c :: r = u ++ (c :: r).drop (c :: v').length ∧
        pos + (c :: v').length = pos + u.length := ⟨c :: v', happ.symm, rfl⟩
    have hl : ((c :: r).drop (c :: v').length).length < (c :: r).length := by simp; omega
    have hm : LexGood .lineRunning ⟨(c :: r).drop (c :: v').length, pos + (c :: v').length⟩ ∧
        lexMu .lineRunning ⟨(c :: r).drop (c :: v').length, pos + (c :: v').length⟩ < lexMu .word ⟨c :: r, pos⟩ := by
      refine ⟨trivial, ?_⟩; simp only [lexMu]; omega
    cases keyword? (c :: v') with
    | some k => refine ⟨_, rfl, hu, ?_⟩; intro f' hf; cases hf; exact hm
    | none =>
      dsimp only
      split_ifs
      · refine ⟨_, rfl, hu, ?_⟩; intro f' hf; cases hf; exact hm
      · refine ⟨_, rfl, hu, ?_⟩; intro f' hf; cases hf
      · refine ⟨_, rfl, hu, ?_⟩; intro f' hf; cases hf; exact hm
      · refine ⟨_, rfl, hu, ?_⟩; intro f' hf; cases hf; exact hm
  | quote =>
    obtain ⟨r, h1⟩ := hg
    simp only at h1; subst h1
    refine ⟨_, rfl, ?_⟩
    simp only [lexQuote]
    cases h : scanQuote r with
    | none => exact ⟨⟨[], rfl, rfl⟩, fun f' h => by simp at h⟩
    | some p =>
      obtain ⟨v, t⟩ := p
      obtain ⟨u, _, rfl⟩ := scanQuote_suffix h
      refine ⟨⟨c!"\"" :: u, by simp, by simp; omega⟩, ?_⟩
      intro f' hf; cases hf
      refine ⟨trivial, ?_⟩; simp [lexMu]; omega
  | comment =>
    refine ⟨_, rfl, ?_⟩
    simp only [lexComment]
    have h := List.takeWhile_append_dropWhile (p := fun c => c != c!"\n") (l := rest)
    refine ⟨⟨_, h.symm, ?_⟩, ?_⟩
    · have := congrArg List.length h
      simp only [List.length_append] at this
      omega
    · intro f' hf; cases hf
      have := congrArg List.length h
      simp only [List.length_append] at this
      refine ⟨trivial, ?_⟩; simp only [lexMu]; omega

/-- With enough fuel a well-entered run succeeds, and more fuel changes nothing. -/
theorem lexRun_ok {f : LexFn} {s : LexSt} (hg : LexGood f s) {n : Nat} (hn : lexMu f s < n) :
    ∃ its, lexRun n f s = .ok its ∧ lexRun (lexMu f s + 1) f s = .ok its := by
  induction n using Nat.strongRecOn generalizing f s with
  | _ n ih =>
    obtain ⟨o, ho, _, hnext⟩ := lexStep_ok hg
    cases n with
    | zero => omega
    | succ n =>
      simp only [lexRun, ho]
      cases hf : o.next with
      | none => exact ⟨_, rfl, rfl⟩
      | some f' =>
        obtain ⟨hg', hmu⟩ := hnext f' hf
        obtain ⟨its, h1, h2⟩ := ih n (by omega) hg' (by omega)
        obtain ⟨its', h1', h2'⟩ := ih (lexMu f s) (by omega) hg' hmu
        have : its = its' := by rw [h2] at h2'; cases h2'; rfl
        subst this
        exact ⟨o.items ++ its, by simp [h1], by simp [h1']⟩

/-- Fuel-free lexing from a configuration. -/
def lexFrom (f : LexFn) (s : LexSt) : Except Panic (List Item) := lexRun (lexMu f s + 1) f s

theorem lexRun_eq_lexFrom {f : LexFn} {s : LexSt} (hg : LexGood f s) {n : Nat} (hn : lexMu f s < n) :
    lexRun n f s = lexFrom f s := by
  obtain ⟨its, h1, h2⟩ := lexRun_ok hg hn
  rw [h1, lexFrom, h2]

theorem lex_eq_lexFrom (input : Str) : lex input = lexFrom .lineStart ⟨input, 0⟩ :=
  lexRun_eq_lexFrom (f := .lineStart) (s := ⟨input, 0⟩) trivial (by simp [lexMu])

/-- Unfolding equation without fuel. -/
theorem lexFrom_eq {f : LexFn} {s : LexSt} (hg : LexGood f s) {o : LexOut} (ho : lexStep f s = .ok o) :
    lexFrom f s = match o.next with
      | none => .ok o.items
      | some f' => (lexFrom f' o.st).map (o.items ++ ·) := by
  obtain ⟨o', ho', _, hnext⟩ := lexStep_ok hg
  rw [ho] at ho'; cases ho'
  rw [lexFrom, lexRun, ho]
  dsimp only
  cases hf : o.next with
  | none => rfl
  | some f' =>
    obtain ⟨hg', hmu⟩ := hnext f' hf
    dsimp only
    rw [lexRun_eq_lexFrom hg' hmu]
    cases lexFrom f' o.st <;> rfl

theorem lexFrom_next {f : LexFn} {s : LexSt} (hg : LexGood f s) {its f' s'}
    (ho : lexStep f s = .ok ⟨its, some f', s'⟩) : lexFrom f s = (lexFrom f' s').map (its ++ ·) := lexFrom_eq hg ho

theorem lexFrom_silent {f : LexFn} {s : LexSt} (hg : LexGood f s) {f' s'}
    (ho : lexStep f s = .ok ⟨[], some f', s'⟩) : lexFrom f s = lexFrom f' s' := by
  rw [lexFrom_next hg ho]; cases lexFrom f' s' <;> rfl

theorem lexFrom_ok {f : LexFn} {s : LexSt} (hg : LexGood f s) : ∃ its, lexFrom f s = .ok its :=
  (lexRun_ok hg (Nat.lt_succ_self _)).imp fun _ h => h.2

/-- Induction principle over a lexer run. -/
theorem lexFrom_induct {P : LexFn → LexSt → List Item → Prop}
    (stop : ∀ f s o, LexGood f s → lexStep f s = .ok o → o.next = none → P f s o.items)
    (step : ∀ f s o f' its, LexGood f s → lexStep f s = .ok o → o.next = some f' → LexGood f' o.st →
      lexFrom f' o.st = .ok its → P f' o.st its → P f s (o.items ++ its)) :
    ∀ f s its, LexGood f s → lexFrom f s = .ok its → P f s its := by
  intro f s
  induction h : lexMu f s using Nat.strongRecOn generalizing f s with
  | _ n ih =>
    subst h
    intro its hg hl
    obtain ⟨o, ho, _, hnext⟩ := lexStep_ok hg
    rw [lexFrom_eq hg ho] at hl
    cases hf : o.next with
    | none =>
      simp only [hf] at hl
      cases hl
      exact stop f s o hg ho hf
    | some f' =>
      obtain ⟨hg', hmu⟩ := hnext f' hf
      simp only [hf] at hl
      obtain ⟨its', hits⟩ := lexFrom_ok hg'
      rw [hits] at hl
      cases hl
      exact step f s o f' its' hg ho hf hg' hits (ih _ hmu _ _ rfl _ hg' hits)

end Sink
