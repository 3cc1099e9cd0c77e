import Verif.Model.Parse
import Verif.Spec.Grammar
import Verif.Lemmas.Tac

/-!
# Soundness of the parser functions with respect to the grammar
-/

namespace Sink

open Gram

/-- A token stream as the lexer delivers it: exactly the last token is an end of file or an error. -/
inductive Wf : List Item → Prop
  | last {t} : t.typ = .eof ∨ t.typ = .error → Wf [t]
  | cons {t r} : t.typ ≠ .eof → t.typ ≠ .error → Wf r → Wf (t :: r)

def PSt.toks (s : PSt) : List Item := s.cur :: s.rest

theorem bind_ok {ε α β : Type} {x : Except ε α} {f : α → Except ε β} {b : β} :
    (x >>= f) = .ok b ↔ ∃ a, x = .ok a ∧ f a = .ok b := by
  cases x <;> simp [bind, Except.bind]

theorem pure_ok {ε α : Type} {a b : α} : (pure a : Except ε α) = .ok b ↔ a = b := by
  simp [pure, Except.pure]

theorem Wf.cons_inv {t r} (h : Wf (t :: r)) (h1 : t.typ ≠ .eof) (h2 : t.typ ≠ .error) : Wf r := by
  cases h with
  | last h => rcases h with h | h <;> contradiction
  | cons _ _ h => exact h

theorem Wf.ne_nil {l} (h : Wf l) : l ≠ [] := by cases h <;> simp

/-- What `consume` does on a token that is neither the end of file nor an error. -/
theorem consume_ok {s : PSt} (h : Wf s.toks) (h1 : s.cur.typ ≠ .eof) (h2 : s.cur.typ ≠ .error) :
    ∃ t r, s.rest = t :: r ∧ consume s = .ok ⟨t, r, s.req⟩ ∧ Wf (t :: r) := by
  have hr := h.cons_inv h1 h2
  obtain ⟨cur, rest, req⟩ := s
  cases rest with
  | nil => exact absurd rfl hr.ne_nil
  | cons t r =>
    refine ⟨t, r, rfl, ?_, hr⟩
    simp only [consume]

theorem consume_inv {s s' : PSt} (hc : consume s = .ok s') (h : Wf s.toks) (h1 : s.cur.typ ≠ .eof)
    (h2 : s.cur.typ ≠ .error) : s.toks = s.cur :: s'.toks ∧ s'.req = s.req ∧ Wf s'.toks := by
  obtain ⟨t, r, e, hc', hw⟩ := consume_ok h h1 h2
  rw [hc] at hc'; cases hc'
  exact ⟨by simp [PSt.toks, e], rfl, hw⟩

theorem consume_inv' {s s' : PSt} {T : Tok} (hT : s.cur.typ = T) (hc : consume s = .ok s') (h : Wf s.toks)
    (h1 : T ≠ .eof := by simp) (h2 : T ≠ .error := by simp) :
    s.toks = s.cur :: s'.toks ∧ s'.req = s.req ∧ Wf s'.toks :=
  consume_inv hc h (hT ▸ h1) (hT ▸ h2)

/-! ### Phases -/

theorem later_assoc (a b c : Phase) : later (later a b) c = later a (later b c) := by
  cases a <;> cases b <;> cases c <;> rfl
theorem later_any (a : Phase) : later a .any = a := by cases a <;> rfl
theorem any_later (a : Phase) : later .any a = a := by cases a <;> rfl
theorem later_self (a : Phase) : later a a = a := by cases a <;> rfl
theorem later_comm (a b : Phase) : later a b = later b a := by cases a <;> cases b <;> rfl

@[simp] theorem bump_cur (s : PSt) (p : Phase) : (bump s p).cur = s.cur := by unfold bump; split <;> rfl
@[simp] theorem bump_rest (s : PSt) (p : Phase) : (bump s p).rest = s.rest := by unfold bump; split <;> rfl
@[simp] theorem bump_toks (s : PSt) (p : Phase) : (bump s p).toks = s.toks := by simp [PSt.toks]
theorem bump_req (s : PSt) (p : Phase) : (bump s p).req = later s.req p := by
  obtain ⟨c, r, q⟩ := s
  cases q <;> cases p <;> rfl

theorem needs_conj (es : List Expr) : needs (conj es) = needsL es := by
  match es with
  | [] => rfl
  | [e] => simp [conj, needsL, later_any]
  | e :: f :: es => simp [conj, needs]

theorem mkAnd_eq {es : List Expr} (h : es ≠ []) : mkAnd es = some (conj es) := by
  match es with
  | [] => exact absurd rfl h
  | [e] => rfl
  | e :: f :: es => rfl

/-! ### Arguments -/

theorem hasValue_iff (t : Tok) : t.hasValue = true ↔ t ≠ .eol ∧ t ≠ .eof ∧ t ≠ .error := by
  cases t <;> simp [Tok.hasValue]

theorem pArg_sound {E : PEnv} {s s' : PSt} {a : Str} (hw : Wf s.toks) (h : pArg E s = .ok (a, s')) :
    IsArg s.cur ∧ a = s.cur.val ∧ s.toks = s.cur :: s'.toks ∧ s'.req = s.req ∧ Wf s'.toks := by
  unfold pArg at h
  split at h
  · rename_i hv
    rw [hasValue_iff] at hv
    simp only [bind_ok, pure_ok] at h
    obtain ⟨s1, hc, h⟩ := h
    cases h
    have := consume_inv hc hw hv.2.1 hv.2.2
    exact ⟨hv, rfl, this⟩
  · cases h

theorem getLast?_eq_dot {v : Str} {c : Byte} (h : v.getLast? = some c) :
    (∃ p, v = p ++ [c!"."]) ↔ c = c!"." := by
  obtain ⟨p, rfl⟩ := List.getLast?_eq_some_iff.mp h
  constructor
  · rintro ⟨q, hq⟩
    have := List.append_inj_right' hq rfl
    simpa using this
  · rintro rfl; exact ⟨p, rfl⟩

theorem pDomain_sound {E : PEnv} {s s' : PSt} {a : Str} (hw : Wf s.toks) (h : pDomain E s = .ok (a, s')) :
    IsDomain s.cur a ∧ s.toks = s.cur :: s'.toks ∧ s'.req = s.req ∧ Wf s'.toks := by
  unfold pDomain at h
  split at h
  · cases h
  · rename_i ht
    simp only [ne_eq, not_not] at ht
    dsimp only at h
    split at h
    · cases h
    · rename_i i hi
      split at h
      · cases h
      · rename_i c hl
        simp only [bind_ok, pure_ok] at h
        obtain ⟨s1, hc, h⟩ := h
        cases h
        refine ⟨⟨ht, ?_, ?_⟩, consume_inv' ht hc hw⟩
        · unfold indexByte at hi
          have : (s.cur.val.findIdx? (fun x => x == c!".")).isSome := by rw [hi]; rfl
          rw [List.findIdx?_isSome, List.any_eq_true] at this
          obtain ⟨x, hx, hx2⟩ := this
          simpa using (by simpa using hx2 : x = c!".") ▸ hx
        · by_cases hcd : c = c!"."
          · left; exact ⟨(getLast?_eq_dot hl).mpr hcd, by simp [hcd]⟩
          · right; exact ⟨fun hh => hcd ((getLast?_eq_dot hl).mp hh), by simp [hcd]⟩

theorem pIPArg_sound {E : PEnv} {s s' : PSt} {a : Str} (hw : Wf s.toks) (h : pIPArg E s = .ok (a, s')) :
    IsIPArg E.lib s.cur ∧ a = s.cur.val ∧ s.toks = s.cur :: s'.toks ∧ s'.req = s.req ∧ Wf s'.toks := by
  unfold pIPArg at h
  split at h
  · rename_i ht
    simp only [bind_ok, pure_ok] at h
    obtain ⟨s1, hc, h⟩ := h
    cases h
    exact ⟨.inl ht, rfl, consume_inv' ht hc hw⟩
  · rename_i ht
    split at h
    · cases h
    · rename_i hn
      simp only [bind_ok, pure_ok] at h
      obtain ⟨s1, hc, h⟩ := h
      cases h
      refine ⟨.inr ⟨ht, ?_⟩, rfl, consume_inv' ht hc hw⟩
      simp only [Option.isSome_iff_ne_none]
      simp only [Option.isNone_iff_eq_none] at hn
      tauto
  · cases h

theorem pOnOff_sound {E : PEnv} {s s' : PSt} {b : Bool} (hw : Wf s.toks) (h : pOnOff E s = .ok (b, s')) :
    s.cur.typ = .kw (if b then .on_ else .off) ∧ s.toks = s.cur :: s'.toks ∧ s'.req = s.req ∧ Wf s'.toks := by
  unfold pOnOff at h
  split at h
  · rename_i ht
    simp only [bind_ok, pure_ok] at h
    obtain ⟨s1, hc, h⟩ := h
    cases h
    exact ⟨ht, consume_inv' ht hc hw⟩
  · rename_i ht
    simp only [bind_ok, pure_ok] at h
    obtain ⟨s1, hc, h⟩ := h
    cases h
    exact ⟨ht, consume_inv' ht hc hw⟩
  · cases h

/-- The parser's option map of a family. -/
def mapOf : OptClass → Kw → Sink.Opts
  | .addr => addrMap | .helo => heloMap | .dns => dnsMap | .dbl => dblMap

theorem mapOf_spec (c : OptClass) (k : Kw) :
    optBits c k = if mapOf c k = oZero then none else some (mapOf c k) := by
  cases c <;> cases k <;> decide

theorem Gram.Opts.ne_nil {c ts o} (h : Gram.Opts c ts o) : ts ≠ [] := by cases h <;> simp

theorem pCommaOpts_sound {E : PEnv} {c : OptClass} {n : Nat} {o0 o : Sink.Opts} {s s' : PSt} (hw : Wf s.toks)
    (h : pCommaOpts E (mapOf c) n o0 s = .ok (o, s')) :
    ∃ ts o1, s.toks = ts ++ s'.toks ∧ Gram.Opts c ts o1 ∧ o = o0 ||| o1 ∧ s'.req = s.req ∧ Wf s'.toks ∧
      s'.cur.typ ≠ .comma := by
  induction n generalizing o0 s with
  | zero => cases h
  | succ n ih =>
    unfold pCommaOpts at h
    split at h
    · cases h
    · rename_i hz
      simp only [bind_ok] at h
      obtain ⟨s1, hc, h⟩ := h
      cases ht : s.cur.typ with
      | kw k =>
        simp only [ht, optFor] at hz h
        have hb : optBits c k = some (mapOf c k) := by rw [mapOf_spec, if_neg hz]
        obtain ⟨e1, r1, w1⟩ := consume_inv' ht hc hw
        split at h
        · rename_i hcm
          simp only [bind_ok] at h
          obtain ⟨s2, hc2, h⟩ := h
          obtain ⟨e2, r2, w2⟩ := consume_inv' hcm hc2 w1
          obtain ⟨ts, o1, e3, g, rfl, r3, w3, h3⟩ := ih w2 h
          refine ⟨s.cur :: s1.cur :: ts, mapOf c k ||| o1, ?_, .more ht hb hcm g, ?_, ?_, w3, h3⟩
          · rw [e1, e2, e3]; rfl
          · rw [BitVec.or_assoc]
          · rw [r3, r2, r1]
        · rename_i hcm
          simp only [pure_ok] at h
          cases h
          exact ⟨[s.cur], mapOf c k, e1, .one ht hb, rfl, r1, w1, hcm⟩
      | _ => simp [ht, optFor] at hz

theorem pDblArgs_sound {E : PEnv} {n : Nat} {o : Sink.Opts} {a : Str} {s s' : PSt} (hw : Wf s.toks)
    (h : pDblArgs E n s = .ok ((o, a), s')) :
    ∃ ts it, s.toks = ts ++ it :: s'.toks ∧ Gram.Opts .dbl ts o ∧ IsDomain it a ∧ s'.req = s.req ∧ Wf s'.toks := by
  unfold pDblArgs at h
  simp only [bind_ok, pure_ok] at h
  obtain ⟨⟨o', s1⟩, h1, ⟨a', s2⟩, h2, h⟩ := h
  cases h
  obtain ⟨ts, o1, e1, g, rfl, r1, w1, _⟩ := pCommaOpts_sound (c := .dbl) hw h1
  obtain ⟨d, e2, r2, w2⟩ := pDomain_sound w1 h2
  refine ⟨ts, s1.cur, by rw [e1, e2], ?_, d, by rw [r2, r1], w2⟩
  simpa [oZero] using g

/-! ### Terms -/

/-- The tokens that can begin a term. -/
def termStart : Tok → Bool
  | .lparen => true
  | .kw k => match k with
    | .not_ | .from_ | .to | .helo | .ehlo | .host | .source | .ip | .dnsbl | .tls | .all | .fromHas | .toHas | .dns
    | .heloHas | .dbl => true
    | _ => false
  | _ => false

theorem dblPhase_eq {ts o d} (h : Gram.Opts .dbl ts o) : dblPhase o = opNeeds (.dbl o d) := by
  have key : ∀ o : Sink.Opts, o &&& oHelo = 0 → dblPhase o = opNeeds (.dbl o d) := by
    intro o ho
    have hf : (o &&& oFrom = oFrom) ↔ (o &&& oFrom ≠ 0) := by
      constructor
      · intro h h2; rw [h] at h2; revert h2; decide
      · intro h; by_contra h2
        apply h
        apply BitVec.eq_of_getLsbD_eq; intro i hi
        by_cases h25 : i = 25
        · subst h25
          by_contra hc
          apply h2
          apply BitVec.eq_of_getLsbD_eq; intro j hj
          by_cases hj2 : j = 25
          · subst hj2; simpa [oFrom] using hc
          · have : oFrom.getLsbD j = false := by
              revert hj2; interval_cases j <;> decide
            simp [this]
        · have : oFrom.getLsbD i = false := by
            revert h25; interval_cases i <;> decide
          simp [this]
    have he : (o &&& oEhlo = oEhlo) ↔ (o &&& oEhlo ≠ 0) := by
      constructor
      · intro h h2; rw [h] at h2; revert h2; decide
      · intro h; by_contra h2
        apply h
        apply BitVec.eq_of_getLsbD_eq; intro i hi
        by_cases h25 : i = 2
        · subst h25
          by_contra hc
          apply h2
          apply BitVec.eq_of_getLsbD_eq; intro j hj
          by_cases hj2 : j = 2
          · subst hj2; simpa [oEhlo] using hc
          · have : oEhlo.getLsbD j = false := by
              revert hj2; interval_cases j <;> decide
            simp [this]
        · have : oEhlo.getLsbD i = false := by
            revert h25; interval_cases i <;> decide
          simp [this]
    have hor : o &&& (oEhlo ||| oHelo) = o &&& oEhlo := by
      rw [BitVec.and_or_distrib_left, ho]; simp
    show (if o &&& oFrom = oFrom then Phase.mfrom else if o &&& oEhlo = oEhlo then .helo else .any) =
      (if o &&& oFrom ≠ 0 then Phase.mfrom else if o &&& (oEhlo ||| oHelo) ≠ 0 then .helo else .any)
    rw [hor]
    simp only [hf, he]
  apply key
  have one : ∀ k o, optBits .dbl k = some o → o &&& oHelo = 0 := by
    intro k o h
    rw [mapOf_spec] at h
    split at h
    · cases h
    · cases h; cases k <;> decide
  induction h with
  | one _ hk => exact one _ _ hk
  | more _ hk _ _ ih => rw [BitVec.and_comm, BitVec.and_or_distrib_left, BitVec.and_comm, one _ _ hk, BitVec.and_comm, ih]; rfl

/-- Meaning of a term parser's successful result. -/
def TermRes (G : List Item → Expr → Prop) (s : PSt) (e : Option Expr) (s' : PSt) : Prop :=
  Wf s'.toks ∧ match e with
  | none => s' = s ∧ termStart s.cur.typ = false
  | some e => ∃ ts, s.toks = ts ++ s'.toks ∧ G ts e ∧ s'.req = later s.req (needs e)

theorem pArgTerm_sound {E : PEnv} {s s' : PSt} {k mk ph e} (hw : Wf s.toks) (hk : s.cur.typ = .kw k) (hop : ArgOp k mk)
    (hn : ∀ a, needs (mk a) = ph) (h : pArgTerm E mk (bump s ph) = .ok (e, s')) : TermRes (Term E.lib) s e s' := by
  unfold pArgTerm at h
  simp only [bind_ok, pure_ok] at h
  obtain ⟨s1, hc, ⟨a, s2⟩, h1, h⟩ := h
  cases h
  obtain ⟨e1, r1, w1⟩ := consume_inv' (T := .kw k) (by simpa using hk) hc (by simpa using hw)
  obtain ⟨ha, rfl, e2, r2, w2⟩ := pArg_sound w1 h1
  refine ⟨w2, [s.cur, s1.cur], ?_, .arg hop hk ha, ?_⟩
  · rw [bump_toks] at e1; rw [e1, e2]; simp
  · rw [r2, r1, bump_req, hn]

theorem pOptTerm_sound {E : PEnv} {n : Nat} {s s' : PSt} {k ok c ph e} (hw : Wf s.toks) (hk : s.cur.typ = .kw k)
    (hop : OptOp k ok c) (hn : ∀ o, needs (.optN ok o) = ph) (h : pOptTerm E n (mapOf c) ok (bump s ph) = .ok (e, s')) :
    TermRes (Term E.lib) s e s' := by
  unfold pOptTerm at h
  simp only [bind_ok, pure_ok] at h
  obtain ⟨s1, hc, ⟨o, s2⟩, h1, h⟩ := h
  cases h
  obtain ⟨e1, r1, w1⟩ := consume_inv' (T := .kw k) (by simpa using hk) hc (by simpa using hw)
  obtain ⟨ts, o1, e2, g, rfl, r2, w2, _⟩ := pCommaOpts_sound w1 h1
  refine ⟨w2, s.cur :: ts, ?_, ?_, ?_⟩
  · rw [bump_toks] at e1; rw [e1, e2]; simp
  · have : oZero ||| o1 = o1 := by simp [oZero]
    rw [this]; exact .has hop hk g
  · rw [r2, r1, bump_req, hn]

theorem bump_any (s : PSt) : bump s .any = s := by simp [bump]

theorem pAtom_sound {E : PEnv} {n : Nat} {s s' : PSt} {e} (hw : Wf s.toks) (h1 : s.cur.typ ≠ .lparen)
    (h2 : s.cur.typ ≠ .kw .not_) (h : pAtom E n s = .ok (e, s')) : TermRes (Term E.lib) s e s' := by
  unfold pAtom at h
  split at h
  · rename_i k hk
    have hw' : ∀ ph, Wf (bump s ph).toks := fun ph => by simpa using hw
    cases k
    case from_ => exact pArgTerm_sound hw hk .from_ (fun _ => rfl) h
    case «to» => exact pArgTerm_sound hw hk .to (fun _ => rfl) h
    case helo => exact pArgTerm_sound hw hk .helo (fun _ => rfl) h
    case ehlo => exact pArgTerm_sound hw hk .ehlo (fun _ => rfl) h
    case host => exact pArgTerm_sound hw hk .host (fun _ => rfl) h
    case source => exact pArgTerm_sound hw hk .source (fun _ => rfl) h
    case fromHas => exact pOptTerm_sound (c := .addr) hw hk .fromHas (fun _ => rfl) h
    case toHas => exact pOptTerm_sound (c := .addr) hw hk .toHas (fun _ => rfl) h
    case dns => exact pOptTerm_sound (c := .dns) hw hk .dns (fun _ => rfl) h
    case heloHas => exact pOptTerm_sound (c := .helo) hw hk .heloHas (fun _ => rfl) h
    case not_ => exact absurd hk h2
    case ip =>
      simp only [minReq, bump_any, bind_ok, pure_ok] at h
      obtain ⟨s1, hc, ⟨a, s2⟩, h1, h⟩ := h
      cases h
      obtain ⟨e1, r1, w1⟩ := consume_inv' hk hc hw
      obtain ⟨ha, rfl, e2, r2, w2⟩ := pIPArg_sound w1 h1
      exact ⟨w2, [s.cur, s1.cur], by rw [e1, e2]; simp, .ip hk ha, by rw [r2, r1]; exact (later_any _).symm⟩
    case dnsbl =>
      simp only [minReq, bump_any, bind_ok, pure_ok] at h
      obtain ⟨s1, hc, ⟨a, s2⟩, h1, h⟩ := h
      cases h
      obtain ⟨e1, r1, w1⟩ := consume_inv' hk hc hw
      obtain ⟨ha, e2, r2, w2⟩ := pDomain_sound w1 h1
      exact ⟨w2, [s.cur, s1.cur], by rw [e1, e2]; simp, .dnsbl hk ha, by rw [r2, r1]; exact (later_any _).symm⟩
    case tls =>
      simp only [minReq, bind_ok, pure_ok] at h
      obtain ⟨s1, hc, ⟨a, s2⟩, h1, h⟩ := h
      cases h
      obtain ⟨e1, r1, w1⟩ := consume_inv' (T := .kw .tls) (by simpa using hk) hc (hw' _)
      obtain ⟨ha, e2, r2, w2⟩ := pOnOff_sound w1 h1
      rw [bump_toks] at e1
      refine ⟨w2, [s.cur, s1.cur], by rw [e1, e2]; simp, ?_, by rw [r2, r1, bump_req]; rfl⟩
      cases a
      · exact .tlsOff hk (by simpa using ha)
      · exact .tlsOn hk (by simpa using ha)
    case all =>
      simp only [minReq, bump_any, bind_ok, pure_ok] at h
      obtain ⟨s1, hc, h⟩ := h
      cases h
      obtain ⟨e1, r1, w1⟩ := consume_inv' hk hc hw
      exact ⟨w1, [s.cur], by rw [e1]; simp, .all hk, by rw [r1]; exact (later_any _).symm⟩
    case dbl =>
      simp only [minReq, bump_any, bind_ok, pure_ok] at h
      obtain ⟨s1, hc, ⟨⟨o, a⟩, s2⟩, h1, h⟩ := h
      cases h
      obtain ⟨e1, r1, w1⟩ := consume_inv' hk hc hw
      obtain ⟨ts, it, e2, g, d, r2, w2⟩ := pDblArgs_sound w1 h1
      refine ⟨by simpa using w2, s.cur :: (ts ++ [it]), by rw [e1, e2]; simp, .dbl hk g d, ?_⟩
      rw [bump_req, r2, r1, dblPhase_eq g]; rfl
    all_goals
      simp only [minReq, bump_any] at h
      cases h
      exact ⟨hw, rfl, by simp [hk, termStart]⟩
  · rename_i hk
    cases h
    refine ⟨hw, rfl, ?_⟩
    cases ht : s.cur.typ <;> simp_all [termStart]

/-- Meaning of a successful `pAndl`. -/
def AndRes (L : Lib) (acc : List Expr) (s : PSt) (e : Option Expr) (s' : PSt) : Prop :=
  Wf s'.toks ∧ ∃ es ts, s.toks = ts ++ s'.toks ∧ ((es = [] ∧ ts = []) ∨ Andl L ts es) ∧ e = mkAnd (acc ++ es) ∧
    s'.req = later s.req (needsL es) ∧ termStart s'.cur.typ = false ∧ (es = [] → s' = s)

theorem Gram.Andl.ne_nil {L ts es} (h : Andl L ts es) : es ≠ [] := by cases h <;> simp

theorem parse_sound (E : PEnv) (n : Nat) :
    (∀ s e s', Wf s.toks → pTerm E n s = .ok (e, s') → TermRes (Term E.lib) s e s') ∧
    (∀ s e s', Wf s.toks → pOrl E n s = .ok (e, s') → TermRes (Orl E.lib) s e s' ∧ s'.cur.typ ≠ .kw .or) ∧
    (∀ acc s e s', Wf s.toks → pAndl E n acc s = .ok (e, s') → AndRes E.lib acc s e s' ∧ s'.cur.typ ≠ .kw .or) := by
  induction n with
  | zero => refine ⟨?_, ?_, ?_⟩ <;> intros <;> simp_all [pTerm, pOrl, pAndl]
  | succ n ih =>
    obtain ⟨ihT, ihO, ihA⟩ := ih
    refine ⟨?_, ?_, ?_⟩
    · intro s e s' hw h
      unfold pTerm at h
      split at h
      · rename_i hk
        unfold pNot at h
        simp only [bind_ok] at h
        obtain ⟨s1, hc, ⟨e1, s2⟩, h1, h⟩ := h
        obtain ⟨q1, r1, w1⟩ := consume_inv' hk hc hw
        obtain ⟨w2, h2⟩ := ihT _ _ _ w1 h1
        dsimp only at h
        split at h
        · cases h
        · simp only [pure_ok] at h
          cases h
          obtain ⟨ts, q2, g, r2⟩ := h2
          exact ⟨w2, s.cur :: ts, by rw [q1, q2]; simp, .not_ hk g, by rw [r2, r1]; rfl⟩
      · rename_i hk
        unfold pParen at h
        simp only [bind_ok] at h
        obtain ⟨s1, hc, ⟨e1, s2⟩, h1, h⟩ := h
        obtain ⟨q1, r1, w1⟩ := consume_inv' hk hc hw
        obtain ⟨⟨w2, es, ts, q2, g, he, r2, -, -⟩, -⟩ := ihA _ _ _ _ w1 h1
        dsimp only at h
        split at h
        · cases h
        · rename_i hr
          simp only [ne_eq, not_not] at hr
          split at h
          · cases h
          · simp only [bind_ok, pure_ok] at h
            obtain ⟨s3, hc3, h⟩ := h
            cases h
            obtain ⟨q3, r3, w3⟩ := consume_inv' hr hc3 w2
            have hne : es ≠ [] := by rintro rfl; simp [mkAnd] at he
            have g' : Andl E.lib ts es := by tauto
            rw [List.nil_append, mkAnd_eq hne] at he
            cases he
            refine ⟨w3, s.cur :: (ts ++ [s2.cur]), by rw [q1, q2, q3]; simp, .paren hk g' hr, ?_⟩
            rw [r3, r2, r1, needs_conj]
      · rename_i h1 h2
        exact pAtom_sound hw h2 h1 h
    · intro s e s' hw h
      unfold pOrl at h
      simp only [bind_ok] at h
      obtain ⟨⟨l, s1⟩, h1, h⟩ := h
      obtain ⟨w1, g1⟩ := ihT _ _ _ hw h1
      dsimp only at h
      split at h
      · rename_i hor
        simp only [pure_ok] at h
        cases h
        refine ⟨⟨w1, ?_⟩, hor⟩
        cases e with
        | none => exact g1
        | some l =>
          obtain ⟨ts, q, g, r⟩ := g1
          exact ⟨ts, q, .one g, r⟩
      · rename_i hor
        simp only [ne_eq, not_not] at hor
        split at h
        · cases h
        · rename_i l
          simp only [bind_ok] at h
          obtain ⟨s2, hc, ⟨r, s3⟩, h3, h⟩ := h
          obtain ⟨ts, q1, g1, r1⟩ := g1
          obtain ⟨q2, r2, w2⟩ := consume_inv' hor hc w1
          obtain ⟨⟨w3, g3⟩, ho3⟩ := ihO _ _ _ w2 h3
          dsimp only at h
          split at h
          · split at h <;> cases h
          · simp only [pure_ok] at h
            cases h
            obtain ⟨us, q3, g3, r3⟩ := g3
            refine ⟨⟨w3, ts ++ s1.cur :: us, by rw [q1, q2, q3]; simp, .or g1 hor g3, ?_⟩, ho3⟩
            rw [r3, r2, r1, later_assoc]; rfl
    · intro acc s e s' hw h
      unfold pAndl at h
      simp only [bind_ok] at h
      obtain ⟨⟨e1, s1⟩, h1, h⟩ := h
      obtain ⟨⟨w1, g1⟩, ho1⟩ := ihO _ _ _ hw h1
      dsimp only at h
      split at h
      · simp only [pure_ok] at h
        cases h
        obtain ⟨rfl, ht⟩ := g1
        exact ⟨⟨w1, [], [], rfl, .inl ⟨rfl, rfl⟩, by simp, by simp [needsL, later_any], ht, fun _ => rfl⟩, ho1⟩
      · rename_i e1
        obtain ⟨ts, q1, g1, r1⟩ := g1
        obtain ⟨⟨w2, es, us, q2, g2, he, r2, ht, -⟩, ho2⟩ := ihA _ _ _ _ w1 h
        refine ⟨⟨w2, e1 :: es, ts ++ us, by rw [q1, q2]; simp, .inr ?_, by simpa using he, ?_, ht, by simp⟩, ho2⟩
        · rcases g2 with ⟨rfl, rfl⟩ | g2
          · simpa using Andl.one g1
          · exact .more g1 g2
        · rw [r2, r1, later_assoc]; rfl

end Sink
