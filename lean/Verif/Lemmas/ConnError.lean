import Verif.Spec.ConnError
import Verif.Lemmas.Conncfg

/-!
# Lemmas about the errors of connection parameter files
-/

namespace Sink
open Spec

theorem connFields_err {n : Nat} : ∀ {ss : List Str} {kv : ConnKV} {e : Str}, connFields n ss kv = .error e ↔
    ∃ good s more, ss = good ++ s :: more ∧ (∀ x ∈ good, Known x) ∧
      (((∀ k v, ¬ Gives s k v) ∧ e = b!"field has no = in line " ++ decDigits n) ∨
       ∃ k v, Gives s k v ∧ c!"=" ∉ k ∧ k ≠ b!"hostname" ∧ k ≠ b!"cert" ∧ k ≠ b!"key" ∧ e = b!"unrecognized key '" ++ k ++ b!"' in line " ++ decDigits n) := by
  intro ss
  induction ss with
  | nil =>
    intro kv e
    simp only [connFields, reduceCtorEq, false_iff]
    rintro ⟨good, s, more, h, -⟩
    cases good <;> cases h
  | cons s ss ih =>
    intro kv e
    have n1 : c!"=" ∉ b!"hostname" := by decide
    have n2 : c!"=" ∉ b!"cert" := by decide
    have n3 : c!"=" ∉ b!"key" := by decide
    -- a known setting is skipped
    have skip : Known s → ∀ {kv}, (connFields n ss kv = .error e ↔
        ∃ good s' more, s :: ss = good ++ s' :: more ∧ (∀ x ∈ good, Known x) ∧
      (((∀ k v, ¬ Gives s' k v) ∧ e = b!"field has no = in line " ++ decDigits n) ∨
       ∃ k v, Gives s' k v ∧ c!"=" ∉ k ∧ k ≠ b!"hostname" ∧ k ≠ b!"cert" ∧ k ≠ b!"key" ∧ e = b!"unrecognized key '" ++ k ++ b!"' in line " ++ decDigits n)) := by
      intro hs kv
      rw [ih]
      constructor
      · rintro ⟨good, s', more, rfl, h2, h3⟩
        refine ⟨s :: good, s', more, rfl, ?_, h3⟩
        intro x hx
        rcases List.mem_cons.1 hx with rfl | hx
        · exact hs
        · exact h2 x hx
      · rintro ⟨good, s', more, h1, h2, h3⟩
        cases good with
        | nil =>
          cases h1
          exfalso
          obtain ⟨v, hv⟩ := hs
          rcases h3 with ⟨h3, -⟩ | ⟨k, v', hg, hk, a, b, c, -⟩
          · rcases hv with hv | hv | hv <;> exact h3 _ _ hv
          · rcases hv with hv | hv | hv
            · exact a (hg.unique hv hk n1).1
            · exact b (hg.unique hv hk n2).1
            · exact c (hg.unique hv hk n3).1
        | cons g good =>
          cases h1
          exact ⟨good, s', more, rfl, fun x hx => h2 x (by simp [hx]), h3⟩
    rw [connFields]
    cases hsp : splitEq s with
    | none =>
      have hno := splitEq_none.1 hsp
      simp only [Except.error.injEq]
      constructor
      · rintro rfl
        exact ⟨[], s, ss, rfl, fun x hx => (nomatch hx), .inl ⟨hno, rfl⟩⟩
      · rintro ⟨good, s', more, h1, h2, h3⟩
        cases good with
        | nil =>
          cases h1
          rcases h3 with ⟨-, rfl⟩ | ⟨k, v, hg, -⟩
          · rfl
          · exact absurd hg (hno k v)
        | cons g good =>
          cases h1
          obtain ⟨v, hv | hv | hv⟩ := h2 s (by simp) <;> exact absurd hv (hno _ _)
    | some p =>
      obtain ⟨k, v⟩ := p
      obtain ⟨hg, hk⟩ := splitEq_some.1 hsp
      simp only
      split
      · rename_i h; subst h
        exact skip ⟨v, .inl hg⟩
      · split
        · rename_i h; subst h
          exact skip ⟨v, .inr (.inl hg)⟩
        · split
          · rename_i h; subst h
            exact skip ⟨v, .inr (.inr hg)⟩
          · rename_i a b c
            simp only [Except.error.injEq]
            constructor
            · rintro rfl
              exact ⟨[], s, ss, rfl, fun x hx => (nomatch hx), .inr ⟨k, v, hg, hk, a, b, c, rfl⟩⟩
            · rintro ⟨good, s', more, h1, h2, h3⟩
              cases good with
              | nil =>
                cases h1
                rcases h3 with ⟨hno, -⟩ | ⟨k', v', hg', hk', -, -, -, rfl⟩
                · exact absurd hg (hno k v)
                · rw [(hg.unique hg' hk hk').1]
              | cons g good =>
                cases h1
                obtain ⟨v', h | h | h⟩ := h2 s (by simp)
                · exact absurd (hg.unique h hk n1).1 a
                · exact absurd (hg.unique h hk n2).1 b
                · exact absurd (hg.unique h hk n3).1 c

theorem loadPairs_err {P : PairOracle} {many : Bool} : ∀ {cs ks : List Str} {m : Str}, cs.length = ks.length →
    (loadPairs P many cs ks = .error m ↔ ∃ (good : List TlsCert) (c k : Str) (cs' ks' : List Str) (e : Str),
      cs = good.map TlsCert.cert ++ c :: cs' ∧ ks = good.map TlsCert.key ++ k :: ks' ∧ (∀ x ∈ good, P x.cert x.key = none) ∧ P c k = some e ∧
      m = if many then b!"while loading " ++ c ++ b!" & " ++ k ++ b!": " ++ e else e) := by
  intro cs
  induction cs with
  | nil =>
    intro ks m hl
    have : ks = [] := by simpa using hl.symm
    subst this
    simp [loadPairs]
  | cons c cs ih =>
    intro ks m hl
    cases ks with
    | nil => simp at hl
    | cons k ks =>
      have hl' : cs.length = ks.length := by simpa using hl
      rw [loadPairs]
      cases hp : P c k with
      | some e =>
        simp only [Except.error.injEq]
        constructor
        · rintro rfl
          exact ⟨[], c, k, cs, ks, e, rfl, rfl, fun x hx => (nomatch hx), hp, rfl⟩
        · rintro ⟨good, c', k', cs', ks', e', h1, h2, h3, h4, h5⟩
          cases good with
          | nil =>
            simp only [List.map_nil, List.nil_append, List.cons.injEq] at h1 h2
            obtain ⟨rfl, rfl⟩ := h1
            obtain ⟨rfl, rfl⟩ := h2
            rw [hp] at h4; cases h4
            exact h5.symm
          | cons g good =>
            simp only [List.map_cons, List.cons_append, List.cons.injEq] at h1 h2
            have := h3 g (by simp)
            rw [← h1.1, ← h2.1, hp] at this; cases this
      | none =>
        have hm : ∀ x : Except Str (List TlsCert), (match x with | .ok r => Except.ok (TlsCert.mk c k :: r) | .error e => .error e) = .error m ↔
            x = .error m := by
          intro x; cases x <;> simp
        simp only
        refine (hm _).trans ?_
        rw [ih hl']
        constructor
        · rintro ⟨good, c', k', cs', ks', e', rfl, rfl, h3, h4, h5⟩
          refine ⟨TlsCert.mk c k :: good, c', k', cs', ks', e', rfl, rfl, ?_, h4, h5⟩
          intro x hx
          rcases List.mem_cons.1 hx with rfl | hx
          · exact hp
          · exact h3 x hx
        · rintro ⟨good, c', k', cs', ks', e', h1, h2, h3, h4, h5⟩
          cases good with
          | nil =>
            simp only [List.map_nil, List.nil_append, List.cons.injEq] at h1 h2
            rw [← h1.1, ← h2.1, hp] at h4; cases h4
          | cons g good =>
            simp only [List.map_cons, List.cons_append, List.cons.injEq] at h1 h2
            exact ⟨good, c', k', cs', ks', e', h1.2, h2.2, fun x hx => h3 x (by simp [hx]), h4, h5⟩

theorem commas_one {s x : Str} (h : Commas s [x]) : s = x := h.2.1

theorem loadCerts_err {P : PairOracle} {cert key m : Str} : loadCerts P cert key = .error m ↔ CertTrouble P cert key m := by
  unfold loadCerts
  simp only
  constructor
  · intro h
    split at h
    · rename_i hl
      cases h
      exact .count (commas_iff.2 rfl) (commas_iff.2 rfl) hl
    · rename_i hl
      have hl := not_not.1 hl
      obtain ⟨good, c, k, cs, ks, e, h1, h2, h3, h4, h5⟩ := (loadPairs_err hl).1 h
      have hc := commas_iff.2 h1
      have hk := commas_iff.2 h2
      have hlen : cs.length = ks.length := by
        rw [h1, h2] at hl
        simpa using hl
      rw [h1] at h5
      by_cases hone : good ≠ [] ∨ cs ≠ []
      · rw [if_pos (by
          rw [decide_eq_true_eq]
          simp only [List.length_append, List.length_map, List.length_cons]
          rcases hone with h | h <;> · have := List.length_pos_iff.2 h; omega)] at h5
        rw [h5]
        exact .pair hc hk hlen hone h3 h4
      · simp only [not_or, not_not] at hone
        obtain ⟨rfl, rfl⟩ := hone
        have : ks = [] := by simpa using hlen.symm
        subst this
        simp only [List.map_nil, List.nil_append] at hc hk h5
        have ec := commas_one hc
        have ek := commas_one hk
        subst ec ek
        simp at h5
        rw [h5]
        exact .only hc hk h4
  · intro h
    cases h with
    | count hc hk hl => rw [commas_iff.1 hc, commas_iff.1 hk, if_pos hl]
    | only hc hk h4 =>
      rw [commas_iff.1 hc, commas_iff.1 hk]
      simp [loadPairs, h4]
    | @pair good c k cs ks e hc hk hl hone h3 h4 =>
      rw [commas_iff.1 hc, commas_iff.1 hk, if_neg (by simp [hl])]
      refine (loadPairs_err (by simp [hl])).2 ⟨good, c, k, cs, ks, e, rfl, rfl, h3, h4, ?_⟩
      rw [if_pos (by
        rw [decide_eq_true_eq]
        simp only [List.length_append, List.length_map, List.length_cons]
        rcases hone with h | h <;> · have := List.length_pos_iff.2 h; omega)]

theorem connLine_err {P : PairOracle} {n : Nat} {l e : Str} : connLine P n l = .error e ↔
    ∃ w ws, Words l (w :: ws) ∧ w.head? ≠ some c!"#" ∧ LineTrouble P n ws e := by
  have ht := (trimSpace_trimmed l).head
  unfold connLine
  simp only [words_iff, fields_trim (trimSpace_trimmed l)]
  cases hf : fields l with
  | nil =>
    rw [if_pos (.inl (ht.1.2 hf))]
    simp
  | cons w ws =>
    have hne : trimSpace l ≠ [] := fun h => by have := ht.1.1 h; rw [hf] at this; cases this
    rw [ht.2 w ws hf]
    by_cases hc : w.head? = some c!"#"
    · rw [if_pos (.inr hc)]
      simp only [reduceCtorEq, false_iff]
      rintro ⟨w', ws', h1, h2, -⟩
      cases h1
      exact h2 hc
    · rw [if_neg (by rintro (h | h); exact hne h; exact hc h)]
      simp only
      have hout : (∃ w' ws', w :: ws = w' :: ws' ∧ w'.head? ≠ some c!"#" ∧ LineTrouble P n ws' e) ↔ LineTrouble P n ws e :=
        ⟨by rintro ⟨_, _, h, -, h'⟩; cases h; exact h', fun h => ⟨w, ws, rfl, hc, h⟩⟩
      rw [hout]
      constructor
      · intro h
        split at h
        · rename_i hl
          cases h
          exact .many (by omega)
        · rename_i hl
          have hl : ws.length ≤ 3 := by omega
          split at h
          · rename_i e' he'
            cases h
            obtain ⟨good, s, more, h1, h2, ⟨h3, rfl⟩ | ⟨k, v, h3, h4, h5, h6, h7, rfl⟩⟩ := connFields_err.1 he'
            · exact .noValue hl h1 h2 h3
            · exact .noSuchKey hl h1 h2 h3 h4 h5 h6 h7
          · rename_i kv hkv
            obtain ⟨h1, h2, h3, h4⟩ := connFields_iff.1 hkv
            split at h
            · rename_i e' he'
              cases h
              unfold connCerts at he'
              split at he'
              · rename_i hck
                split at he'
                · cases he'
                · rename_i m hm
                  cases he'
                  exact .certs hl h1 h3 hck.1 h4 hck.2 (loadCerts_err.1 hm)
              · rename_i hck
                split at he'
                · rename_i hcn
                  cases he'
                  have hk0 : kv.key = [] := not_not.1 fun hk => hck ⟨hcn, hk⟩
                  rw [hk0] at h4
                  exact .noKey hl h1 h3 hcn h4
                · rename_i hcn
                  have hc0 : kv.cert = [] := not_not.1 hcn
                  rw [hc0] at h3
                  split at he'
                  · rename_i hkn
                    cases he'
                    exact .noCert hl h1 h3 h4 hkn
                  · cases he'
            · cases h
      · have known : ∀ {cert key : Str}, ws.length ≤ 3 → (∀ x ∈ ws, Known x) → Value ws b!"cert" cert → Value ws b!"key" key →
            ∃ h, connFields n ws {} = .ok ⟨h, cert, key⟩ := by
          intro cert key _ h2 h3 h4
          cases hcf : connFields n ws {} with
          | error e =>
            exfalso
            obtain ⟨good, s, more, h1, -, h⟩ := connFields_err.1 hcf
            obtain ⟨v, hv⟩ := h2 s (by rw [h1]; simp)
            rcases h with ⟨h, -⟩ | ⟨k, v', hg, hk, a, b, c, -⟩
            · rcases hv with hv | hv | hv <;> exact h _ _ hv
            · rcases hv with hv | hv | hv
              · exact a (hg.unique hv hk (by decide)).1
              · exact b (hg.unique hv hk (by decide)).1
              · exact c (hg.unique hv hk (by decide)).1
          | ok kv =>
            obtain ⟨_, a1, _, _⟩ := connFields_iff.1 hcf
            have : connFields n ws {} = .ok ⟨kv.host, cert, key⟩ := connFields_iff.2 ⟨h2, a1, h3, h4⟩
            rw [hcf] at this
            exact ⟨kv.host, this⟩
        intro h
        cases h with
        | many h => rw [if_pos (by omega)]
        | noValue hl h1 h2 h3 =>
          rw [if_neg (by omega), connFields_err.2 ⟨_, _, _, h1, h2, .inl ⟨h3, rfl⟩⟩]
        | noSuchKey hl h1 h2 h3 h4 h5 h6 h7 =>
          rw [if_neg (by omega), connFields_err.2 ⟨_, _, _, h1, h2, .inr ⟨_, _, h3, h4, h5, h6, h7, rfl⟩⟩]
        | noKey hl h1 h2 h3 h4 =>
          obtain ⟨hh, hk⟩ := known hl h1 h2 h4
          rw [if_neg (by omega), hk]
          simp [connCerts, h3]
        | noCert hl h1 h2 h3 h4 =>
          obtain ⟨hh, hk⟩ := known hl h1 h2 h3
          rw [if_neg (by omega), hk]
          simp [connCerts, h4]
        | certs hl h1 h2 h3 h4 h5 h6 =>
          obtain ⟨hh, hk⟩ := known hl h1 h2 h4
          rw [if_neg (by omega), hk]
          simp [connCerts, h3, h5, loadCerts_err.2 h6]

theorem connLines_err {P : PairOracle} : ∀ {ls : List Str} {n : Nat} {e : Str}, connLines P n ls = .error e ↔
    ∃ good l more ds w ws, ls = good ++ l :: more ∧ ConnFile P good ds ∧ Words l (w :: ws) ∧ w.head? ≠ some c!"#" ∧
      LineTrouble P (n + good.length + 1) ws e := by
  intro ls
  induction ls with
  | nil =>
    intro n e
    simp only [connLines, reduceCtorEq, false_iff]
    rintro ⟨good, l, more, ds, w, ws, h, -⟩
    cases good <;> cases h
  | cons l ls ih =>
    intro n e
    rw [connLines]
    have hn : ∀ k : Nat, n + 1 + k + 1 = n + (k + 1) + 1 := fun k => by omega
    constructor
    · intro h
      split at h
      · rename_i e' he'
        cases h
        obtain ⟨w, ws, h1, h2, h3⟩ := connLine_err.1 he'
        exact ⟨[], l, ls, [], w, ws, rfl, .nil, h1, h2, h3⟩
      · rename_i hl
        obtain ⟨good, l', more, ds, w, ws, rfl, h2, h3, h4, h5⟩ := ih.1 h
        exact ⟨l :: good, l', more, ds, w, ws, rfl, .silent (connLine_none.1 hl) h2, h3, h4, by rw [List.length_cons, ← hn]; exact h5⟩
      · rename_i d hl
        split at h
        · rename_i e' he'
          cases h
          obtain ⟨good, l', more, ds, w, ws, rfl, h2, h3, h4, h5⟩ := ih.1 he'
          exact ⟨l :: good, l', more, d :: ds, w, ws, rfl, .says (connLine_some.1 hl) h2, h3, h4, by rw [List.length_cons, ← hn]; exact h5⟩
        · cases h
    · rintro ⟨good, l', more, ds, w, ws, h1, h2, h3, h4, h5⟩
      cases h2 with
      | nil =>
        cases h1
        rw [show connLine P (n + 1) l = .error e from connLine_err.2 ⟨w, ws, h3, h4, h5⟩]
      | silent a b =>
        cases h1
        rw [connLine_none.2 a]
        exact ih.2 ⟨_, l', more, ds, w, ws, rfl, b, h3, h4, by rw [hn]; exact h5⟩
      | «says» a b =>
        cases h1
        rw [connLine_some.2 a]
        simp only [ih.2 ⟨_, l', more, _, w, ws, rfl, b, h3, h4, by rw [hn]; exact h5⟩]

end Sink
