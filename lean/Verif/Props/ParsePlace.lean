import Verif.Lemmas.ParsePlace
import Verif.Lemmas.GramPos
import Verif.Props.Parse
import Verif.Spec.Demo

/-!
# C79: errors in rules files are reported at their place
-/

namespace Sink

open Gram Spec

theorem place_of_lineInfo {inp : Str} {p ln lp : Nat} (h : lineInfo inp p = .ok (ln, lp)) : Place inp p ln lp := by
  unfold lineInfo at h
  split at h
  · cases h
  · rename_i hp
    simp only [Except.ok.injEq, Prod.mk.injEq] at h
    obtain ⟨rfl, rfl⟩ := h
    generalize ht : inp.take p = t
    have hlen : t.length = p := by rw [← ht, List.length_take]; omega
    set w := t.reverse.takeWhile (fun c => c != c!"\n") with hw
    set u := t.reverse.dropWhile (fun c => c != c!"\n") with hu
    have hsplit : t = u.reverse ++ w.reverse := by
      rw [← List.reverse_append, hw, hu, List.takeWhile_append_dropWhile, List.reverse_reverse]
    have hno : c!"\n" ∉ w := by
      intro hm
      have := List.mem_takeWhile_imp hm
      simp at this
    refine ⟨u.reverse, w.reverse, inp.drop p, ?_, ?_, by simpa using hno, ?_, ?_, ?_⟩
    · rw [← hsplit, ← ht, List.take_append_drop]
    · rw [← hsplit, hlen]
    · cases hc : u with
      | nil => exact .inl rfl
      | cons c r =>
        have h1 : t.reverse.dropWhile (fun c => c != c!"\n") ≠ [] := by rw [← hu, hc]; simp
        have h2 := List.head_dropWhile_not (fun c => c != c!"\n") h1
        simp only [← hu, hc, List.head_cons, bne_eq_false_iff_eq] at h2
        exact .inr ⟨r.reverse, by rw [List.reverse_cons, h2]⟩
    · rw [hsplit, List.count_append, List.count_reverse, List.count_reverse, List.count_eq_zero.mpr hno]
      omega
    · rw [lineCol, ← hw, List.length_reverse]; omega

theorem names_of_at {inp : Str} {t : Item} {m : Str} (h : At inp t m) : Names inp t.pos m := by
  obtain ⟨ln, lp, what, h1, h2⟩ := h
  exact ⟨ln, lp, what, place_of_lineInfo h1, h2⟩

/-- **C79.** When a text is refused, the message begins with the line, or the line and the column, of a token `t` such that: what stands
before `t` are complete statements followed by the beginning of one; and no text that begins with these tokens, up to and including `t`, is
accepted: the fault is at the place named or before it in the same statement. -/
theorem C79_error_place (L : Lib) (load : Nat → Str → Except Fail (List Rule)) {input m : Str} (h : parseWith L load input = .error (.err m)) :
    ∃ done rs j part t rest, lex input = .ok (done ++ part ++ t :: rest) ∧
      Lines L (fun i f rs => load i f = .ok rs) 0 done rs j ∧ Within part ∧ Names input t.pos m ∧
      ∀ input' more, tokens input' = .ok ((done ++ part ++ [t]).map Item.tv ++ more) → ∀ rs, parseWith L load input' ≠ .ok rs := by
  obtain ⟨pre, last, hlex, -⟩ := C01_lex_total input
  generalize pre ++ [last] = its at hlex
  have hwf := wf_of_lex hlex
  have hst := lex_st hlex .any
  simp only [parseWith, hlex] at h
  rw [hst.1] at h
  have self := pFile_rel ⟨input, L⟩ load _ m _ 0 [] _ ⟨input, L⟩ rfl 0 0 [] _ 0 (.refl (by rw [hst.2]; exact hwf)) h
  rw [hst.2] at self
  obtain ⟨p0, h0, -⟩ := self
  classical
  -- the last of the places that the message could mean
  obtain ⟨p, hp, hmax⟩ : ∃ p, ErrAt ⟨input, L⟩ load 0 its m p ∧ ∀ q, ErrAt ⟨input, L⟩ load 0 its m q → q ≤ p := by
    refine ⟨Nat.findGreatest (ErrAt ⟨input, L⟩ load 0 its m) its.length, Nat.findGreatest_spec h0.lt.le h0, fun q hq => ?_⟩
    exact Nat.le_findGreatest hq.lt.le hq
  obtain ⟨done, rs, j, part, t, rest, he, hlen, hl, hw, ha⟩ := hp
  refine ⟨done, rs, j, part, t, rest, by rw [hlex, he]; simp, hl, hw, names_of_at ha, ?_⟩
  intro input' more htok x hx
  obtain ⟨pre', last', hlex', -⟩ := C01_lex_total input'
  generalize pre' ++ [last'] = its' at hlex'
  have hwf' := wf_of_lex hlex'
  have hst' := lex_st hlex' .any
  simp only [tokens, hlex', Except.map, Except.ok.injEq] at htok
  simp only [parseWith, hlex'] at hx
  rw [hst'.1] at hx
  have hag : Agree (p + 1) (mkSt its .any) (mkSt its' .any) := by
    have htk : (its'.take (p + 1)).map Item.tv = (its.take (p + 1)).map Item.tv := by
      have e1 : its.take (p + 1) = done ++ part ++ [t] := by
        rw [he, ← hlen]
        have : done ++ (part ++ t :: rest) = (done ++ part ++ [t]) ++ rest := by simp
        rw [this, List.take_left' (by simp; omega)]
      rw [e1, List.map_take, htok, List.take_left' (by rw [← hlen]; simp; omega)]
    have hcur : (mkSt its' .any).cur.tv = (mkSt its .any).cur.tv := by
      match its, its', hwf.ne_nil, hwf'.ne_nil, htk with
      | a :: r, a' :: r', _, _, htk => simp only [List.take_succ_cons, List.map_cons, List.cons.injEq] at htk; exact htk.1
    refine ⟨?_, by rw [hst.2]; exact hwf, by rw [hst'.2]; exact hwf', hcur, ?_, by rw [hst.2, hst'.2]; exact htk⟩
    · cases its <;> cases its' <;> rfl
    · rw [hst.2, he, ← hlen]; simp; omega
  obtain ⟨q, hq, hno⟩ := pFile_rel ⟨input, L⟩ load _ m _ 0 [] _ ⟨input', L⟩ rfl (3 * its'.length + 3) (3 * its'.length + 3) [] _ _ hag h
  rw [hst.2] at hq
  exact hno (Nat.lt_succ_of_le (hmax q hq)) x hx

/-- **C79.** An included file that cannot be used is named, with the reason, at the line where the include statement ends. -/
theorem C79_include_error (L : Lib) (load : Nat → Str → Except Fail (List Rule)) {input : Str} {done rest : List Item} {rs : List Rule} {j : Nat}
    {inc a t : Item} {m : Str} (hlex : lex input = .ok (done ++ inc :: a :: t :: rest))
    (hd : Lines L (fun i f rs => load i f = .ok rs) 0 done rs j) (hi : inc.typ = .kw .include_) (ha : IsArg a)
    (hl : load j a.val = .error (.err m)) :
    ∃ ln col, Place input t.pos ln col ∧
      parseWith L load input = .error (.err (b!"at line " ++ decDigits ln ++ b!": while including '" ++ a.val ++ b!"': " ++ m)) := by
  have hi' : inc.typ ≠ .eof := by rw [hi]; simp
  have hpos : t.pos ≤ input.length := (C03_positions hlex).1 t (by simp)
  obtain ⟨ln, col, hli⟩ := lineInfo_safe hpos
  refine ⟨ln, col, place_of_lineInfo hli, ?_⟩
  simp only [parseWith, hlex]
  rw [(lex_st hlex .any).1]
  generalize hn : 3 * (done ++ inc :: a :: t :: rest).length + 3 = n
  simp only [List.length_append, List.length_cons] at hn
  obtain ⟨k', q', hk', he⟩ := pFile_lines (E := ⟨input, L⟩) hd inc hi' (a :: t :: rest) n n [] .any (by omega) (by omega)
  rw [he]
  obtain ⟨k', rfl⟩ : ∃ m, k' = m + 1 := ⟨k' - 1, by omega⟩
  simp only [pFile, hi, if_true, pInclude, consume_mk' hi, ok_bind, mkSt_cons, pArg_mk ha, hl, lineError, hli, err_bind]
  simp

/-- **C79.** What is reported about a rules file: that it cannot be read, or the message about its text. -/
theorem C79_file_error (L : Lib) (fs : Files) (d : Nat) (path : List Nat) (f : Str) (m : Str) :
    loadRules L fs (d + 1) path f = .error (.err m) ↔
      (fs path f = .notExist m ∨ fs path f = .openErr m ∨ fs path f = .readErr m) ∨
      ∃ b m', fs path f = .data b ∧ parse L fs d path b = .error (.err m') ∧ m = b!"rules parsing error " ++ m' := by
  rw [loadRules]
  cases hf : fs path f with
  | data b =>
    simp only [parse, FileRead.data.injEq, reduceCtorEq, or_self, false_or, exists_and_left, exists_eq_left']
    generalize parseWith L (fun i f => loadRules L fs d (i :: path) f) b = r
    match r with
    | .ok r => simp
    | .error (.panic p) => simp
    | .error (.err x) =>
      simp only [Except.error.injEq, Fail.err.injEq, exists_eq_left']
      exact eq_comm
  | _ => simp

/-- A file with an error in the third line, inside a rule that continues over two lines. -/
def badText : Str := b!"accept from a@b\n\nreject to @c;\n  helo-has nodots,or host .d\naccept all\n"

example : parseWith demoLib (fun _ _ => .ok []) badText = .error (.err b!"at line 4 char 19: expected valid option, found 'or'") := by decide +kernel

-- the fault may be before the place: the rule has no operation, and the message names the end of the rule
example : parseWith demoLib (fun _ _ => .ok []) b!"accept all\nreject with note x\n" =
    .error (.err b!"at line 2: rule needs at least one operation, perhaps 'all'") := by decide +kernel

example : parseWith demoLib (fun _ f => .error (.err (b!"no " ++ f))) b!"accept all\ninclude f\n" =
    .error (.err b!"at line 2: while including 'f': no f") := by decide +kernel

example : loadRules demoLib (fun _ f => if f = b!"a" then .data b!"\ninclude b\n" else .data b!"accept all\n\naccept\n") 5 [] b!"a" =
    .error (.err b!"rules parsing error at line 2: while including 'b': rules parsing error at line 3: rule needs at least one operation, perhaps 'all'") := by
  decide +kernel

end Sink
