import Verif.Props.IpText
import Verif.Props.Print

/-!
# C89: rules with IPv4 addresses and blocks can be written
-/

namespace Sink
open Spec Gram

theorem quad_bytes {strict : Bool} {s : Str} {a b c d : Nat} (h : Dotted strict s a b c d) :
    (∀ x ∈ s, (48 ≤ x ∧ x ≤ 57) ∨ x = c!".") ∧ c!"." ∈ s ∧ ∃ x t, s = x :: t ∧ 48 ≤ x ∧ x ≤ 57 := by
  obtain ⟨w, x, y, z, rfl, h1, h2, h3, h4⟩ := h
  refine ⟨fun x hx => ?_, by simp, ?_⟩
  · simp only [List.mem_append, List.mem_singleton] at hx
    rcases hx with ((((((hx | hx) | hx) | hx) | hx) | hx) | hx)
    · exact .inl (h1.1.2 _ hx)
    · exact .inr hx
    · exact .inl (h2.1.2 _ hx)
    · exact .inr hx
    · exact .inl (h3.1.2 _ hx)
    · exact .inr hx
    · exact .inl (h4.1.2 _ hx)
  · obtain ⟨x, t, rfl⟩ := List.exists_cons_of_ne_nil h1.1.1
    exact ⟨x, _, rfl, h1.1.2 x (by simp)⟩

theorem ipText_bytes {strict : Bool} {s : Str} (h : (∃ a b c d, Dotted strict s a b c d) ∨ ∃ a b c d n, Netblock strict s a b c d n) :
    (∀ x ∈ s, (48 ≤ x ∧ x ≤ 57) ∨ x = c!"." ∨ x = c!"/") ∧ c!"." ∈ s ∧ ∃ x t, s = x :: t ∧ 48 ≤ x ∧ x ≤ 57 := by
  rcases h with ⟨a, b, c, d, h⟩ | ⟨a, b, c, d, n, t, m, rfl, h, hm, -⟩
  · obtain ⟨h1, h2, h3⟩ := quad_bytes h
    exact ⟨fun x hx => (h1 x hx).imp_right .inl, h2, h3⟩
  · obtain ⟨h1, h2, x, t', rfl, h3⟩ := quad_bytes h
    refine ⟨fun y hy => ?_, List.mem_append_left _ (List.mem_append_left _ h2), x, _, rfl, h3⟩
    simp only [List.mem_append, List.mem_singleton] at hy
    rcases hy with (hy | hy) | hy
    · exact (h1 y hy).imp_right .inl
    · exact .inr (.inr hy)
    · exact .inl (hm.2 y hy)

theorem keywords_letters : ∀ k ∈ keywords, ∃ c t, k.1 = c :: t ∧ ¬ (48 ≤ c ∧ c ≤ 57) := by
  have : keywords.all (fun k => match k.1 with | [] => false | c :: _ => decide (¬ (48 ≤ c ∧ c ≤ 57))) = true := by decide +kernel
  intro k hk
  have := List.all_eq_true.1 this k hk
  split at this
  · cases this
  · rename_i c t h
    exact ⟨c, t, h, of_decide_eq_true this⟩

theorem keyword?_digit {c : Byte} {t : Str} (h : 48 ≤ c ∧ c ≤ 57) : keyword? (c :: t) = none := by
  unfold keyword?
  rw [List.lookup_eq_none_iff]
  intro p hp
  obtain ⟨d, u, he, hd⟩ := keywords_letters p hp
  rw [he, bne_iff_ne]
  intro e
  exact hd ((List.cons.inj e).1 ▸ h)

theorem ipText_plain {strict : Bool} {s : Str} (h : (∃ a b c d, Dotted strict s a b c d) ∨ ∃ a b c d n, Netblock strict s a b c d n) :
    PlainWord s ∧ keyword? s = none := by
  obtain ⟨h1, h2, x, t, rfl, h3⟩ := ipText_bytes h
  refine ⟨⟨by simp, fun c hc => ?_, ?_, ?_, ?_⟩, keyword?_digit h3⟩
  · have hall : ∀ n : Fin 256, ((48 ≤ UInt8.ofNat n ∧ UInt8.ofNat n ≤ 57) ∨ UInt8.ofNat n = c!"." ∨ UInt8.ofNat n = c!"/") →
        isSpecialChar (UInt8.ofNat n) = false := by decide +kernel
    have hc' := h1 c hc
    have he : UInt8.ofNat (⟨c.toNat, c.toNat_lt⟩ : Fin 256) = c := by simp
    have := hall ⟨c.toNat, c.toNat_lt⟩
    rw [he] at this
    exact this hc'
  · intro u e
    rw [(List.cons.inj e).1] at h3
    exact absurd h3 (by decide)
  · intro e
    rw [(List.cons.inj e).1] at h3
    exact absurd h3 (by decide)
  · intro e
    rw [(List.cons.inj e).1] at h3
    exact absurd h3 (by decide)

/-- **C89.** Every address and every block can be written in a rule without quotes (the comment at rparse.go:180-182). -/
theorem C89_rule {strict : Bool} {v6 : Str → Option IP} {cidr6 : Str → Option IPNet} {lo : Str → Str} {hlo : ∀ s, s ≠ [] → lo s ≠ []}
    {w : Str} (h : (∃ a b c d, Dotted strict w a b c d) ∨ ∃ a b c d n, Netblock strict w a b c d n) (fs : Files) (d : Nat) (path : List Nat) :
    parse (goLib strict v6 cidr6 lo hlo) fs d path (b!"reject ip " ++ w) = .ok [⟨[⟨.matchN .ip w, {}⟩], .reject, needs (.matchN .ip w), .any⟩] := by
  have hcol : c!":" ∉ w := fun hm => by
    rcases (ipText_bytes h).1 _ hm with h | h | h
    · exact absurd h (by decide)
    · exact absurd h (by decide)
    · exact absurd h (by decide)
  have harg := (C89_allowed (strict := strict) (v6 := v6) (cidr6 := cidr6) (lo := lo) (hlo := hlo) (a := ⟨.value, w, 0⟩) rfl hcol).2 h
  have hm : MadeRule (goLib strict v6 cidr6 lo hlo) ⟨[⟨.matchN .ip w, {}⟩], .reject, needs (.matchN .ip w), .any⟩ := by
    refine ⟨by simp, fun c hc => ?_, by simp, rfl, .inl rfl⟩
    obtain rfl : c = ⟨.matchN .ip w, {}⟩ := by simpa using hc
    refine ⟨.ip (.inr ?_), by simp, by simp, .inl rfl, by simp⟩
    rcases harg with h | ⟨-, h⟩
    · cases h
    · exact h
  have hp : PlainRule ⟨[⟨.matchN .ip w, {}⟩], .reject, needs (.matchN .ip w), .any⟩ := by
    intro c hc
    obtain rfl : c = ⟨.matchN .ip w, {}⟩ := by simpa using hc
    exact ⟨⟨(ipText_plain h).1, fun _ => (ipText_plain h).2⟩, by simp [PlainValue], by simp [PlainValue], by simp [PlainValue]⟩
  have hl := rule_lex hm hp (rest := []) (.inl rfl)
  rw [List.append_nil, toksFrom_end, ← tokens_eq_toksFrom] at hl
  have hs : (⟨[⟨.matchN .ip w, {}⟩], .reject, needs (.matchN .ip w), .any⟩ : Rule).str = b!"reject ip " ++ w := by
    have he : ({} : Withs).str = [] := by decide +kernel
    simp [Rule.str, RClause.str, Action.str, join, Expr.str, he, MKind.str]
  rw [hs] at hl
  obtain ⟨pre, last, hx, -⟩ := C01_lex_total (b!"reject ip " ++ w)
  simp only [tokens, hx, Except.map, Except.ok.injEq] at hl
  refine (C06_file_iff _ _ _ _).mpr ⟨_, hx, ?_⟩
  refine (File.last (e := mkI (.eof, [])) (Stmt.rule (rule_printed hm hp)) rfl).tv ?_
  rw [SameTv, hl, List.map_append, map_mkI_tv]
  rfl

/-- Addresses and blocks are accepted, other numbers are not. -/
example : [b!"reject ip 10.1.2.3", b!"reject ip 10.0.0.0/8", b!"reject ip 10.1.2", b!"reject ip 10.0.0.0/33", b!"reject ip 10.01.2.3"].map
    (fun t => (parse (plainLib true) (fun _ _ => .notExist []) 5 [] t).toOption.isSome) = [true, true, false, false, false] := by
  decide +kernel

end Sink
