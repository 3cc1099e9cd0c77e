import Verif.Lemmas.Match
import Verif.Lemmas.Lists
import Verif.Model.Eval
import Verif.Spec.Demo

/-!
# Properties C12–C16: patterns and pattern files
-/

namespace Sink
open Spec

/-! ## C12 -/

/-- C12: matching an address never fails and follows the manual's table of patterns. -/
theorem C12_address_patterns (L : Lib) (addr pat : Str) :
    ∃ b, matchAddress L addr pat = .ok b ∧ (b = true ↔ AddrMatch (L.lower addr) pat) :=
  matchAddress_spec L addr pat

/-- C12: the null address matches only `<>` (and the empty pattern). -/
theorem C12_null_address (L : Lib) (pat : Str) : matchAddress L [] pat = .ok true ↔ pat = b!"<>" ∨ pat = [] := by
  obtain ⟨b, h1, h2⟩ := matchAddress_spec L [] pat
  rw [h1, lower_nil] at *
  simp only [Except.ok.injEq, h2]
  constructor
  · generalize hn : ([] : Str) = a
    intro h
    cases h with
    | self => exact Or.inr rfl
    | null => exact Or.inl rfl
    | name h => exact absurd hn.symm h
    | local_ h => obtain ⟨rfl, _⟩ := h; simp at hn
    | domain h => obtain ⟨rfl, _⟩ := h; simp at hn
    | any h => obtain ⟨rfl, _⟩ := h; simp at hn
    | tail h => obtain ⟨rfl, _⟩ := h; simp at hn
  · rintro (rfl | rfl)
    · exact .null
    · exact .self _

/-- C12: a name without `@` matches only itself and `name@`. -/
theorem C12_bare_name (L : Lib) (addr pat : Str) (hne : L.lower addr ≠ []) (hat : c!"@" ∉ L.lower addr) :
    matchAddress L addr pat = .ok true ↔ pat = L.lower addr ∨ pat = L.lower addr ++ b!"@" := by
  obtain ⟨b, h1, h2⟩ := matchAddress_spec L addr pat
  rw [h1]
  simp only [Except.ok.injEq, h2]
  generalize L.lower addr = a at *
  constructor
  · intro h
    cases h with
    | self => exact Or.inl rfl
    | null => exact absurd rfl hne
    | name => exact Or.inr rfl
    | local_ h => obtain ⟨rfl, _⟩ := h; simp at hat
    | domain h => obtain ⟨rfl, _⟩ := h; simp at hat
    | any h => obtain ⟨rfl, _⟩ := h; simp at hat
    | tail h => obtain ⟨rfl, _⟩ := h; simp at hat
  · rintro (rfl | rfl)
    · exact .self _
    · exact .name hne hat

/-- C12: a proper address matches exactly the five kinds of patterns. -/
theorem C12_full_address (L : Lib) (addr pat l d : Str) (ha : IsAddr (L.lower addr) l d) :
    matchAddress L addr pat = .ok true ↔
      pat = l ++ b!"@" ++ d ∨ pat = l ++ b!"@" ∨ pat = b!"@" ++ d ∨ pat = b!"@" ∨
        ∃ t, (t = d ∨ ∃ x, d = x ++ b!"." ++ t) ∧ pat = b!"@." ++ t := by
  obtain ⟨b, h1, h2⟩ := matchAddress_spec L addr pat
  rw [h1]
  simp only [Except.ok.injEq, h2]
  generalize L.lower addr = a at *
  have huniq : ∀ l' d', IsAddr a l' d' → l' = l ∧ d' = d := by
    rintro l' d' ⟨h1, h2, -, -⟩
    rw [ha.1] at h1
    obtain ⟨rfl, rfl⟩ := split_unique h1 ha.2.1 h2
    exact ⟨rfl, rfl⟩
  constructor
  · intro h
    cases h with
    | self => exact Or.inl (by simp [ha.1])
    | null => exact absurd ha.1 (by simp)
    | name _ h => rw [ha.1] at h; simp at h
    | local_ h => obtain ⟨rfl, rfl⟩ := huniq _ _ h; exact Or.inr (Or.inl rfl)
    | domain h => obtain ⟨rfl, rfl⟩ := huniq _ _ h; exact Or.inr (Or.inr (Or.inl rfl))
    | any h => exact Or.inr (Or.inr (Or.inr (Or.inl rfl)))
    | tail h ht =>
      obtain ⟨rfl, rfl⟩ := huniq _ _ h
      refine Or.inr (Or.inr (Or.inr (Or.inr ⟨_, ?_, rfl⟩)))
      simpa [TailOf] using ht
  · rintro (rfl | rfl | rfl | rfl | ⟨t, ht, rfl⟩)
    · have : a = l ++ b!"@" ++ d := by simp [ha.1]
      rw [this]; exact .self _
    · exact .local_ ha
    · exact .domain ha
    · exact .any ha
    · exact .tail ha (by simpa [TailOf] using ht)

/-- C12: the matching of `source` on the sender is the matching of `@host`. -/
theorem C12_from_host (L : Lib) (addr pat : Str) :
    ∃ b, matchFromHost L addr pat = .ok b ∧ (b = true ↔ AddrMatch (L.lower addr) (b!"@" ++ pat)) :=
  matchAddress_spec L addr _

example : matchAddress demoLib b!"Joe@Mail.Example.com" b!"@.example.com" = .ok true := by decide +kernel
example : matchAddress demoLib b!"Joe@Mail.Example.com" b!"@example.com" = .ok false := by decide +kernel
example : matchAddress demoLib b!"joe" b!"joe@" = .ok true := by decide +kernel
example : IsAddr (demoLib.lower b!"Joe@Mail.Example.com") b!"joe" b!"mail.example.com" := by
  refine ⟨by decide +kernel, by decide +kernel, by decide, by decide⟩
example : demoLib.lower b!"Joe" ≠ [] ∧ c!"@" ∉ demoLib.lower b!"Joe" := by decide +kernel

/-! ## C13 -/

/-- C13: matching a non-empty host name never fails and follows the manual. -/
theorem C13_host_patterns (L : Lib) (host pat : Str) (hh : host ≠ []) (hp : pat ≠ []) :
    ∃ b, matchHost L host pat = .ok b ∧ (b = true ↔ HostMatch (L.lower host) pat) :=
  matchHost_spec L hh (Or.inl hp)

/-- C13: the same spelled out, for a host name without a trailing dot. -/
theorem C13_undotted_host (L : Lib) (host pat : Str) (hh : host ≠ []) (hd : (L.lower host).getLast? ≠ some c!".") :
    matchHost L host pat = .ok true ↔
      pat = L.lower host ∨ pat = b!"." ++ L.lower host ∨ ∃ x t, L.lower host = x ++ b!"." ++ t ∧ pat = b!"." ++ t := by
  obtain ⟨b, h1, h2⟩ := matchHost_spec L (pat := pat) hh (Or.inr hd)
  rw [h1]
  simp only [Except.ok.injEq, h2, HostMatch, stripFor, hd, false_and, if_false, TailOf]
  constructor
  · rintro (h | ⟨t, rfl | ⟨x, h⟩, rfl⟩)
    · exact Or.inl h
    · exact Or.inr (Or.inl rfl)
    · exact Or.inr (Or.inr ⟨x, t, by simp [h], rfl⟩)
  · rintro (h | h | ⟨x, t, h, rfl⟩)
    · exact Or.inl h
    · exact Or.inr ⟨_, Or.inl rfl, h⟩
    · exact Or.inr ⟨t, Or.inr ⟨x, by simp [h]⟩, rfl⟩

/-- C13: a trailing dot (as in reverse DNS names) makes no difference to a pattern without one. -/
theorem C13_trailing_dot (L : Lib) (host host' pat : Str) (hh : L.lower host = L.lower host' ++ b!".") (hn : host' ≠ [])
    (hd : (L.lower host').getLast? ≠ some c!".") (hp : pat ≠ []) (hpd : pat.getLast? ≠ some c!".") :
    matchHost L host pat = matchHost L host' pat := by
  have hne : host ≠ [] := by rintro rfl; rw [lower_nil] at hh; simp at hh
  obtain ⟨b, h1, h2⟩ := matchHost_spec L hne (Or.inl hp)
  obtain ⟨b', h1', h2'⟩ := matchHost_spec L hn (Or.inl hp)
  rw [h1, h1']
  congr 1
  rw [Bool.eq_iff_iff, h2, h2']
  have e1 : stripFor (L.lower host) pat = L.lower host' := by simp [stripFor, hh, hpd]
  have e2 : stripFor (L.lower host') pat = L.lower host' := by simp [stripFor, hd]
  simp [HostMatch, e1, e2]

example : matchHost demoLib b!"mail.Example.com." b!".example.com" = .ok true := by decide +kernel
example : matchHost demoLib b!"mail.example.com." b!".example.com." = .ok true := by decide +kernel
example : matchHost demoLib b!"mail.example.com" b!"example.com" = .ok false := by decide +kernel
example : demoLib.lower b!"A.b." = demoLib.lower b!"a.b" ++ b!"." ∧ (demoLib.lower b!"a.b").getLast? ≠ some c!"." := by
  decide +kernel

/-! ## C14 -/

/-- C14: for a valid client address an IP pattern matches iff it denotes the address or a block with the same leading
bits. -/
theorem C14_ip_patterns (L : Lib) (rip pat : Str) (ip : IP) (h : L.parseIP rip = some ip) :
    matchIp L rip pat = true ↔ IpMatch L ip pat := matchIp_spec L h

/-- C14: IPv4 and IPv6 never match each other. -/
theorem C14_families (L : Lib) (rip pat : Str) (a : BitVec 32) (h : L.parseIP rip = some (.v4 a)) :
    (∀ b, L.parseIP pat = some (.v6 b) → L.parseCIDR pat = none → matchIp L rip pat = false) ∧
    (∀ b n, L.parseIP pat = none → L.parseCIDR pat = some (.v6 b n) → matchIp L rip pat = false) := by
  constructor
  · intro b h1 h2
    rw [Bool.eq_false_iff, ne_eq, matchIp_spec L h]
    simp [IpMatch, h1, h2]
  · intro b n h1 h2
    rw [Bool.eq_false_iff, ne_eq, matchIp_spec L h]
    simp [IpMatch, h1, h2, InBlock]

/-- C14: the same for an IPv6 client. -/
theorem C14_families6 (L : Lib) (rip pat : Str) (a : BitVec 128) (h : L.parseIP rip = some (.v6 a)) :
    (∀ b, L.parseIP pat = some (.v4 b) → L.parseCIDR pat = none → matchIp L rip pat = false) ∧
    (∀ b n, L.parseIP pat = none → L.parseCIDR pat = some (.v4 b n) → matchIp L rip pat = false) := by
  constructor
  · intro b h1 h2
    rw [Bool.eq_false_iff, ne_eq, matchIp_spec L h]
    simp [IpMatch, h1, h2]
  · intro b n h1 h2
    rw [Bool.eq_false_iff, ne_eq, matchIp_spec L h]
    simp [IpMatch, h1, h2, InBlock]

/-- C14: text that is neither an address nor a block never matches a valid client address. -/
theorem C14_garbage (L : Lib) (rip pat : Str) (ip : IP) (h : L.parseIP rip = some ip)
    (h1 : L.parseIP pat = none) (h2 : L.parseCIDR pat = none) : matchIp L rip pat = false := by
  rw [Bool.eq_false_iff, ne_eq, matchIp_spec L h]
  simp [IpMatch, h1, h2]

/-- C14, why the client address must be valid: otherwise every pattern that is not a plain address matches. -/
theorem C14_invalid_client_matches_everything (L : Lib) (rip pat : Str) (h : L.parseIP rip = none)
    (h1 : L.parseIP pat = none) : matchIp L rip pat = true := by
  simp [matchIp, h, h1, ipEqual]

example : demoLib.parseIP b!"10.1.2.3" = some (.v4 0x0a010203#32) := by decide +kernel
example : matchIp demoLib b!"10.1.2.3" b!"10.0.0.0/8" = true := by decide +kernel
example : matchIp demoLib b!"11.1.2.3" b!"10.0.0.0/8" = false := by decide +kernel
example : matchIp demoLib b!"fe80::1%eth0" b!"10.0.0.0/8" = true := by decide +kernel

/-! ## C15 -/

/-- C15: the case of letters in an address or host name does not matter. -/
theorem C15_subject_case (L : Lib) (s t pat : Str) (h : CaseEq s t) (ha : Ascii s) :
    matchAddress L s pat = matchAddress L t pat ∧ matchHost L s pat = matchHost L t pat ∧
      matchFromHost L s pat = matchFromHost L t pat := by
  have := h.lower L ha
  simp only [matchFromHost, matchAddress, matchHost, this, and_self]

/-- A literal pattern argument: not one of the file forms. -/
def Literal (a : Str) : Prop := a ≠ [] ∧ ¬ b!"/" <+: a ∧ ¬ b!"./" <+: a ∧ ¬ b!"file:" <+: a

theorem matchFile_literal {a : Str} (h : Literal a) : matchFile a = .ok none := by
  obtain ⟨h0, h1, h2, h3⟩ := h
  cases a with
  | nil => exact absurd rfl h0
  | cons c a =>
    have h1' : ¬ c!"/" = c := by simpa using h1
    have h2' : ¬ hasPrefix (c :: a) b!"./" = true := by simpa [hasPrefix] using h2
    have h3' : ¬ hasPrefix (c :: a) b!"file:" = true := by simpa [hasPrefix] using h3
    unfold matchFile
    simp only
    rw [if_neg (by rintro (h | h); exacts [h1' h.symm, h2' h]), if_neg h3']

/-- C15: the case of letters in a literal pattern does not matter, for every match operator. -/
theorem C15_literal_case (W : World) (tr : TransR) (k : MKind) (c : Ctx) (a a' : Str) (h : CaseEq a a') (ha : Ascii a)
    (hl : Literal a) (hl' : Literal a') :
    evalMatch W tr k a c = evalMatch W tr k a' c ∧ evalSource W tr a c = evalSource W tr a' c := by
  have e : ∀ c, getMatchList W a c = getMatchList W a' c := by
    intro c
    simp only [getMatchList, matchFile_literal hl, matchFile_literal hl', h.lower W.lib ha]
  have e2 : ∀ k c, evalMatch W tr k a c = evalMatch W tr k a' c := by intro k c; simp only [evalMatch, e]
  exact ⟨e2 k c, by simp only [evalSource, e2]⟩

/-- C15: the case of letters in a pattern file does not matter. -/
theorem C15_file_case (L : Lib) (b b' : Str) (h : CaseEq b b') (ha : Ascii b) : readList L b = readList L b' :=
  h.readList L ha

example : CaseEq b!"Joe@EXAMPLE.com" b!"jOE@example.COM" ∧ Ascii b!"Joe@EXAMPLE.com" := by
  refine ⟨?_, by unfold Ascii; decide⟩
  repeat' first | exact List.Forall₂.nil | refine List.Forall₂.cons ?_ ?_
  all_goals (unfold CaseEqB; decide)
example : Literal b!"@.Example.com" := by unfold Literal; decide
/-- Without "literal" the claim fails: the prefix `file:` is recognised in lower case only. -/
example : matchFile b!"file:x" = .ok (some b!"x") ∧ matchFile b!"FILE:x" = .ok none := by decide +kernel

/-! ## C16 -/

/-- C16: the entries are the trimmed, lower-cased, newline-terminated lines that are neither blank nor comments, in
order.  Missing for the full statement: the unterminated last line `rest` (see `C16_last_line_lost`). -/
theorem C16_entries_partial (L : Lib) (b : Str) (lines : List Str) (rest : Str) (h : Text b lines rest) :
    Entries L lines (readList L b) := readList_entries L h

/-- C16: every file consists of lines in this sense, in one way. -/
theorem C16_lines_exist (b : Str) : ∃! p : List Str × Str, Text b p.1 p.2 := by
  obtain ⟨lines, rest, h⟩ := text_exists b
  refine ⟨(lines, rest), h, ?_⟩
  rintro ⟨l', r'⟩ h'
  have e := h.readLines.symm.trans (Text.readLines h')
  simp only [Prod.mk.injEq] at e ⊢
  refine ⟨?_, e.2.symm⟩
  have : Function.Injective (fun l : Str => l ++ b!"\n") := fun a b hab => by simpa using hab
  exact (List.map_injective_iff.mpr this e.1).symm

/-- C16: the entries are determined by the file: reading twice gives the same, and no entry is empty. -/
theorem C16_no_empty_entry (L : Lib) (b : Str) : ∀ e ∈ readList L b, e ≠ [] := by
  obtain ⟨lines, rest, h⟩ := text_exists b
  exact (readList_entries L h).ne_nil

/-- C16: the text after the last newline makes no difference at all (a finding: it should be an entry). -/
theorem C16_last_line_lost (L : Lib) (b : Str) (rest : Str) (hb : b = [] ∨ b.getLast? = some c!"\n") (hr : c!"\n" ∉ rest) :
    readList L (b ++ rest) = readList L b := by
  obtain ⟨lines, rest', h⟩ := text_exists b
  have hrest : rest' = [] := by
    by_contra hne
    obtain ⟨h1, -, h3⟩ := h
    have : b.getLast? = rest'.getLast? := by rw [h1, List.getLast?_append_of_ne_nil _ hne]
    rcases hb with rfl | hb
    · simp at h1; exact hne h1.2
    · rw [hb] at this
      exact h3 (List.mem_of_getLast? this.symm)
  subst hrest
  have h' : Text (b ++ rest) lines rest := ⟨by rw [h.1]; simp, h.2.1, hr⟩
  simp only [readList, h.readLines, h'.readLines]

/-- C16: loading: a readable file gives its entries; a missing or unreadable one gives none. -/
theorem C16_load (W : World) (f : Str) (t : Trace) (hf : f ≠ []) :
    (∀ b, W.files t.length f = .data b → (loadList W f t).1 = readList W.lib b) ∧
    ((∀ b, W.files t.length f ≠ .data b) → (loadList W f t).1 = []) := by
  constructor
  · intro b h; simp [loadList, hf, h]
  · intro h
    simp only [loadList, hf, if_false]
    split <;> first | rfl | (rename_i b hb; exact absurd hb (h b))

example : Text b!"a\n# c\n  B.com \nlast" [b!"a", b!"# c", b!"  B.com "] b!"last" := by
  refine ⟨by decide, by decide, by decide⟩
example : readList demoLib b!"a\n# c\n\n  B.com \nlast" = [b!"a", b!"b.com"] := by decide +kernel
/-- A one-line file without a final newline is treated as empty. -/
example : readList demoLib b!"spammer@example.com" = [] := by decide +kernel

end Sink
