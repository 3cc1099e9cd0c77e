import Verif.Model.Record

/-!
# C116: the names of ciphers

The record of a message names the cipher of the connection (sinksmtp.go:566-582, tlsnames.go).  The table is data, made by a script from what
`openssl ciphers -V` prints.  A slip in it would show nowhere, so it is held here against what the names themselves say.
-/

namespace Sink

/-- How many bits the key has, as the name of the cipher tells. -/
def TellsBits (name bits : Str) : Prop :=
  (bits = b!"128" ∧ ∃ w ∈ [b!"AES128", b!"AES_128", b!"CAMELLIA128", b!"RC4", b!"IDEA", b!"SEED"], w <:+: name) ∨
  (bits = b!"168" ∧ ∃ w ∈ [b!"DES-CBC3", b!"3DES"], w <:+: name) ∨
  (bits = b!"256" ∧ ∃ w ∈ [b!"AES256", b!"AES_256", b!"CAMELLIA256", b!"CHACHA20"], w <:+: name)

instance (n b : Str) : Decidable (TellsBits n b) := by unfold TellsBits; infer_instance

/-- The letters of cipher names. -/
def CipherLetter (c : UInt8) : Prop := (c!"A" ≤ c ∧ c ≤ c!"Z") ∨ (c!"0" ≤ c ∧ c ≤ c!"9") ∨ c = c!"-" ∨ c = c!"_"

instance (c : UInt8) : Decidable (CipherLetter c) := by unfold CipherLetter; infer_instance

/-- Ciphers with these came with TLS 1.2. -/
def Modern (name : Str) : Prop := ∃ w ∈ [b!"GCM", b!"CCM", b!"SHA384", b!"CHACHA20"], w <:+: name

instance (n : Str) : Decidable (Modern n) := by unfold Modern; infer_instance

/-- `PROTOCOL:NAME:BITS`, all three in accord with each other and with the number of the cipher. -/
def WellNamed (c : UInt16) (text : Str) (proto name bits : Str) : Prop :=
  text = proto ++ b!":" ++ name ++ b!":" ++ bits ∧ name ≠ [] ∧ (∀ x ∈ name, CipherLetter x) ∧ TellsBits name bits ∧
  proto ∈ [b!"SSLv3", b!"TLSv1", b!"TLSv1.2", b!"TLSv1.3"] ∧
  (Modern name → proto = b!"TLSv1.2" ∨ proto = b!"TLSv1.3") ∧
  (proto = b!"TLSv1.3" ↔ c >>> 8 = 0x13) ∧ (proto = b!"TLSv1.3" ↔ b!"TLS_" <+: name)

instance (c : UInt16) (a b d e : Str) : Decidable (WellNamed c a b d e) := by unfold WellNamed; infer_instance

/-- A text at its first two colons. -/
def cutName (text : Str) : Str × Str × Str :=
  let rest := (text.dropWhile (· ≠ c!":")).tail
  (text.takeWhile (· ≠ c!":"), rest.takeWhile (· ≠ c!":"), (rest.dropWhile (· ≠ c!":")).tail)

theorem cipherNames_well : ∀ p ∈ cipherNames, p.1 = 0 ∨ WellNamed p.1 p.2 (cutName p.2).1 (cutName p.2).2.1 (cutName p.2).2.2 := by decide +kernel

theorem cipherNames_codes : (cipherNames.map (·.1)).Nodup := by decide +kernel

theorem cipherNames_names : (cipherNames.map fun p => (cutName p.2).2.1).Nodup := by decide +kernel

theorem mem_of_lookup {α : Type} {β : Type} [BEq α] [LawfulBEq α] {c : α} {n : β} : ∀ {l : List (α × β)}, l.lookup c = some n → (c, n) ∈ l
  | [], h => by cases h
  | (a, b) :: l, h => by
    rw [List.lookup_cons] at h
    split at h
    · rename_i hc
      cases h
      rw [eq_of_beq hc]
      exact .head _
    · exact .tail _ (mem_of_lookup h)

theorem lookup_of_mem {α : Type} {β : Type} [BEq α] [LawfulBEq α] {c : α} {n : β} : ∀ {l : List (α × β)}, (l.map (·.1)).Nodup → (c, n) ∈ l →
    l.lookup c = some n
  | [], _, h => by cases h
  | (a, b) :: l, hn, h => by
    rw [List.map_cons, List.nodup_cons] at hn
    rw [List.lookup_cons]
    rcases List.mem_cons.1 h with hx | hx
    · cases hx; simp
    · have : (c == a) = false := by
        rw [beq_eq_false_iff_ne]
        rintro rfl
        exact hn.1 (List.mem_map.2 ⟨(c, n), hx, rfl⟩)
      rw [this]
      exact lookup_of_mem hn.2 hx

/-- **C116.** The name of a cipher is `PROTOCOL:NAME:BITS`, where the bits are those of the key that NAME tells, ciphers of TLS 1.2 are not said
to be older, and those of TLS 1.3 are exactly the ones with numbers 0x13xx.  The number 0, which is no cipher, has a name of its own. -/
theorem C116_form {c : UInt16} {text : Str} (h : cipherNames.lookup c = some text) :
    (c = 0 ∧ text = b!"NULL-CIPHER-ERROR") ∨ c ≠ 0 ∧ ∃ proto name bits, WellNamed c text proto name bits := by
  by_cases hc : c = 0
  · subst hc
    have : cipherNames.lookup 0 = some b!"NULL-CIPHER-ERROR" := by decide +kernel
    rw [this] at h
    cases h
    exact .inl ⟨rfl, rfl⟩
  · rcases cipherNames_well _ (mem_of_lookup h) with h1 | h1
    · exact absurd h1 hc
    · exact .inr ⟨hc, _, _, _, h1⟩

theorem cut_unique {proto name bits : Str} (h1 : c!":" ∉ proto) (h2 : c!":" ∉ name) : cutName (proto ++ b!":" ++ name ++ b!":" ++ bits) = (proto, name, bits) := by
  have key : ∀ {a b : Str}, c!":" ∉ a → (a ++ c!":" :: b).takeWhile (· ≠ c!":") = a ∧ (a ++ c!":" :: b).dropWhile (· ≠ c!":") = c!":" :: b := by
    intro a b ha
    have hp : ∀ x ∈ a, (decide (x ≠ c!":")) = true := by
      intro x hx; simp only [ne_eq, decide_eq_true_eq]; rintro rfl; exact ha hx
    rw [List.takeWhile_append_of_pos hp, List.dropWhile_append_of_pos hp]
    simp
  have e : proto ++ b!":" ++ name ++ b!":" ++ bits = proto ++ c!":" :: (name ++ c!":" :: bits) := by
    show proto ++ [c!":"] ++ name ++ [c!":"] ++ bits = _
    simp
  unfold cutName
  simp only [e, (key h1).1, (key h1).2, List.tail_cons, (key h2).1, (key h2).2]

theorem wellNamed_cut {c : UInt16} {text proto name bits : Str} (h : WellNamed c text proto name bits) : cutName text = (proto, name, bits) := by
  obtain ⟨rfl, -, h3, -, h5, -⟩ := h
  refine cut_unique ?_ fun hx => absurd (h3 _ hx) (by decide)
  simp only [List.mem_cons, List.not_mem_nil, or_false] at h5
  rcases h5 with rfl | rfl | rfl | rfl <;> decide

theorem nodup_map_inj {α β : Type} {f : α → β} : ∀ {l : List α}, (l.map f).Nodup → ∀ {a b}, a ∈ l → b ∈ l → f a = f b → a = b
  | [], _, _, _, h, _, _ => by cases h
  | x :: l, hn, a, b, ha, hb, hf => by
    rw [List.map_cons, List.nodup_cons] at hn
    rcases List.mem_cons.1 ha with h1 | h1 <;> rcases List.mem_cons.1 hb with h2 | h2
    · rw [h1, h2]
    · exact absurd (List.mem_map.2 ⟨b, h2, by rw [← hf, h1]⟩) hn.1
    · exact absurd (List.mem_map.2 ⟨a, h1, by rw [hf, h2]⟩) hn.1
    · exact nodup_map_inj hn.2 h1 h2 hf

/-- **C116.** Different ciphers have different names, even without the protocol and the bits. -/
theorem C116_unique {c c' : UInt16} {text text' p p' name b b' : Str} (h : cipherNames.lookup c = some text) (h' : cipherNames.lookup c' = some text')
    (hw : WellNamed c text p name b) (hw' : WellNamed c' text' p' name b') : c = c' := by
  have := nodup_map_inj cipherNames_names (mem_of_lookup h) (mem_of_lookup h') (by
    show (cutName text).2.1 = (cutName text').2.1
    rw [wellNamed_cut hw, wellNamed_cut hw'])
  exact congrArg Prod.fst this

/-- **C116.** So whoever reads a name in a record knows the number. -/
theorem C116_number {c c' : UInt16} {text : Str} (h : cipherNames.lookup c = some text) (h' : cipherNames.lookup c' = some text) : c = c' :=
  congrArg Prod.fst (nodup_map_inj cipherNames_names (mem_of_lookup h) (mem_of_lookup h') rfl)

/-- **C116.** The table says one thing of each cipher: looked up in any order it is the same. -/
theorem C116_any_order {l : List (UInt16 × Str)} (h : l.Perm cipherNames) (c : UInt16) : l.lookup c = cipherNames.lookup c := by
  have hn : (l.map (·.1)).Nodup := (h.map _).nodup_iff.2 cipherNames_codes
  cases hc : cipherNames.lookup c with
  | some n => exact lookup_of_mem hn (h.mem_iff.2 (mem_of_lookup hc))
  | none =>
    cases hl : l.lookup c with
    | none => rfl
    | some n => rw [lookup_of_mem cipherNames_codes (h.mem_iff.1 (mem_of_lookup hl))] at hc; cases hc

example : cipherNames.lookup 0xC02F = some b!"TLSv1.2:ECDHE-RSA-AES128-GCM-SHA256:128" ∧
    WellNamed 0xC02F b!"TLSv1.2:ECDHE-RSA-AES128-GCM-SHA256:128" b!"TLSv1.2" b!"ECDHE-RSA-AES128-GCM-SHA256" b!"128" ∧
    ¬ WellNamed 0xC02F b!"TLSv1.2:ECDHE-RSA-AES128-GCM-SHA256:256" b!"TLSv1.2" b!"ECDHE-RSA-AES128-GCM-SHA256" b!"256" ∧
    cipherNames.lookup 0x1301 = some b!"TLSv1.3:TLS_AES_128_GCM_SHA256:128" ∧ cipherNames.lookup 0x1234 = none := by decide +kernel

end Sink
