import Verif.Props.IpText6

/-!
# C105: rules with addresses and blocks of both kinds
-/

namespace Sink
open Spec Gram

section
variable {strict four : Bool}

/-- The bytes of a pattern. -/
theorem denotes_bytes {pat : Str} {z n : Nat} (h : Denotes strict four pat z n) :
    (∀ c ∈ pat, V6Byte c ∨ c = c!"/") ∧ (c!":" ∈ pat ∨ (∃ a b c d, Dotted strict pat a b c d) ∨ ∃ a b c d n, Netblock strict pat a b c d n) ∧
    ∃ x t, pat = x :: t ∧ (isHex x = true ∨ x = c!":") := by
  have quad : ∀ {s : Str}, ((∃ a b c d, Dotted strict s a b c d) ∨ ∃ a b c d n, Netblock strict s a b c d n) →
      (∀ c ∈ s, V6Byte c ∨ c = c!"/") ∧ ∃ x t, s = x :: t ∧ (isHex x = true ∨ x = c!":") := fun h => by
    obtain ⟨h1, -, x, t, rfl, h2⟩ := ipText_bytes h
    refine ⟨fun c hc => ?_, x, t, rfl, .inl (digit_hex h2).1⟩
    rcases h1 c hc with h | h | h
    · exact .inl (.inl (digit_hex h).1)
    · exact .inl (.inr (.inr h))
    · exact .inr h
  have first : ∀ {s : Str} {gs}, V6Text strict four s gs → ∃ x t, s = x :: t ∧ (isHex x = true ∨ x = c!":") := fun h => by
    obtain ⟨p, t, rfl, hp⟩ := v6_first h
    cases p with
    | nil => exact ⟨_, _, rfl, .inr rfl⟩
    | cons x p => exact ⟨x, _, rfl, .inl (hp x (by simp))⟩
  cases h with
  | quad h => exact ⟨(quad (.inl ⟨_, _, _, _, h⟩)).1, .inr (.inl ⟨_, _, _, _, h⟩), (quad (.inl ⟨_, _, _, _, h⟩)).2⟩
  | quads h => exact ⟨(quad (.inr ⟨_, _, _, _, _, h⟩)).1, .inr (.inr ⟨_, _, _, _, _, h⟩), (quad (.inr ⟨_, _, _, _, _, h⟩)).2⟩
  | addr h => exact ⟨fun c hc => .inl ((v6_bytes h).1 c hc), .inl (v6_colon h), first h⟩
  | block h =>
    obtain ⟨t, m, rfl, h, hm, -⟩ := h
    refine ⟨fun c hc => ?_, .inl (by simp [v6_colon h]), ?_⟩
    · simp only [List.mem_append, List.mem_singleton] at hc
      rcases hc with (hc | hc) | hc
      · exact .inl ((v6_bytes h).1 c hc)
      · exact .inr hc
      · exact .inl (.inl (digit_hex (hm.2 c hc)).1)
    · obtain ⟨x, u, rfl, hx⟩ := first h
      exact ⟨x, _, rfl, hx⟩

theorem keyword?_colon {w : Str} (h : c!":" ∈ w) : keyword? w = none := by
  have : keywords.all (fun k => !k.1.contains c!":") = true := by decide +kernel
  unfold keyword?
  rw [List.lookup_eq_none_iff]
  intro p hp
  have hk := List.all_eq_true.1 this p hp
  rw [bne_iff_ne]
  rintro rfl
  simp [h] at hk

theorem denotes_plain {pat : Str} {z n : Nat} (h : Denotes strict four pat z n) : PlainWord pat ∧ keyword? pat = none ∧ argFile pat = none := by
  obtain ⟨h1, h2, x, t, rfl, hx⟩ := denotes_bytes h
  have hsp : ∀ c ∈ x :: t, isSpecialChar c = false := fun c hc => by
    rcases h1 c hc with h | rfl
    · exact h.other.2.2.2.2.2
    · decide
  have hno : x ≠ c!"\"" ∧ x ≠ c!"\\" ∧ x ≠ c!"/" ∧ x ≠ c!"." := by
    rcases hx with hx | rfl
    · exact ⟨fun e => (by subst e; cases hx), fun e => (by subst e; cases hx), fun e => (by subst e; cases hx), fun e => (by subst e; cases hx)⟩
    · decide
  have hfile : ¬ b!"file:" <+: x :: t := fun hp => by
    have hm : c!"i" ∈ x :: t := hp.subset (by simp)
    rcases h1 _ hm with (h | h | h) | h
    · cases h
    · exact absurd h (by decide)
    · exact absurd h (by decide)
    · exact absurd h (by decide)
  refine ⟨⟨by simp, hsp, fun u e => hno.1 (List.cons.inj e).1, fun e => hfile (e ▸ List.prefix_rfl), fun e => hno.2.1 (List.cons.inj e).1⟩, ?_, ?_⟩
  · rcases h2 with h2 | h2
    · exact keyword?_colon h2
    · exact (ipText_plain h2).2
  · unfold argFile
    rw [if_neg, if_neg hfile]
    rintro (h | h)
    · exact hno.2.2.1 (List.cons_prefix_cons.1 h).1.symm
    · exact hno.2.2.2 (List.cons_prefix_cons.1 h).1.symm

/-! ## Small letters -/

theorem lowerByte_hex {c : Byte} (h : isHex c = true) : isHex (lowerByte c) = true ∧ hexOf (lowerByte c) = hexOf c := by
  have : ∀ n : Fin 256, isHex (UInt8.ofNat n) = true → isHex (lowerByte (UInt8.ofNat n)) = true ∧ hexOf (lowerByte (UInt8.ofNat n)) = hexOf (UInt8.ofNat n) := by
    decide +kernel
  have h' := this ⟨c.toNat, c.toNat_lt⟩
  simp only [UInt8.ofNat_toNat] at h'
  exact h' h

theorem lower_map {w : Str} (h : ∀ c ∈ w, c < 128) (L : Lib) : L.lower w = w.map lowerByte := by
  have ha : isASCII w = true := by
    unfold isASCII
    rw [List.all_eq_true]
    exact fun c hc => decide_eq_true (h c hc)
  unfold Lib.lower toLower
  rw [if_pos ha]

theorem group_lower {w : Str} {n : Nat} (h : Group four w n) : Group four (w.map lowerByte) n := by
  have hb := group_bytes h
  obtain ⟨h1, h2, h3, h4⟩ := h
  refine ⟨hexDigits_iff.2 ⟨by simpa using (hexDigits_iff.1 h1).1, fun c hc => ?_⟩, ?_, h3, fun hf => by simpa using h4 hf⟩
  · obtain ⟨d, hd, rfl⟩ := List.mem_map.1 hc
    exact (lowerByte_hex (hb d hd)).1
  · rw [← h2]
    unfold hexNumeral
    rw [List.foldl_map]
    have : ∀ (w : Str) (n : Nat), (∀ c ∈ w, isHex c = true) → w.foldl (fun n c => n * 16 + hexOf (lowerByte c)) n = w.foldl (fun n c => n * 16 + hexOf c) n := by
      intro w
      induction w with
      | nil => simp
      | cons c w ih =>
        intro n hw
        rw [List.foldl_cons, List.foldl_cons, (lowerByte_hex (hw c (by simp))).2]
        exact ih _ fun d hd => hw d (by simp [hd])
    exact this w 0 hb

theorem quad_lower {s : Str} (h : (∃ a b c d, Dotted strict s a b c d) ∨ ∃ a b c d n, Netblock strict s a b c d n) : s.map lowerByte = s := by
  have hL := lower_ipText h (plainLib true)
  rw [lower_map (fun c hc => ?_)] at hL
  · exact hL
  · rcases (ipText_bytes h).1 c hc with h | rfl | rfl
    · exact (hexDigit_bytes (digit_hex h).1).2.2.2.2.2.2.1
    · decide
    · decide

theorem digits_lower {m : Str} (h : Digits m) : m.map lowerByte = m := by
  have : ∀ n : Fin 256, (48 ≤ UInt8.ofNat n ∧ UInt8.ofNat n ≤ 57) → lowerByte (UInt8.ofNat n) = UInt8.ofNat n := by decide +kernel
  refine (List.map_congr_left fun c hc => ?_).trans (List.map_id _)
  have h' := this ⟨c.toNat, c.toNat_lt⟩
  simp only [UInt8.ofNat_toNat] at h'
  exact h' (h.2 c hc)

theorem ending_lower {s : Str} {b : List Nat} (h : Ending strict four s b) : Ending strict four (s.map lowerByte) b := by
  induction h with
  | one h => exact .one (group_lower h)
  | quad h => rw [quad_lower (.inl ⟨_, _, _, _, h⟩)]; exact .quad h
  | more h _ ih => rw [List.map_append, List.map_append]; exact .more (group_lower h) ih

theorem groups_lower {s : Str} {b : List Nat} (h : Groups four s b) : Groups four (s.map lowerByte) b := by
  induction h with
  | one h => exact .one (group_lower h)
  | more h _ ih => rw [List.map_append, List.map_append]; exact .more (group_lower h) ih

theorem v6_lower {s : Str} {gs : List Nat} (h : V6Text strict four s gs) : V6Text strict four (s.map lowerByte) gs := by
  rcases h with ⟨h, h8⟩ | ⟨l, r, a, b, rfl, hl, hr, hn, rfl⟩
  · exact .inl ⟨ending_lower h, h8⟩
  · refine .inr ⟨l.map lowerByte, r.map lowerByte, a, b, by rw [List.map_append, List.map_append]; rfl, ?_, ?_, hn, rfl⟩
    · exact hl.imp (fun h => ⟨by rw [h.1]; rfl, h.2⟩) groups_lower
    · exact hr.imp (fun h => ⟨by rw [h.1]; rfl, h.2⟩) ending_lower

theorem denotes_lower {pat : Str} {z n : Nat} (h : Denotes strict four pat z n) (L : Lib) : Denotes strict four (L.lower pat) z n := by
  rw [lower_map fun c hc => by
    rcases (denotes_bytes h).1 c hc with h | rfl
    · exact h.other.2.2.2.2.1
    · decide]
  cases h with
  | quad h => rw [quad_lower (.inl ⟨_, _, _, _, h⟩)]; exact .quad h
  | quads h => rw [quad_lower (.inr ⟨_, _, _, _, _, h⟩)]; exact .quads h
  | addr h => exact .addr (v6_lower h)
  | block h =>
    obtain ⟨t, m, rfl, h, hm, hn⟩ := h
    exact .block ⟨t.map lowerByte, m, by rw [List.map_append, List.map_append, digits_lower hm]; rfl, v6_lower h, hm, hn⟩

end

/-! ## What a pattern denotes is determined -/

section
variable {strict four : Bool} (hv : four = true → strict = true) {lo : Str → Str} {hlo : ∀ s, s ≠ [] → lo s ≠ []}

theorem dotted_unique {s : Str} {a b c d a' b' c' d' : Nat} (h : Dotted strict s a b c d) (h' : Dotted strict s a' b' c' d') :
    addrNum a b c d = addrNum a' b' c' d' := by
  have k := parseIPv4_iff.2 ⟨a, b, c, d, h, rfl⟩
  rw [parseIPv4_iff.2 ⟨a', b', c', d', h', rfl⟩] at k
  injection k with k
  obtain ⟨_, _, _, _, -, h1, h2, h3, h4⟩ := h
  obtain ⟨_, _, _, _, -, k1, k2, k3, k4⟩ := h'
  obtain ⟨rfl, rfl, rfl, rfl⟩ := ipv4_inj k1.lt k2.lt k3.lt k4.lt h1.lt h2.lt h3.lt h4.lt k
  rfl

include hv in
theorem v6_unique {s : Str} {gs gs' : List Nat} (h : V6Text strict four s gs) (h' : V6Text strict four s gs') : gs = gs' := by
  have k := (parseIPv6_iff hv).2 h
  rw [(parseIPv6_iff hv).2 h'] at k
  injection k with k
  exact k.symm

theorem slash_split {t t' m m' : Str} (h : t ++ b!"/" ++ m = t' ++ b!"/" ++ m') (ht : c!"/" ∉ t) (ht' : c!"/" ∉ t') : t = t' ∧ m = m' := by
  have h1 : indexByte (t ++ c!"/" :: m) c!"/" = some t.length := first_index ht
  have h2 : indexByte (t' ++ c!"/" :: m') c!"/" = some t'.length := first_index ht'
  simp only [List.append_assoc, List.cons_append, List.nil_append] at h
  rw [h, h2] at h1
  injection h1 with h1
  obtain ⟨k1, k2⟩ := List.append_inj h h1.symm
  exact ⟨k1, (List.cons.inj k2).2⟩

include hv in
/-- **C105.** A text has at most one meaning. -/
theorem C105_one_meaning {pat : Str} {z n z' n' : Nat} (h : Denotes strict four pat z n) (h' : Denotes strict four pat z' n') : z = z' ∧ n = n' := by
  have nc4 : ∀ {s : Str} {a b c d}, Dotted strict s a b c d → c!":" ∉ s := fun h => ipText_dotted_noColon (.inl ⟨_, _, _, _, h⟩)
  have nc4b : ∀ {s : Str} {a b c d n}, Netblock strict s a b c d n → c!":" ∉ s := fun h => ipText_dotted_noColon (.inr ⟨_, _, _, _, _, h⟩)
  have sl4 : ∀ {s : Str} {a b c d n}, Netblock strict s a b c d n → c!"/" ∈ s := by
    rintro s a b c d n ⟨t, m, rfl, -⟩
    simp
  have sl6 : ∀ {s : Str} {gs n}, V6Block strict four s gs n → c!"/" ∈ s ∧ c!":" ∈ s := by
    rintro s gs n ⟨t, m, rfl, h, -⟩
    exact ⟨by simp, by simp [v6_colon h]⟩
  cases h with
  | quad h =>
    cases h' with
    | quad h' => exact ⟨by rw [dotted_unique h h'], rfl⟩
    | quads h' => exact absurd (sl4 h') h.no_slash
    | addr h' => exact absurd (v6_colon h') (nc4 h)
    | block h' => exact absurd (sl6 h').2 (nc4 h)
  | quads h =>
    cases h' with
    | quad h' => exact absurd (sl4 h) h'.no_slash
    | quads h' =>
      obtain ⟨t, m, rfl, h1, -, h2, -⟩ := h
      obtain ⟨t', m', he, h1', -, h2', -⟩ := h'
      obtain ⟨rfl, rfl⟩ := slash_split he h1.no_slash h1'.no_slash
      exact ⟨by rw [dotted_unique h1 h1'], by rw [← h2, ← h2']⟩
    | addr h' => exact absurd (v6_colon h') (nc4b h)
    | block h' => exact absurd (sl6 h').2 (nc4b h)
  | addr h =>
    cases h' with
    | quad h' => exact absurd (v6_colon h) (nc4 h')
    | quads h' => exact absurd (v6_colon h) (nc4b h')
    | addr h' => exact ⟨by rw [v6_unique hv h h'], rfl⟩
    | block h' => exact absurd (sl6 h').1 (v6_slash h)
  | block h =>
    cases h' with
    | quad h' => exact absurd (sl6 h).2 (nc4 h')
    | quads h' => exact absurd (sl6 h).2 (nc4b h')
    | addr h' => exact absurd (sl6 h).1 (v6_slash h')
    | block h' =>
      obtain ⟨t, m, rfl, h1, -, h2, -⟩ := h
      obtain ⟨t', m', he, h1', -, h2', -⟩ := h'
      obtain ⟨rfl, rfl⟩ := slash_split he (v6_slash h1) (v6_slash h1')
      exact ⟨by rw [v6_unique hv h1 h1'], by rw [← h2, ← h2']⟩

/-! ## Rules -/

include hv in
theorem denotes_iff (pat : Str) : (∃ z n, Denotes strict four pat z n) ↔
    ((netLib strict four lo hlo).parseIP pat).isSome = true ∨ ((netLib strict four lo hlo).parseCIDR pat).isSome = true := by
  simp only [Option.isSome_iff_exists, C105_addresses hv, C105_blocks hv]
  constructor
  · rintro ⟨z, n, h⟩
    cases h with
    | quad h => exact .inl ⟨_, .inl ⟨_, _, _, _, h, rfl⟩⟩
    | quads h => exact .inr ⟨_, .inl ⟨_, _, _, _, _, h, rfl⟩⟩
    | @addr gs h =>
      obtain ⟨h1, h2⟩ := toIP_num (BitVec.ofNat 128 (groupNum gs))
      rw [v6_num h] at h1
      exact .inl ⟨_, .inr ⟨_, h, h2, h1⟩⟩
    | block h => exact .inr ⟨_, .inr ⟨_, _, h, rfl⟩⟩
  · rintro (⟨_, ⟨_, _, _, _, h, -⟩ | ⟨_, h, -⟩⟩ | ⟨_, ⟨_, _, _, _, _, h, -⟩ | ⟨_, _, h, -⟩⟩)
    · exact ⟨_, _, .quad h⟩
    · exact ⟨_, _, .addr h⟩
    · exact ⟨_, _, .quads h⟩
    · exact ⟨_, _, .block h⟩

include hv in
/-- **C105.** A rule may say `ip PATTERN` with such patterns only. -/
theorem C105_allowed {a : Item} (ht : a.typ = .value) :
    Gram.IsIPArg (netLib strict four lo hlo) a ↔ ∃ z n, Denotes strict four a.val z n := by
  rw [denotes_iff (lo := lo) (hlo := hlo) hv]
  unfold Gram.IsIPArg
  rw [ht]
  simp

include hv in
/-- **C105.** Every such pattern can be written in a rule without quotes. -/
theorem C105_rule {w : Str} {z n : Nat} (h : Denotes strict four w z n) (fs : Files) (d : Nat) (path : List Nat) :
    parse (netLib strict four lo hlo) fs d path (b!"reject ip " ++ w) = .ok [ipRule w] := by
  have harg := (C105_allowed (lo := lo) (hlo := hlo) hv (a := ⟨.value, w, 0⟩) rfl).2 ⟨z, n, h⟩
  have hm : MadeRule (netLib strict four lo hlo) ⟨[⟨.matchN .ip w, {}⟩], .reject, needs (.matchN .ip w), .any⟩ := by
    refine ⟨by simp, fun c hc => ?_, by simp, rfl, .inl rfl⟩
    obtain rfl : c = ⟨.matchN .ip w, {}⟩ := by simpa using hc
    refine ⟨.ip (.inr ?_), by simp, by simp, .inl rfl, by simp⟩
    rcases harg with h | ⟨-, h⟩
    · cases h
    · exact h
  have hp : PlainRule ⟨[⟨.matchN .ip w, {}⟩], .reject, needs (.matchN .ip w), .any⟩ := by
    intro c hc
    obtain rfl : c = ⟨.matchN .ip w, {}⟩ := by simpa using hc
    exact ⟨⟨(denotes_plain h).1, fun _ => (denotes_plain h).2.1⟩, by simp [PlainValue], by simp [PlainValue], by simp [PlainValue]⟩
  have hl := rule_lex hm hp (rest := []) (.inl rfl)
  rw [List.append_nil, toksFrom_end, ← tokens_eq_toksFrom] at hl
  have hs : (⟨[⟨.matchN .ip w, {}⟩], .reject, needs (.matchN .ip w), .any⟩ : Rule).str = b!"reject ip " ++ w := by
    have he : ({} : Withs).str = [] := by decide +kernel
    simp [Rule.str, RClause.str, Action.str, join, Expr.str, he, MKind.str]
  rw [hs] at hl
  obtain ⟨pre, last, hx, -⟩ := C01_lex_total (b!"reject ip " ++ w)
  simp only [tokens, hx, Except.map, Except.ok.injEq] at hl
  refine (C06_file_iff _ _ _ _).mpr ⟨_, hx, ?_⟩
  refine (File.last (e := mkI (.eof, [])) (Stmt.rule (rule_printed hm hp)) rfl).tv ?_
  rw [SameTv, hl, List.map_append, map_mkI_tv]
  rfl

theorem patterns_denotes {pat : Str} {z n : Nat} (h : Denotes strict four pat z n) (W : World) : patterns W pat = [W.lib.lower pat] := by
  unfold patterns
  rw [(denotes_plain h).2.2]

/-- When the rule matches the client. -/
theorem ipRule_client {pat : Str} {z n : Nat} (h : Denotes strict four pat z n) (E : Env) :
    MatchesClient E (ipRule pat) ↔ IpTextMatch E.W.lib E.rip (E.W.lib.lower pat) := by
  have key : Holds E.W (facts E []) ⟨false, [], [], []⟩ (.matchN .ip pat) ↔ IpTextMatch E.W.lib E.rip (E.W.lib.lower pat) := by
    rw [Holds]
    unfold MatchHolds
    rw [patterns_denotes h]
    simp only [subjects, List.mem_singleton, exists_eq_left, PatMatch, facts]
  rw [← key]
  unfold MatchesClient ipRule
  constructor
  · rintro ⟨w, h⟩
    cases h with
    | hit _ h2 => exact h2
    | next _ _ h3 => cases h3
  · exact fun hh => ⟨{}, .hit (by rw [Misses, patterns_denotes h]; simp) hh⟩

include hv in
theorem covers_lower {pat : Str} {z n : Nat} (h : Denotes strict four pat z n) (L : Lib) (ip : IP) :
    CoversIP strict four (L.lower pat) ip ↔ CoversIP strict four pat ip := by
  constructor
  · rintro ⟨z', n', h', hx⟩
    obtain ⟨rfl, rfl⟩ := C105_one_meaning hv h' (denotes_lower h L)
    exact ⟨_, _, h, hx⟩
  · rintro ⟨z', n', h', hx⟩
    exact ⟨_, _, denotes_lower h' L, hx⟩

include hv in
theorem ipFile_loaded {pat : Str} {z n : Nat} (hp : Denotes strict four pat z n) {cf : Conf} {E : Env} (hl : E.W.lib = netLib strict four lo hlo)
    {f : Str} (hb : cf.base = []) (hr : cf.rulefiles = [f]) (hf : f ≠ []) (ht : E.fs [0] f = .data (b!"reject ip " ++ pat)) (hfd : E.fds ≠ 0)
    {rules : List Rule} (h : Loaded cf E false rules) : rules = [ipRule pat] := by
  have ha : accumAll E.W.lib E.fs E.fds 0 cf.base cf.rulefiles = .ok [ipRule pat] := by
    obtain ⟨d, hd⟩ := Nat.exists_eq_succ_of_ne_zero hfd
    have := C105_rule (lo := lo) (hlo := hlo) hv hp E.fs d [0]
    unfold parse at this
    rw [hb, hr, hl, hd]
    unfold accumAll accumRules
    rw [if_neg hf]
    unfold loadRules
    simp only [ht, this]
    rfl
  rcases h with ⟨h, -⟩ | ⟨-, h⟩ | ⟨-, ⟨g, m, h⟩, -⟩
  · cases h
  · rw [ha] at h; injection h with h; exact h.symm
  · rw [ha] at h; cases h

/-- The server says nothing. -/
def Shunned (l : List Step) : Prop := ∀ st ∈ l, sent st.out = [] ∧ (st.pre.pc = .connect → st.post.pc = .closed)

/-- The server follows no rule. -/
def Served (l : List Step) : Prop := ∀ l1 st l2 ph e id, l = l1 ++ st :: l2 → st.asked = some (ph, e, id) →
  sent st.out = answerTo ph .noresult [] id (envelope l1).rcpts ∧ st.post.pc = .ready ∨ st.rsetDrop

include hv in
theorem ipRule_session {o : BaseOpts} {cf : Conf} (hb : Built o cf) {E : Env} (hs : E.W.Static) (hl : E.W.lib = netLib strict four lo hlo)
    {f pat : Str} {z n : Nat} (hbase : cf.base = []) (hr : cf.rulefiles = [f]) (hf : f ≠ []) (ht : E.fs [0] f = .data (b!"reject ip " ++ pat))
    (hfd : E.fds ≠ 0) (hp : Denotes strict four pat z n) {l : List Step} {s : Sess} (h : Life cf E l s) (hst : s.stall = false) :
    (IpTextMatch E.W.lib E.rip (E.W.lib.lower pat) → Shunned l) ∧ (¬ IpTextMatch E.W.lib E.rip (E.W.lib.lower pat) → Served l) := by
  have hm := ipRule_client hp E
  refine ⟨fun hin => ?_, fun hout => ?_⟩
  · obtain ⟨rules, j1, j2⟩ := C77_unwelcome hb hs h
    rw [hst] at j1
    obtain rfl := ipFile_loaded hv hp hl hbase hr hf ht hfd j1
    have hx := j2 (ipRule pat) [] rfl ⟨rfl, rfl⟩ (hm.2 hin) rfl
    obtain ⟨sh0, i0, s0, sh1, o1, h2, h3⟩ := h
    exact fun st hst => ⟨(quiet_run h3 (startSess_init h2).1 hx).2 st hst, fun hpc => (hx st hst hpc).2⟩
  · obtain ⟨rules, j1, j2⟩ := C77_answers hb hs h
    rw [hst] at j1
    obtain rfl := ipFile_loaded hv hp hl hbase hr hf ht hfd j1
    intro l1 st l2 ph e id h1 h2
    obtain ⟨a, w, g1, g2⟩ := j2 [] (ipRule pat) [] [] rfl ⟨rfl, rfl⟩ ⟨by simp [ipRule], by simp [ipRule]⟩ (.inr ⟨fun hx => hout (hm.1 hx), rfl⟩) l1 st l2 ph e id h1 h2
    obtain ⟨rfl, hw⟩ := ruling_none g1
    rw [hw] at g2
    exact g2.imp (fun h => h) And.right

include hv in
/-- **C105.** From the connection to the answers: a server whose only rule is `reject ip PATTERN` in a file says nothing at all to a client
that connects over TCP from an address that the pattern covers, and follows no rule with any other client without a zone. -/
theorem C105_block {o : BaseOpts} {cf : Conf} (hb : Built o cf) {E0 : Env} (hs : E0.W.Static) (hl : E0.W.lib = netLib strict four lo hlo)
    {f pat : Str} {z n : Nat} (hbase : cf.base = []) (hr : cf.rulefiles = [f]) (hf : f ≠ []) (ht : E0.fs [0] f = .data (b!"reject ip " ++ pat))
    (hfd : E0.fds ≠ 0) (hp : Denotes strict four pat z n) {ip : IP} (hip : ProperIP ip) (port : Nat) (laddr : Str) {l : List Step} {s : Sess}
    (h : Life cf (E0.ends (tcpText (ipText ip) [] port) laddr) l s) (hst : s.stall = false) :
    (CoversIP strict four pat ip → Shunned l) ∧ (¬ CoversIP strict four pat ip → Served l) := by
  have hx := ipRule_session hv hb (E := E0.ends (tcpText (ipText ip) [] port) laddr) hs hl hbase hr hf ht hfd hp h hst
  have hrip : (E0.ends (tcpText (ipText ip) [] port) laddr).rip = ipText ip := by
    show hostOf _ = _
    rw [C105_tcp ip ⟨by simp, by simp⟩, if_pos rfl]
  have hi : IpTextMatch (E0.ends (tcpText (ipText ip) [] port) laddr).W.lib (E0.ends (tcpText (ipText ip) [] port) laddr).rip
      ((E0.ends (tcpText (ipText ip) [] port) laddr).W.lib.lower pat) ↔ CoversIP strict four pat ip := by
    rw [hrip, ← covers_lower hv hp E0.W.lib]
    show IpTextMatch E0.W.lib _ (E0.W.lib.lower pat) ↔ _
    unfold IpTextMatch
    rw [hl, C105_text hv hip, ← C105_means (lo := lo) (hlo := hlo) hv _ hip]
    simp
  rw [hi] at hx
  exact hx

include hv in
/-- **C105.** A client with a zone gets nothing from such a server if the pattern is a block, whatever block it is. -/
theorem C105_link_local {o : BaseOpts} {cf : Conf} (hb : Built o cf) {E0 : Env} (hs : E0.W.Static) (hl : E0.W.lib = netLib strict four lo hlo)
    {f pat : Str} {z n : Nat} (hbase : cf.base = []) (hr : cf.rulefiles = [f]) (hf : f ≠ []) (ht : E0.fs [0] f = .data (b!"reject ip " ++ pat))
    (hfd : E0.fds ≠ 0) (hp : Denotes strict four pat z n) {ip : IP} {zone : Str} (hz : NoBrackets zone) (hz0 : zone ≠ []) (port : Nat) (laddr : Str)
    {l : List Step} {s : Sess} (h : Life cf (E0.ends (tcpText (ipText ip) zone port) laddr) l s) (hst : s.stall = false) :
    (c!"/" ∈ pat → Shunned l) ∧ (c!"/" ∉ pat → Served l) := by
  have hx := ipRule_session hv hb (E := E0.ends (tcpText (ipText ip) zone port) laddr) hs hl hbase hr hf ht hfd hp h hst
  have hrip : (E0.ends (tcpText (ipText ip) zone port) laddr).rip = ipText ip ++ b!"%" ++ zone := by
    show hostOf _ = _
    rw [C105_tcp ip hz, if_neg hz0]
  have hi : IpTextMatch (E0.ends (tcpText (ipText ip) zone port) laddr).W.lib (E0.ends (tcpText (ipText ip) zone port) laddr).rip
      ((E0.ends (tcpText (ipText ip) zone port) laddr).W.lib.lower pat) ↔ c!"/" ∈ pat := by
    rw [hrip]
    show IpTextMatch E0.W.lib _ (E0.W.lib.lower pat) ↔ _
    unfold IpTextMatch
    rw [hl, zone_none hv, noSlash_parses hv (denotes_lower hp _)]
    have : c!"/" ∈ (netLib strict four lo hlo).lower pat ↔ c!"/" ∈ pat := by
      rw [lower_map fun c hc => by
        rcases (denotes_bytes hp).1 c hc with h | rfl
        · exact h.other.2.2.2.2.1
        · decide, List.mem_map]
      have hall : ∀ n : Fin 256, lowerByte (UInt8.ofNat n) = c!"/" → UInt8.ofNat n = c!"/" := by decide +kernel
      constructor
      · rintro ⟨c, hc, he⟩
        have h' := hall ⟨c.toNat, c.toNat_lt⟩
        simp only [UInt8.ofNat_toNat] at h'
        exact h' he ▸ hc
      · exact fun hm => ⟨_, hm, by decide⟩
    rw [this]
    simp
  rw [hi] at hx
  exact hx

end

/-- A recent Go. -/
def modernLib : Lib := netLib true true id fun _ h => h

/-- A server that does not want some client. -/
def demoEnv6 (pat addr zone : Str) : Env :=
  ({ demoEnv with W := { demoWorld with lib := modernLib }, fs := fun _ => tbl (.notExist b!"no such file") [
      (b!"/b", .data (b!"reject ip " ++ pat))] } : Env).ends (tcpText addr zone 54321) (tcpText b!"::1" [] 25)

/-- Clients in a block and outside of it, the same address written otherwise, IPv4 clients and blocks of IPv6 addresses, and a link-local
client that is dropped because of a block that has nothing to do with it. -/
example : ([demoEnv6 b!"2001:DB8::/32" b!"2001:db8:1::5" [], demoEnv6 b!"2001:DB8::/32" b!"2001:db9::5" [], demoEnv6 b!"2001:db8:0:0::5" b!"2001:db8::5" [],
    demoEnv6 b!"::/0" b!"192.0.2.2" [], demoEnv6 b!"::ffff:192.0.2.0/120" b!"192.0.2.2" [], demoEnv6 b!"10.0.0.0/8" b!"fe80::1" b!"eth0",
    demoEnv6 b!"10.0.0.0/8" b!"2001:db8::1" []].map fun E =>
      seen (fun l s _ => (s.pc, l.map fun st => sent st.out)) (driveAll (demoConfT b!"/b") E {} {} (events [.helo false b!"me"]))) =
    [.ok (.closed, [[], [], []]), .ok (.ready, [[], [], []]), .ok (.closed, [[], [], []]), .ok (.ready, [[], [], []]), .ok (.closed, [[], [], []]),
      .ok (.closed, [[], [], []]), .ok (.ready, [[], [], []])] := by
  decide +kernel

/-- Odd texts are not addresses, and texts of addresses. -/
example : [b!"1:2:3:4:5:6:7", b!"1:2:3:4:5:6:7:8:9", b!"1::2::3", b!"1:2:3:4:5:6:7::8", b!"12345::", b!":1::", b!"1:", b!"g::", b!"1.2.3.4::", b!"::1.2.3", b!"::%eth0"].map
      modernLib.parseIP = List.replicate 11 none ∧
    [.v6 1, .v6 0, .v6 0x20010db8000000000001000000000001#128, .v6 0x20010db8000100000002000300040005#128, .v4 0x0a000001#32].map ipText =
      [b!"::1", b!"::", b!"2001:db8::1:0:0:1", b!"2001:db8:1:0:2:3:4:5", b!"10.0.0.1"] := by
  decide +kernel

end Sink
