import Verif.Spec.HostPort
import Verif.Props.IpRule
import Verif.Props.Steady

/-!
# C90: a client is known by the address it connects from
-/

namespace Sink
open Spec

theorem lastByte_append {c : Byte} {p : Str} (h : c ∉ p) (s : Str) : lastByte (s ++ c :: p) c = some s.length := by
  unfold lastByte
  have : (s ++ c :: p).reverse.findIdx? (· == c) = some p.length := by
    rw [List.findIdx?_eq_some_iff_getElem]
    refine ⟨by simp, ?_, fun j hj => ?_⟩
    · simp
    · have hj' : j < p.reverse.length := by simpa using hj
      have : (s ++ c :: p).reverse = p.reverse ++ (c :: s.reverse) := by simp
      simp only [this, List.getElem_append_left hj', Bool.not_eq_true, beq_eq_false_iff_ne]
      intro he
      exact h (List.mem_reverse.1 (he ▸ List.getElem_mem hj'))
  rw [this]
  simp

theorem lastByte_none {c : Byte} {s : Str} (h : c ∉ s) : lastByte s c = none := by
  unfold lastByte
  rw [List.findIdx?_eq_none_iff.2]
  · rfl
  · intro x hx
    rw [beq_eq_false_iff_ne]
    rintro rfl
    exact h (List.mem_reverse.1 hx)

theorem last_split {c : Byte} {s : Str} (h : c ∈ s) : ∃ a p, s = a ++ c :: p ∧ c ∉ p := by
  obtain ⟨p, a, he, hp⟩ := List.eq_append_cons_of_mem (List.mem_reverse.2 h)
  refine ⟨a.reverse, p.reverse, ?_, by simpa using hp⟩
  have := congrArg List.reverse he
  simpa using this

theorem first_index {c : Byte} {a b : Str} (h : c ∉ a) : indexByte (a ++ c :: b) c = some a.length := by
  unfold indexByte
  rw [List.findIdx?_eq_some_iff_getElem]
  refine ⟨by simp, by simp, fun j hj => ?_⟩
  simp only [List.getElem_append_left hj, Bool.not_eq_true, beq_eq_false_iff_ne]
  intro he
  exact h (he ▸ List.getElem_mem hj)

theorem first_none {c : Byte} {s : Str} (h : c ∉ s) : indexByte s c = none := by
  unfold indexByte
  rw [List.findIdx?_eq_none_iff]
  intro x hx
  rw [beq_eq_false_iff_ne]
  rintro rfl
  exact h hx

theorem drop_past {c : Byte} (a p : Str) : (a ++ c :: p).drop (a.length + 1) = p := by
  rw [← List.drop_drop]
  simp

theorem splitRest_some {s host : Str} {j k i : Nat} {x : Str × Str} :
    splitRest s host j k i = some x ↔ c!"[" ∉ s.drop j ∧ c!"]" ∉ s.drop k ∧ x = (host, s.drop (i + 1)) := by
  unfold splitRest
  split
  · simp [*]
  · split
    · simp [*]
    · simp [*, eq_comm]

/-- **C90.** `SplitHostPort` takes exactly the texts `host:port` and `[host]:port` apart. -/
theorem C90_split (s host port : Str) : splitHostPort s = some (host, port) ↔ HostPort s host port := by
  constructor
  · intro h
    unfold splitHostPort at h
    by_cases hc : c!":" ∈ s
    · obtain ⟨a, p, rfl, hp⟩ := last_split hc
      simp only [lastByte_append hp] at h
      split at h
      · rename_i hb
        obtain ⟨a, rfl⟩ : ∃ a', a = c!"[" :: a' := by
          cases a with
          | nil => simp at hb
          | cons x a => exact ⟨a, by simp at hb; rw [hb]⟩
        split at h
        · cases h
        · rename_i e he
          split at h
          · cases h
          · split at h
            · rename_i hi
              obtain ⟨h1, h2, h3⟩ := splitRest_some.1 h
              have hm : c!"]" ∈ c!"[" :: a ++ c!":" :: p := by
                rw [← Decidable.not_not (p := _ ∈ _)]
                intro hn
                rw [first_none hn] at he
                cases he
              obtain ⟨u, v, hu, hn⟩ := List.eq_append_cons_of_mem hm
              rw [hu, first_index hn] at he
              injection he with he
              subst he
              have hl : (u ++ [c!"]"]).length = (c!"[" :: a).length := by simpa using hi
              have hu' : (c!"[" :: a) ++ (c!":" :: p) = (u ++ [c!"]"]) ++ v := by rw [hu]; simp
              obtain ⟨k1, k2⟩ := List.append_inj hu' hl.symm
              obtain ⟨g, rfl⟩ : ∃ g, u = c!"[" :: g := by
                cases u with
                | nil => simp at k1
                | cons x u => exact ⟨u, by simp at k1; rw [k1.1]⟩
              have ka : a = g ++ [c!"]"] := by simpa using k1
              subst ka
              simp only [List.mem_cons, not_or] at hn
              simp only [Prod.mk.injEq] at h3
              obtain ⟨rfl, rfl⟩ := h3
              have e1 : (((c!"[" :: (g ++ [c!"]"])) ++ c!":" :: p).take (c!"[" :: g).length).drop 1 = g := by simp
              have e2 : ((c!"[" :: (g ++ [c!"]"])) ++ c!":" :: p).drop ((c!"[" :: (g ++ [c!"]"])).length + 1) = p := drop_past _ _
              have e3 : ((c!"[" :: (g ++ [c!"]"])) ++ c!":" :: p).drop ((c!"[" :: g).length + 1) = c!":" :: p := by
                have : (c!"[" :: g).length + 1 = (c!"[" :: (g ++ [c!"]"])).length := by simp
                rw [this, List.drop_left]
              rw [e1, e2]
              rw [e3] at h2
              simp only [List.cons_append, List.drop_succ_cons, List.drop_zero, List.mem_append, List.mem_cons, not_or] at h1 h2
              exact ⟨⟨h1.1.1, hn.2⟩, ⟨h1.2.2, h2.2⟩, hp, .inr (by simp)⟩
            · cases h
      · split at h
        · cases h
        · rename_i hb hh
          obtain ⟨h1, h2, h3⟩ := splitRest_some.1 h
          rw [drop_past] at h3
          simp only [List.take_left] at h3 hh
          simp only [Prod.mk.injEq] at h3
          obtain ⟨rfl, rfl⟩ := h3
          simp only [List.drop_zero, List.mem_append, List.mem_cons, not_or] at h1 h2
          exact ⟨⟨h1.1, h2.1⟩, ⟨h1.2.2, h2.2.2⟩, hp, .inl ⟨by simp, hh⟩⟩
    · rw [lastByte_none hc] at h
      cases h
  · rintro ⟨⟨h1, h2⟩, ⟨h3, h4⟩, h5, ⟨rfl, h6⟩ | rfl⟩
    · have e : host ++ b!":" ++ port = host ++ c!":" :: port := by simp
      unfold splitHostPort
      rw [e, lastByte_append h5]
      have hb : (host ++ c!":" :: port).head? ≠ some c!"[" := by
        cases host with
        | nil => simp
        | cons x t => simp at h1 ⊢; exact fun h => h1.1 h.symm
      simp only [hb, if_false, List.take_left, h6]
      refine splitRest_some.2 ⟨by simp [h1, h3], by simp [h2, h4], by rw [drop_past]⟩
    · have e : b!"[" ++ host ++ b!"]:" ++ port = (c!"[" :: (host ++ [c!"]"])) ++ c!":" :: port := by simp
      unfold splitHostPort
      rw [e, lastByte_append h5]
      have e2 : (c!"[" :: (host ++ [c!"]"])) ++ c!":" :: port = (c!"[" :: host) ++ c!"]" :: (c!":" :: port) := by simp
      have hi : indexByte ((c!"[" :: (host ++ [c!"]"])) ++ c!":" :: port) c!"]" = some (c!"[" :: host).length := by
        rw [e2]
        exact first_index (by simp [h2])
      have e3 : (c!"[" :: (host ++ [c!"]"])).length = (c!"[" :: host).length + 1 := by simp
      simp only [hi, e3, if_true]
      have hb : ((c!"[" :: (host ++ [c!"]"])) ++ c!":" :: port).head? = some c!"[" := rfl
      rw [if_pos hb, if_neg (by simp)]
      refine splitRest_some.2 ⟨by simp [h1, h3], ?_, ?_⟩
      · rw [← e3, List.drop_left]
        simp [h4]
      · rw [← e3, drop_past, e2, List.take_left]
        rfl

theorem digit_byte {n : Nat} (h : n < 10) : 48 ≤ 48 + UInt8.ofNat n ∧ 48 + UInt8.ofNat n ≤ 57 ∧ (48 + UInt8.ofNat n).toNat - 48 = n := by
  have : ∀ n : Fin 10, 48 ≤ 48 + UInt8.ofNat n ∧ 48 + UInt8.ofNat n ≤ 57 ∧ (48 + UInt8.ofNat n).toNat - 48 = n := by decide
  exact this ⟨n, h⟩

theorem decDigitsN_number : ∀ k n, n < k → Digits (decDigitsN k n) ∧ numeral (decDigitsN k n) = n ∧
    (0 < n → (decDigitsN k n).head? ≠ some c!"0")
  | 0, _, h => absurd h (Nat.not_lt_zero _)
  | k + 1, n, h => by
    unfold decDigitsN
    split
    · rename_i hn
      obtain ⟨h1, h2, h3⟩ := digit_byte hn
      refine ⟨⟨by simp, fun c hc => ?_⟩, ?_, fun h0 he => ?_⟩
      · rw [List.mem_singleton.1 hc]; exact ⟨h1, h2⟩
      · show 0 * 10 + _ = n
        rw [h3]
        omega
      · injection he with he
        rw [he] at h3
        simp at h3
        omega
    · rename_i hn
      obtain ⟨h1, h2, h3⟩ := digit_byte (Nat.mod_lt n (by omega : 10 > 0))
      obtain ⟨⟨g1, g2⟩, g3, g4⟩ := decDigitsN_number k (n / 10) (by omega)
      refine ⟨⟨by simp, fun c hc => ?_⟩, ?_, fun _ => ?_⟩
      · rcases List.mem_append.1 hc with hc | hc
        · exact g2 c hc
        · rw [List.mem_singleton.1 hc]; exact ⟨h1, h2⟩
      · unfold numeral at g3 ⊢
        rw [List.foldl_append, g3]
        simp only [List.foldl_cons, List.foldl_nil, h3]
        omega
      · rw [List.head?_append_of_ne_nil _ g1]
        exact g4 (by omega)

theorem digits_dec (n : Nat) : Digits (decDigits n) := (decDigitsN_number _ _ (Nat.lt_succ_self n)).1

theorem octet_dec {n : Nat} (strict : Bool) (h : n < 256) : Octet strict (decDigits n) n := by
  obtain ⟨h1, h2, h3⟩ := decDigitsN_number (n + 1) n (Nat.lt_succ_self n)
  refine ⟨h1, h2, h, fun _ h0 => ?_⟩
  rcases Nat.eq_zero_or_pos n with rfl | hn
  · rfl
  · exact absurd h0 (h3 hn)

theorem digits_free {w : Str} (h : Digits w) : NoBrackets w ∧ c!":" ∉ w :=
  ⟨⟨fun hm => absurd (h.2 _ hm) (by decide), fun hm => absurd (h.2 _ hm) (by decide)⟩, fun hm => absurd (h.2 _ hm) (by decide)⟩

theorem hostPort_join {host port : Str} (h1 : NoBrackets host) (h2 : NoBrackets port) (h3 : c!":" ∉ port) :
    HostPort (joinHostPort host port) host port := by
  unfold joinHostPort
  split
  · exact ⟨h1, h2, h3, .inr rfl⟩
  · rename_i h
    exact ⟨h1, h2, h3, .inl ⟨rfl, h⟩⟩

/-- **C90.** The part before the port of a TCP address is the IP address, with its zone if it has one. -/
theorem C90_tcp {ip zone : Str} (hi : NoBrackets ip) (hz : NoBrackets zone) (port : Nat) :
    hostOf (tcpText ip zone port) = if zone = [] then ip else ip ++ b!"%" ++ zone := by
  obtain ⟨k1, k2⟩ := digits_free (digits_dec port)
  have hh : NoBrackets (if zone ≠ [] then ip ++ b!"%" ++ zone else ip) := by
    split
    · exact ⟨by simp [hi.1, hz.1], by simp [hi.2, hz.2]⟩
    · exact hi
  have := (C90_split _ _ _).2 (hostPort_join hh k1 k2)
  unfold hostOf tcpText
  rw [this]
  by_cases h : zone = [] <;> simp [h]

/-- **C90.** An IPv4 address is known by its four numbers: its text is the dotted one, and stands for the same address again. -/
theorem C90_ipv4 {a b c d : Nat} (ha : a < 256) (hb : b < 256) (hc : c < 256) (hd : d < 256) (port : Nat) (strict : Bool)
    (v6 : Str → Option IP) (cidr6 : Str → Option IPNet) (lo : Str → Str) (hlo : ∀ s, s ≠ [] → lo s ≠ []) :
    hostOf (tcpText (ipv4Text a b c d) [] port) = ipv4Text a b c d ∧ Dotted strict (ipv4Text a b c d) a b c d ∧
    (goLib strict v6 cidr6 lo hlo).parseIP (ipv4Text a b c d) = some (.v4 (ipv4 a b c d)) := by
  have hdot : Dotted strict (ipv4Text a b c d) a b c d :=
    ⟨_, _, _, _, rfl, octet_dec _ ha, octet_dec _ hb, octet_dec _ hc, octet_dec _ hd⟩
  have f : ∀ n, NoBrackets (decDigits n) ∧ c!":" ∉ decDigits n := fun n => digits_free (digits_dec n)
  have hcol : c!":" ∉ ipv4Text a b c d := by simp [ipv4Text, (f a).2, (f b).2, (f c).2, (f d).2]
  refine ⟨?_, hdot, (C89_addresses hcol _).2 ⟨a, b, c, d, hdot, rfl⟩⟩
  rw [C90_tcp (zone := []) ?_ ⟨by simp, by simp⟩]
  · rfl
  · exact ⟨by simp [ipv4Text, (f a).1.1, (f b).1.1, (f c).1.1, (f d).1.1], by simp [ipv4Text, (f a).1.2, (f b).1.2, (f c).1.2, (f d).1.2]⟩

/-! ## A block in a rule, for a client over TCP -/

theorem lower_ipText {strict : Bool} {w : Str} (h : (∃ a b c d, Dotted strict w a b c d) ∨ ∃ a b c d n, Netblock strict w a b c d n) (L : Lib) :
    L.lower w = w := by
  obtain ⟨h1, -⟩ := ipText_bytes h
  have hall : ∀ n : Fin 256, ((48 ≤ UInt8.ofNat n ∧ UInt8.ofNat n ≤ 57) ∨ UInt8.ofNat n = c!"." ∨ UInt8.ofNat n = c!"/") →
      UInt8.ofNat n < 128 ∧ lowerByte (UInt8.ofNat n) = UInt8.ofNat n := by decide +kernel
  have key : ∀ c ∈ w, c < 128 ∧ lowerByte c = c := fun c hc => by
    have he : UInt8.ofNat (⟨c.toNat, c.toNat_lt⟩ : Fin 256) = c := by simp
    have := hall ⟨c.toNat, c.toNat_lt⟩
    rw [he] at this
    exact this (h1 c hc)
  have ha : isASCII w = true := by
    unfold isASCII
    rw [List.all_eq_true]
    exact fun c hc => decide_eq_true (key c hc).1
  unfold Lib.lower toLower
  rw [if_pos ha]
  exact (List.map_congr_left fun c hc => (key c hc).2).trans (List.map_id _)

theorem patterns_ipText {strict : Bool} {w : Str} (h : (∃ a b c d, Dotted strict w a b c d) ∨ ∃ a b c d n, Netblock strict w a b c d n) (W : World) :
    patterns W w = [w] := by
  obtain ⟨-, -, x, t, rfl, hx⟩ := ipText_bytes h
  have hf : argFile (x :: t) = none := by
    unfold argFile
    have n1 : ¬ (b!"/" <+: x :: t ∨ b!"./" <+: x :: t) := by
      rintro (h | h) <;>
        · have := (List.cons_prefix_cons.1 h).1
          rw [← this] at hx
          exact absurd hx (by decide)
    have n2 : ¬ b!"file:" <+: x :: t := by
      intro h
      have := (List.cons_prefix_cons.1 h).1
      rw [← this] at hx
      exact absurd hx (by decide)
    rw [if_neg n1, if_neg n2]
  unfold patterns
  rw [hf]
  simp only [lower_ipText h]

theorem ipText_dotted_noColon {strict : Bool} {w : Str} (h : (∃ a b c d, Dotted strict w a b c d) ∨ ∃ a b c d n, Netblock strict w a b c d n) :
    c!":" ∉ w := fun hm => by
  rcases (ipText_bytes h).1 _ hm with h | h | h
  · exact absurd h (by decide)
  · exact absurd h (by decide)
  · exact absurd h (by decide)

/-- The rule `reject ip PATTERN`. -/
def ipRule (w : Str) : Rule := ⟨[⟨.matchN .ip w, {}⟩], .reject, .any, .any⟩

theorem ipRule_matches {strict : Bool} {v6 : Str → Option IP} {cidr6 : Str → Option IPNet} {lo : Str → Str} {hlo : ∀ s, s ≠ [] → lo s ≠ []}
    {pat : Str} (hp : (∃ a b c d, Dotted strict pat a b c d) ∨ ∃ a b c d n, Netblock strict pat a b c d n) {E : Env}
    (hl : E.W.lib = goLib strict v6 cidr6 lo hlo) {a b c d : Nat} (hr : Dotted strict E.rip a b c d) :
    MatchesClient E (ipRule pat) ↔ Dotted strict pat a b c d ∨
      ∃ e f g h n, Netblock strict pat e f g h n ∧ addrNum e f g h / 2 ^ (32 - n) = addrNum a b c d / 2 ^ (32 - n) := by
  have hd := ipText_dotted_noColon hp
  have key : Holds E.W (facts E []) ⟨false, [], [], []⟩ (.matchN .ip pat) ↔ Dotted strict pat a b c d ∨
      ∃ e f g h n, Netblock strict pat e f g h n ∧ addrNum e f g h / 2 ^ (32 - n) = addrNum a b c d / 2 ^ (32 - n) := by
    rw [Holds]
    unfold MatchHolds
    rw [patterns_ipText hp]
    simp only [subjects, List.mem_singleton, exists_eq_left, PatMatch, facts]
    rw [hl, ← C89_client (v6 := v6) (cidr6 := cidr6) (lo := lo) (hlo := hlo) hd hr]
    have hcr : c!":" ∉ E.rip := ipText_dotted_noColon (.inl ⟨_, _, _, _, hr⟩)
    have hi := (C89_addresses (v6 := v6) (cidr6 := cidr6) (lo := lo) (hlo := hlo) hcr _).2 ⟨a, b, c, d, hr, rfl⟩
    rw [matchIp_spec _ hi]
    unfold IpTextMatch
    rw [hi]
    simp
  rw [← key]
  unfold MatchesClient ipRule
  constructor
  · rintro ⟨w, h⟩
    cases h with
    | hit _ h2 => exact h2
    | next _ _ h3 => cases h3
  · exact fun h => ⟨{}, .hit (by rw [Misses, patterns_ipText hp]; simp) h⟩

theorem fileRule_loaded {strict : Bool} {v6 : Str → Option IP} {cidr6 : Str → Option IPNet} {lo : Str → Str} {hlo : ∀ s, s ≠ [] → lo s ≠ []}
    {pat : Str} (hp : (∃ a b c d, Dotted strict pat a b c d) ∨ ∃ a b c d n, Netblock strict pat a b c d n) {cf : Conf} {E : Env}
    (hl : E.W.lib = goLib strict v6 cidr6 lo hlo) {f : Str} (hb : cf.base = []) (hr : cf.rulefiles = [f]) (hf : f ≠ [])
    (ht : E.fs [0] f = .data (b!"reject ip " ++ pat)) (hfd : E.fds ≠ 0) {rules : List Rule} (h : Loaded cf E false rules) : rules = [ipRule pat] := by
  have ha : accumAll E.W.lib E.fs E.fds 0 cf.base cf.rulefiles = .ok [ipRule pat] := by
    obtain ⟨d, hd⟩ := Nat.exists_eq_succ_of_ne_zero hfd
    have := C89_rule (v6 := v6) (cidr6 := cidr6) (lo := lo) (hlo := hlo) hp E.fs d [0]
    unfold parse at this
    rw [hb, hr, hl, hd]
    unfold accumAll accumRules
    rw [if_neg hf]
    unfold loadRules
    simp only [ht, this]
    rfl
  rcases h with ⟨h, -⟩ | ⟨-, h⟩ | ⟨-, ⟨g, m, h⟩, -⟩
  · cases h
  · rw [ha] at h; injection h with h; exact h.symm
  · rw [ha] at h; cases h

theorem sent_counted (p : Prop) [Decidable p] (c : Counter) : sent (if p then [Out.count c] else []) = [] := by
  split <;> rfl

theorem says1_none {E : Env} {l : List Step} {ph : Phase} {e : Evt} {a : Action} {w : Withs} (h : Says1 E [] l ph e a w) :
    a = .noresult ∧ w.message = none := by
  obtain ⟨used, h1, h2⟩ := h
  rcases h1 with ⟨rfl, rfl, -⟩ | ⟨p, r, q, w', h1, -⟩
  · rcases h2 .message with ⟨p, r, q, w', x, h, -⟩ | ⟨h, -⟩
    · simp at h
    · exact ⟨rfl, h⟩
  · simp at h1

theorem ruling_none {E : Env} {l : List Step} {ph : Phase} {e : Evt} {a : Action} {w : Withs} (h : Ruling E [] l ph e a w) :
    a = .noresult ∧ w.message = none := by
  cases h with
  | late _ _ h3 =>
    obtain ⟨_, _, _, _, _, -, -, h4, h5, -⟩ := h3
    rw [(says1_none h4).1] at h5
    rcases h5 with h5 | h5 <;> cases h5
  | null _ _ h3 h4 =>
    rw [(says1_none h3).1] at h4
    rcases h4 with h4 | h4 <;> cases h4
  | plain _ h => exact says1_none h

theorem quiet_run {cf : Conf} {E : Env} {s0 s : Sess} {l : List Step} (hr : Run cf E s0 l s) (h0 : s0.pc = .tls) :
    (∀ st ∈ l, st.pre.pc = .connect → sent st.out = [] ∧ st.post.pc = .closed) →
      (s.pc = .tls ∨ s.pc = .connect ∨ s.pc = .closed) ∧ ∀ st ∈ l, sent st.out = [] := by
  refine Spec.Run.ind (P := fun l s => (∀ st ∈ l, st.pre.pc = .connect → sent st.out = [] ∧ st.post.pc = .closed) →
      (s.pc = .tls ∨ s.pc = .connect ∨ s.pc = .closed) ∧ ∀ st ∈ l, sent st.out = []) hr (fun _ => ⟨.inl h0, by simp⟩) ?_
  intro l s1 s2 sh sh' i o _ ih _ hs hc
  obtain ⟨h1, h2⟩ := ih fun st hst => hc st (List.mem_append_left _ hst)
  suffices hx : (s2.pc = .tls ∨ s2.pc = .connect ∨ s2.pc = .closed) ∧ sent o = [] by
    refine ⟨hx.1, fun st hst => ?_⟩
    rcases List.mem_append.1 hst with hst | hst
    · exact h2 st hst
    · rw [List.mem_singleton.1 hst]; exact hx.2
  rcases h1 with h1 | h1 | h1
  · unfold sstep tlsStep at hs
    rw [h1] at hs
    injection hs with hs
    injection hs with hs1 hs2
    injection hs2 with hs2 hs3
    subst hs1 hs3
    exact ⟨.inr (.inl rfl), sent_counted _ _⟩
  · have := hc ⟨s1, i, sh, s2, sh', o⟩ (List.mem_append_right _ (List.mem_singleton.2 rfl)) h1
    exact ⟨.inr (.inr this.2), this.1⟩
  · unfold sstep at hs
    rw [h1] at hs
    injection hs with hs
    injection hs with hs1 hs2
    injection hs2 with hs2 hs3
    subst hs1 hs3
    exact ⟨.inr (.inr h1), rfl⟩

/-- **C90.** From the connection to the answers: a server whose only rule is `reject ip PATTERN` in a file says nothing at all to a
client that connects over TCP from an address in the block (or from this address), and follows no rule with any other IPv4 client. -/
theorem C90_block {o : BaseOpts} {cf : Conf} (hb : Built o cf) {E0 : Env} (hs : E0.W.Static) {strict : Bool} {v6 : Str → Option IP}
    {cidr6 : Str → Option IPNet} {lo : Str → Str} {hlo : ∀ s, s ≠ [] → lo s ≠ []} (hl : E0.W.lib = goLib strict v6 cidr6 lo hlo)
    {f pat : Str} (hbase : cf.base = []) (hr : cf.rulefiles = [f]) (hf : f ≠ []) (ht : E0.fs [0] f = .data (b!"reject ip " ++ pat)) (hfd : E0.fds ≠ 0)
    (hp : (∃ a b c d, Dotted strict pat a b c d) ∨ ∃ a b c d n, Netblock strict pat a b c d n)
    {a b c d : Nat} (ha : a < 256) (hb' : b < 256) (hc : c < 256) (hd : d < 256) (port : Nat) (laddr : Str) {l : List Step} {s : Sess}
    (h : Life cf (E0.ends (tcpText (ipv4Text a b c d) [] port) laddr) l s) (hst : s.stall = false) :
    ((Dotted strict pat a b c d ∨ ∃ e f g h n, Netblock strict pat e f g h n ∧ addrNum e f g h / 2 ^ (32 - n) = addrNum a b c d / 2 ^ (32 - n)) →
      ∀ st ∈ l, sent st.out = [] ∧ (st.pre.pc = .connect → st.post.pc = .closed)) ∧
    (¬ (Dotted strict pat a b c d ∨ ∃ e f g h n, Netblock strict pat e f g h n ∧ addrNum e f g h / 2 ^ (32 - n) = addrNum a b c d / 2 ^ (32 - n)) →
      ∀ l1 st l2 ph e id, l = l1 ++ st :: l2 → st.asked = some (ph, e, id) →
        sent st.out = answerTo ph .noresult [] id (envelope l1).rcpts ∧ st.post.pc = .ready ∨ st.rsetDrop) := by
  obtain ⟨k1, k2, -⟩ := C90_ipv4 ha hb' hc hd port strict v6 cidr6 lo hlo
  have hrip : Dotted strict (E0.ends (tcpText (ipv4Text a b c d) [] port) laddr).rip a b c d := by
    show Dotted strict (hostOf _) a b c d
    rw [k1]
    exact k2
  have hm := ipRule_matches hp (E := E0.ends (tcpText (ipv4Text a b c d) [] port) laddr) hl hrip
  refine ⟨fun hin => ?_, fun hout => ?_⟩
  · obtain ⟨rules, j1, j2⟩ := C77_unwelcome (E := E0.ends (tcpText (ipv4Text a b c d) [] port) laddr) hb hs h
    rw [hst] at j1
    obtain rfl := fileRule_loaded hp hl hbase hr hf ht hfd j1
    have hx := j2 (ipRule pat) [] rfl ⟨rfl, rfl⟩ (hm.2 hin) rfl
    obtain ⟨sh0, i0, s0, sh1, o1, h2, h3⟩ := h
    exact fun st hst => ⟨(quiet_run h3 (startSess_init h2).1 hx).2 st hst, fun hpc => (hx st hst hpc).2⟩
  · obtain ⟨rules, j1, j2⟩ := C77_answers (E := E0.ends (tcpText (ipv4Text a b c d) [] port) laddr) hb hs h
    rw [hst] at j1
    obtain rfl := fileRule_loaded hp hl hbase hr hf ht hfd j1
    intro l1 st l2 ph e id h1 h2
    obtain ⟨a, w, g1, g2⟩ := j2 [] (ipRule pat) [] [] rfl ⟨rfl, rfl⟩ ⟨by simp [ipRule], by simp [ipRule]⟩ (.inr ⟨fun hx => hout (hm.1 hx), rfl⟩) l1 st l2 ph e id h1 h2
    obtain ⟨rfl, hw⟩ := ruling_none g1
    rw [hw] at g2
    exact g2.imp (fun h => h) And.right

/-- A server that does not want clients from 10.0.0.0/8. -/
def demoEnvB (a b c d : Nat) : Env :=
  ({ demoEnv with W := { demoWorld with lib := plainLib true }, fs := fun _ => tbl (.notExist b!"no such file") [
      (b!"/b", .data b!"reject ip 10.0.0.0/8")] } : Env).ends (tcpText (ipv4Text a b c d) [] 54321) (tcpText b!"::1" [] 25)

example : ((demoEnvB 10 200 3 4).raddr, (demoEnvB 10 200 3 4).rip, (demoEnvB 10 200 3 4).laddr, (demoEnvB 10 200 3 4).lip) =
    (b!"10.200.3.4:54321", b!"10.200.3.4", b!"[::1]:25", b!"::1") := by decide +kernel

/-- A client from there is dropped at once, another one is served. -/
example : ([demoEnvB 10 200 3 4, demoEnvB 11 200 3 4].map fun E => seen (fun l s _ => (s.pc, l.map fun st => sent st.out)) (driveAll (demoConfT b!"/b") E {} {}
    (events [.helo false b!"me", .mailfrom b!"a@example.com", .rcptto b!"u"]))) =
    [.ok (.closed, [[], [], [], [], []]), .ok (.ready, [[], [], [], [.accept], [.accept]])] := by
  decide +kernel

/-- A host without a port, with a stray bracket, or with colons but no brackets is not taken apart; the zone of an IPv6 address is kept, so
what is left is not an address for `ParseIP`. -/
example : [b!"10.1.2.3", b!"[::1]", b!"::1:25", b!"[::1]25", b!"a[b:25", b!"10.1.2.3:25", b!"[::1]:25", tcpText b!"fe80::1" b!"eth0" 25, b!":25"].map hostOf =
    [[], [], [], [], [], b!"10.1.2.3", b!"::1", b!"fe80::1%eth0", []] := by decide +kernel

end Sink
