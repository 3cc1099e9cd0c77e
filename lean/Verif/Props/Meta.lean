import Verif.Spec.Meta
import Verif.Props.Record

/-!
# The metadata of a saved message can be read back (C73)
-/

namespace Sink
open Spec

/-! ## The reader -/

theorem after_mk (p s : Str) : after p (p ++ s) = some s := by
  unfold after
  rw [if_pos (by rw [List.isPrefixOf_iff_prefix]; exact List.prefix_append _ _), List.drop_left]

theorem after_none {p l : Str} (n : Nat) (h : l.take n ≠ p.take n) (hn : n ≤ p.length) : after p l = none := by
  unfold after
  rw [if_neg]
  intro hp
  rw [List.isPrefixOf_iff_prefix] at hp
  obtain ⟨x, rfl⟩ := hp
  rw [List.take_append_of_le_length hn] at h
  exact h rfl

theorem takeWhile_stop {d : Byte} {a : Str} (ha : d ∉ a) (r : Str) (hr : r = [] ∨ r.head? = some d) :
    (a ++ r).takeWhile (· != d) = a ∧ (a ++ r).dropWhile (· != d) = r := by
  induction a with
  | nil =>
    rcases hr with rfl | hr
    · exact ⟨rfl, rfl⟩
    · cases r with
      | nil => cases hr
      | cons c r => cases hr; simp
  | cons c a ih =>
    have h1 : (c != d) = true := by rw [bne_iff_ne]; rintro rfl; exact ha List.mem_cons_self
    obtain ⟨i1, i2⟩ := ih fun h => ha (List.mem_cons_of_mem _ h)
    rw [List.cons_append, List.takeWhile_cons, List.dropWhile_cons, if_pos h1, if_pos h1, i1, i2]
    exact ⟨rfl, rfl⟩

theorem word_mk {a : Str} (ha : OneWord a) (r : Str) (hr : r = [] ∨ r.head? = some c!" ") : word (a ++ r) = (a, r) := by
  obtain ⟨h1, h2⟩ := takeWhile_stop ha r hr
  unfold word
  rw [h1, h2]

theorem word_cons {a : Str} (ha : OneWord a) (p : Str) (hp : p.head? = some c!" ") (r : Str) : word (a ++ (p ++ r)) = (a, p ++ r) := by
  refine word_mk ha _ (.inr ?_)
  cases p with
  | nil => cases hp
  | cons c p => exact hp

theorem quoted_mk {a : Str} (ha : c!"'" ∉ a) (tag r : Str) : quoted tag (tag ++ (a ++ (b!"'" ++ r))) = (a, r) := by
  unfold quoted
  rw [after_mk]
  obtain ⟨h1, h2⟩ := takeWhile_stop ha (b!"'" ++ r) (.inr rfl)
  simp only [h1, h2]
  rfl

theorem quoted_no {tag s : Str} (h : after tag s = none) : quoted tag s = ([], s) := by
  unfold quoted; rw [h]

theorem wordsOf_one {a : Str} (ha : OneWord a) : wordsOf a = [a] := by
  induction a with
  | nil => rfl
  | cons c a ih =>
    have h1 : c ≠ c!" " := by rintro rfl; exact ha List.mem_cons_self
    rw [wordsOf, if_neg h1, ih fun h => ha (List.mem_cons_of_mem _ h)]

theorem wordsOf_cons {a : Str} (ha : OneWord a) (s : Str) : wordsOf (a ++ (b!" " ++ s)) = a :: wordsOf s := by
  induction a with
  | nil => show wordsOf (c!" " :: s) = _; rw [wordsOf, if_pos rfl]
  | cons c a ih =>
    have h1 : c ≠ c!" " := by rintro rfl; exact ha List.mem_cons_self
    rw [List.cons_append, wordsOf, if_neg h1, ih fun h => ha (List.mem_cons_of_mem _ h)]

theorem wordsOf_list : ∀ {l : List Str}, (∀ a ∈ l, OneWord a) → ∀ a, OneWord a →
    wordsOf (a ++ l.flatMap fun e => b!" " ++ e) = a :: l := by
  intro l
  induction l with
  | nil => intro _ a ha; rw [List.flatMap_nil, List.append_nil, wordsOf_one ha]
  | cons b l ih =>
    intro hl a ha
    rw [List.flatMap_cons, List.append_assoc, wordsOf_cons ha, ih (fun x hx => hl x (List.mem_cons_of_mem _ hx)) b (hl b List.mem_cons_self)]

theorem digitOf_dec : ∀ n : Nat, n < 10 → digitOf (48 + UInt8.ofNat n) = some n := by decide

theorem digitOf_hex : ∀ n : Nat, n < 16 → digitOf (hexDigit n) = some n := by decide

theorem numberOf_append (b : Nat) : ∀ (s r : Str) (acc : Nat), numberOf b acc (s ++ r) = (numberOf b acc s).bind fun x => numberOf b x r := by
  intro s
  induction s with
  | nil => intro r acc; rfl
  | cons c s ih =>
    intro r acc
    rw [List.cons_append, numberOf, numberOf]
    cases digitOf c with
    | none => rfl
    | some d => exact ih r _

theorem numberOf_decN : ∀ k n, n < k → numberOf 10 0 (decDigitsN k n) = some n := by
  intro k
  induction k with
  | zero => intro n h; omega
  | succ k ih =>
    intro n h
    rw [decDigitsN]
    split
    · rename_i hn
      simp [numberOf, digitOf_dec n hn]
    · rename_i hn
      rw [numberOf_append, ih _ (by omega)]
      simp only [Option.bind_some, numberOf, digitOf_dec _ (Nat.mod_lt n (by decide : 10 > 0))]
      congr 1
      omega

theorem numberOf_dec (n : Nat) : numberOf 10 0 (decDigits n) = some n := numberOf_decN _ _ (Nat.lt_succ_self n)

theorem numberOf_hex4 (v : UInt16) : numberOf 16 0 (hex4 v) = some v.toNat := by
  have m : ∀ n : Nat, n % 16 < 16 := fun n => Nat.mod_lt _ (by decide)
  have hv := v.toNat_lt
  simp only [hex4, numberOf, digitOf_hex _ (m _), Option.bind_some]
  congr 1
  omega

theorem protocolOf_name (v : UInt16) : protocolOf (tlsProtoVersion v) = some v.toNat := by
  have key : ∀ s : Str, protocols.lookup (b!"tls-0x" ++ s) = none := by
    intro s
    have h : ∀ a : Str, a.take 1 ≠ b!"t" → ((b!"tls-0x" ++ s) == a) = false := by
      intro a ha
      rw [beq_eq_false_iff_ne]
      rintro rfl
      exact ha rfl
    simp only [protocols, List.lookup_cons, h _ (by decide : List.take 1 b!"SSLv3" ≠ b!"t"), h _ (by decide : List.take 1 b!"TLSv1.0" ≠ b!"t"),
      h _ (by decide : List.take 1 b!"TLSv1.1" ≠ b!"t"), h _ (by decide : List.take 1 b!"TLSv1.2" ≠ b!"t"),
      h _ (by decide : List.take 1 b!"TLSv1.3" ≠ b!"t")]
    rfl
  unfold tlsProtoVersion
  split; · rename_i h; rw [h]; decide
  split; · rename_i h; rw [h]; decide
  split; · rename_i h; rw [h]; decide
  split; · rename_i h; rw [h]; decide
  split; · rename_i h; rw [h]; decide
  unfold protocolOf
  rw [key, after_mk, Option.bind_some, numberOf_hex4]

theorem oneWord_hex4 (v : UInt16) : OneWord (hex4 v) := by
  have h : ∀ m : Nat, m < 16 → c!" " ≠ hexDigit m := by decide
  have m : ∀ n : Nat, n % 16 < 16 := fun n => Nat.mod_lt _ (by decide)
  simp only [hex4, OneWord, List.mem_cons, List.not_mem_nil, or_false, not_or]
  exact ⟨h _ (m _), h _ (m _), h _ (m _), h _ (m _)⟩

theorem oneWord_append {a b : Str} : OneWord (a ++ b) ↔ OneWord a ∧ OneWord b := by
  simp only [OneWord, List.mem_append, not_or]

instance (s : Str) : Decidable (OneWord s) := by unfold OneWord; infer_instance

theorem oneWord_proto (v : UInt16) : OneWord (tlsProtoVersion v) := by
  unfold tlsProtoVersion
  split; · decide
  split; · decide
  split; · decide
  split; · decide
  split; · decide
  rw [oneWord_append]
  exact ⟨by decide, oneWord_hex4 v⟩

theorem cipherNames_oneWord : ∀ p ∈ cipherNames, OneWord p.2 := by decide +kernel

/-- The part of the TLS line after the protocol. -/
def tlsTail (t : Trans) : Str :=
  (if t.servername ≠ [] then b!" server-name '" ++ t.servername ++ b!"'" else []) ++
  ((if t.peername ≠ [] then b!" client-name '" ++ t.peername ++ b!"'" else []) ++
  (if t.tlsverified then b!" client-name-verified" else []))

theorem tlsTail_head (t : Trans) : tlsTail t = [] ∨ (tlsTail t).head? = some c!" " := by
  unfold tlsTail
  split
  · exact .inr rfl
  · split
    · exact .inr rfl
    · split
      · exact .inr rfl
      · exact .inl rfl

theorem readTail (t : Trans) (h1 : c!"'" ∉ t.servername) (h2 : c!"'" ∉ t.peername) :
    (quoted b!" server-name '" (tlsTail t)).1 = t.servername ∧
    (quoted b!" client-name '" (quoted b!" server-name '" (tlsTail t)).2).1 = t.peername ∧
    decide ((quoted b!" client-name '" (quoted b!" server-name '" (tlsTail t)).2).2 = b!" client-name-verified") = t.tlsverified := by
  have e1 : quoted b!" server-name '" (tlsTail t) = (t.servername,
      (if t.peername ≠ [] then b!" client-name '" ++ t.peername ++ b!"'" else []) ++ (if t.tlsverified then b!" client-name-verified" else [])) := by
    unfold tlsTail
    split
    · rw [List.append_assoc, List.append_assoc, List.append_assoc, quoted_mk h1]
    · rename_i hs
      rw [not_not.1 hs]
      refine quoted_no ?_
      simp only [List.nil_append]
      split
      · simp only [List.append_assoc]
        exact after_none 2 (by simp) (by decide)
      · split <;> decide
  rw [e1]
  have e2 : quoted b!" client-name '" ((if t.peername ≠ [] then b!" client-name '" ++ t.peername ++ b!"'" else []) ++
      (if t.tlsverified then b!" client-name-verified" else [])) = (t.peername, if t.tlsverified then b!" client-name-verified" else []) := by
    split
    · rw [List.append_assoc, List.append_assoc, quoted_mk h2]
    · rename_i hs
      rw [not_not.1 hs]
      refine quoted_no ?_
      split <;> decide
  rw [e2]
  refine ⟨rfl, rfl, ?_⟩
  show decide ((if t.tlsverified = true then b!" client-name-verified" else []) = b!" client-name-verified") = t.tlsverified
  generalize t.tlsverified = b
  revert b
  decide

/-- What is read from the TLS line. -/
theorem readTls_line (t : Trans) (h1 : c!"'" ∉ t.servername) (h2 : c!"'" ∉ t.peername) :
    readTls (hex4 t.cipher ++ ((match cipherNames.lookup t.cipher with
      | some cn => if cn ≠ [] then b!" name " ++ cn else []
      | none => []) ++ (b!" proto " ++ (tlsProtoVersion t.tlsversion ++ tlsTail t)))) =
    some ⟨t.cipher.toNat, t.tlsversion.toNat, t.servername, t.peername, t.tlsverified⟩ := by
  obtain ⟨r1, r2, r3⟩ := readTail t h1 h2
  generalize hn : (match cipherNames.lookup t.cipher with
      | some cn => if cn ≠ [] then b!" name " ++ cn else []
      | none => []) = nm
  have hcase : nm = [] ∨ ∃ cn, OneWord cn ∧ nm = b!" name " ++ cn := by
    rw [← hn]
    split
    · rename_i cn hc
      split
      · exact .inr ⟨cn, cipherNames_oneWord _ (lookup_mem hc), rfl⟩
      · exact .inl rfl
    · exact .inl rfl
  have hw : word (hex4 t.cipher ++ (nm ++ (b!" proto " ++ (tlsProtoVersion t.tlsversion ++ tlsTail t)))) =
      (hex4 t.cipher, nm ++ (b!" proto " ++ (tlsProtoVersion t.tlsversion ++ tlsTail t))) := by
    refine word_mk (oneWord_hex4 _) _ (.inr ?_)
    rcases hcase with rfl | ⟨cn, -, rfl⟩ <;> rfl
  have hx : skipName (nm ++ (b!" proto " ++ (tlsProtoVersion t.tlsversion ++ tlsTail t))) = b!" proto " ++ (tlsProtoVersion t.tlsversion ++ tlsTail t) := by
    unfold skipName
    rcases hcase with rfl | ⟨cn, hcn, rfl⟩
    · rw [List.nil_append, after_none 2 (by simp) (by decide)]
    · rw [List.append_assoc, after_mk]
      simp only
      rw [word_mk hcn _ (.inr rfl)]
  unfold readTls
  simp only [hw, hx, numberOf_hex4, after_mk, word_mk (oneWord_proto t.tlsversion) _ (tlsTail_head t), protocolOf_name, r1, r2, r3,
    Option.bind_eq_bind, Option.bind_some]
  rfl

/-! ## The lines of a record -/

structure WordTrans (t : Trans) : Prop where
  raddr : OneWord t.raddr
  laddr : OneWord t.laddr
  rip : OneWord t.rip
  hash : OneWord t.hash
  verified : ∀ n ∈ t.rdns.verified, OneWord n
  nofwd : ∀ n ∈ t.rdns.nofwd, OneWord n
  inconsist : ∀ n ∈ t.rdns.inconsist, OneWord n
  server : c!"'" ∉ t.servername
  peer : c!"'" ∉ t.peername

/-- Lines that begin otherwise. -/
def Other (p : Str) (n : Nat) (l : List Str) : Prop := ∀ x ∈ l, x.take n ≠ p.take n

theorem lineAfter_skip {p : Str} {n : Nat} {l r : List Str} (h : Other p n l) (hn : n ≤ p.length) : lineAfter (l ++ r) p = lineAfter r p :=
  findSome_skip fun x hx => after_none n (h x hx) hn

theorem lineAfter_hit (p s : Str) (r : List Str) : lineAfter ((p ++ s) :: r) p = some s := by
  unfold lineAfter
  rw [List.findSome?_cons, after_mk]

theorem lineAfter_nil (p : Str) : lineAfter [] p = none := rfl

theorem other_dns {p pref : Str} {n : Nat} (h : pref.take n ≠ p.take n) (hn : n ≤ pref.length) (l : List Str) : Other p n (dnsLine pref l) := by
  intro x hx
  unfold dnsLine at hx
  split at hx
  · cases hx
  · rw [List.mem_singleton] at hx
    rw [hx, List.take_append_of_le_length hn]
    exact h

theorem other_tls {p : Str} {n : Nat} (h : List.take n b!"tls on cipher 0x" ≠ p.take n) (hn : n ≤ 16) (t : Trans) : Other p n (tlsLine t) := by
  intro x hx
  unfold tlsLine at hx
  split at hx
  · rw [List.mem_singleton] at hx
    rw [hx]
    simp only [List.append_assoc]
    rw [List.take_append_of_le_length (by simpa using hn)]
    exact h
  · cases hx

theorem other_rcpt {p : Str} {n : Nat} (h : List.take n b!"to <" ≠ p.take n) (hn : n ≤ 4) (l : List Str) :
    Other p n (l.map fun a => b!"to <" ++ a ++ b!">") := by
  intro x hx
  rw [List.mem_map] at hx
  obtain ⟨a, -, rfl⟩ := hx
  rw [List.append_assoc, List.take_append_of_le_length (by simpa using hn)]
  exact h

theorem other_one {p a s : Str} {n : Nat} (h : a.take n ≠ p.take n) (hn : n ≤ a.length) : Other p n [a ++ s] := by
  intro x hx
  rw [List.mem_singleton] at hx
  rw [hx, List.take_append_of_le_length hn]
  exact h

/-- The names of a line of DNS names; after it comes nothing of the kind. -/
theorem lineAfter_dns {pref p : Str} (hp : p = pref ++ b!" ") {l : List Str} {r : List Str} (hl : ∀ a ∈ l, OneWord a) (hr : lineAfter r p = none) :
    ((lineAfter (dnsLine pref l ++ r) p).map wordsOf).getD [] = l := by
  unfold dnsLine
  cases l with
  | nil => rw [List.length_nil, if_pos rfl, List.nil_append, hr]; rfl
  | cons a l =>
    rw [if_neg (by simp), List.flatMap_cons, List.singleton_append]
    have : pref ++ (b!" " ++ a ++ l.flatMap fun e => b!" " ++ e) = p ++ (a ++ l.flatMap fun e => b!" " ++ e) := by
      rw [hp]; simp only [List.append_assoc]
    rw [this, lineAfter_hit, Option.map_some, Option.getD_some,
      wordsOf_list (fun x hx => hl x (List.mem_cons_of_mem _ hx)) a (hl a List.mem_cons_self)]

theorem lineAfter_none {p : Str} {n : Nat} {l : List Str} (h : Other p n l) (hn : n ≤ p.length) : lineAfter l p = none := by
  have := lineAfter_skip (r := []) h hn
  rwa [List.append_nil] at this

theorem Other.app {p : Str} {n : Nat} {a b : List Str} (ha : Other p n a) (hb : Other p n b) : Other p n (a ++ b) := by
  intro x hx
  rcases List.mem_append.1 hx with hx | hx
  · exact ha x hx
  · exact hb x hx

/-- What is read from a record. -/
def metaOf (prefix_ : Str) (t : Trans) : SavedMeta where
  id := prefix_
  addr := t.raddr
  time := t.when_
  client := if t.rip = [] then t.raddr else t.rip
  here := t.laddr
  helo := t.heloname
  verified := t.rdns.verified
  nofwd := t.rdns.nofwd
  inconsist := t.rdns.inconsist
  tls := if t.tlson then some ⟨t.cipher.toNat, t.tlsversion.toNat, t.servername, t.peername, t.tlsverified⟩ else none
  hash := t.hash
  size := t.data.length
  bodyhash := t.bodyhash

theorem readMeta_record (H : Hashes) {prefix_ : Str} {t : Trans} (hp : OneLine prefix_) (hw : OneWord prefix_) (hc : CleanTrans t)
    (hn : CleanNames t) (ht : WordTrans t) : readMeta (msgDetails H prefix_ t).1 = some (metaOf prefix_ t) := by
  have hsplit : splitBody [] (msgDetails H prefix_ t).1 = some (lines1 prefix_ t ++ [b!"from <" ++ t.from_ ++ b!">"] ++
      (t.rcptto.map fun a => b!"to <" ++ a ++ b!">") ++ lines2 t, t.data) := by
    rw [record_lines, List.append_assoc]
    refine splitBody_lines (splitBody_body t.data) ?_
    intro l hl
    simp only [List.mem_append, List.mem_singleton, List.mem_map] at hl
    rcases hl with ((hl | rfl) | ⟨a, ha, rfl⟩) | hl
    · exact ⟨lines1_oneLine hp hc hn l hl, (lines1_ok _ _ l hl).1⟩
    · refine ⟨?_, fun h => ?_⟩
      · simp only [oneLine_append]; exact ⟨⟨by decide, hc.from_⟩, by decide⟩
      · rw [List.append_assoc] at h
        exact absurd (congrArg (List.take 1) h) (by simp)
    · refine ⟨?_, fun h => ?_⟩
      · simp only [oneLine_append]; exact ⟨⟨by decide, hc.rcpt a ha⟩, by decide⟩
      · rw [List.append_assoc] at h
        exact absurd (congrArg (List.take 1) h) (by simp)
    · exact ⟨lines2_oneLine hc l hl, (lines2_ok _ l hl).1⟩
  -- the lines, one after the other
  generalize hL : lines1 prefix_ t ++ [b!"from <" ++ t.from_ ++ b!">"] ++ (t.rcptto.map fun a => b!"to <" ++ a ++ b!">") ++ lines2 t = L at hsplit
  have hL2 : L = [b!"id " ++ (prefix_ ++ (b!" " ++ (t.raddr ++ (b!" " ++ t.when_))))] ++
      ([b!"remote " ++ ((if t.rip = [] then t.raddr else t.rip) ++ (b!" to " ++ (t.laddr ++ (b!" with helo '" ++ (t.heloname ++ b!"'")))))] ++
      (dnsLine b!"remote-dns" t.rdns.verified ++ (dnsLine b!"remote-dns-nofwd" t.rdns.nofwd ++
      (dnsLine b!"remote-dns-inconsist" t.rdns.inconsist ++ (tlsLine t ++ ([b!"from <" ++ (t.from_ ++ b!">")] ++
      ((t.rcptto.map fun a => b!"to <" ++ a ++ b!">") ++ ([b!"hash " ++ (t.hash ++ (b!" bytes " ++ decDigits t.data.length))] ++
      [b!"bodyhash " ++ t.bodyhash])))))))) := by
    rw [← hL]
    simp only [lines1, lines2, List.append_assoc, List.cons_append, List.nil_append]
  have g1 : lineAfter L b!"id " = some (prefix_ ++ (b!" " ++ (t.raddr ++ (b!" " ++ t.when_)))) := by
    rw [hL2, List.singleton_append, lineAfter_hit]
  have g2 : lineAfter L b!"remote " = some ((if t.rip = [] then t.raddr else t.rip) ++ (b!" to " ++ (t.laddr ++ (b!" with helo '" ++
      (t.heloname ++ b!"'"))))) := by
    rw [hL2, lineAfter_skip (n := 1) (other_one (by decide) (by decide)) (by decide), List.singleton_append, lineAfter_hit]
  have tail : ∀ (p : Str), p.take 4 = b!"remo" →
      lineAfter (tlsLine t ++ ([b!"from <" ++ (t.from_ ++ b!">")] ++ ((t.rcptto.map fun a => b!"to <" ++ a ++ b!">") ++
        ([b!"hash " ++ (t.hash ++ (b!" bytes " ++ decDigits t.data.length))] ++ [b!"bodyhash " ++ t.bodyhash])))) p = none := by
    intro p h4
    have hlen : 4 ≤ p.length := by
      have := congrArg List.length h4
      simp at this
      omega
    have hb : ∀ a : Str, a.take 4 ≠ b!"remo" → a.take 4 ≠ p.take 4 := fun a h => by rw [h4]; exact h
    exact lineAfter_none (n := 4) ((other_tls (hb _ (by decide)) (by decide) t).app ((other_one (hb _ (by decide)) (by decide)).app
      ((other_rcpt (hb _ (by decide)) (by decide) _).app ((other_one (hb _ (by decide)) (by decide)).app (other_one (hb _ (by decide)) (by decide)))))) hlen
  have g3 : ((lineAfter L b!"remote-dns ").map wordsOf).getD [] = t.rdns.verified := by
    rw [hL2, lineAfter_skip (n := 1) (other_one (by decide) (by decide)) (by decide),
      lineAfter_skip (n := 7) (other_one (by decide) (by decide)) (by decide)]
    refine lineAfter_dns rfl ht.verified ?_
    rw [lineAfter_skip (n := 11) (other_dns (by decide) (by decide) _) (by decide),
      lineAfter_skip (n := 11) (other_dns (by decide) (by decide) _) (by decide)]
    exact tail _ (by decide)
  have g4 : ((lineAfter L b!"remote-dns-nofwd ").map wordsOf).getD [] = t.rdns.nofwd := by
    rw [hL2, lineAfter_skip (n := 1) (other_one (by decide) (by decide)) (by decide),
      lineAfter_skip (n := 7) (other_one (by decide) (by decide)) (by decide)]
    have : Other b!"remote-dns-nofwd " 11 (dnsLine b!"remote-dns" t.rdns.verified) := by
      intro x hx
      unfold dnsLine at hx
      split at hx
      · cases hx
      · rename_i hne
        rw [List.mem_singleton] at hx
        rw [hx]
        cases hv : t.rdns.verified with
        | nil => rw [hv] at hne; exact absurd rfl hne
        | cons a l =>
          rw [List.flatMap_cons, List.append_assoc]
          show b!"remote-dns " ≠ _
          decide
    rw [lineAfter_skip this (by decide)]
    refine lineAfter_dns rfl ht.nofwd ?_
    rw [lineAfter_skip (n := 12) (other_dns (by decide) (by decide) _) (by decide)]
    exact tail _ (by decide)
  have g5 : ((lineAfter L b!"remote-dns-inconsist ").map wordsOf).getD [] = t.rdns.inconsist := by
    rw [hL2, lineAfter_skip (n := 1) (other_one (by decide) (by decide)) (by decide),
      lineAfter_skip (n := 7) (other_one (by decide) (by decide)) (by decide)]
    have : Other b!"remote-dns-inconsist " 11 (dnsLine b!"remote-dns" t.rdns.verified) := by
      intro x hx
      unfold dnsLine at hx
      split at hx
      · cases hx
      · rename_i hne
        rw [List.mem_singleton] at hx
        rw [hx]
        cases hv : t.rdns.verified with
        | nil => rw [hv] at hne; exact absurd rfl hne
        | cons a l =>
          rw [List.flatMap_cons, List.append_assoc]
          show b!"remote-dns " ≠ _
          decide
    rw [lineAfter_skip this (by decide), lineAfter_skip (n := 12) (other_dns (by decide) (by decide) _) (by decide)]
    exact lineAfter_dns rfl ht.inconsist (tail _ (by decide))
  have skip3 : ∀ (p : Str) (r : List Str), 3 ≤ p.length → p.take 3 ≠ b!"id " → p.take 3 ≠ b!"rem" →
      lineAfter ([b!"id " ++ (prefix_ ++ (b!" " ++ (t.raddr ++ (b!" " ++ t.when_))))] ++
      ([b!"remote " ++ ((if t.rip = [] then t.raddr else t.rip) ++ (b!" to " ++ (t.laddr ++ (b!" with helo '" ++ (t.heloname ++ b!"'")))))] ++
      (dnsLine b!"remote-dns" t.rdns.verified ++ (dnsLine b!"remote-dns-nofwd" t.rdns.nofwd ++
      (dnsLine b!"remote-dns-inconsist" t.rdns.inconsist ++ r))))) p = lineAfter r p := by
    intro p r hl h1 h2
    rw [lineAfter_skip (n := 3) (other_one (fun e => h1 e.symm) (by decide)) hl,
      lineAfter_skip (n := 3) (other_one (fun e => h2 e.symm) (by decide)) hl,
      lineAfter_skip (n := 3) (other_dns (fun e => h2 e.symm) (by decide) _) hl,
      lineAfter_skip (n := 3) (other_dns (fun e => h2 e.symm) (by decide) _) hl,
      lineAfter_skip (n := 3) (other_dns (fun e => h2 e.symm) (by decide) _) hl]
  have g6 : lineAfter L b!"hash " = some (t.hash ++ (b!" bytes " ++ decDigits t.data.length)) := by
    rw [hL2, skip3 _ _ (by decide) (by decide) (by decide), lineAfter_skip (n := 3) (other_tls (by decide) (by decide) t) (by decide),
      lineAfter_skip (n := 3) (other_one (by decide) (by decide)) (by decide), lineAfter_skip (n := 3) (other_rcpt (by decide) (by decide) _) (by decide),
      List.singleton_append, lineAfter_hit]
  have g7 : lineAfter L b!"bodyhash " = some t.bodyhash := by
    rw [hL2, skip3 _ _ (by decide) (by decide) (by decide), lineAfter_skip (n := 3) (other_tls (by decide) (by decide) t) (by decide),
      lineAfter_skip (n := 3) (other_one (by decide) (by decide)) (by decide), lineAfter_skip (n := 3) (other_rcpt (by decide) (by decide) _) (by decide),
      lineAfter_skip (n := 3) (other_one (by decide) (by decide)) (by decide)]
    exact lineAfter_hit _ _ []
  have g8 : tlsOf (lineAfter L b!"tls on cipher 0x") = some (metaOf prefix_ t).tls := by
    rw [hL2, skip3 _ _ (by decide) (by decide) (by decide)]
    unfold tlsLine metaOf
    simp only
    by_cases hon : t.tlson = true
    · rw [if_pos hon, if_pos hon, List.singleton_append]
      have e := readTls_line t ht.server ht.peer
      simp only [List.append_assoc]
      rw [lineAfter_hit]
      simp only [tlsTail, List.append_assoc] at e
      exact congrArg (Option.map some) e
    · rw [if_neg hon, if_neg hon, List.nil_append, lineAfter_skip (n := 3) (other_one (by decide) (by decide)) (by decide),
        lineAfter_skip (n := 3) (other_rcpt (by decide) (by decide) _) (by decide),
        lineAfter_skip (n := 3) (other_one (by decide) (by decide)) (by decide),
        lineAfter_none (n := 3) (other_one (by decide) (by decide)) (by decide)]
      rfl
  have hcl : OneWord (if t.rip = [] then t.raddr else t.rip) := by split; exacts [ht.raddr, ht.rip]
  unfold readMeta
  simp only [hsplit, g1, g2, g3, g4, g5, g6, g7, g8, Option.bind_eq_bind, Option.bind_some, word_cons hw b!" " rfl, after_mk,
    word_cons ht.raddr b!" " rfl, word_cons ht.laddr b!" with helo '" rfl, word_cons hcl b!" to " rfl, word_cons ht.hash b!" bytes " rfl,
    numberOf_dec]
  simp only [metaOf, pure]
  congr 2
  exact List.dropLast_concat

/-! ## Connections -/

theorem DecR.kept {E : Env} {ph : Phase} {evt : Evt} {id : Str} {s s' : Sess} {ref : Bool} {o : List Out} {res : Action} {c1 : Ctx}
    (h : DecR E ph evt id s ref s' o res c1) :
    s'.trans.raddr = s.trans.raddr ∧ s'.trans.laddr = s.trans.laddr ∧ s'.trans.rip = s.trans.rip ∧ s'.trans.rdns = s.trans.rdns ∧
    s'.trans.peername = s.trans.peername ∧ s'.trans.tlsverified = s.trans.tlsverified ∧ s'.pc = s.pc := by
  obtain ⟨m, a, ht⟩ := h.trans
  rw [ht]
  refine ⟨rfl, rfl, rfl, rfl, rfl, rfl, ?_⟩
  rw [h.sess]

/-- What the record says about the client besides what it said. -/
structure Known (E : Env) (l : List Step) (s : Sess) : Prop where
  raddr : s.trans.raddr = E.raddr
  laddr : s.trans.laddr = E.laddr
  rip : s.trans.rip = E.rip
  cert : (s.trans.peername, s.trans.tlsverified) = certificateOf l
  dns : s.pc ≠ .tls → s.pc ≠ .connect → ∃ q ∈ l, q.pre.pc = .connect ∧ s.trans.rdns = (lookupAddrVerified E.W E.rip q.pre.c.trace).1

theorem certificateOf_none {l : List Step} {st : Step} (h : st.certificate = none) : certificateOf (l ++ [st]) = certificateOf l := by
  unfold certificateOf
  simp [List.filterMap_append, h]

theorem certificateOf_some {l : List Step} {st : Step} {c : Str × Bool} (h : st.certificate = some c) : certificateOf (l ++ [st]) = c := by
  unfold certificateOf
  simp [List.filterMap_append, h]

theorem certificate_none {st : Step} (h : ∀ d, st.event ≠ some (.gotdata d)) : st.certificate = none := by
  unfold Step.certificate
  split
  · rename_i d hd; exact absurd hd (h d)
  · rfl

theorem Known.same {E : Env} {l : List Step} {s s' : Sess} {i : Inp} {sh sh' : Shared} {o : List Out} (hk : Known E l s)
    (hc : ∀ d, (Step.mk s i sh s' sh' o).event ≠ some (.gotdata d)) (h : s'.trans.raddr = s.trans.raddr ∧ s'.trans.laddr = s.trans.laddr ∧
      s'.trans.rip = s.trans.rip ∧ s'.trans.rdns = s.trans.rdns ∧ s'.trans.peername = s.trans.peername ∧ s'.trans.tlsverified = s.trans.tlsverified)
    (hp : s.pc ≠ .tls ∧ s.pc ≠ .connect ∨ s'.pc = .connect) : Known E (l ++ [⟨s, i, sh, s', sh', o⟩]) s' := by
  obtain ⟨h1, h2, h3, h4, h5, h6⟩ := h
  refine ⟨h1.trans hk.raddr, h2.trans hk.laddr, h3.trans hk.rip, ?_, ?_⟩
  · rw [certificateOf_none (certificate_none hc), h5, h6, hk.cert]
  · intro k1 k2
    rcases hp with hp | hp
    · obtain ⟨q, hq, e⟩ := hk.dns hp.1 hp.2
      exact ⟨q, by simp [hq], e.1, h4.trans e.2⟩
    · exact absurd hp k2

theorem Known.looked {E : Env} {l : List Step} {s s1 s' : Sess} {i : Inp} {sh sh' : Shared} {o o1 : List Out} {ref : Bool} {res : Action} {c1 : Ctx}
    (hk : Known E l s) (hp : s.pc = .connect) (hd : DecR E .connect {} [] (s.withRdns E) ref s1 o1 res c1) (h : s'.trans = s1.trans) :
    Known E (l ++ [⟨s, i, sh, s', sh', o⟩]) s' := by
  obtain ⟨h1, h2, h3, h4, h5, h6, -⟩ := hd.kept
  rw [← h] at h1 h2 h3 h4 h5 h6
  refine ⟨h1.trans hk.raddr, h2.trans hk.laddr, h3.trans hk.rip, ?_, fun _ _ => ⟨⟨s, i, sh, s', sh', o⟩, by simp, hp, ?_⟩⟩
  · rw [certificateOf_none (certificate_none fun d => by simp [Step.event, hp]), h5, h6]
    exact hk.cert
  · rw [h4]
    show (lookupAddrVerified E.W s.trans.rip s.c.trace).1 = _
    rw [hk.rip]

theorem gotTrans_kept (H : Hashes) (arg : Str) (i : Inp) (t : Trans) :
    (gotTrans H arg i t).raddr = t.raddr ∧ (gotTrans H arg i t).laddr = t.laddr ∧ (gotTrans H arg i t).rip = t.rip ∧
    (gotTrans H arg i t).rdns = t.rdns ∧ (gotTrans H arg i t).heloname = t.heloname ∧ (gotTrans H arg i t).tlson = i.tls.on ∧
    (gotTrans H arg i t).cipher = i.tls.cipher ∧ (gotTrans H arg i t).tlsversion = i.tls.version ∧
    (gotTrans H arg i t).servername = i.tls.servername := by
  unfold gotTrans
  simp only
  split <;> exact ⟨rfl, rfl, rfl, rfl, rfl, rfl, rfl, rfl, rfl⟩

theorem gotTrans_cert {H : Hashes} {arg : Str} {s s' : Sess} {i : Inp} {sh sh' : Shared} {o : List Out}
    (hev : (Step.mk s i sh s' sh' o).event = some (.gotdata arg)) :
    ((gotTrans H arg i s.trans).peername, (gotTrans H arg i s.trans).tlsverified) =
      (Step.mk s i sh s' sh' o).certificate.getD (s.trans.peername, s.trans.tlsverified) := by
  unfold Step.certificate
  rw [hev]
  unfold gotTrans
  simp only
  cases hv : i.tls.verified with
  | some x => rfl
  | none =>
    cases hp : i.tls.peer with
    | none => rfl
    | some x => simp [TlsState.tryVerify, hv]

theorem Known.got {E : Env} {l : List Step} {s s' : Sess} {i : Inp} {sh sh' : Shared} {o : List Out} {arg : Str}
    (hk : Known E l s) (hp : s.pc = .ready) (he : i.ev = .gotdata arg) (h : s'.trans = gotTrans E.H arg i s.trans) :
    Known E (l ++ [⟨s, i, sh, s', sh', o⟩]) s' := by
  have hev : (Step.mk s i sh s' sh' o).event = some (.gotdata arg) := by simp [Step.event, hp, he]
  obtain ⟨q, hq, e⟩ := hk.dns (by rw [hp]; simp) (by rw [hp]; simp)
  obtain ⟨h1, h2, h3, h4, -⟩ := gotTrans_kept E.H arg i s.trans
  have h5 := gotTrans_cert (H := E.H) hev
  rw [← h] at h1 h2 h3 h4 h5
  refine ⟨h1.trans hk.raddr, h2.trans hk.laddr, h3.trans hk.rip, ?_, fun _ _ => ⟨q, by simp [hq], e.1, h4.trans e.2⟩⟩
  rw [h5, hk.cert]
  cases hc : (Step.mk s i sh s' sh' o).certificate with
  | none => rw [certificateOf_none hc]; rfl
  | some c => rw [certificateOf_some hc]; rfl

theorem life_known {cf : Conf} {E : Env} {l : List Step} {s : Sess} (h : Life cf E l s) : Known E l s := by
  obtain ⟨sh0, i0, s0, sh1, o1, hst, hr⟩ := h
  obtain ⟨b, hb⟩ := startSess_clean hst
  refine Spec.Run.ind (P := fun l s => Known E l s) hr ?_ ?_
  · have := (startSess_init hst).1
    exact ⟨by rw [hb], by rw [hb], by rw [hb], by rw [hb]; rfl, fun h => absurd this h⟩
  · intro l s1 s2 sh sh' i o _ hk hd _
    have ne : ∀ {ev}, s1.pc = .ready → i.ev = ev → (∀ d, ev ≠ .gotdata d) → ∀ d, (Step.mk s1 i sh s2 sh' o).event ≠ some (.gotdata d) := by
      intro ev h1 h2 h3 d h4
      simp only [Step.event, h1, h2, if_true, Option.some.injEq] at h4
      exact h3 d h4
    have nr : s1.pc ≠ .ready → ∀ d, (Step.mk s1 i sh s2 sh' o).event ≠ some (.gotdata d) := by
      intro h1 d h4
      simp [Step.event, h1] at h4
    have rd : s1.pc = .ready → (s1.pc ≠ .tls ∧ s1.pc ≠ .connect ∨ s2.pc = .connect) := by
      intro h1; rw [h1]; simp
    cases hd with
    | tls hp ht =>
      unfold tlsStep at ht
      cases ht
      exact hk.same (nr (by rw [hp]; simp)) ⟨rfl, rfl, rfl, rfl, rfl, rfl⟩ (.inr rfl)
    | drop hp hd => exact hk.looked hp hd rfl
    | connect hp hd => exact hk.looked hp hd rfl
    | gotKeep hp he => exact hk.got hp he rfl
    | gotSave hp he => exact hk.got hp he rfl
    | heloRef hp he hd | mailRef hp he hd | rcptRef hp he hd | dataRef hp he hd
    | heloAcc hp he hd | mailAcc hp he hd | mailCount hp he hd | mailDrop hp he hd | rcptAcc hp he hd | dataAcc hp he hd =>
      obtain ⟨h1, h2, h3, h4, h5, h6, -⟩ := hd.kept
      exact hk.same (ne hp he (by simp)) ⟨h1, h2, h3, h4, h5, h6⟩ (rd hp)
    | tlserror hp he | other hp he => exact hk.same (ne hp he (by simp)) ⟨rfl, rfl, rfl, rfl, rfl, rfl⟩ (rd hp)
    | finish hp he =>
      refine hk.same ?_ ⟨rfl, rfl, rfl, rfl, rfl, rfl⟩ (rd hp)
      rcases he with ⟨he, -⟩ | ⟨he, -⟩ <;> exact ne hp he (by simp)
    | save hp => exact hk.same (nr (by rw [hp]; simp)) ⟨rfl, rfl, rfl, rfl, rfl, rfl⟩ (.inl (by rw [hp]; simp))
    | answerFail hp => exact hk.same (nr (by rw [hp]; simp)) ⟨rfl, rfl, rfl, rfl, rfl, rfl⟩ (.inl (by rw [hp]; simp))
    | closed hp => exact hk.same (nr (by rw [hp]; simp)) ⟨rfl, rfl, rfl, rfl, rfl, rfl⟩ (.inl (by rw [hp]; simp))
    | answerRef hp hd | answerAcc hp hd =>
      obtain ⟨h1, h2, h3, h4, h5, h6, -⟩ := hd.kept
      exact hk.same (nr (by rw [hp]; simp)) ⟨h1, h2, h3, h4, h5, h6⟩ (.inl (by rw [hp]; simp))

/-- Names from the reverse lookup. -/
theorem lookup_names {W : World} {P : Str → Prop} {ip : Str} {t : Trace} (hD : ∀ t ns, W.lookupAddr t ip = .ok ns → ∀ n ∈ ns, P n) :
    (∀ n ∈ (lookupAddrVerified W ip t).1.verified, P n) ∧ (∀ n ∈ (lookupAddrVerified W ip t).1.nofwd, P n) ∧
      ∀ n ∈ (lookupAddrVerified W ip t).1.inconsist, P n := by
  unfold lookupAddrVerified
  split
  · simp
  · simp only
    split
    · simp
    · rename_i names hn
      exact rdnsLoop_names (fun n h => hD _ _ hn n (mem_sortStrs h)) (by simp)

theorem certificateOf_quotes {l : List Step} (h : ∀ q ∈ l, q.NoQuotes) : c!"'" ∉ (certificateOf l).1 := by
  unfold certificateOf
  cases hc : (l.filterMap Step.certificate).getLast? with
  | none => simp
  | some c =>
    have hm := List.mem_of_getLast? hc
    rw [List.mem_filterMap] at hm
    obtain ⟨q, hq, e⟩ := hm
    have hn := (h q hq).2
    unfold Step.certificate at e
    split at e
    · split at e
      · rename_i x hx; cases e; exact hn x (.inl hx)
      · rename_i x _ hx; cases e; exact hn x (.inr hx)
      · cases e
    · cases e

/-- **C73.** From the file in which a message is saved a reader gets back where, when and from whom the message came: the ID of
the connection, the addresses, the time, the last accepted EHLO name, the client's host names with the results of verifying
them at the beginning of the connection, whether TLS was used and with which cipher, protocol and names, and the hashes and
size of the message. -/
theorem C73_read_meta {cf : Conf} {E : Env} (hE : PlainEnv E) (hD : PlainDns E) (hW : WordEnv E) (hWD : WordDns E) {l : List Step} {st : Step}
    {data n r : Str} (hl : Life cf E l st.pre) (hp : ∀ q ∈ l ++ [st], q.PlainCmd ∧ q.PlainTls ∧ q.NoQuotes) (h : Saves cf E st data n r) :
    ∃ q ∈ l, q.pre.pc = .connect ∧ readMeta r = some {
      id := E.prefix_, addr := E.raddr, time := st.i.nowText
      client := if E.rip = [] then E.raddr else E.rip
      here := E.laddr, helo := (envelope l).helo
      verified := (lookupAddrVerified E.W E.rip q.pre.c.trace).1.verified
      nofwd := (lookupAddrVerified E.W E.rip q.pre.c.trace).1.nofwd
      inconsist := (lookupAddrVerified E.W E.rip q.pre.c.trace).1.inconsist
      tls := if st.i.tls.on then some {
          cipher := st.i.tls.cipher.toNat, version := st.i.tls.version.toNat, server := st.i.tls.servername
          client := (certificateOf (l ++ [st])).1, verified := (certificateOf (l ++ [st])).2 } else none
      hash := E.H.gen data, size := data.length
      bodyhash := (getHashes E.H data).2 } := by
  obtain ⟨h1, -, h3⟩ := h.name
  have hk := life_known hl
  have hpc : st.pre.pc = .ready := by
    have := h.ev
    unfold Step.event at this
    split at this
    · assumption
    · cases this
  obtain ⟨q, hq, e1, e2⟩ := hk.dns (by rw [hpc]; simp) (by rw [hpc]; simp)
  refine ⟨q, hq, e1, ?_⟩
  obtain ⟨g1, g2, g3⟩ := gotTrans_hashes E.H data st.i st.pre.trans
  obtain ⟨k1, k2, k3, k4, k5, k6, k7, k8, k9⟩ := gotTrans_kept E.H data st.i st.pre.trans
  have k10 := gotTrans_data E.H data st.i st.pre.trans
  have k11 : ((gotTrans E.H data st.i st.pre.trans).peername, (gotTrans E.H data st.i st.pre.trans).tlsverified) = certificateOf (l ++ [st]) := by
    rw [gotTrans_cert (H := E.H) (sh := st.sh) (sh' := st.sh') (s' := st.post) (o := st.out) h.ev, hk.cert]
    cases hc : st.certificate with
    | none => rw [certificateOf_none hc]; rfl
    | some c => rw [certificateOf_some hc]; rfl
  have hst := hp st (by simp)
  obtain ⟨d1, d2, d3⟩ := lookup_names (t := q.pre.c.trace) (fun t ns => hWD t E.rip ns)
  rw [h3, readMeta_record E.H hE.pre hW.pre (h.clean hE hl fun x hx => (hp x hx).1) (h.names hD hl fun x hx => (hp x hx).2.1)]
  · have k12 := congrArg Prod.fst k11
    have k13 := congrArg Prod.snd k11
    simp only at k12 k13
    rw [h1]
    unfold metaOf
    rw [g1, g2, g3, k1, k2, k3, k4, k5, k6, k7, k8, k9, k10, k12, k13, hk.raddr, hk.laddr, hk.rip, e2, (C33_rules_see hl).2.1]
  · rw [h1]
    have k12 := congrArg Prod.fst k11
    simp only at k12
    refine ⟨?_, ?_, ?_, ?_, ?_, ?_, ?_, ?_, ?_⟩
    · rw [k1, hk.raddr]; exact hW.raddr
    · rw [k2, hk.laddr]; exact hW.laddr
    · rw [k3, hk.rip]; exact hW.rip
    · rw [g1]; exact hW.gen _
    · rw [k4, e2]; exact d1
    · rw [k4, e2]; exact d2
    · rw [k4, e2]; exact d3
    · rw [k9]; exact hst.2.2.1
    · rw [k12]; exact certificateOf_quotes fun x hx => (hp x hx).2.2

/-- The conditions on the surroundings hold for the client of the examples. -/
example : WordEnv demoEnvP := by
  refine ⟨by decide, by decide, by decide, by decide, fun x => oneWord_append.2 ⟨(by decide : OneWord b!"len"), ?_⟩⟩
  have key : ∀ k n, OneWord (decDigitsN k n) := by
    have h : ∀ m : Nat, m < 10 → c!" " ≠ (48 + UInt8.ofNat m) := by decide
    intro k
    induction k with
    | zero => intro n; simp [decDigitsN, OneWord]
    | succ k ih =>
      intro n
      rw [decDigitsN]
      split
      · rename_i hn; simp only [OneWord, List.mem_singleton]; exact h n hn
      · rw [oneWord_append]; refine ⟨ih _, ?_⟩; simp only [OneWord, List.mem_singleton]; exact h _ (Nat.mod_lt _ (by decide))
  exact key _ _

example : WordDns demoEnvP := by
  intro t ip ns h
  have h : (if ip = b!"192.0.2.2" then Except.ok [b!"www.example.com.", b!"mail.example.com.", b!"mx.example.com."] else Except.error (demoErr false)) =
    Except.ok ns := h
  split at h
  · cases h; decide
  · cases h

/-- A message over TLS from a client with a certificate that could not be verified; the EHLO name tries to look like something
else. -/
example : seen (fun l _ _ => (saved l).map fun x => readMeta x.2) (driveAll demoConf demoEnvP {} {}
    ([({} : Inp), {}, { ev := .helo false b!"mail.example.com" }, { ev := .helo true b!"x' to y with helo 'z" }, { ev := .mailfrom b!"a@example.com" },
      { ev := .rcptto b!"x@example.com" },
      { ev := .gotdata b!"hash 1 bytes 2\n", nowText := b!"2026-01-02 03:04:05",
        tls := { on := true, cipher := 0x1301, version := 0x0304, servername := b!"here.example.org", peer := some ⟨b!"Some Client", []⟩, verifyErr := some b!"no" } }])) =
    .ok [some {
      id := b!"7/1", addr := b!"192.0.2.2:1234", time := b!"2026-01-02 03:04:05", client := b!"192.0.2.2", here := b!"192.0.2.9:25",
      helo := b!"x' to y with helo 'z",
      verified := [b!"mail.example.com."], nofwd := [b!"www.example.com."], inconsist := [b!"mx.example.com."],
      tls := some ⟨0x1301, 0x0304, b!"here.example.org", b!"Some Client", false⟩,
      hash := b!"len15", size := 15, bodyhash := b!"<cannot-parse-message>" }] := by
  decide +kernel

end Sink
