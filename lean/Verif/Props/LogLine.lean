import Verif.Spec.LogLine
import Verif.Props.Meta

/-!
# The message log can be read back (C78)
-/

namespace Sink
open Spec

theorem upTo_mk {d : Byte} {a : Str} (ha : d ∉ a) (r : Str) : upTo d (a ++ d :: r) = (a, r) := by
  obtain ⟨h1, h2⟩ := takeWhile_stop ha (d :: r) (.inr rfl)
  unfold upTo
  rw [h1, h2]
  rfl

theorem addrList_mk {r : Str} (hr : after b!" <" r = none) : ∀ {l : List Str} {n : Nat}, (∀ a ∈ l, c!">" ∉ a) → l.length ≤ n →
    addrList n (l.flatMap (fun a => b!" <" ++ a ++ b!">") ++ r) = (l, r) := by
  intro l
  induction l with
  | nil =>
    intro n _ _
    cases n with
    | zero => rfl
    | succ n => rw [List.flatMap_nil, List.nil_append, addrList, hr]
  | cons a l ih =>
    intro n h hn
    cases n with
    | zero => simp at hn
    | succ n =>
      have e : (a :: l).flatMap (fun a => b!" <" ++ a ++ b!">") ++ r =
          b!" <" ++ (a ++ c!">" :: (l.flatMap (fun a => b!" <" ++ a ++ b!">") ++ r)) := by
        simp only [List.flatMap_cons, List.append_assoc, List.cons_append, List.nil_append]
      rw [e, addrList, after_mk]
      simp only [upTo_mk (h a (by simp))]
      rw [ih (fun x hx => h x (by simp [hx])) (by simpa using hn)]

theorem oneWord_decN : ∀ k n, OneWord (decDigitsN k n) := by
  have h : ∀ m : Nat, m < 10 → c!" " ≠ (48 + UInt8.ofNat m) := by decide
  intro k
  induction k with
  | zero => intro n; simp [decDigitsN, OneWord]
  | succ k ih =>
    intro n
    rw [decDigitsN]
    split
    · rename_i hn
      simpa [OneWord] using h n hn
    · rw [oneWord_append]
      exact ⟨ih _, by simpa [OneWord] using h _ (Nat.mod_lt n (by decide : 10 > 0))⟩

theorem readHelo_plain (h : Str) : readHelo (h ++ b!"'") = some (h, none) := by
  unfold readHelo
  rw [if_pos (by rw [List.getLast?_append]; rfl), List.dropLast_concat]

theorem readHelo_tls (h : Str) (c v : UInt16) :
    readHelo (h ++ (b!"' tls:cipher 0x" ++ (hex4 c ++ (b!" tls:proto 0x" ++ hex4 v)))) = some (h, some (c.toNat, v.toNat)) := by
  have hl : (b!"' tls:cipher 0x" ++ (hex4 c ++ (b!" tls:proto 0x" ++ hex4 v))).length = 36 := rfl
  have hq : (h ++ (b!"' tls:cipher 0x" ++ (hex4 c ++ (b!" tls:proto 0x" ++ hex4 v)))).getLast? ≠ some c!"'" := by
    have k : ∀ m : Nat, m < 16 → hexDigit m ≠ c!"'" := by decide
    have e : (b!"' tls:cipher 0x" ++ (hex4 c ++ (b!" tls:proto 0x" ++ hex4 v))).getLast? = some (hexDigit (v.toNat % 16)) := rfl
    rw [List.getLast?_append, e]
    intro x
    exact k _ (Nat.mod_lt _ (by decide)) (Option.some.inj x)
  unfold readHelo
  rw [if_neg hq, List.length_append, hl, Nat.add_sub_cancel, List.drop_left, List.take_left, after_mk]
  simp only [Option.bind_eq_bind, Option.bind_some, word_cons (oneWord_hex4 c) b!" tls:proto 0x" rfl, after_mk, numberOf_hex4]
  rfl

/-- What is read from a line. -/
theorem readLog_line {prefix_ : Str} {t : Trans} (h1 : c!"[" ∉ t.when_) (h2 : c!"]" ∉ prefix_) (h3 : OneWord t.raddr) (h4 : c!">" ∉ t.from_)
    (h5 : ∀ a ∈ t.rcptto, c!">" ∉ a) (h6 : OneWord t.hash) (h7 : OneWord t.bodyhash) (h8 : OneWord t.laddr) :
    readLog (logLine prefix_ t) = some ⟨t.when_, prefix_, t.raddr, t.from_, t.rcptto, t.data.length, t.hash, t.bodyhash, t.laddr, t.heloname,
      if t.tlson then some (t.cipher.toNat, t.tlsversion.toNat) else none⟩ := by
  let T : Str := if t.tlson then b!"' tls:cipher 0x" ++ (hex4 t.cipher ++ (b!" tls:proto 0x" ++ hex4 t.tlsversion)) else b!"'"
  have e : (logLine prefix_ t).dropLast = (t.when_ ++ b!" ") ++ c!"[" :: (prefix_ ++ c!"]" :: (b!" from " ++ (t.raddr ++ (b!" / <" ++
      (t.from_ ++ c!">" :: (b!" to" ++ (t.rcptto.flatMap (fun a => b!" <" ++ a ++ b!">") ++ (b!": message " ++ (decDigits t.data.length ++
      (b!" bytes hash " ++ (t.hash ++ (b!" body " ++ (t.bodyhash ++ (b!" | local " ++ (t.laddr ++ (b!" helo '" ++ (t.heloname ++ T))))))))))))))))) := by
    unfold logLine
    rw [List.dropLast_concat]
    simp only [List.append_assoc, List.cons_append, List.nil_append, T]
    split <;> simp only [List.append_assoc, List.nil_append, List.append_nil]
  have hT : readHelo (t.heloname ++ T) = some (t.heloname, if t.tlson then some (t.cipher.toNat, t.tlsversion.toNat) else none) := by
    simp only [T]
    split
    · exact readHelo_tls _ _ _
    · exact readHelo_plain _
  have h1' : c!"[" ∉ t.when_ ++ b!" " := by simpa using h1
  have hlen : ∀ (l : List Str) (r : Str), l.length ≤ (l.flatMap (fun a => b!" <" ++ a ++ b!">") ++ r).length := by
    intro l r
    induction l with
    | nil => simp
    | cons a l ih => simp only [List.flatMap_cons, List.append_assoc, List.length_append, List.length_cons] at ih ⊢; omega
  have hadd : ∀ r : Str, addrList (t.rcptto.flatMap (fun a => b!" <" ++ a ++ b!">") ++ (b!": message " ++ r)).length
      (t.rcptto.flatMap (fun a => b!" <" ++ a ++ b!">") ++ (b!": message " ++ r)) = (t.rcptto, b!": message " ++ r) :=
    fun r => addrList_mk (after_none 1 (by simp) (by decide)) h5 (hlen _ _)
  have hd : OneWord (decDigits t.data.length) := oneWord_decN _ _
  unfold readLog
  simp only [e, upTo_mk h1', upTo_mk h2, upTo_mk h4, after_mk, Option.bind_eq_bind, Option.bind_some, word_cons h3 b!" / <" rfl,
    hadd,
    word_cons hd b!" bytes hash " rfl, numberOf_dec, word_cons h6 b!" body " rfl,
    word_cons h7 b!" | local " rfl, word_cons h8 b!" helo '" rfl, hT]
  simp only [pure, List.dropLast_concat]

/-- **C78.** From a line of the message log a reader gets back the time, the ID of the connection, the addresses, the sender and the
recipients accepted, in order, size and hashes of the message, the EHLO name whatever it looks like, and with TLS the numbers of cipher and
protocol.  The only condition on what the client says is that accepted addresses have no `>`. -/
theorem C78_read_log {cf : Conf} {E : Env} (hW : WordEnv E) (hpre : c!"]" ∉ E.prefix_) (hlog : cf.logf = true) {l : List Step} {st : Step} {data : Str}
    (hl : Life cf E l st.pre) (hok : st.Ok cf E) (hev : st.event = some (.gotdata data)) (ht : c!"[" ∉ st.i.nowText)
    (hf : c!">" ∉ (envelope l).from_) (hr : ∀ a ∈ (envelope l).rcpts, c!">" ∉ a) :
    ∃ line, msglogs st.out = [line] ∧ readLog line = some {
      time := st.i.nowText, id := E.prefix_, client := E.raddr, sender := (envelope l).from_, rcpts := (envelope l).rcpts
      size := data.length, hash := E.H.gen data, bodyhash := (getHashes E.H data).2, here := E.laddr, helo := (envelope l).helo
      tls := if st.i.tls.on then some (st.i.tls.cipher.toNat, st.i.tls.version.toNat) else none } := by
  obtain ⟨h1, h2, -⟩ := got_step hok hev
  have hk := life_known hl
  obtain ⟨g1, g2, g3⟩ := gotTrans_hashes E.H data st.i st.pre.trans
  obtain ⟨k1, k2, k3, k4, k5, k6, k7, k8, k9⟩ := gotTrans_kept E.H data st.i st.pre.trans
  have k10 := gotTrans_data E.H data st.i st.pre.trans
  obtain ⟨e1, e2, e3⟩ := C33_rules_see hl
  have k11 : (gotTrans E.H data st.i st.pre.trans).from_ = (envelope l).from_ ∧ (gotTrans E.H data st.i st.pre.trans).rcptto = (envelope l).rcpts := by
    rw [← e1, ← e3]
    unfold gotTrans
    simp only
    split <;> exact ⟨rfl, rfl⟩
  rw [h2, hlog, if_pos rfl]
  refine ⟨_, rfl, ?_⟩
  rw [h1, readLog_line]
  · rw [g1, g2, g3, k1, k2, k5, k6, k7, k8, k10, k11.1, k11.2, hk.raddr, hk.laddr, e2]
  · rw [g3]; exact ht
  · exact hpre
  · rw [k1, hk.raddr]; exact hW.raddr
  · rw [k11.1]; exact hf
  · rw [k11.2]; exact hr
  · rw [g1]; exact hW.gen _
  · rw [g2]
    unfold getHashes
    dsimp only
    split
    · decide
    · decide
    · exact hW.gen _
  · rw [k2, hk.laddr]; exact hW.laddr

/-- A client that tries to make its EHLO name look like the end of the line, and a null sender. -/
def forgedEvents : List SEv := [.helo false b!"me' tls:cipher 0x0005 tls:proto 0x0303", .mailfrom [], .rcptto b!"x@example.com",
  .rcptto b!"to <y@example.com", .data, .gotdata b!"Hello"]

example : seen (fun l _ _ => (l.flatMap fun st => msglogs st.out).map readLog) (driveAll demoConf demoEnvP {} {} (events forgedEvents)) =
    .ok [some ⟨[], b!"7/1", b!"192.0.2.2:1234", [], [b!"x@example.com", b!"to <y@example.com"], 5, b!"len5", b!"<cannot-parse-message>",
      demoEnvP.laddr, b!"me' tls:cipher 0x0005 tls:proto 0x0303", none⟩] := by
  decide +kernel

/-- C78: the condition is needed.  Two recipients, and one that looks like two, give the same line. -/
theorem C78_ambiguous : ∃ cf l l' s s', Life cf demoEnvP l s ∧ Life cf demoEnvP l' s' ∧
    (envelope l).rcpts = [b!"b@example.com", b!"c@example.com"] ∧ (envelope l').rcpts = [b!"b@example.com> <c@example.com"] ∧
    (l.flatMap fun st => msglogs st.out) ≠ [] ∧ (l.flatMap fun st => msglogs st.out) = l'.flatMap fun st => msglogs st.out := by
  let cf : Conf := { demoConf with base := [], rulefiles := [] }
  let ev : List SEv → Except Panic (List Step × Sess × Shared) := fun r => driveAll cf demoEnvP {} {} (events
    ([.helo false b!"mail.example.com", .mailfrom b!"a@example.com"] ++ r ++ [.data, .gotdata b!"Hello"]))
  have k1 : seen (fun l _ _ => ((envelope l).rcpts, l.flatMap fun st => msglogs st.out)) (ev [.rcptto b!"b@example.com", .rcptto b!"c@example.com"]) =
      .ok ([b!"b@example.com", b!"c@example.com"], [b!" [7/1] from 192.0.2.2:1234 / <a@example.com> to <b@example.com> <c@example.com>: message 5 bytes hash len5 body <cannot-parse-message> | local 192.0.2.9:25 helo 'mail.example.com'\n"]) := by
    decide +kernel
  have k2 : seen (fun l _ _ => ((envelope l).rcpts, l.flatMap fun st => msglogs st.out)) (ev [.rcptto b!"b@example.com> <c@example.com"]) =
      .ok ([b!"b@example.com> <c@example.com"], [b!" [7/1] from 192.0.2.2:1234 / <a@example.com> to <b@example.com> <c@example.com>: message 5 bytes hash len5 body <cannot-parse-message> | local 192.0.2.9:25 helo 'mail.example.com'\n"]) := by
    decide +kernel
  generalize h1 : ev _ = d1 at k1
  generalize h2 : ev _ = d2 at k2
  cases d1 with
  | error p => cases k1
  | ok x =>
    cases d2 with
    | error p => cases k2
    | ok y =>
      obtain ⟨l, s, sh⟩ := x
      obtain ⟨l', s', sh'⟩ := y
      simp only [seen, Except.ok.injEq, Prod.mk.injEq] at k1 k2
      exact ⟨cf, l, l', s, s', driveAll_life h1, driveAll_life h2, k1.1, k2.1, by rw [k1.2]; simp, k1.2.trans k2.2.symm⟩

end Sink
