import Verif.Spec.Local
import Verif.Props.Conncfg
import Verif.Props.IpRule6

/-!
# C108: LOCAL in a connection parameter file
-/

namespace Sink
open Spec

/-! ## Texts -/

theorem count_colon {s : Str} (h : c!":" ∉ s) : s.count c!":" = 0 := List.count_eq_zero.2 h

theorem ending_colons {strict four : Bool} {s : Str} {gs : List Nat} (h : Ending strict four s gs) : gs.length ≤ s.count c!":" + 2 := by
  induction h with
  | one h => simp
  | quad h => simp
  | more h1 h2 ih => simp only [List.count_append, List.length_cons, show List.count c!":" b!":" = 1 from rfl]; omega

theorem v6_colons {strict four : Bool} {s : Str} {gs : List Nat} (h : V6Text strict four s gs) : 2 ≤ s.count c!":" := by
  rcases h with ⟨h1, h2⟩ | ⟨l, r, a, b, rfl, -⟩
  · have := ending_colons h1
    omega
  · simp only [List.count_append, show List.count c!":" b!"::" = 2 from rfl]
    omega

/-- Text with a port is neither an address nor a block. -/
theorem hostPort_denotes {strict four : Bool} {s h p : Str} {z n : Nat} (hs : HostPort s h p) (hd : Denotes strict four s z n) : False := by
  obtain ⟨-, -, hp, ⟨rfl, hh⟩ | rfl⟩ := hs
  · have hc : (h ++ b!":" ++ p).count c!":" = 1 := by
      simp [List.count_append, count_colon hh, count_colon hp]
    cases hd with
    | quad hd => exact ipText_dotted_noColon (.inl ⟨_, _, _, _, hd⟩) (by simp)
    | quads hd => exact ipText_dotted_noColon (.inr ⟨_, _, _, _, _, hd⟩) (by simp)
    | addr hd => have := v6_colons hd; omega
    | block hd =>
      obtain ⟨t, m, e, hd, -⟩ := hd
      have := v6_colons hd
      rw [e] at hc
      simp only [List.count_append] at hc
      omega
  · obtain ⟨-, -, x, t, e, hx⟩ := denotes_bytes hd
    have : x = c!"[" := by
      have := congrArg List.head? e
      simpa using this.symm
    subst this
    exact absurd hx (by decide)

theorem star_denotes {strict four : Bool} {z n : Nat} (hd : Denotes strict four b!"*" z n) : False := by
  obtain ⟨-, -, x, t, e, hx⟩ := denotes_bytes hd
  obtain rfl : c!"*" = x := (List.cons.inj e).1
  exact absurd hx (by decide)

theorem ipText_noBrackets (ip : IP) : NoBrackets (ipText ip) :=
  ⟨fun hm => (ipText_v6bytes ip _ hm).other.2.2.1 rfl, fun hm => (ipText_v6bytes ip _ hm).other.2.2.2.1 rfl⟩

theorem tcp_hostPort (ip : IP) (port : Nat) : HostPort (tcpText (ipText ip) [] port) (ipText ip) (decDigits port) := by
  obtain ⟨k1, k2⟩ := digits_free (digits_dec port)
  refine ⟨ipText_noBrackets ip, k1, k2, ?_⟩
  simp only [tcpText, joinHostPort, ne_eq, not_true_eq_false, if_false]
  split
  · exact .inr rfl
  · rename_i h
    exact .inl ⟨rfl, h⟩

theorem hostPort_unique {s h p h' p' : Str} (k : HostPort s h p) (k' : HostPort s h' p') : h = h' ∧ p = p' := by
  have e := (C90_split s h p).2 k
  rw [(C90_split s h' p').2 k'] at e
  cases e
  exact ⟨rfl, rfl⟩

theorem star_hostPort {h p : Str} (k : HostPort b!"*" h p) : False := by
  have : splitHostPort b!"*" = none := by decide +kernel
  rw [(C90_split _ _ _).2 k] at this
  cases this

section
variable {strict four : Bool} (hv : four = true → strict = true) {lo : Str → Str} {hlo : ∀ s, s ≠ [] → lo s ≠ []}

theorem numeral_dec (n : Nat) : numeral (decDigits n) = n := (decDigitsN_number (n + 1) n (Nat.lt_succ_self n)).2.1

theorem dec_inj {m n : Nat} (h : decDigits m = decDigits n) : m = n := by
  have := congrArg numeral h
  rwa [numeral_dec, numeral_dec] at this

include hv in
theorem ipText_inj {ip ip' : IP} (h : ProperIP ip) (h' : ProperIP ip') (e : ipText ip = ipText ip') : ip = ip' := by
  have k := C105_text (lo := id) (hlo := fun _ h => h) hv h
  rw [e, C105_text hv h'] at k
  exact (Option.some.inj k).symm

/-! ## What LOCAL says -/

include hv in
/-- **C108.** A connection to `port` of `ip` is one LOCAL speaks of iff LOCAL is `*`, or the address with the port as Go writes it, or the
address itself or a block with it, in any spelling. -/
theorem C108_local {ip : IP} (hp : ProperIP ip) (port : Nat) (d : PerDest) :
    d.matches (netLib strict four lo hlo) (tcpText (ipText ip) [] port) (hostOf (tcpText (ipText ip) [] port)) = true ↔
      SpeaksOf strict four d.local_ ip port := by
  rw [C105_tcp ip ⟨by simp, by simp⟩, if_pos rfl, matches_iff (C105_text hv hp)]
  unfold Covers SpeaksOf
  rw [C105_means hv _ hp]

include hv in
/-- **C108.** LOCAL with a port speaks of this port of this address and of nothing else. -/
theorem C108_port {ip ip' : IP} (hp : ProperIP ip) (hp' : ProperIP ip') (port port' : Nat) :
    SpeaksOf strict four (tcpText (ipText ip) [] port) ip' port' ↔ ip' = ip ∧ port' = port := by
  constructor
  · rintro (h | h | ⟨z, n, h, -⟩)
    · exact (star_hostPort (h ▸ tcp_hostPort ip port)).elim
    · obtain ⟨e1, e2⟩ := hostPort_unique (h ▸ tcp_hostPort ip port) (tcp_hostPort ip' port')
      exact ⟨(ipText_inj hv hp hp' e1).symm, (dec_inj e2).symm⟩
    · exact (hostPort_denotes (tcp_hostPort ip port) h).elim
  · rintro ⟨rfl, rfl⟩
    exact .inr (.inl rfl)

include hv in
/-- **C108.** So it is an address with a port, and the port is the one of the connection; but another spelling of the two speaks of nothing
at all. -/
theorem C108_spelling {pat h p : Str} (hs : HostPort pat h p) {ip : IP} (hp : ProperIP ip) (port : Nat) :
    (SpeaksOf strict four pat ip port ↔ pat = tcpText (ipText ip) [] port) ∧
    (SpeaksOf strict four pat ip port → h = ipText ip ∧ p = decDigits port ∧ WritesPort strict four pat ip port) := by
  have key : SpeaksOf strict four pat ip port ↔ pat = tcpText (ipText ip) [] port := by
    refine ⟨?_, fun h => .inr (.inl h)⟩
    rintro (h | h | ⟨z, n, h, -⟩)
    · exact (star_hostPort (h ▸ hs)).elim
    · exact h
    · exact (hostPort_denotes hs h).elim
  refine ⟨key, fun h => ?_⟩
  have e := key.1 h
  obtain ⟨e1, e2⟩ := hostPort_unique (e ▸ hs) (tcp_hostPort ip port)
  refine ⟨e1, e2, _, _, hs, ?_, e2 ▸ digits_dec port, e2 ▸ numeral_dec port⟩
  rw [e1]
  rcases (C105_addresses (lo := id) (hlo := fun _ h => h) hv _ _).1 (C105_text hv hp) with ⟨a, b, c, d, h, rfl⟩ | ⟨gs, h, -, h2⟩
  · refine .inl ⟨a, b, c, d, h, ?_⟩
    obtain ⟨w, x, y, z, -, h1, h2, h3, h4⟩ := h
    rw [ipNum, ipv4_toNat h1.lt h2.lt h3.lt h4.lt]
  · exact .inr ⟨gs, h, h2⟩

/-- **C108.** Any other text, such as a host name or `*:25`, speaks of no connection. -/
theorem C108_nonsense {pat : Str} (h1 : pat ≠ b!"*") (h2 : ∀ h p, ¬ HostPort pat h p) (h3 : ∀ z n, ¬ Denotes strict four pat z n)
    {ip : IP} (port : Nat) : ¬ SpeaksOf strict four pat ip port := by
  rintro (h | h | ⟨z, n, h, -⟩)
  · exact h1 h
  · exact h2 _ _ (h ▸ tcp_hostPort ip port)
  · exact h3 z n h

/-! ## The settings of a connection -/

theorem settings_by {cf : Conf} {E : Env} {M : Str → Prop} (hM : ∀ d : PerDest, d.matches E.W.lib E.laddr E.lip = true ↔ M d.local_)
    {sh sh' : Shared} {i : Inp} {s : Sess} {o : List Out} (h : startSess cf E sh i = .ok (s, sh', o)) : SettingsBy cf E M s.sname s.certs := by
  obtain ⟨n, t, o', hn, h1, h2, -⟩ := startSess_params h
  have hown := serverName_own hn
  rw [h1, h2]
  unfold connParams
  split
  · rename_i hc
    exact .none hc hown
  · rename_i hc
    simp only
    split
    · rename_i e he
      refine .broken hc hown ?_
      rintro ⟨ds, hg⟩
      rw [goodFile_iff, he] at hg; cases hg
    · rename_i dm hd
      have hg : GoodFile E.pairs (E.W.files t.length cf.connfile) dm := goodFile_iff.2 hd
      split
      · rename_i hf
        unfold findDest at hf
        rw [List.find?_eq_none] at hf
        exact .silent hc hown hg fun d hd => (hM d).not.1 (hf d hd)
      · rename_i d hf
        unfold findDest at hf
        rw [List.find?_eq_some_iff_append] at hf
        obtain ⟨h3, l, r, rfl, h4⟩ := hf
        have := SettingsBy.line (cf := cf) hc hown hg ((hM d).1 h3) fun x hx => (hM x).not.1 (by simpa using h4 x hx)
        by_cases hm : d.myname = []
        · simpa [hm] using this
        · simpa [hm] using this

theorem settings_life {cf : Conf} {E : Env} {M : Str → Prop} (hM : ∀ d : PerDest, d.matches E.W.lib E.laddr E.lip = true ↔ M d.local_)
    {l : List Step} {s : Sess} (h : Life cf E l s) : SettingsBy cf E M s.sname s.certs := by
  obtain ⟨sh, i, s0, sh0, o, hst, hr⟩ := h
  obtain ⟨h1, h2, -⟩ := run_params hr
  rw [h1, h2]
  exact settings_by hM hst

include hv in
/-- **C108.** From the text of the file to the connection: at every moment, a connection to `port` of `ip` has the name and the certificates
of the first line whose LOCAL speaks of it, and those of the command line without such a line. -/
theorem C108_settings {cf : Conf} {E0 : Env} (hl : E0.W.lib = netLib strict four lo hlo) (raddr : Str) {ip : IP} (hp : ProperIP ip) (port : Nat)
    {l : List Step} {s : Sess} (h : Life cf (E0.ends raddr (tcpText (ipText ip) [] port)) l s) :
    SettingsBy cf (E0.ends raddr (tcpText (ipText ip) [] port)) (SpeaksOf strict four · ip port) s.sname s.certs := by
  refine settings_life (fun d => ?_) h
  show d.matches E0.W.lib _ _ = true ↔ _
  rw [hl]
  exact C108_local hv hp port d

include hv in
theorem addrText_iff (s : Str) : AddrText strict four s ↔ (netLib strict four lo hlo).parseIP s ≠ none := by
  constructor
  · rintro (⟨a, b, c, d, h⟩ | ⟨gs, h⟩)
    · rw [(C105_addresses hv _ _).2 (.inl ⟨_, _, _, _, h, rfl⟩)]
      exact Option.some_ne_none _
    · exact fun hn => by
        have := (noSlash_parses hv (.addr h)).1 hn
        exact absurd ((v6_bytes h).1 _ this) (by unfold V6Byte; decide)
  · intro h
    obtain ⟨ip, hip⟩ := Option.ne_none_iff_exists'.1 h
    rcases (C105_addresses hv _ _).1 hip with ⟨a, b, c, d, h, -⟩ | ⟨gs, h, -⟩
    · exact .inl ⟨_, _, _, _, h⟩
    · exact .inr ⟨_, h⟩

include hv in
/-- **C108.** A connection to an address with a zone (link-local) has those of the first line whose LOCAL is not an address, whatever else
it is: a block with other addresses, an address with another port, or nonsense. -/
theorem C108_zone {cf : Conf} {E0 : Env} (hl : E0.W.lib = netLib strict four lo hlo) (raddr : Str) (ip : IP) {zone : Str} (hz : NoBrackets zone)
    (hz0 : zone ≠ []) (port : Nat) {l : List Step} {s : Sess} (h : Life cf (E0.ends raddr (tcpText (ipText ip) zone port)) l s) :
    SettingsBy cf (E0.ends raddr (tcpText (ipText ip) zone port)) (¬ AddrText strict four ·) s.sname s.certs := by
  refine settings_life (fun d => ?_) h
  show d.matches E0.W.lib (tcpText (ipText ip) zone port) (hostOf (tcpText (ipText ip) zone port)) = true ↔ _
  rw [hl, C105_tcp ip hz, if_neg hz0, addrText_iff (lo := lo) (hlo := hlo) hv]
  unfold PerDest.matches
  rw [zone_none hv]
  have hnone : ∀ {t : Str} {h p : Str}, HostPort t h p → (netLib strict four lo hlo).parseIP t = none := by
    intro t h p hs
    rw [Option.eq_none_iff_forall_ne_some]
    intro ip' hip
    obtain ⟨z, n, hd⟩ := (denotes_iff (lo := lo) (hlo := hlo) hv t).2 (.inl (by rw [hip]; rfl))
    exact hostPort_denotes hs hd
  simp only [Bool.or_eq_true, beq_iff_eq, Decidable.not_not]
  constructor
  · rintro (((h | h) | h) | h)
    · rw [h, Option.eq_none_iff_forall_ne_some]
      intro ip' hip
      obtain ⟨z, n, hd⟩ := (denotes_iff (lo := lo) (hlo := hlo) hv _).2 (.inl (by rw [hip]; rfl))
      exact star_denotes hd
    · rw [h]
      obtain ⟨k1, k2⟩ := digits_free (digits_dec port)
      have hb := ipText_noBrackets ip
      refine hnone (h := ipText ip ++ b!"%" ++ zone) (p := decDigits port) ⟨⟨?_, ?_⟩, k1, k2, ?_⟩
      · simp [hb.1, hz.1]
      · simp [hb.2, hz.2]
      · simp only [tcpText, joinHostPort, ne_eq, hz0, not_false_eq_true, if_true]
        split
        · exact .inr rfl
        · rename_i h
          exact .inl ⟨rfl, h⟩
    · exact h.symm
    · split at h <;> simp_all
  · exact fun h => .inl (.inr h.symm)

end

/-- **C108.** The settings are determined by the command line, the names in DNS, the file and the lines that count. -/
theorem C108_determined {cf : Conf} {E : Env} {M : Str → Prop} {n n' : Str} {c c' : List TlsCert}
    (h : SettingsBy cf E M n c) (h' : SettingsBy cf E M n' c') : n = n' ∧ c = c' := by
  have un : ∀ {a b m}, Undotted m a → Undotted m b → a = b := by
    rintro a b m (rfl | ⟨rfl, h⟩) (h2 | ⟨rfl, h2⟩)
    · simpa using h2
    · exact absurd ⟨a, rfl⟩ h2
    · exact absurd ⟨b, h2⟩ h
    · rfl
  have hn : ∀ {a b t t'}, OwnName cf E a t → OwnName cf E b t' → a = b := by
    intro a b t t' h1 h2
    cases h1 with
    | option h1 => cases h2 <;> first | rfl | contradiction
    | name h1 h3 h4 =>
      cases h2 with
      | option h2 => contradiction
      | name h2 h5 h6 => rw [h3] at h5; cases h5; exact un h4 h6
      | addr h2 h5 => exact absurd h3 (h5 _ _)
    | addr h1 h3 =>
      cases h2 with
      | option h2 => contradiction
      | name h2 h5 h6 => exact absurd h5 (h3 _ _)
      | addr h2 h5 => rfl
  have hg : ∀ {f d d'}, GoodFile E.pairs f d → GoodFile E.pairs f d' → d = d' := by
    intro f d d' h1 h2
    rw [goodFile_iff] at h1 h2
    rw [h1] at h2; exact Except.ok.inj h2
  have hfirst : ∀ {l l' : List PerDest} {d d' r r'}, l ++ d :: r = l' ++ d' :: r' → M d.local_ → M d'.local_ → (∀ x ∈ l, ¬ M x.local_) →
      (∀ x ∈ l', ¬ M x.local_) → d = d' := by
    intro l
    induction l with
    | nil =>
      intro l' d d' r r' e h1 h2 h3 h4
      cases l' with
      | nil => exact (List.cons.inj e).1
      | cons y l' => exact absurd ((List.cons.inj e).1 ▸ h1) (h4 y (by simp))
    | cons x l ih =>
      intro l' d d' r r' e h1 h2 h3 h4
      cases l' with
      | nil => exact absurd ((List.cons.inj e).1 ▸ h2) (h3 x (by simp))
      | cons y l' =>
        exact ih (List.cons.inj e).2 h1 h2 (fun z hz => h3 z (List.mem_cons_of_mem _ hz)) fun z hz => h4 z (List.mem_cons_of_mem _ hz)
  cases h with
  | none h1 h2 => cases h' with
    | none h3 h4 => exact ⟨hn h2 h4, rfl⟩
    | broken h3 h4 => contradiction
    | silent h3 h4 => contradiction
    | line h3 h4 => contradiction
  | broken h1 h2 hb => cases h' with
    | none h3 h4 => contradiction
    | broken h3 h4 => exact ⟨hn h2 h4, rfl⟩
    | silent h3 h4 => exact ⟨hn h2 h4, rfl⟩
    | line h3 h4 h5 => have := h2.time h4; subst this; exact absurd ⟨_, h5⟩ hb
  | silent h1 h2 hb hf => cases h' with
    | none h3 h4 => contradiction
    | broken h3 h4 => exact ⟨hn h2 h4, rfl⟩
    | silent h3 h4 => exact ⟨hn h2 h4, rfl⟩
    | line h3 h4 h5 h6 =>
      have := h2.time h4; subst this
      cases hg hb h5
      exact absurd h6 (hf _ (by simp))
  | line h1 h2 hb hf hl => cases h' with
    | none h3 h4 => contradiction
    | broken h3 h4 h5 => have := h2.time h4; subst this; exact absurd ⟨_, hb⟩ h5
    | silent h3 h4 h5 h6 =>
      have := h2.time h4; subst this
      cases hg h5 hb
      exact absurd hf (h6 _ (by simp))
    | line h3 h4 h5 h6 hl' =>
      have := h2.time h4; subst this
      cases hn h2 h4
      cases hfirst (hg hb h5) hf h6 hl hl'
      exact ⟨rfl, rfl⟩

/-- The name and the certificates of a connection to this address with this file. -/
def demoLocal (text addr zone : Str) : Option (Str × List TlsCert) :=
  match startSess { demoConf with connfile := b!"/conn", certs := [⟨b!"c", b!"k"⟩] }
      (({ demoEnvC text with W := { (demoEnvC text).W with lib := modernLib } } : Env).ends b!"192.0.2.7:1234" (tcpText addr zone 25)) {} {} with
  | .ok (s, _, _) => some (s.sname, s.certs)
  | .error _ => none

/-- The file of the examples. -/
def demoLocals : Str := b!"127.0.0.1:26 hostname=a\n[0::1]:25 hostname=b\n*:25 hostname=c\n[2001:db8::1]:25 hostname=d\n2001:DB8::/32 hostname=e cert=x key=y\n" ++
  b!"127.0.0.0/8 hostname=f\n::1 hostname=g\nexample.org hostname=h\n* hostname=i\n10.0.0.1 hostname=j\n"

/-- Ports, spellings, blocks, and an address that comes too late.  The link-local one is taken for the first line with anything but a plain
address. -/
example : [(b!"127.0.0.1", []), (b!"::1", []), (b!"2001:db8::1", []), (b!"2001:db8::2", []), (b!"10.0.0.1", []), (b!"fe80::1", b!"eth0")].map
      (fun a => (demoLocal demoLocals a.1 a.2).map (·.1)) =
    [some b!"f", some b!"g", some b!"d", some b!"e", some b!"i", some b!"a"] := by decide +kernel

/-- Without a line of its own a connection has the settings of the command line. -/
example : demoLocal b!"127.0.0.2 hostname=a\n" b!"127.0.0.1" [] = some (b!"here", [⟨b!"c", b!"k"⟩]) ∧
    demoLocal b!"127.0.0.1\n" b!"127.0.0.1" [] = some (b!"here", []) := by decide +kernel

/-- **C108.** `127.0.0.1:025` is port 25 of 127.0.0.1, but no connection is one LOCAL speaks of then. -/
theorem C108_other_spelling : WritesPort true true b!"127.0.0.1:025" (.v4 0x7f000001#32) 25 ∧ ∀ ip port, ProperIP ip → ¬ SpeaksOf true true b!"127.0.0.1:025" ip port := by
  have hs : HostPort b!"127.0.0.1:025" b!"127.0.0.1" b!"025" := (C90_split _ _ _).1 (by decide +kernel)
  refine ⟨⟨_, _, hs, .inl ⟨127, 0, 0, 1, ?_, by decide⟩, ⟨by decide, by decide⟩, by decide⟩, fun ip port hp h => ?_⟩
  · exact ⟨b!"127", b!"0", b!"0", b!"1", rfl, octet_dec true (n := 127) (by decide), octet_dec true (n := 0) (by decide),
      octet_dec true (n := 0) (by decide), octet_dec true (n := 1) (by decide)⟩
  · obtain ⟨-, h2, -⟩ := (C108_spelling (fun _ => rfl) hs hp port).2 h
    have h3 := congrArg numeral h2
    rw [numeral_dec] at h3
    obtain rfl : port = 25 := h3.symm
    exact absurd h2 (by decide)

end Sink
