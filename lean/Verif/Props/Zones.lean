import Verif.Props.Manual
import Verif.Props.IpText
import Verif.Lemmas.Conncfg

/-!
# C111: a rules file of DNS blocklists, from its text to the answers

Lines `reject dnsbl ZONE` (doc.go:469): which name is asked about a client, and what happens to the client.
-/

namespace Sink
namespace Spec

/-- A zone as it stands in a rule: a plain word with a dot in it that is neither a keyword nor the name of a file. -/
def Zone (z : Str) : Prop := PlainWord z ∧ wordTok z = .value ∧ c!"." ∈ z

/-- The text of the file: a line for each zone. -/
def zoneText (zs : List Str) : Str := zs.flatMap fun z => b!"reject dnsbl " ++ z ++ b!"\n"

/-- The zone with a dot at its end. -/
def dotted (z : Str) : Str := if z.getLast? = some c!"." then z else z ++ b!"."

/-- Four texts with dots between them. -/
def quad (w x y v : Str) : Str := w ++ b!"." ++ x ++ b!"." ++ y ++ b!"." ++ v

/-- The client is in the zone: its address has four parts, and the name made of them in reverse order and of the zone has an address. -/
def InZone (W : World) (rip z : Str) : Prop :=
  ∃ w x y v, rip = quad w x y v ∧ (∀ s ∈ [w, x, y, v], c!"." ∉ s) ∧ Listed W (quad v y x w ++ b!"." ++ dotted z)

end Spec
open Spec
open Gram (Term Orl Andl Clause Clauses RuleG Stmt File IsArg conj needs needsC)

/-- The rule of a zone. -/
def zoneRule (z : Str) : Rule := ruleOf .any .reject [⟨.dnsbl (dotted z), {}⟩]

theorem zone_domain {z : Str} (h : Zone z) : Gram.IsDomain (mkI (wordTok z, z)) (dotted z) := by
  refine ⟨h.2.1, h.2.2, ?_⟩
  unfold dotted
  have key : (∃ p, z = p ++ [c!"."]) ↔ z.getLast? = some c!"." := by
    constructor
    · rintro ⟨p, rfl⟩; simp
    · intro h; exact ⟨_, (List.dropLast_append_getLast? _ h).symm⟩
  show (∃ p, z = p ++ [c!"."]) ∧ _ = z ∨ (¬ ∃ p, z = p ++ [c!"."]) ∧ _ = z ++ [c!"."]
  rw [key]
  split
  · exact .inl ⟨‹_›, rfl⟩
  · exact .inr ⟨‹_›, rfl⟩

theorem zone_line (L : Lib) {z : Str} (h : Zone z) : LineOf L (b!"reject dnsbl " ++ z) (zoneRule z) := by
  have := line_plain (L := L) (w := b!"reject") (k := .reject) (a := .reject) (by decide +kernel) (by decide) (by decide) (by decide +kernel) .reject
    (lx_op (o := b!"dnsbl") (k := .dnsbl) (by decide +kernel) (by decide +kernel) h.1)
    (one_clause (.dnsbl (it := mkI (.kw .dnsbl, b!"dnsbl")) (a := mkI (wordTok z, z)) rfl (zone_domain h)) (by simp))
  simpa [zoneRule] using this

theorem zones_loaded {cf : Conf} {E : Env} {f : Str} {zs : List Str} (h : ∀ z ∈ zs, Zone z)
    (hb : cf.base = []) (hr : cf.rulefiles = [f]) (hf : f ≠ []) (ht : E.fs [0] f = .data (zoneText zs)) (hfd : E.fds ≠ 0)
    {rules : List Rule} (hl : Loaded cf E false rules) : rules = zs.map zoneRule := by
  have hp : ∀ load, parseWith E.W.lib load (zoneText zs) = .ok (zs.map zoneRule) := by
    intro load
    have := parseWith_lines (L := E.W.lib) (load := load) (zs.map fun z => (b!"reject dnsbl " ++ z, zoneRule z)) (by
      intro l hl
      obtain ⟨z, hz, rfl⟩ := List.mem_map.1 hl
      exact zone_line _ (h z hz))
    rw [List.flatMap_map, List.map_map] at this
    exact this
  have ha : accumAll E.W.lib E.fs E.fds 0 cf.base cf.rulefiles = .ok (zs.map zoneRule) := by
    obtain ⟨d, hd⟩ := Nat.exists_eq_succ_of_ne_zero hfd
    rw [hb, hr, hd]
    unfold accumAll accumRules
    rw [if_neg hf]
    unfold loadRules
    simp only [ht, hp]
    rfl
  rcases hl with ⟨h, -⟩ | ⟨-, h⟩ | ⟨-, ⟨g, m, h⟩, -⟩
  · cases h
  · rw [ha] at h; injection h with h; exact h.symm
  · rw [ha] at h; cases h

theorem inZone_iff {W : World} {tr : TransR} {z : Str} : DnsblHolds W tr (dotted z) ↔ InZone W tr.rip z := Iff.rfl

/-- The zones, as rules, in a phase. -/
theorem zones_hit {W : World} {tr : TransR} {m : Mail} {ph : Phase} {zs : List Str} :
    (∃ r ∈ zs.map zoneRule, ∃ y, Hits W tr m ph r y) ↔ ∃ z ∈ zs, InZone W tr.rip z := by
  have key : ∀ z, (∃ y, Hits W tr m ph (zoneRule z) y) ↔ InZone W tr.rip z := by
    intro z
    have hn : NoFile (.dnsbl (dotted z)) := trivial
    have hne : needs (.dnsbl (dotted z)) = Phase.any := rfl
    unfold zoneRule
    simp only [hits_one hn, hne, true_or, and_true, exists_and_left, exists_eq_left]
    unfold AtHand
    rw [if_neg (fun h => absurd h.2 (by decide))]
    exact ⟨fun h => h.2, fun h => ⟨by cases ph <;> decide, h⟩⟩
  simp only [List.mem_map, exists_exists_and_eq_and, key]

theorem zones_go {W : World} {tr : TransR} {m : Mail} {ph : Phase} {zs : List Str} {a : Action} {w : Withs}
    (h : Goes (fun r x => Hits W tr m ph r x) (zs.map zoneRule) {} a w) :
    (a = .reject ∧ ∃ z ∈ zs, InZone W tr.rip z) ∨ (a = .noresult ∧ w = {} ∧ ¬ ∃ z ∈ zs, InZone W tr.rip z) := by
  have := rejects_go (by
    intro r hr
    obtain ⟨z, -, rfl⟩ := List.mem_map.1 hr
    refine ⟨rfl, fun x hx => ?_⟩
    have hn : NoFile (.dnsbl (dotted z)) := trivial
    exact ((hits_one hn).1 hx).2.1) h
  rw [zones_hit] at this
  rcases this with ⟨h1, h2, -⟩ | ⟨h1, h2, h3⟩
  · exact .inl ⟨h2, h1⟩
  · exact .inr ⟨h2, h3, h1⟩

/-- For a client in no zone nothing is ever refused. -/
theorem zones_rule {E : Env} {zs : List Str} (hz : ¬ ∃ z ∈ zs, InZone E.W E.rip z) {l : List Step} {ph : Phase} {e : Evt} {a : Action} {w : Withs}
    (h : Ruling E (zs.map zoneRule) l ph e a w) : a = .noresult ∧ w = {} := by
  have key : ∀ {l ph e a w}, Says1 E (zs.map zoneRule) l ph e a w → a = .noresult ∧ w = {} := by
    intro l ph e a w hs
    rcases zones_go (says1_goes.1 hs) with ⟨-, h⟩ | ⟨h1, h2, -⟩
    · exact absurd h hz
    · exact ⟨h1, h2⟩
  have no : ∀ {l ph e a w}, Says1 E (zs.map zoneRule) l ph e a w → ¬ Refuses a := by
    intro l ph e a w hs
    rw [(key hs).1]
    rintro (h | h) <;> cases h
  cases h with
  | late _ _ h3 =>
    obtain ⟨_, _, _, _, _, -, -, h4, h5, -⟩ := h3
    exact absurd h5 (no h4)
  | null h1 _ h3 h4 =>
    subst h1
    exact absurd h4 (no h3)
  | plain _ h1 => exact key h1

section
variable {o : BaseOpts} {cf : Conf} (hb : Built o cf) {E : Env} (hip : ∀ t n, E.W.lookupIP t n = E.W.lookupIP 0 n) {f : Str} {zs : List Str}
  (hzs : ∀ z ∈ zs, Zone z) (hbase : cf.base = []) (hrf : cf.rulefiles = [f]) (hf : f ≠ []) (ht : E.fs [0] f = .data (zoneText zs))
  (hfd : E.fds ≠ 0) {l : List Step} {s : Sess} (h : Life cf E l s) (hst : s.stall = false)
include hb hip hzs hbase hrf hf ht hfd h hst

theorem zones_connect {l1 l2 : List Step} {st : Step} (hl : l = l1 ++ st :: l2) (hp : st.pre.pc = .connect) :
    sent st.out = [] ∧ st.post.pc = (open Classical in if ∃ z ∈ zs, InZone E.W E.rip z then .closed else .ready) := by
  obtain ⟨sh0, i0, s0, sh1, o1, hss, hr⟩ := h
  obtain ⟨W0, hS, rules, hl', -, hcon⟩ := C86_answers hb hip hss hr
  rw [hst] at hl'
  obtain rfl := zones_loaded hzs hbase hrf hf ht hfd hl'
  obtain ⟨used, a, h1, h2, h3⟩ := hcon l1 st l2 hl hp
  refine ⟨h2, ?_⟩
  obtain ⟨b, w, hg⟩ := goes_total (Hits W0 (facts { E with W := W0 } l1) ((heard l1).said .connect {}) .connect) (zs.map zoneRule) {}
  obtain ⟨used', h4, -⟩ := (says1_goes (E := { E with W := W0 })).2 hg
  obtain ⟨rfl, -⟩ := h1.unique h4
  have hz : ∀ z, InZone W0 E.rip z ↔ InZone E.W E.rip z := by
    intro z
    unfold InZone Listed
    simp only [hS.lookupIP]
  have hz' : (∃ z ∈ zs, InZone W0 E.rip z) ↔ ∃ z ∈ zs, InZone E.W E.rip z := by simp only [hz]
  rw [h3]
  rcases zones_go hg with ⟨rfl, h5⟩ | ⟨rfl, -, h5⟩
  · rw [if_pos rfl, if_pos (hz'.1 h5)]
  · rw [if_neg (by decide), if_neg (fun h => h5 (hz'.2 h))]

/-- **C111.** A client in one of the zones is dropped when it connects, and it is never told anything. -/
theorem C111_listed (hz : ∃ z ∈ zs, InZone E.W E.rip z) :
    (∀ l1 st l2, l = l1 ++ st :: l2 → st.pre.pc = .connect → st.post.pc = .closed) ∧ ∀ st ∈ l, st.asked = none ∧ sent st.out = [] := by
  have key : ∀ l1 st l2, l = l1 ++ st :: l2 → st.pre.pc = .connect → sent st.out = [] ∧ st.post.pc = .closed := by
    intro l1 st l2 hl hp
    have := zones_connect hb hip hzs hbase hrf hf ht hfd h hst hl hp
    rwa [if_pos hz] at this
  exact ⟨fun l1 st l2 hl hp => (key l1 st l2 hl hp).2, refused_silent h key⟩

/-- **C111.** Every other client is let in, and everything it says is accepted (unless it is dropped after too many RSETs). -/
theorem C111_unlisted (hz : ¬ ∃ z ∈ zs, InZone E.W E.rip z) :
    (∀ l1 st l2, l = l1 ++ st :: l2 → st.pre.pc = .connect → st.post.pc = .ready) ∧
    ∀ l1 st l2 ph e id, l = l1 ++ st :: l2 → st.asked = some (ph, e, id) → sent st.out = plainYes ph id ∨ st.rsetDrop := by
  constructor
  · intro l1 st l2 hl hp
    have := (zones_connect hb hip hzs hbase hrf hf ht hfd h hst hl hp).2
    rwa [if_neg hz] at this
  intro l1 st l2 ph e id hl ha
  obtain ⟨sh0, i0, s0, sh1, o1, hss, hr⟩ := h
  obtain ⟨W0, hS, rules, hl', hans, -⟩ := C86_answers hb hip hss hr
  rw [hst] at hl'
  obtain rfl := zones_loaded hzs hbase hrf hf ht hfd hl'
  obtain ⟨a, w, g1, -, g2⟩ := hans l1 st l2 ph e id hl ha
  have hz' : ¬ ∃ z ∈ zs, InZone ({ E with W := W0 } : Env).W ({ E with W := W0 } : Env).rip z := by
    unfold InZone Listed at hz ⊢
    simpa only [hS.lookupIP] using hz
  obtain ⟨rfl, rfl⟩ := zones_rule hz' g1
  refine g2.imp (fun g2 => ?_) And.right
  rw [g2.1]
  rfl

end

/-- **C111.** The name asked about the client `w.x.y.v` is `v.y.x.w.ZONE.`. -/
theorem C111_name {W : World} {w x y v z : Str} (h : ∀ s ∈ [w, x, y, v], c!"." ∉ s) :
    InZone W (quad w x y v) z ↔ Listed W (quad v y x w ++ b!"." ++ dotted z) := by
  constructor
  · rintro ⟨w', x', y', v', h1, h2, h3⟩
    have e : ∀ a b c d : Str, quad a b c d = join [c!"."] [a, b, c, d] := by intro a b c d; simp [quad, join]
    rw [e, e] at h1
    have := congrArg (splitOn c!".") h1
    rw [splitOn_join (by simp) h, splitOn_join (by simp) h2] at this
    injection this with h4 this
    injection this with h5 this
    injection this with h6 this
    injection this with h7 this
    subst h4 h5 h6 h7
    exact h3
  · exact fun h3 => ⟨w, x, y, v, rfl, h, h3⟩

/-- C111: so it is for IPv4 addresses. -/
theorem C111_ipv4 {W : World} {strict : Bool} {w x y v z : Str} {a b c d : Nat} (hw : Octet strict w a) (hx : Octet strict x b) (hy : Octet strict y c)
    (hv : Octet strict v d) : InZone W (quad w x y v) z ↔ Listed W (quad v y x w ++ b!"." ++ dotted z) :=
  C111_name (by
    simp only [List.mem_cons, List.not_mem_nil, or_false, forall_eq_or_imp, forall_eq]
    exact ⟨hw.not_mem (by decide), hx.not_mem (by decide), hy.not_mem (by decide), hv.not_mem (by decide)⟩)

/-- **C111.** An address without exactly three dots, such as an IPv6 address, is in no zone. -/
theorem C111_v6 {W : World} {rip : Str} (h : rip.count c!"." ≠ 3) (z : Str) : ¬ InZone W rip z := by
  rintro ⟨w, x, y, v, rfl, h2, -⟩
  apply h
  simp only [List.mem_cons, List.not_mem_nil, or_false, forall_eq_or_imp, forall_eq] at h2
  simp [quad, List.count_append, List.count_eq_zero.2 h2.1, List.count_eq_zero.2 h2.2.1, List.count_eq_zero.2 h2.2.2.1, List.count_eq_zero.2 h2.2.2.2]

/-! ## The log -/

theorem getDnsblRes_static {W : World} (hip : ∀ t n, W.lookupIP t n = W.lookupIP 0 n) {n : Str} {c : Ctx}
    (hc : ∀ n b, c.dnsbl n = some b → (b = true ↔ Listed W n)) :
    ((getDnsblRes W n c).1 = true ↔ Listed W n) ∧ ∃ d t, (getDnsblRes W n c).2 = { c with dnsbl := d, trace := t } ∧
      ∀ n b, d n = some b → (b = true ↔ Listed W n) := by
  unfold getDnsblRes
  split
  · rename_i r hr
    exact ⟨hc _ _ hr, c.dnsbl, c.trace, rfl, hc⟩
  · rw [hip]
    dsimp only
    split
    · rename_i e he
      refine ⟨⟨(nomatch ·), ?_⟩, c.dnsbl, _, rfl, hc⟩
      rintro ⟨ips, h, -⟩
      rw [he] at h; cases h
    · rename_i ips he
      have hl : (decide (ips.length > 0) = true) ↔ Listed W n := by
        rw [decide_eq_true_iff]
        constructor
        · intro h; exact ⟨ips, he, by rintro rfl; simp at h⟩
        · rintro ⟨ips', h, h'⟩
          rw [he] at h
          injection h with h
          subst h
          exact List.length_pos_iff.2 h'
      refine ⟨hl, _, _, rfl, ?_⟩
      intro m b hm
      unfold upd at hm
      split at hm
      · rename_i e
        subst e
        injection hm with hm
        rw [← hm]
        exact hl
      · exact hc m b hm

theorem evalDnsbl_static {W : World} (hip : ∀ t n, W.lookupIP t n = W.lookupIP 0 n) {tr : TransR} {z : Str} {c : Ctx}
    (hc : ∀ n b, c.dnsbl n = some b → (b = true ↔ Listed W n)) (h0 : c.dnsblhit = []) :
    ((evalDnsbl W tr (dotted z) c).1 = true ↔ InZone W tr.rip z) ∧ ∃ d t, (∀ n b, d n = some b → (b = true ↔ Listed W n)) ∧
      (evalDnsbl W tr (dotted z) c).2 = { c with dnsbl := d, trace := t, dnsblhit := if (evalDnsbl W tr (dotted z) c).1 then [dotted z] else [] } := by
  have none_ : (∀ s0 s1 s2 s3, splitOn c!"." tr.rip ≠ [s0, s1, s2, s3]) → ¬ InZone W tr.rip z := by
    rintro h ⟨w, x, y, v, h1, h2, -⟩
    refine h w x y v ?_
    rw [h1, show quad w x y v = join [c!"."] [w, x, y, v] by simp [quad, join], splitOn_join (by simp) h2]
  have same : { c with dnsbl := c.dnsbl, trace := c.trace, dnsblhit := [] } = c := by rw [← h0]
  unfold evalDnsbl
  split
  · rename_i h
    refine ⟨⟨(nomatch ·), fun h' => absurd h' (none_ ?_)⟩, c.dnsbl, c.trace, hc, same.symm⟩
    rw [h]
    intro _ _ _ _ h
    cases h
  · split
    · rename_i s0 s1 s2 s3 hs
      obtain ⟨-, h1, h2⟩ := splitOn_spec c!"." tr.rip
      rw [hs] at h1 h2
      have hrip : tr.rip = quad s0 s1 s2 s3 := by rw [h1]; simp [quad, join]
      obtain ⟨k1, d, t, k2, k3⟩ := getDnsblRes_static hip (n := s3 ++ b!"." ++ s2 ++ b!"." ++ s1 ++ b!"." ++ s0 ++ b!"." ++ dotted z) hc
      rw [hrip, C111_name h2]
      dsimp only
      split
      · rename_i hr
        refine ⟨⟨fun _ => k1.1 hr, fun _ => rfl⟩, d, t, k3, ?_⟩
        rw [k2]
        simp [addDnsblHit, h0]
      · rename_i hr
        refine ⟨⟨(nomatch ·), fun h => absurd (k1.2 h) hr⟩, d, t, k3, ?_⟩
        rw [k2, h0]
        rfl
    · rename_i h
      exact ⟨⟨(nomatch ·), fun h' => absurd h' (none_ h)⟩, c.dnsbl, c.trace, hc, same.symm⟩

/-- The loop over the zones when the client connects: it stops at the first zone that lists the client, and notes this one only. -/
theorem zones_loop {W : World} (hip : ∀ t n, W.lookupIP t n = W.lookupIP 0 n) {tr : TransR} : ∀ {zs : List Str} {c c' : Ctx} {a : Action},
    (∀ n b, c.dnsbl n = some b → (b = true ↔ Listed W n)) → c.dnsblhit = [] → c.domerr = none → c.withprops = {} →
    ruleLoop W tr .connect (zs.map zoneRule) c = .ok (a, c') → a = .reject →
    c'.domerr = none ∧ c'.withprops = {} ∧ ∃ pre z post, zs = pre ++ z :: post ∧ (∀ q ∈ pre, ¬ InZone W tr.rip q) ∧ InZone W tr.rip z ∧
      c'.dnsblhit = [dotted z]
  | [], c, c', a, _, _, _, _, h, ha => by
    cases h
    cases ha
  | z :: zs, c, c', a, hc, h0, h1, h2, h, ha => by
    obtain ⟨k1, d, t, k2, k3⟩ := evalDnsbl_static hip (tr := tr) (z := z) (c := { c with rulemiss := false }) hc h0
    have hm : (evalDnsbl W tr (dotted z) { c with rulemiss := false }).2.rulemiss = false := by rw [k3]
    have hrun : runRule W tr .connect (zoneRule z) c = .ok (if (evalDnsbl W tr (dotted z) { c with rulemiss := false }).1 then
        (true, { (evalDnsbl W tr (dotted z) { c with rulemiss := false }).2 with
          withprops := (evalDnsbl W tr (dotted z) { c with rulemiss := false }).2.withprops.merge {} })
        else (false, (evalDnsbl W tr (dotted z) { c with rulemiss := false }).2)) := by
      unfold runRule
      rw [if_neg (fun h => absurd h.1 (by decide))]
      simp only [Rule.check, zoneRule, ruleOf, checkClauses, eval, bind, Except.bind, pure, Except.pure]
      rw [hm]
      cases (evalDnsbl W tr (dotted z) { c with rulemiss := false }).1 <;> rfl
    have hskip : skipRule .connect (zoneRule z) = false := rfl
    rw [List.map_cons, ruleLoop, hskip, hrun] at h
    simp only [Bool.false_eq_true, if_false, bind, Except.bind] at h
    generalize evalDnsbl W tr (dotted z) { c with rulemiss := false } = r at h hm k1 k3
    obtain ⟨v, c2⟩ := r
    simp only at h hm k1 k3
    cases v with
    | true =>
      simp only [if_true, hm, Bool.false_eq_true, if_false] at h
      rw [if_pos ⟨trivial, show (zoneRule z).result ≥ .accept by show Action.reject ≥ .accept; decide⟩] at h
      injection h with h
      injection h with h3 h4
      subst h4
      refine ⟨by rw [k3]; exact h1, by rw [k3]; simp [h2, Withs.merge], [], z, zs, rfl, by simp, k1.1 rfl, by rw [k3]; rfl⟩
    | false =>
      simp only [Bool.false_eq_true, if_false, hm, false_and] at h
      have hn : ¬ InZone W tr.rip z := fun hh => absurd (k1.2 hh) (by simp)
      have hc2 : c2.dnsblhit = [] ∧ c2.domerr = none ∧ c2.withprops = {} ∧ c2.dnsbl = d := by rw [k3]; exact ⟨rfl, h1, h2, rfl⟩
      obtain ⟨j1, j2, pre, y, post, j3, j4, j5, j6⟩ := zones_loop hip (hc2.2.2.2 ▸ k2) hc2.1 hc2.2.1 hc2.2.2.1 h ha
      refine ⟨j1, j2, z :: pre, y, post, by rw [j3]; rfl, ?_, j5, j6⟩
      intro q hq
      rcases List.mem_cons.1 hq with rfl | hq
      · exact hn
      · exact j4 q hq

/-- What a connection has before the first decision. -/
structure Newborn (cf : Conf) (s0 s : Sess) : Prop where
  rules : s.c.ruleset = s0.c.ruleset
  dnsbl : s.c.dnsbl = fun _ => none
  def_ : s.c.defresult = .error
  last : s.trans.lastmsg = []
  log : s.trans.hasLog = (cf.smtplog && !s.stall)

theorem run_newborn {cf : Conf} {E : Env} {sh0 sh1 : Shared} {i0 : Inp} {s0 s : Sess} {o1 : List Out}
    {l : List Step} (hst : startSess cf E sh0 i0 = .ok (s0, sh1, o1)) (hr : Run cf E s0 l s) : Early s → Newborn cf s0 s := by
  refine Spec.Run.ind (P := fun l s => Early s → Newborn cf s0 s) hr ?_ ?_
  · intro _
    obtain ⟨rules, good, w, t, h1, h2, h3, h4, h5, -⟩ := startSess_ctx hst
    refine ⟨rfl, by rw [h2]; rfl, by rw [h2]; rfl, ?_, h5⟩
    unfold startSess at hst
    simp only [bind, Except.bind, pure, Except.pure] at hst
    split at hst
    · cases hst
    · split at hst
      · cases hst
      · cases hst
        rfl
  · intro l s1 s2 sh sh' i o hr1 ih hd hstep he
    have h1 : Early s1 ∧ s1.pc ≠ .connect := by
      cases hd.move with
      | quiet h1 h2 h3 h4 => exact ⟨h4.1 he, h3⟩
      | asked h1 h2 => exact absurd he h2
      | connect h1 h2 => exact absurd he h2
    have hp : s1.pc = .tls := h1.1.resolve_right h1.2
    obtain ⟨k0, k1, k2, k3, k4⟩ := ih h1.1
    unfold sstep at hstep
    rw [hp] at hstep
    simp only [tlsStep] at hstep
    injection hstep with hstep
    injection hstep with hstep _
    rw [← hstep]
    exact ⟨k0, k1, k2, k3, k4⟩

theorem zones_decide {W : World} (hip : ∀ t n, W.lookupIP t n = W.lookupIP 0 n) {tr : TransR} {zs : List Str} {c c' : Ctx}
    (hd : c.dnsbl = fun _ => none) (hdef : c.defresult = .error) (hr : c.ruleset = zs.map zoneRule)
    (h : Decide W tr .connect {} c = .ok (.reject, c')) :
    c'.domerr = none ∧ c'.withprops = {} ∧ ∃ pre z post, zs = pre ++ z :: post ∧ (∀ q ∈ pre, ¬ InZone W tr.rip q) ∧ InZone W tr.rip z ∧
      c'.dnsblhit = [dotted z] := by
  have hne : ¬ c.defresult ≥ .accept := by rw [hdef]; decide
  unfold Decide at h
  rw [show shadow .connect {} c = c from rfl] at h
  simp only [bind, Except.bind, pure, Except.pure] at h
  split at h
  · rename_i h'
    exact absurd h' hne
  split at h
  · cases h
  rename_i v hv
  obtain ⟨a, c1⟩ := v
  rw [if_neg (fun h => absurd h.1 (by decide))] at h
  injection h with h
  injection h with h1 h2
  subst h2
  rw [show c.ruleset = zs.map zoneRule from hr] at hv
  refine zones_loop hip ?_ ?_ ?_ ?_ hv h1
  · intro n b hb
    simp [hd] at hb
  all_goals rfl

theorem logDnsbls_one {W : World} {t t' : Trans} {c c' : Ctx} {z : Str} {o : List Out} (h1 : c.dnsblhit = [z]) (h2 : t.hasLog = true)
    (h3 : t.lastmsg = []) (h : logDnsbls W t c = .ok (t', c', o)) : c'.domerr = c.domerr ∧ c'.withprops = c.withprops ∧ t'.hasLog = true ∧
      t'.rip = t.rip ∧ ∃ more, o = .log (b!"! dnsbl hit: " ++ z ++ b!"\n") :: .dblcount [z] :: more ∧ (z ≠ b!"sbl.spamhaus.org." → more = []) := by
  unfold logDnsbls at h
  rw [h1, h3, if_neg (by simp [h2])] at h
  simp only [show sortStrs [z] = [z] from rfl, show join b!" " [z] = z from rfl] at h
  rw [if_neg (by simp)] at h
  split at h
  · cases h
  rename_i o' tr hs
  cases h
  refine ⟨rfl, rfl, h2, rfl, o', rfl, fun hz => ?_⟩
  unfold logSbls at hs
  rw [if_neg hz] at hs
  cases hs
  rfl

/-- **C111.** The log tells which zone it was: the first one that lists the client; the others are not counted.  (Only for the SBL more is
logged.) -/
theorem C111_log {cf : Conf} {E : Env} (hip : ∀ t n, E.W.lookupIP t n = E.W.lookupIP 0 n) {f : Str} {zs : List Str}
    (hzs : ∀ z ∈ zs, Zone z) (hbase : cf.base = []) (hrf : cf.rulefiles = [f]) (hf : f ≠ []) (ht : E.fs [0] f = .data (zoneText zs))
    (hfd : E.fds ≠ 0) {l1 l2 : List Step} {st : Step} {s : Sess} (h : Life cf E (l1 ++ st :: l2) s) (hst : s.stall = false)
    (hlog : cf.smtplog = true) (hp : st.pre.pc = .connect) (hdrop : st.post.pc = .closed) :
    ∃ pre z post more, zs = pre ++ z :: post ∧ (∀ q ∈ pre, ¬ InZone E.W E.rip q) ∧ InZone E.W E.rip z ∧
      st.out = .log (b!"! dnsbl hit: " ++ dotted z ++ b!"\n") :: .dblcount [dotted z] :: (more ++
        [.log (b!"! " ++ E.rip ++ b!" dropped on connect due to rule at " ++ st.i.nowText ++ b!"\n")]) ∧
      (dotted z ≠ b!"sbl.spamhaus.org." → more = []) := by
  obtain ⟨sh0, i0, s0, sh1, o1, hss, hr⟩ := h
  obtain ⟨hr1, hok, -⟩ := hr.split rfl
  have hload : Loaded cf E s.stall s0.c.ruleset := (run_flags hr).1 ▸ startSess_loaded hss
  rw [hst] at hload
  have hrules := zones_loaded hzs hbase hrf hf ht hfd hload
  have hnb := run_newborn hss hr1 (.inr hp)
  have hstall : st.pre.stall = false := by rw [← hst, (run_flags hr).1, (run_flags hr1).1]
  have hrs : st.pre.c.ruleset = zs.map zoneRule := hnb.rules.trans hrules
  have hrip : st.pre.trans.rip = E.rip := (run_flags hr1).2.2.1.trans (startSess_init hss).2.2.2.2.1
  have hhas : st.pre.trans.hasLog = true := by rw [hnb.log, hlog, hstall]; rfl
  unfold Step.Ok sstep at hok
  rw [hp] at hok
  simp only [connectStep, decider, bind, Except.bind, pure, Except.pure] at hok
  generalize hx : lookupAddrVerified E.W st.pre.trans.rip st.pre.c.trace = x at hok
  obtain ⟨rd, t⟩ := x
  dsimp only at hok
  split at hok
  · cases hok
  rename_i v hv
  split at hv
  · cases hv
  rename_i dc hdc
  obtain ⟨res, c1⟩ := dc
  split at hv
  · cases hv
  rename_i ld hld
  obtain ⟨t1, c2, o1'⟩ := ld
  dsimp only at hv
  obtain ⟨v1, s2, ov⟩ := v
  dsimp only at hok
  have hv1 : v1 = true := by
    cases v1 with
    | true => rfl
    | false =>
      simp only [Bool.false_eq_true, if_false] at hok
      injection hok with hok
      injection hok with hok _
      rw [← hok] at hdrop
      cases hdrop
  subst hv1
  simp only [if_true] at hok
  injection hok with hok
  injection hok with _ hok
  injection hok with _ hout
  have hre : res = .reject := by
    cases res with
    | reject => rfl
    | _ =>
      exfalso
      split at hv
      · cases hv
      · simp at hv
  subst hre
  obtain ⟨d1, d2, pre, z, post, d3, d4, d5, d6⟩ := zones_decide hip (by exact hnb.dnsbl) (by exact hnb.def_) (by exact hrs) hdc
  have d4 : ∀ q ∈ pre, ¬ InZone E.W E.rip q := hrip ▸ d4
  have d5 : InZone E.W E.rip z := hrip ▸ d5
  obtain ⟨e1, e2, e3, e4, more, e5, e6⟩ := logDnsbls_one d6 (by exact hhas) (by exact hnb.last) hld
  rw [d1] at e1
  rw [d2] at e2
  refine ⟨pre, z, post, more, d3, d4, d5, ?_, e6⟩
  have hde : logDomerr t1 c2 = (t1, []) := by unfold logDomerr; rw [e1]
  have hno : ∀ t, logNote t c2 = .ok [] := by intro t; unfold logNote; rw [e2]
  rw [hde, hno] at hv
  simp only [e2, Option.getD_none, ne_eq, not_true_eq_false, if_false, reduceCtorEq, or_self, if_true, List.append_nil, Except.ok.injEq,
    Prod.mk.injEq] at hv
  obtain ⟨-, hs2, ho⟩ := hv
  rw [← hout, ← hs2, ← ho, e5]
  have hrp : t1.rip = E.rip := e4.trans hrip
  simp only [hstall, Bool.false_eq_true, if_false, writeLog, e3, if_true, hrp, List.cons_append]

/-! ## Three clients -/

/-- Two zones. -/
def zonesDemo : List Str := [b!"bl.example", b!"zen.example."]

example : zoneText zonesDemo = b!"reject dnsbl bl.example\nreject dnsbl zen.example.\n" ∧ ∀ z ∈ zonesDemo, Zone z := by
  refine ⟨by decide +kernel, fun z hz => ?_⟩
  simp only [zonesDemo, List.mem_cons, List.not_mem_nil, or_false] at hz
  rcases hz with rfl | rfl <;> exact ⟨by decide +kernel, by decide +kernel, by decide +kernel⟩

/-- The second one lists 192.0.2.2. -/
def zonesEnv (rip : Str) : Env := { demoEnv with
  fs := fun _ => tbl (.notExist b!"no such file") [(b!"/z", .data (zoneText zonesDemo))], rip := rip,
  W := { demoWorld with lookupIP := fun _ => tbl (.error (demoErr false)) [(b!"2.2.0.192.zen.example.", .ok [.v4 0x7f000002#32]), (b!"2.0.192.2.bl.example.", .ok [])] } }

example : (∃ z ∈ zonesDemo, InZone (zonesEnv b!"192.0.2.2").W b!"192.0.2.2" z) ∧ ¬ (∃ z ∈ zonesDemo, InZone (zonesEnv b!"2.192.0.2").W b!"2.192.0.2" z) ∧
    ¬ ∃ z ∈ zonesDemo, InZone (zonesEnv b!"2001:db8::2").W b!"2001:db8::2" z := by
  refine ⟨⟨b!"zen.example.", by simp [zonesDemo], b!"192", b!"0", b!"2", b!"2", by decide +kernel, by decide +kernel,
    [.v4 0x7f000002#32], by decide +kernel, by decide +kernel⟩, ?_, fun ⟨z, _, h⟩ => C111_v6 (by decide +kernel) z h⟩
  rintro ⟨z, hz, h⟩
  rw [show b!"2.192.0.2" = quad b!"2" b!"192" b!"0" b!"2" by decide +kernel, C111_name (by decide +kernel)] at h
  obtain ⟨ips, h1, h2⟩ := h
  simp only [zonesDemo, List.mem_cons, List.not_mem_nil, or_false] at hz
  rcases hz with rfl | rfl
  · have : (zonesEnv b!"2.192.0.2").W.lookupIP 0 (quad b!"2" b!"0" b!"192" b!"2" ++ b!"." ++ dotted b!"bl.example") = .ok [] := by decide +kernel
    have h1 := this.symm.trans h1
    cases h1
    exact h2 rfl
  · have : (zonesEnv b!"2.192.0.2").W.lookupIP 0 (quad b!"2" b!"0" b!"192" b!"2" ++ b!"." ++ dotted b!"zen.example.") = .error (demoErr false) := by decide +kernel
    have h1 := this.symm.trans h1
    cases h1

/-- One is dropped, with two lines in the log; the others are served. -/
example :
    seen (fun l s _ => ((l.drop 1).map fun st => st.out, decide (s.pc = .closed))) (driveAll { demoConfT b!"/z" with smtplog := true } (zonesEnv b!"192.0.2.2") {} {}
      ([{}, { nowText := b!"noon" }, { ev := .helo false b!"me" }])) =
      .ok ([[.log b!"! dnsbl hit: zen.example.\n", .dblcount [b!"zen.example."], .log b!"! 192.0.2.2 dropped on connect due to rule at noon\n"], []], true) ∧
    (∀ r ∈ [b!"2.192.0.2", b!"2001:db8::2"], seen (fun l _ _ => (l.drop 3).map fun st => replies st.out) (driveAll (demoConfT b!"/z") (zonesEnv r) {} {}
      (events [.helo false b!"me", .mailfrom b!"a@example.com", .rcptto b!"b@example.com"])) = .ok [[.accepted], [.accepted]]) := by
  decide +kernel

end Sink
