import Verif.Props.Zones

/-!
# C112: a rules file of domain blocklists, from its text to the answers

Lines `reject dbl SOURCE ZONE` (doc.go:472-479): which names are asked about, when, and what the client is told.
-/

namespace Sink
namespace Spec

/-- Where the domains come from. -/
inductive Src where
  | host | helo | ehlo | sender | all
  deriving DecidableEq, Repr

/-- The word for it in a rule. -/
def Src.word : Src → Str
  | .host => b!"host"
  | .helo => b!"helo"
  | .ehlo => b!"ehlo"
  | .sender => b!"from"
  | .all => b!"any"

/-- The phase from which on the names of this source are known. -/
def Src.since : Src → Phase
  | .host => .connect
  | .helo | .ehlo => .helo
  | .sender | .all => .mfrom

/-- The text of the file: a line for each list of sources and zone. -/
def dblText (ls : List (List Src × Str)) : Str := ls.flatMap fun p => b!"reject dbl " ++ join b!"," (p.1.map Src.word) ++ b!" " ++ p.2 ++ b!"\n"

/-- A name of a client with the reverse DNS names `rd` (less the dot at the end), which said EHLO `helo` and MAIL FROM `sender`. -/
def Named (W : World) (rd : RDNS) (helo sender : Str) : Src → Str → Prop
  | .host, n => ∃ x ∈ rd.verified ++ rd.nofwd ++ rd.inconsist, n = x.dropLast
  | .helo, n | .ehlo, n => n ≠ [] ∧ n = helo
  | .sender, n => HasDomain sender n ∧ ¬ NoMX W n
  | .all, n => (∃ x ∈ rd.verified ++ rd.nofwd ++ rd.inconsist, n = x.dropLast) ∨ (n ≠ [] ∧ n = helo) ∨ (HasDomain sender n ∧ ¬ NoMX W n)

/-- The names of all sources of one of the lines are known in this phase, and one of them is in the zone. -/
def Shunned (W : World) (rd : RDNS) (ls : List (List Src × Str)) (ph : Phase) (helo sender : Str) : Prop :=
  ∃ p ∈ ls, (∀ s ∈ p.1, s.since ≤ ph) ∧ ∃ s ∈ p.1, ∃ n, Named W rd helo sender s n ∧ Listed W (n ++ b!"." ++ dotted p.2)

end Spec
open Spec
open Gram (Term Orl Andl Clause Clauses RuleG Stmt File IsArg conj needs needsC)

/-- The option bits of a source. -/
def Spec.Src.bits : Src → Opts
  | .host => oHost
  | .helo | .ehlo => oEhlo
  | .sender => oFrom
  | .all => oHost ||| oEhlo ||| oFrom

/-- The keyword of a source. -/
def Spec.Src.kw : Src → Kw
  | .host => .host
  | .helo => .helo
  | .ehlo => .ehlo
  | .sender => .from_
  | .all => .any_

/-- The option bits of a list of sources. -/
def srcBits : List Src → Opts
  | [] => 0
  | s :: ss => s.bits ||| srcBits ss

/-- The rule of a line. -/
def dblRule (p : List Src × Str) : Rule := ruleOf .any .reject [⟨.dbl (srcBits p.1) (dotted p.2), {}⟩]

/-- The tokens of a list of sources. -/
def srcToks : List Src → List (Tok × Str)
  | [] => []
  | [s] => [(.kw s.kw, s.word)]
  | s :: ss => (.kw s.kw, s.word) :: (.comma, b!",") :: srcToks ss

theorem src_word (s : Src) : PlainWord s.word ∧ wordTok s.word = .kw s.kw ∧ Gram.optBits .dbl s.kw = some s.bits := by
  cases s <;> exact ⟨by decide +kernel, by decide +kernel, by decide +kernel⟩

theorem src_lx : ∀ {ss : List Src}, ss ≠ [] → Lx (join b!"," (ss.map Src.word)) (srcToks ss)
  | [], h => absurd rfl h
  | [s], _ => Lx.kw (src_word s).1 (src_word s).2.1
  | s :: s' :: ss, _ => by
    have ih := src_lx (ss := s' :: ss) (by simp)
    obtain ⟨r, hr⟩ : ∃ r, join b!"," ((s' :: ss).map Src.word) = s'.word ++ r := by
      cases ss with
      | nil => exact ⟨[], by simp [join]⟩
      | cons a as => exact ⟨b!"," ++ join b!"," ((a :: as).map Src.word), by simp [join]⟩
    rw [hr] at ih
    have := (Lx.kw (src_word s).1 (src_word s).2.1).append (Lx.comma (src_word s').1 ih) (.inr ⟨c!",", _, rfl, by decide⟩)
    have e : join b!"," ((s :: s' :: ss).map Src.word) = s.word ++ (b!"," ++ (s'.word ++ r)) := by
      rw [← hr]; simp [join]
    rw [e]
    exact this

theorem src_opts : ∀ {ss : List Src}, ss ≠ [] → Gram.Opts .dbl ((srcToks ss).map mkI) (srcBits ss)
  | [], h => absurd rfl h
  | [s], _ => by
    have := Gram.Opts.one (c := .dbl) (it := mkI (.kw s.kw, s.word)) rfl (src_word s).2.2
    simpa [srcBits, srcToks] using this
  | s :: s' :: ss, _ => .more (it := mkI (.kw s.kw, s.word)) (cm := mkI (.comma, b!",")) rfl (src_word s).2.2 rfl (src_opts (ss := s' :: ss) (by simp))

theorem dbl_line (L : Lib) {p : List Src × Str} (h : Zone p.2) (hne : p.1 ≠ []) :
    LineOf L (b!"reject dbl " ++ join b!"," (p.1.map Src.word) ++ b!" " ++ p.2) (dblRule p) := by
  obtain ⟨ss, z⟩ := p
  have hx := (Lx.kw (w := b!"dbl") (t := .kw .dbl) (by decide +kernel) (by decide +kernel)).two ((src_lx hne).two (Lx.word h.1))
  have hc : Clauses L .reject (([(Tok.kw .dbl, b!"dbl")] ++ (srcToks ss ++ [(wordTok z, z)])).map mkI) [⟨.dbl (srcBits ss) (dotted z), {}⟩] := by
    have := one_clause (L := L) (.dbl (it := mkI (.kw .dbl, b!"dbl")) (a := mkI (wordTok z, z)) rfl (src_opts hne) (zone_domain h)) (act := .reject) (by simp)
    simpa using this
  have := line_plain (L := L) (w := b!"reject") (k := .reject) (a := .reject) (by decide +kernel) (by decide) (by decide) (by decide +kernel) .reject hx hc
  simpa [dblRule] using this

theorem dbls_loaded {cf : Conf} {E : Env} {f : Str} {ls : List (List Src × Str)} (h : ∀ p ∈ ls, Zone p.2 ∧ p.1 ≠ [])
    (hb : cf.base = []) (hr : cf.rulefiles = [f]) (hf : f ≠ []) (ht : E.fs [0] f = .data (dblText ls)) (hfd : E.fds ≠ 0)
    {rules : List Rule} (hl : Loaded cf E false rules) : rules = ls.map dblRule := by
  have hp : ∀ load, parseWith E.W.lib load (dblText ls) = .ok (ls.map dblRule) := by
    intro load
    have := parseWith_lines (L := E.W.lib) (load := load) (ls.map fun p => (b!"reject dbl " ++ join b!"," (p.1.map Src.word) ++ b!" " ++ p.2, dblRule p)) (by
      intro l hl
      obtain ⟨p, hp, rfl⟩ := List.mem_map.1 hl
      exact dbl_line _ (h p hp).1 (h p hp).2)
    rw [List.flatMap_map, List.map_map] at this
    exact this
  have ha : accumAll E.W.lib E.fs E.fds 0 cf.base cf.rulefiles = .ok (ls.map dblRule) := by
    obtain ⟨d, hd⟩ := Nat.exists_eq_succ_of_ne_zero hfd
    rw [hb, hr, hd]
    unfold accumAll accumRules
    rw [if_neg hf]
    unfold loadRules
    simp only [ht, hp]
    rfl
  rcases hl with ⟨h, -⟩ | ⟨-, h⟩ | ⟨-, ⟨g, m, h⟩, -⟩
  · cases h
  · rw [ha] at h; injection h with h; exact h.symm
  · rw [ha] at h; cases h

/-- Which of the three kinds of names a source has. -/
def srcFlags (a b c : Bool) : Opts := (if a then oHost else 0) ||| (if b then oEhlo else 0) ||| (if c then oFrom else 0)

theorem srcBits_flags (ss : List Src) :
    srcBits ss = srcFlags (decide (.host ∈ ss ∨ .all ∈ ss)) (decide (.helo ∈ ss ∨ .ehlo ∈ ss ∨ .all ∈ ss)) (decide (.sender ∈ ss ∨ .all ∈ ss)) := by
  have key : ∀ (s : Src) (a b c : Bool), s.bits ||| srcFlags a b c =
      srcFlags (decide (s = .host ∨ s = .all) || a) (decide (s = .helo ∨ s = .ehlo ∨ s = .all) || b) (decide (s = .sender ∨ s = .all) || c) := by
    intro s a b c; cases s <;> cases a <;> cases b <;> cases c <;> decide
  induction ss with
  | nil => decide
  | cons s ss ih =>
    rw [srcBits, ih, key]
    congr 1 <;> (cases s <;> simp)

theorem named_iff {W : World} {tr : TransR} {m : Mail} {ss : List Src} {n : Str} :
    DblName W tr m (srcBits ss) n ↔ ∃ s ∈ ss, Named W tr.rdns m.heloname m.from_ s n := by
  have hall : DblName W tr m (srcBits ss) n ↔ (srcBits ss &&& (oEhlo ||| oHelo) ≠ 0 ∧ n ≠ [] ∧ n = m.heloname) ∨
      (srcBits ss &&& oHost = oHost ∧ ∃ x ∈ tr.rdns.verified ++ tr.rdns.nofwd ++ tr.rdns.inconsist, n = x.dropLast) ∨
      (srcBits ss &&& oFrom = oFrom ∧ HasDomain m.from_ n ∧ ¬ NoMX W n) := by
    constructor
    · intro h
      cases h with
      | helo h1 h2 => exact .inl ⟨h1, h2, rfl⟩
      | host h1 h2 => exact .inr (.inl ⟨h1, _, h2, rfl⟩)
      | from_ h1 h2 h3 => exact .inr (.inr ⟨h1, h2, h3⟩)
    · rintro (⟨h1, h2, rfl⟩ | ⟨h1, x, h2, rfl⟩ | ⟨h1, h2, h3⟩)
      · exact .helo h1 h2
      · exact .host h1 h2
      · exact .from_ h1 h2 h3
  have f : ∀ a b c : Bool, (srcFlags a b c &&& (oEhlo ||| oHelo) ≠ 0 ↔ b = true) ∧ (srcFlags a b c &&& oHost = oHost ↔ a = true) ∧
      (srcFlags a b c &&& oFrom = oFrom ↔ c = true) := by decide
  rw [hall, srcBits_flags, (f _ _ _).1, (f _ _ _).2.1, (f _ _ _).2.2]
  simp only [decide_eq_true_eq]
  generalize hH : (∃ x ∈ tr.rdns.verified ++ tr.rdns.nofwd ++ tr.rdns.inconsist, n = x.dropLast) = H
  generalize hG : (n ≠ [] ∧ n = m.heloname) = G
  generalize hS : (HasDomain m.from_ n ∧ ¬ NoMX W n) = S
  have hn : ∀ s, Named W tr.rdns m.heloname m.from_ s n ↔ match s with | .host => H | .helo | .ehlo => G | .sender => S | .all => H ∨ G ∨ S := by
    intro s
    subst hH hG hS
    cases s <;> exact Iff.rfl
  simp only [hn]
  constructor
  · rintro (⟨h | h | h, g⟩ | ⟨h | h, g⟩ | ⟨h | h, g⟩)
    · exact ⟨_, h, g⟩
    · exact ⟨_, h, g⟩
    · exact ⟨_, h, .inr (.inl g)⟩
    · exact ⟨_, h, g⟩
    · exact ⟨_, h, .inl g⟩
    · exact ⟨_, h, g⟩
    · exact ⟨_, h, .inr (.inr g)⟩
  · rintro ⟨s, hs, g⟩
    cases s with
    | host => exact .inr (.inl ⟨.inl hs, g⟩)
    | helo => exact .inl ⟨.inl hs, g⟩
    | ehlo => exact .inl ⟨.inr (.inl hs), g⟩
    | sender => exact .inr (.inr ⟨.inl hs, g⟩)
    | all =>
      rcases g with g | g | g
      · exact .inr (.inl ⟨.inr hs, g⟩)
      · exact .inl ⟨.inr (.inr hs), g⟩
      · exact .inr (.inr ⟨.inr hs, g⟩)

theorem flags_needs (a b c : Bool) (d : Str) (ph : Phase) : needs (.dbl (srcFlags a b c) d) ≤ ph ↔
    (c = true → .mfrom ≤ ph) ∧ (b = true → .helo ≤ ph) := by
  have : needs (.dbl (srcFlags a b c) d) = if c then Phase.mfrom else if b then .helo else .any := by
    cases a <;> cases b <;> cases c <;> rfl
  rw [this]
  clear this
  cases b <;> cases c <;> cases ph <;> decide

theorem src_needs (ss : List Src) (d : Str) (ph : Phase) (h : ph ≠ .any) : needs (.dbl (srcBits ss) d) ≤ ph ↔ ∀ s ∈ ss, s.since ≤ ph := by
  rw [srcBits_flags, flags_needs]
  simp only [decide_eq_true_eq]
  have hc : Phase.connect ≤ ph := by revert h; cases ph <;> decide
  have hm : Phase.mfrom ≤ ph → Phase.helo ≤ ph := by cases ph <;> decide
  constructor
  · rintro ⟨h1, h2⟩ s hs
    cases s with
    | host => exact hc
    | helo => exact h2 (.inl hs)
    | ehlo => exact h2 (.inr (.inl hs))
    | sender => exact h1 (.inl hs)
    | all => exact h1 (.inr hs)
  · intro h
    refine ⟨?_, ?_⟩
    · rintro (h' | h') <;> exact h _ h'
    · rintro (h' | h' | h')
      · exact h _ h'
      · exact h _ h'
      · exact hm (h _ h')

theorem dbls_hit {W : World} {tr : TransR} {m : Mail} {ph : Phase}
    (hph : ph ≠ .any) {ls : List (List Src × Str)} :
    (∃ r ∈ ls.map dblRule, ∃ y, Hits W tr m ph r y) ↔ Shunned W tr.rdns ls ph m.heloname m.from_ := by
  have key : ∀ p, (∃ y, Hits W tr m ph (dblRule p) y) ↔
      (∀ s ∈ p.1, s.since ≤ ph) ∧ ∃ s ∈ p.1, ∃ n, Named W tr.rdns m.heloname m.from_ s n ∧ Listed W (n ++ b!"." ++ dotted p.2) := by
    intro p
    have hn : NoFile (.dbl (srcBits p.1) (dotted p.2)) := trivial
    unfold dblRule
    simp only [hits_one hn, true_or, and_true, exists_and_left, exists_eq_left, src_needs _ _ _ hph]
    unfold AtHand
    have hlow : ¬ needs (.dbl (srcBits p.1) (dotted p.2)) ≥ .rto := by
      have : needs (.dbl (srcBits p.1) (dotted p.2)) ≤ .mfrom := (src_needs _ _ _ (by decide)).2 (fun s _ => by cases s <;> decide)
      intro h
      have hc : Phase.rto ≤ .mfrom := Phase.le_trans' h this
      exact absurd hc (by decide)
    rw [if_neg (fun h => hlow h.2)]
    simp only [Holds, DblHolds, named_iff]
    refine and_congr_right fun _ => ⟨?_, ?_⟩
    · rintro ⟨n, ⟨s, h1, h2⟩, h3⟩; exact ⟨s, h1, n, h2, h3⟩
    · rintro ⟨s, h1, n, h2, h3⟩; exact ⟨n, ⟨s, h1, h2⟩, h3⟩
  simp only [List.mem_map, exists_exists_and_eq_and, key, Shunned]

/-- What the lines say to a command. -/
theorem dbls_say {E : Env} {ls : List (List Src × Str)} {l : List Step} {ph : Phase} (hph : ph ≠ .any) {e : Evt} {a : Action} {w : Withs}
    (hs : Says1 E (ls.map dblRule) l ph e a w) : w = {} ∧
      (open Classical in a = if Shunned E.W (facts E l).rdns ls ph ((heard l).said ph e).heloname ((heard l).said ph e).from_ then .reject else .noresult) := by
  have hg := rejects_go (by
    intro r hr
    obtain ⟨p, hp, rfl⟩ := List.mem_map.1 hr
    refine ⟨rfl, fun x hx => ?_⟩
    have hn : NoFile (.dbl (srcBits p.1) (dotted p.2)) := trivial
    exact ((hits_one hn).1 hx).2.1) (says1_goes.1 hs)
  rw [dbls_hit hph] at hg
  rcases hg with ⟨h1, h2, h3⟩ | ⟨h1, h2, h3⟩
  · exact ⟨h3, by rw [if_pos h1, h2]⟩
  · exact ⟨h3, by rw [if_neg h1, h2]⟩

/-- The last EHLO. -/
theorem heard_helo (l : List Step) : (heard l).heloname = lastHelo l := by
  induction l using List.reverseRecOn with
  | nil => rfl
  | append_singleton l st ih =>
    have hl : lastHelo (l ++ [st]) = match st.event with | some (.helo _ a) => a | _ => lastHelo l := by
      unfold lastHelo
      rw [List.filterMap_append]
      cases hev : st.event with
      | none => simp [hev]
      | some ev => cases ev <;> simp [hev]
    rw [hl, ← ih]
    unfold heard
    rw [List.foldl_append, List.foldl_cons, List.foldl_nil]
    generalize List.foldl hear _ l = m
    unfold hear Step.asked Step.event
    cases st.pre.pc with
    | ready => cases st.i.ev <;> rfl
    | decide id b => cases b <;> rfl
    | _ => rfl

theorem heard_app (l1 l2 : List Step) : heard (l1 ++ l2) = l2.foldl hear (heard l1) := by unfold heard; rw [List.foldl_append]

theorem hear_keeps {l : List Step} (h : ∀ q ∈ l, ∀ ph e id, q.asked = some (ph, e, id) → ph ≠ .helo ∧ ph ≠ .mfrom) (m : Mail) :
    (l.foldl hear m).heloname = m.heloname ∧ (l.foldl hear m).from_ = m.from_ := by
  induction l generalizing m with
  | nil => exact ⟨rfl, rfl⟩
  | cons q l ih =>
    obtain ⟨h1, h2⟩ := ih (fun q hq => h q (.tail _ hq)) (hear m q)
    rw [List.foldl_cons, h1, h2]
    unfold hear
    cases ha : q.asked with
    | none => exact ⟨rfl, rfl⟩
    | some x =>
      obtain ⟨ph, e, id⟩ := x
      have := h q (.head _) ph e id ha
      cases ph <;> first | exact ⟨rfl, rfl⟩ | exact absurd rfl this.1 | exact absurd rfl this.2

theorem shunned_mono {W : World} {rd : RDNS} {ls : List (List Src × Str)} {p q : Phase} {h f : Str} (hpq : p ≤ q) (hs : Shunned W rd ls p h f) :
    Shunned W rd ls q h f := by
  obtain ⟨x, hx, h1, h2⟩ := hs
  exact ⟨x, hx, fun s hs => Phase.le_trans' (h1 s hs) hpq, h2⟩

theorem dbls_rule {E : Env} {ls : List (List Src × Str)} {l : List Step} {ph : Phase} (hph : ph = .helo ∨ ph = .mfrom ∨ ph = .rto ∨ ph = .data ∨ ph = .message) {e : Evt} {a : Action}
    {w : Withs} (hs : Ruling E (ls.map dblRule) l ph e a w) :
    w = {} ∧ (ph = .mfrom ∧ e.arg = [] → a = .noresult ∨ a = .accept) ∧
      (¬ (ph = .mfrom ∧ e.arg = []) →
        open Classical in a = if Shunned E.W (facts E l).rdns ls ph ((heard l).said ph e).heloname ((heard l).said ph e).from_ then .reject else .noresult) := by
  have hany : ph ≠ .any := by rcases hph with rfl | rfl | rfl | rfl | rfl <;> decide
  cases hs with
  | late h1 h2 h3 =>
    obtain ⟨l1, st, l2, b, id, hl, h4, h5, h6, h7⟩ := h3
    obtain ⟨rfl, h8⟩ := dbls_say (by decide) h5
    have hsh : Shunned E.W (facts E l1).rdns ls .mfrom ((heard l1).said .mfrom ⟨b, []⟩).heloname ((heard l1).said .mfrom ⟨b, []⟩).from_ := by
      by_contra hc
      rw [if_neg hc] at h8
      subst h8
      rcases h6 with h | h <;> cases h
    rw [if_pos hsh] at h8
    subst h8
    refine ⟨rfl, fun h => absurd h.1 h2, fun _ => ?_⟩
    have hgt : Phase.mfrom < ph := by
      rcases hph with h | h | rfl | rfl | rfl
      · exact absurd h h1
      · exact absurd h h2
      all_goals decide
    rw [if_pos]
    have hm : heard l = l2.foldl hear ((heard l1).said .mfrom ⟨b, []⟩) := by
      rw [hl, heard_app, List.foldl_cons]
      unfold hear
      rw [h4]
    have hk := hear_keeps h7 ((heard l1).said .mfrom ⟨b, []⟩)
    have e1 : ((heard l).said ph e).heloname = ((heard l1).said .mfrom ⟨b, []⟩).heloname := by
      rw [← hk.1, ← hm]
      cases ph <;> first | rfl | exact absurd rfl h1
    have e2 : ((heard l).said ph e).from_ = ((heard l1).said .mfrom ⟨b, []⟩).from_ := by
      rw [← hk.2, ← hm]
      cases ph <;> first | rfl | exact absurd rfl h2
    rw [e1, e2]
    exact shunned_mono (by revert hgt; cases ph <;> decide) hsh
  | null h1 h2 h3 h4 =>
    exact ⟨rfl, fun _ => .inr rfl, fun h => absurd ⟨h1, h2⟩ h⟩
  | plain h1 h2 h3 =>
    obtain ⟨rfl, h4⟩ := dbls_say hany h2
    refine ⟨rfl, fun h => ?_, fun _ => h4⟩
    by_contra hc
    apply h3
    refine ⟨h.1, h.2, ?_⟩
    split at h4
    · exact .inl h4
    · exact absurd (.inl h4) hc

section
variable {o : BaseOpts} {cf : Conf} (hb : Built o cf) {E : Env} (hs : E.W.Static) {f : Str} {ls : List (List Src × Str)}
  (hls : ∀ p ∈ ls, Zone p.2 ∧ p.1 ≠ []) (hbase : cf.base = []) (hrf : cf.rulefiles = [f]) (hf : f ≠ []) (ht : E.fs [0] f = .data (dblText ls))
  (hfd : E.fds ≠ 0) {l : List Step} {s : Sess} (h : Life cf E l s) (hst : s.stall = false)
include hb hs hls hbase hrf hf ht hfd h hst

/-- **C112.** A client is dropped when it connects exactly if one of its reverse DNS names is in a zone of a line `reject dbl host ZONE`. -/
theorem C112_connect {l1 l2 : List Step} {st : Step} (hl : l = l1 ++ st :: l2) (hp : st.pre.pc = .connect) :
    sent st.out = [] ∧ st.post.pc = (open Classical in
      if ∃ p ∈ ls, (∀ s ∈ p.1, s = .host) ∧ ∃ x ∈ (facts E []).rdns.verified ++ (facts E []).rdns.nofwd ++ (facts E []).rdns.inconsist,
        Listed E.W (x.dropLast ++ b!"." ++ dotted p.2) then .closed else .ready) := by
  obtain ⟨rules, hl', hcon⟩ := C76_connect hb hs h
  rw [hst] at hl'
  obtain rfl := dbls_loaded hls hbase hrf hf ht hfd hl'
  obtain ⟨used, a, h1, h2, h3⟩ := hcon l1 st l2 hl hp
  refine ⟨h2, ?_⟩
  obtain ⟨b, w, hg⟩ := goes_total (Hits E.W (facts E l1) ((heard l1).said .connect {}) .connect) (ls.map dblRule) {}
  have hsay := (says1_goes (E := E)).2 hg
  obtain ⟨-, hb'⟩ := dbls_say (by decide) hsay
  obtain ⟨used', h4, -⟩ := hsay
  obtain ⟨rfl, -⟩ := h1.unique h4
  rw [h3]
  have key : Shunned E.W (facts E l1).rdns ls .connect ((heard l1).said .connect {}).heloname ((heard l1).said .connect {}).from_ ↔
      ∃ p ∈ ls, (∀ s ∈ p.1, s = .host) ∧ ∃ x ∈ (facts E []).rdns.verified ++ (facts E []).rdns.nofwd ++ (facts E []).rdns.inconsist,
        Listed E.W (x.dropLast ++ b!"." ++ dotted p.2) := by
    constructor
    · rintro ⟨p, hm, k1, src, k0, n, k2, k3⟩
      have hh : ∀ s ∈ p.1, s = .host := by
        intro s hs
        have := k1 s hs
        revert this
        cases s <;> decide
      rw [hh src k0] at k2
      obtain ⟨x, hx, rfl⟩ := k2
      exact ⟨p, hm, hh, x, hx, k3⟩
    · rintro ⟨p, hm, hh, x, hx, k⟩
      obtain ⟨s, ss, hs⟩ := List.exists_cons_of_ne_nil (hls p hm).2
      have h0 : s ∈ p.1 := by rw [hs]; exact .head _
      refine ⟨p, hm, fun s hs => by rw [hh s hs]; decide, s, h0, _, ?_, k⟩
      rw [hh s h0]
      exact ⟨x, hx, rfl⟩
  by_cases hx : Shunned E.W (facts E l1).rdns ls .connect ((heard l1).said .connect {}).heloname ((heard l1).said .connect {}).from_
  · rw [if_pos hx] at hb'
    rw [hb', if_pos rfl, if_pos (key.1 hx)]
  · rw [if_neg hx] at hb'
    rw [hb', if_neg (by decide), if_neg (fun h => hx (key.2 h))]

/-- **C112.** A command is refused exactly if a name known by then is in a zone it is to be looked up in; MAIL FROM:<> is not refused, but
then every recipient is. -/
theorem C112_answers : ∀ l1 st l2 ph e id, l = l1 ++ st :: l2 → st.asked = some (ph, e, id) →
    (¬ (ph = .mfrom ∧ e.arg = []) → Shunned E.W (facts E []).rdns ls ph (if ph = .helo then e.arg else lastHelo l1)
        (if ph = .mfrom then e.arg else lastSender l1) → sent st.out = answerTo ph .reject [] id (envelope l1).rcpts ∧ st.post.pc = .ready) ∧
    (ph = .mfrom ∧ e.arg = [] ∨ ¬ Shunned E.W (facts E []).rdns ls ph (if ph = .helo then e.arg else lastHelo l1)
        (if ph = .mfrom then e.arg else lastSender l1) → sent st.out = plainYes ph id ∨ st.rsetDrop) := by
  intro l1 st l2 ph e id hl ha
  obtain ⟨rules, hl', hans⟩ := C76_answers hb hs h
  rw [hst] at hl'
  obtain rfl := dbls_loaded hls hbase hrf hf ht hfd hl'
  obtain ⟨a, w, g1, -, g2⟩ := hans l1 st l2 ph e id hl ha
  obtain ⟨rfl, g3, g4⟩ := dbls_rule (asked_phase ha) g1
  have e1 : ((heard l1).said ph e).heloname = if ph = .helo then e.arg else lastHelo l1 := by
    rw [← heard_helo]; cases ph <;> rfl
  have e2 : ((heard l1).said ph e).from_ = if ph = .mfrom then e.arg else lastSender l1 := by
    rw [← heard_sender]; cases ph <;> rfl
  rw [e1, e2] at g4
  constructor
  · intro k1 k2
    have := g4 k1
    rw [show (facts E l1).rdns = (facts E []).rdns from rfl, if_pos k2] at this
    subst this
    rcases g2 with g2 | ⟨g2 | g2, -⟩
    · exact g2
    · cases g2
    · cases g2
  · intro k
    have hpass : a = .noresult ∨ a = .accept := by
      by_cases hm : ph = .mfrom ∧ e.arg = []
      · exact g3 hm
      · have := g4 hm
        rw [show (facts E l1).rdns = (facts E []).rdns from rfl, if_neg (k.resolve_left hm)] at this
        exact .inl this
    refine g2.imp (fun g2 => ?_) And.right
    rw [g2.1]
    rcases hpass with rfl | rfl <;> rfl

end

/-! ## A case -/

/-- Two lines. -/
def dblDemo : List (List Src × Str) := [([.sender], b!"dbl.example"), ([.ehlo, .sender], b!"urls.example.")]

example : dblText dblDemo = b!"reject dbl from dbl.example\nreject dbl ehlo,from urls.example.\n" := by decide +kernel
example : ∀ p ∈ dblDemo, Zone p.2 ∧ p.1 ≠ [] := by
  intro p hp
  simp only [dblDemo, List.mem_cons, List.not_mem_nil, or_false] at hp
  rcases hp with rfl | rfl <;> exact ⟨⟨by decide +kernel, by decide +kernel, by decide +kernel⟩, by decide⟩

/-- The first one lists evil.com, the second one the name a client greets with. -/
def dblEnv : Env := { demoEnv with
  fs := fun _ => tbl (.notExist b!"no such file") [(b!"/d", .data (dblText dblDemo))],
  W := { demoWorld with lookupIP := fun _ => tbl (.error (demoErr false)) [(b!"evil.com.dbl.example.", .ok [.v4 0x7f000002#32]),
    (b!"me.bad.urls.example.", .ok [.v4 0x7f000002#32])] } }

example : ¬ Shunned dblEnv.W {} dblDemo .helo b!"me.bad" [] ∧ Shunned dblEnv.W {} dblDemo .rto b!"me.bad" [] := by
  refine ⟨?_, ([.ehlo, .sender], b!"urls.example."), by simp [dblDemo], by decide, .ehlo, by simp, b!"me.bad", ⟨by decide, rfl⟩, [.v4 0x7f000002#32], by decide +kernel, by decide⟩
  rintro ⟨p, hp, h, -⟩
  simp only [dblDemo, List.mem_cons, List.not_mem_nil, or_false] at hp
  rcases hp with rfl | rfl <;> exact absurd (h .sender (by simp)) (by decide)

/-- A sender is refused; after a greeting that is listed, MAIL FROM:<> passes but no recipient does. -/
example : seen (fun l _ _ => (l.drop 2).map fun st => replies st.out) (driveAll (demoConfT b!"/d") dblEnv {} {}
      (events [.helo false b!"me", .mailfrom b!"a@evil.com", .mailfrom b!"a@example.com", .rcptto b!"b@example.com",
        .helo false b!"me.bad", .mailfrom b!"a@example.com", .mailfrom [], .rcptto b!"b@example.com"])) =
    .ok [[], [.rejected], [.accepted], [.accepted], [], [.rejected], [.accepted], [.rejected]] := by
  decide +kernel

end Sink
