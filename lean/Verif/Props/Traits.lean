import Verif.Props.DomainLists

/-!
# C114: a rules file about how clients look, from its text to the answers

Lines `reject from-has AATTRS`, `reject helo-has HATTRS` and `reject dns DATTRS` (doc.go:480-500, 560-657).
-/

namespace Sink
namespace Spec

/-- The words for how addresses, greetings and reverse DNS names may look. -/
inductive Trait
  | unqualified | route | quoted | noat | garbage | bad | resolves | baddom | unknown
  | helo | ehlo | none | bogus | nodots | bareip | properip | ip | myip | remip | otherip
  | nodns | inconsistent | noforward | good | exists_
  deriving DecidableEq, Repr

/-- What the words are about. -/
inductive About
  | sender | greeting | names
  deriving DecidableEq, Repr

def Trait.about : Trait → About
  | .unqualified | .route | .quoted | .noat | .garbage | .bad | .resolves | .baddom | .unknown => .sender
  | .helo | .ehlo | .none | .bogus | .nodots | .bareip | .properip | .ip | .myip | .remip | .otherip => .greeting
  | .nodns | .inconsistent | .noforward | .good | .exists_ => .names

def Trait.word : Trait → Str
  | .unqualified => b!"unqualified" | .route => b!"route" | .quoted => b!"quoted" | .noat => b!"noat" | .garbage => b!"garbage"
  | .bad => b!"bad" | .resolves => b!"resolves" | .baddom => b!"baddom" | .unknown => b!"unknown"
  | .helo => b!"helo" | .ehlo => b!"ehlo" | .none => b!"none" | .bogus => b!"bogus" | .nodots => b!"nodots" | .bareip => b!"bareip"
  | .properip => b!"properip" | .ip => b!"ip" | .myip => b!"myip" | .remip => b!"remip" | .otherip => b!"otherip"
  | .nodns => b!"nodns" | .inconsistent => b!"inconsistent" | .noforward => b!"noforward" | .good => b!"good" | .exists_ => b!"exists"

/-- The match operator. -/
def About.word : About → Str
  | .sender => b!"from-has"
  | .greeting => b!"helo-has"
  | .names => b!"dns"

/-- The phase from which on it is known. -/
def About.since : About → Phase
  | .sender => .mfrom
  | .greeting => .helo
  | .names => .connect

/-- The text of the file. -/
def traitText (ls : List (About × List Trait)) : Str :=
  ls.flatMap fun p => b!"reject " ++ (p.1.word ++ b!" " ++ join b!"," (p.2.map Trait.word)) ++ b!"\n"

/-- A client at `rip` with the reverse DNS names `rd`, connected to `lip`, which greeted with HELO (`g.1`) or EHLO and the name `g.2`, and
sends from `a`, looks so. -/
def Looks (W : World) (rip lip : Str) (rd : RDNS) (g : Bool × Str) (a : Str) : Trait → Prop
  | .unqualified => IsUnqualified a
  | .route => IsRoute a
  | .quoted => IsQuoted a
  | .noat => IsNoat a
  | .garbage => IsGarbage a
  | .bad => IsNoat a ∨ IsUnqualified a ∨ IsGarbage a ∨ IsRoute a
  | .resolves => ∃ d, HasDomain a d ∧ DomainValid W d
  | .baddom => ∃ d, HasDomain a d ∧ DomainBad W d
  | .unknown => ∃ d, HasDomain a d ∧ DomainUnknown W d
  | .helo => g.1 = true
  | .ehlo => g.1 = false
  | .none => g.2 = []
  | .bogus => g.2 = b!"."
  | .nodots => g.2 = b!"." ∨ (c!"." ∉ g.2 ∧ c!":" ∉ g.2)
  | .bareip => g.2 ≠ [] ∧ g.2 ≠ b!"." ∧ (W.lib.parseIP g.2).isSome = true
  | .properip => ∃ t, Bracketed W.lib g.2 t
  | .ip => (g.2 ≠ [] ∧ g.2 ≠ b!"." ∧ (W.lib.parseIP g.2).isSome = true) ∨ ∃ t, Bracketed W.lib g.2 t
  | .remip => g.2 ≠ [] ∧ g.2 ≠ b!"." ∧ HeloIP W.lib g.2 rip
  | .myip => g.2 ≠ [] ∧ g.2 ≠ b!"." ∧ HeloIP W.lib g.2 lip ∧ ¬ HeloIP W.lib g.2 rip
  | .otherip => g.2 ≠ [] ∧ g.2 ≠ b!"." ∧ ∃ t, t ≠ [] ∧ HeloIP W.lib g.2 t ∧ t ≠ lip ∧ t ≠ rip
  | .nodns => rd.verified = []
  | .exists_ => rd.verified ≠ []
  | .noforward => rd.nofwd ≠ []
  | .inconsistent => rd.inconsist ≠ []
  | .good => rd.verified ≠ [] ∧ rd.nofwd = [] ∧ rd.inconsist = []

/-- One of the lines is about something known in this phase, and the client looks like one of its words. -/
def Unwelcome (W : World) (rip lip : Str) (rd : RDNS) (ls : List (About × List Trait)) (ph : Phase) (g : Bool × Str) (a : Str) : Prop :=
  ∃ p ∈ ls, p.1.since ≤ ph ∧ ∃ t ∈ p.2, Looks W rip lip rd g a t

/-- The last greeting: whether it was HELO, and the name. -/
def lastGreeting (l : List Step) : Bool × Str :=
  l.foldl (fun x st => match st.event with | some (.helo b a) => (b, a) | _ => x) (false, [])

end Spec
open Spec
open Gram (Term Orl Andl Clause Clauses RuleG Stmt File IsArg conj needs needsC)

/-! ## From the text to the rules -/

def Spec.Trait.kw : Trait → Kw
  | .unqualified => .unqualified | .route => .route | .quoted => .quoted | .noat => .noat | .garbage => .garbage
  | .bad => .bad | .resolves => .domainValid | .baddom => .domainInvalid | .unknown => .domainTempfail
  | .helo => .helo | .ehlo => .ehlo | .none => .none | .bogus => .bogus | .nodots => .nodots | .bareip => .bareip
  | .properip => .properip | .ip => .ip | .myip => .myip | .remip => .remip | .otherip => .otherip
  | .nodns => .nodns | .inconsistent => .inconsistent | .noforward => .noforward | .good => .good | .exists_ => .exists

/-- The attributes a word stands for. -/
def Spec.Trait.attrs : Trait → List Attr
  | .unqualified => [.unqualified] | .route => [.route] | .quoted => [.quoted] | .noat => [.noat] | .garbage => [.garbage]
  | .bad => [.noat, .unqualified, .garbage, .route] | .resolves => [.resolves] | .baddom => [.baddom] | .unknown => [.unknown]
  | .helo => [.helo] | .ehlo => [.ehlo] | .none => [.none] | .bogus => [.bogus] | .nodots => [.nodots] | .bareip => [.bareip]
  | .properip => [.properip] | .ip => [.bareip, .properip] | .myip => [.myip] | .remip => [.remip] | .otherip => [.otherip]
  | .nodns => [.nodns] | .inconsistent => [.inconsist] | .noforward => [.nofwd] | .good => [.good] | .exists_ => [.exists_]

def Spec.Trait.bits (t : Trait) : Opts := t.attrs.foldr (fun a o => a.bit ||| o) 0

def Spec.About.kind : About → OKind
  | .sender => .fromHas
  | .greeting => .heloHas
  | .names => .dns

def Spec.About.cls : About → Gram.OptClass
  | .sender => .addr
  | .greeting => .helo
  | .names => .dns

def Spec.About.kw : About → Kw
  | .sender => .fromHas
  | .greeting => .heloHas
  | .names => .dns

def traitBits : List Trait → Opts
  | [] => 0
  | t :: ts => t.bits ||| traitBits ts

/-- The expression of a line. -/
def traitExpr (p : About × List Trait) : Expr := .optN p.1.kind (traitBits p.2)

/-- The rule of a line. -/
def traitRule (p : About × List Trait) : Rule := ruleOf .any .reject [⟨traitExpr p, {}⟩]

/-- The tokens of a list of words. -/
def traitToks : List Trait → List (Tok × Str)
  | [] => []
  | [t] => [(.kw t.kw, t.word)]
  | t :: ts => (.kw t.kw, t.word) :: (.comma, b!",") :: traitToks ts

theorem trait_word (t : Trait) : PlainWord t.word ∧ wordTok t.word = .kw t.kw ∧ Gram.optBits t.about.cls t.kw = some t.bits := by
  cases t <;> exact ⟨by decide +kernel, by decide +kernel, by decide +kernel⟩

theorem trait_lx : ∀ {ss : List Trait}, ss ≠ [] → Lx (join b!"," (ss.map Trait.word)) (traitToks ss)
  | [], h => absurd rfl h
  | [s], _ => Lx.kw (trait_word s).1 (trait_word s).2.1
  | s :: s' :: ss, _ => by
    have ih := trait_lx (ss := s' :: ss) (by simp)
    obtain ⟨r, hr⟩ : ∃ r, join b!"," ((s' :: ss).map Trait.word) = s'.word ++ r := by
      cases ss with
      | nil => exact ⟨[], by simp [join]⟩
      | cons a as => exact ⟨b!"," ++ join b!"," ((a :: as).map Trait.word), by simp [join]⟩
    rw [hr] at ih
    have := (Lx.kw (trait_word s).1 (trait_word s).2.1).append (Lx.comma (trait_word s').1 ih) (.inr ⟨c!",", _, rfl, by decide⟩)
    have e : join b!"," ((s :: s' :: ss).map Trait.word) = s.word ++ (b!"," ++ (s'.word ++ r)) := by
      rw [← hr]; simp [join]
    rw [e]
    exact this

theorem trait_opts {a : About} : ∀ {ss : List Trait}, ss ≠ [] → (∀ t ∈ ss, t.about = a) → Gram.Opts a.cls ((traitToks ss).map mkI) (traitBits ss)
  | [], h, _ => absurd rfl h
  | [s], _, h => by
    have h1 := (trait_word s).2.2
    rw [h s (.head _)] at h1
    have := Gram.Opts.one (c := a.cls) (it := mkI (.kw s.kw, s.word)) rfl h1
    simpa [traitBits, traitToks] using this
  | s :: s' :: ss, _, h => by
    have h1 := (trait_word s).2.2
    rw [h s (.head _)] at h1
    exact .more (it := mkI (.kw s.kw, s.word)) (cm := mkI (.comma, b!",")) rfl h1 rfl
      (trait_opts (ss := s' :: ss) (by simp) (fun t ht => h t (.tail _ ht)))

theorem trait_line (L : Lib) {p : About × List Trait} (hne : p.2 ≠ []) (h : ∀ t ∈ p.2, t.about = p.1) :
    LineOf L (b!"reject " ++ (p.1.word ++ b!" " ++ join b!"," (p.2.map Trait.word))) (traitRule p) := by
  obtain ⟨a, ss⟩ := p
  have hw : PlainWord a.word ∧ wordTok a.word = .kw a.kw ∧ Gram.OptOp a.kw a.kind a.cls := by
    cases a <;> exact ⟨by decide +kernel, by decide +kernel, by constructor⟩
  have hx := (Lx.kw hw.1 hw.2.1).two (trait_lx hne)
  have hc : Clauses L .reject (([(Tok.kw a.kw, a.word)] ++ traitToks ss).map mkI) [⟨traitExpr (a, ss), {}⟩] := by
    have := one_clause (L := L) (.has (it := mkI (.kw a.kw, a.word)) hw.2.2 rfl (trait_opts hne h)) (act := .reject) (by simp)
    simpa [traitExpr] using this
  have := line_plain (L := L) (w := b!"reject") (k := .reject) (a := .reject) (by decide +kernel) (by decide) (by decide) (by decide +kernel) .reject hx hc
  simpa [traitRule] using this

theorem traits_loaded {cf : Conf} {E : Env} {f : Str} {ls : List (About × List Trait)} (h : ∀ p ∈ ls, p.2 ≠ [] ∧ ∀ t ∈ p.2, t.about = p.1)
    (hb : cf.base = []) (hr : cf.rulefiles = [f]) (hf : f ≠ []) (ht : E.fs [0] f = .data (traitText ls)) (hfd : E.fds ≠ 0)
    {rules : List Rule} (hl : Loaded cf E false rules) : rules = ls.map traitRule := by
  have hp : ∀ load, parseWith E.W.lib load (traitText ls) = .ok (ls.map traitRule) := by
    intro load
    have := parseWith_lines (L := E.W.lib) (load := load)
      (ls.map fun p => (b!"reject " ++ (p.1.word ++ b!" " ++ join b!"," (p.2.map Trait.word)), traitRule p)) (by
      intro l hl
      obtain ⟨p, hp, rfl⟩ := List.mem_map.1 hl
      exact trait_line _ (h p hp).1 (h p hp).2)
    rw [List.flatMap_map, List.map_map] at this
    exact this
  have ha : accumAll E.W.lib E.fs E.fds 0 cf.base cf.rulefiles = .ok (ls.map traitRule) := by
    obtain ⟨d, hd⟩ := Nat.exists_eq_succ_of_ne_zero hfd
    rw [hb, hr, hd]
    unfold accumAll accumRules
    rw [if_neg hf]
    unfold loadRules
    simp only [ht, hp]
    rfl
  rcases hl with ⟨h, -⟩ | ⟨-, h⟩ | ⟨-, ⟨g, m, h⟩, -⟩
  · cases h
  · rw [ha] at h; injection h with h; exact h.symm
  · rw [ha] at h; cases h

/-! ## What the rules say -/

theorem or_and_ne (o o' b : Opts) : (o ||| o') &&& b ≠ 0 ↔ o &&& b ≠ 0 ∨ o' &&& b ≠ 0 := by
  rw [BitVec.and_comm (o ||| o'), and_or_ne, BitVec.and_comm b, BitVec.and_comm b]

theorem attr_bit (a b : Attr) : a.bit &&& b.bit ≠ 0 ↔ a = b := by
  have hall : ∀ a : Attr, a ∈ Attr.all := by intro a; cases a <;> decide
  have key : ∀ a ∈ Attr.all, ∀ b ∈ Attr.all, (a.bit &&& b.bit ≠ 0 ↔ a = b) := by decide +kernel
  exact key a (hall a) b (hall b)

theorem trait_bit (t : Trait) (b : Attr) : t.bits &&& b.bit ≠ 0 ↔ b ∈ t.attrs := by
  unfold Trait.bits
  induction t.attrs with
  | nil => simp
  | cons a as ih => rw [List.foldr_cons, or_and_ne, ih, attr_bit, List.mem_cons, eq_comm]

theorem traits_bit (ts : List Trait) (b : Attr) : traitBits ts &&& b.bit ≠ 0 ↔ ∃ t ∈ ts, b ∈ t.attrs := by
  induction ts with
  | nil => simp [traitBits]
  | cons t ts ih => rw [traitBits, or_and_ne, ih, trait_bit]; simp

theorem trait_looks {W : World} {tr : TransR} {m : Mail} (t : Trait) :
    (∃ b, HasAttr W tr m t.about.kind b ∧ b ∈ t.attrs) ↔ Looks W tr.rip tr.lip tr.rdns (m.isHelo, m.heloname) m.from_ t := by
  cases t <;> simp [Trait.attrs, Trait.about, About.kind, HasAttr, AddrAttr, HeloAttr, DnsAttr, Looks, and_or_left, exists_or]

theorem trait_holds {W : World} {tr : TransR} {m : Mail} {p : About × List Trait} (h : ∀ t ∈ p.2, t.about = p.1) :
    Holds W tr m (traitExpr p) ↔ ∃ t ∈ p.2, Looks W tr.rip tr.lip tr.rdns (m.isHelo, m.heloname) m.from_ t := by
  simp only [traitExpr, Holds, traits_bit]
  constructor
  · rintro ⟨b, h1, t, h2, h3⟩
    exact ⟨t, h2, (trait_looks t).1 ⟨b, by rw [h t h2]; exact h1, h3⟩⟩
  · rintro ⟨t, h2, h3⟩
    obtain ⟨b, h4, h5⟩ := (trait_looks t).2 h3
    exact ⟨b, by rw [← h t h2]; exact h4, t, h2, h5⟩

theorem trait_needs (p : About × List Trait) {ph : Phase} (h : ph ≠ .any) : needs (traitExpr p) ≤ ph ↔ p.1.since ≤ ph := by
  obtain ⟨a, ts⟩ := p
  cases a <;> cases ph <;> first | exact absurd rfl h | (simp [traitExpr, About.kind, needs, Gram.opNeeds, About.since]; try decide)


theorem traits_hit {W : World} {tr : TransR} {m : Mail} {ph : Phase} (hph : ph ≠ .any) {ls : List (About × List Trait)}
    (hls : ∀ p ∈ ls, p.2 ≠ [] ∧ ∀ t ∈ p.2, t.about = p.1) :
    (∃ r ∈ ls.map traitRule, ∃ y, Hits W tr m ph r y) ↔ Unwelcome W tr.rip tr.lip tr.rdns ls ph (m.isHelo, m.heloname) m.from_ := by
  have key : ∀ p ∈ ls, ((∃ y, Hits W tr m ph (traitRule p) y) ↔
      p.1.since ≤ ph ∧ ∃ t ∈ p.2, Looks W tr.rip tr.lip tr.rdns (m.isHelo, m.heloname) m.from_ t) := by
    intro p hp
    have hn : NoFile (traitExpr p) := trivial
    unfold traitRule
    simp only [hits_one hn, true_or, and_true, exists_and_left, exists_eq_left, trait_needs p hph]
    unfold AtHand
    have hlow : ¬ needs (traitExpr p) ≥ .rto := by
      have : needs (traitExpr p) ≤ .mfrom := (trait_needs p (by decide)).2 (by cases p.1 <;> decide)
      intro h
      have hc : Phase.rto ≤ .mfrom := Phase.le_trans' h this
      exact absurd hc (by decide)
    rw [if_neg (fun h => hlow h.2)]
    simp only [trait_holds (hls p hp).2]
  constructor
  · rintro ⟨r, hr, h⟩
    obtain ⟨p, hp, rfl⟩ := List.mem_map.1 hr
    exact ⟨p, hp, (key p hp).1 h⟩
  · rintro ⟨p, hp, h⟩
    exact ⟨_, List.mem_map.2 ⟨p, hp, rfl⟩, (key p hp).2 h⟩

/-- Whether the lines refuse what the client is heard to say. -/
def unwelcomeNow (E : Env) (ls : List (About × List Trait)) (ph : Phase) (m : Mail) : Prop :=
  Unwelcome E.W E.rip E.lip (facts E []).rdns ls ph (m.isHelo, m.heloname) m.from_

/-- What the lines say to a command. -/
theorem traits_say {E : Env} {ls : List (About × List Trait)} (hls : ∀ p ∈ ls, p.2 ≠ [] ∧ ∀ t ∈ p.2, t.about = p.1) {l : List Step} {ph : Phase}
    (hph : ph ≠ .any) {e : Evt} {a : Action} {w : Withs} (hs : Says1 E (ls.map traitRule) l ph e a w) :
    w = {} ∧ (open Classical in a = if unwelcomeNow E ls ph ((heard l).said ph e) then .reject else .noresult) := by
  have hg := rejects_go (by
    intro r hr
    obtain ⟨p, hp, rfl⟩ := List.mem_map.1 hr
    refine ⟨rfl, fun x hx => ?_⟩
    have hn : NoFile (traitExpr p) := trivial
    exact ((hits_one hn).1 hx).2.1) (says1_goes.1 hs)
  rw [traits_hit hph hls] at hg
  unfold unwelcomeNow
  rcases hg with ⟨h1, h2, h3⟩ | ⟨h1, h2, h3⟩
  · exact ⟨h3, by rw [if_pos (by exact h1), h2]⟩
  · exact ⟨h3, by rw [if_neg (by exact h1), h2]⟩

/-- The last greeting. -/
theorem heard_greeting (l : List Step) : ((heard l).isHelo, (heard l).heloname) = lastGreeting l := by
  induction l using List.reverseRecOn with
  | nil => rfl
  | append_singleton l st ih =>
    have hl : lastGreeting (l ++ [st]) = match st.event with | some (.helo b a) => (b, a) | _ => lastGreeting l := by
      unfold lastGreeting
      rw [List.foldl_append]
      rfl
    rw [hl, ← ih]
    unfold heard
    rw [List.foldl_append, List.foldl_cons, List.foldl_nil]
    generalize List.foldl hear _ l = m
    unfold hear Step.asked Step.event
    cases st.pre.pc with
    | ready => cases st.i.ev <;> rfl
    | decide id b => cases b <;> rfl
    | _ => rfl

theorem hear_keeps_kind {l : List Step} (h : ∀ q ∈ l, ∀ ph e id, q.asked = some (ph, e, id) → ph ≠ .helo ∧ ph ≠ .mfrom) (m : Mail) :
    (l.foldl hear m).isHelo = m.isHelo := by
  induction l generalizing m with
  | nil => rfl
  | cons q l ih =>
    rw [List.foldl_cons, ih (fun q hq => h q (.tail _ hq)) (hear m q)]
    unfold hear
    cases ha : q.asked with
    | none => rfl
    | some x =>
      obtain ⟨ph, e, id⟩ := x
      have := h q (.head _) ph e id ha
      cases ph <;> first | rfl | exact absurd rfl this.1

theorem traits_rule {E : Env} {ls : List (About × List Trait)} (hls : ∀ p ∈ ls, p.2 ≠ [] ∧ ∀ t ∈ p.2, t.about = p.1) {l : List Step} {ph : Phase}
    (hph : ph = .helo ∨ ph = .mfrom ∨ ph = .rto ∨ ph = .data ∨ ph = .message) {e : Evt} {a : Action}
    {w : Withs} (hs : Ruling E (ls.map traitRule) l ph e a w) :
    w = {} ∧ (ph = .mfrom ∧ e.arg = [] → a = .noresult ∨ a = .accept) ∧
      (¬ (ph = .mfrom ∧ e.arg = []) → open Classical in a = if unwelcomeNow E ls ph ((heard l).said ph e) then .reject else .noresult) := by
  have hany : ph ≠ .any := by rcases hph with rfl | rfl | rfl | rfl | rfl <;> decide
  cases hs with
  | late h1 h2 h3 =>
    obtain ⟨l1, st, l2, b, id, hl, h4, h5, h6, h7⟩ := h3
    obtain ⟨rfl, h8⟩ := traits_say hls (by decide) h5
    have hsh : unwelcomeNow E ls .mfrom ((heard l1).said .mfrom ⟨b, []⟩) := by
      by_contra hc
      rw [if_neg hc] at h8
      subst h8
      rcases h6 with h | h <;> cases h
    rw [if_pos hsh] at h8
    subst h8
    refine ⟨rfl, fun h => absurd h.1 h2, fun _ => ?_⟩
    have hgt : Phase.mfrom ≤ ph := by
      rcases hph with h | h | rfl | rfl | rfl
      · exact absurd h h1
      · exact absurd h h2
      all_goals decide
    rw [if_pos]
    have hm : heard l = l2.foldl hear ((heard l1).said .mfrom ⟨b, []⟩) := by
      rw [hl, heard_app, List.foldl_cons]
      unfold hear
      rw [h4]
    have hk := hear_keeps h7 ((heard l1).said .mfrom ⟨b, []⟩)
    have hk' := hear_keeps_kind h7 ((heard l1).said .mfrom ⟨b, []⟩)
    have e1 : ((heard l).said ph e).heloname = ((heard l1).said .mfrom ⟨b, []⟩).heloname := by
      rw [← hk.1, ← hm]
      cases ph <;> first | rfl | exact absurd rfl h1
    have e2 : ((heard l).said ph e).from_ = ((heard l1).said .mfrom ⟨b, []⟩).from_ := by
      rw [← hk.2, ← hm]
      cases ph <;> first | rfl | exact absurd rfl h2
    have e3 : ((heard l).said ph e).isHelo = ((heard l1).said .mfrom ⟨b, []⟩).isHelo := by
      rw [← hk', ← hm]
      cases ph <;> first | rfl | exact absurd rfl h1
    obtain ⟨p, hp, k1, k2⟩ := hsh
    unfold unwelcomeNow
    rw [e1, e2, e3]
    exact ⟨p, hp, Phase.le_trans' k1 hgt, k2⟩
  | null h1 h2 h3 h4 =>
    exact ⟨rfl, fun _ => .inr rfl, fun h => absurd ⟨h1, h2⟩ h⟩
  | plain h1 h2 h3 =>
    obtain ⟨rfl, h4⟩ := traits_say hls hany h2
    refine ⟨rfl, fun h => ?_, fun _ => h4⟩
    by_contra hc
    apply h3
    refine ⟨h.1, h.2, ?_⟩
    split at h4
    · exact .inl h4
    · exact absurd (.inl h4) hc

section
variable {o : BaseOpts} {cf : Conf} (hb : Built o cf) {E : Env} (hs : E.W.Static) {f : Str} {ls : List (About × List Trait)}
  (hls : ∀ p ∈ ls, p.2 ≠ [] ∧ ∀ t ∈ p.2, t.about = p.1) (hbase : cf.base = []) (hrf : cf.rulefiles = [f]) (hf : f ≠ [])
  (ht : E.fs [0] f = .data (traitText ls)) (hfd : E.fds ≠ 0) {l : List Step} {s : Sess} (h : Life cf E l s) (hst : s.stall = false)
include hb hs hls hbase hrf hf ht hfd h hst

/-- **C114.** A client is dropped when it connects exactly if its reverse DNS looks like a word of a line `reject dns DATTRS`. -/
theorem C114_connect {l1 l2 : List Step} {st : Step} (hl : l = l1 ++ st :: l2) (hp : st.pre.pc = .connect) :
    sent st.out = [] ∧ st.post.pc = (open Classical in
      if ∃ p ∈ ls, p.1 = .names ∧ ∃ t ∈ p.2, Looks E.W E.rip E.lip (facts E []).rdns (false, []) [] t then .closed else .ready) := by
  obtain ⟨rules, hl', hcon⟩ := C76_connect hb hs h
  rw [hst] at hl'
  obtain rfl := traits_loaded hls hbase hrf hf ht hfd hl'
  obtain ⟨used, a, h1, h2, h3⟩ := hcon l1 st l2 hl hp
  refine ⟨h2, ?_⟩
  obtain ⟨b, w, hg⟩ := goes_total (Hits E.W (facts E l1) ((heard l1).said .connect {}) .connect) (ls.map traitRule) {}
  have hsay := (says1_goes (E := E)).2 hg
  obtain ⟨-, hb'⟩ := traits_say hls (by decide) hsay
  obtain ⟨used', h4, -⟩ := hsay
  obtain ⟨rfl, -⟩ := h1.unique h4
  rw [h3]
  have hdns : ∀ t : Trait, t.about = .names → ∀ g g' x x', Looks E.W E.rip E.lip (facts E []).rdns g x t → Looks E.W E.rip E.lip (facts E []).rdns g' x' t := by
    intro t ht g g' x x' hx
    cases t <;> first | exact hx | cases ht
  have key : unwelcomeNow E ls .connect ((heard l1).said .connect {}) ↔
      ∃ p ∈ ls, p.1 = .names ∧ ∃ t ∈ p.2, Looks E.W E.rip E.lip (facts E []).rdns (false, []) [] t := by
    constructor
    · rintro ⟨p, hm, k1, t, k2, k3⟩
      have hn : p.1 = .names := by
        revert k1
        cases p.1 <;> decide
      exact ⟨p, hm, hn, t, k2, hdns t (((hls p hm).2 t k2).trans hn) _ _ _ _ k3⟩
    · rintro ⟨p, hm, hn, t, k2, k3⟩
      exact ⟨p, hm, by rw [hn]; decide, t, k2, hdns t (((hls p hm).2 t k2).trans hn) _ _ _ _ k3⟩
  by_cases hx : unwelcomeNow E ls .connect ((heard l1).said .connect {})
  · rw [if_pos hx] at hb'
    rw [hb', if_pos rfl, if_pos (key.1 hx)]
  · rw [if_neg hx] at hb'
    rw [hb', if_neg (by decide), if_neg (fun h => hx (key.2 h))]

/-- **C114.** A command is refused exactly if, by what is known then, the client looks like a word of one of the lines; MAIL FROM:<> is not
refused, but then every recipient is. -/
theorem C114_answers : ∀ l1 st l2 ph e id, l = l1 ++ st :: l2 → st.asked = some (ph, e, id) →
    (¬ (ph = .mfrom ∧ e.arg = []) → Unwelcome E.W E.rip E.lip (facts E []).rdns ls ph (if ph = .helo then (e.isHelo, e.arg) else lastGreeting l1)
        (if ph = .mfrom then e.arg else lastSender l1) → sent st.out = answerTo ph .reject [] id (envelope l1).rcpts ∧ st.post.pc = .ready) ∧
    (ph = .mfrom ∧ e.arg = [] ∨ ¬ Unwelcome E.W E.rip E.lip (facts E []).rdns ls ph (if ph = .helo then (e.isHelo, e.arg) else lastGreeting l1)
        (if ph = .mfrom then e.arg else lastSender l1) → sent st.out = plainYes ph id ∨ st.rsetDrop) := by
  intro l1 st l2 ph e id hl ha
  obtain ⟨rules, hl', hans⟩ := C76_answers hb hs h
  rw [hst] at hl'
  obtain rfl := traits_loaded hls hbase hrf hf ht hfd hl'
  obtain ⟨a, w, g1, -, g2⟩ := hans l1 st l2 ph e id hl ha
  obtain ⟨rfl, g3, g4⟩ := traits_rule hls (asked_phase ha) g1
  have e1 : (((heard l1).said ph e).isHelo, ((heard l1).said ph e).heloname) = if ph = .helo then (e.isHelo, e.arg) else lastGreeting l1 := by
    rw [← heard_greeting]; cases ph <;> rfl
  have e2 : ((heard l1).said ph e).from_ = if ph = .mfrom then e.arg else lastSender l1 := by
    rw [← heard_sender]; cases ph <;> rfl
  unfold unwelcomeNow at g4
  rw [e1, e2] at g4
  constructor
  · intro k1 k2
    have := g4 k1
    rw [if_pos k2] at this
    subst this
    rcases g2 with g2 | ⟨g2 | g2, -⟩
    · exact g2
    · cases g2
    · cases g2
  · intro k
    have hpass : a = .noresult ∨ a = .accept := by
      by_cases hm : ph = .mfrom ∧ e.arg = []
      · exact g3 hm
      · have := g4 hm
        rw [if_neg (k.resolve_left hm)] at this
        exact .inl this
    refine g2.imp (fun g2 => ?_) And.right
    rw [g2.1]
    rcases hpass with rfl | rfl <;> rfl

end

/-! ## A case -/

/-- Three lines. -/
def traitDemo : List (About × List Trait) := [(.greeting, [.helo, .nodots]), (.sender, [.unqualified, .baddom]), (.names, [.nodns])]

example : traitText traitDemo = b!"reject helo-has helo,nodots\nreject from-has unqualified,baddom\nreject dns nodns\n" := by decide +kernel
example : ∀ p ∈ traitDemo, p.2 ≠ [] ∧ ∀ t ∈ p.2, t.about = p.1 := by decide +kernel

def traitEnv (ls : List (About × List Trait)) : Env :=
  { demoEnv with fs := fun _ => tbl (.notExist b!"no such file") [(b!"/d", .data (traitText ls))] }

example : ¬ Unwelcome demoWorld demoEnv.rip demoEnv.lip (facts demoEnv []).rdns traitDemo .helo (false, b!"me.com") b!"a@b" ∧
    Unwelcome demoWorld demoEnv.rip demoEnv.lip (facts demoEnv []).rdns traitDemo .rto (false, b!"me") b!"a" := by
  refine ⟨?_, (.greeting, [.helo, .nodots]), by simp [traitDemo], by decide, .nodots, by simp, .inr (by decide)⟩
  rintro ⟨p, hp, h, t, ht, hx⟩
  simp only [traitDemo, List.mem_cons, List.not_mem_nil, or_false] at hp
  rcases hp with rfl | rfl | rfl
  · simp only [List.mem_cons, List.not_mem_nil, or_false] at ht
    rcases ht with rfl | rfl
    · cases hx
    · revert hx; unfold Looks; decide
  · exact absurd h (by decide)
  · simp only [List.mem_cons, List.not_mem_nil, or_false] at ht
    subst ht
    exact absurd hx (by unfold Looks; decide +kernel)

/-- HELO, a name without dots and a sender at a name without dots are refused; MAIL FROM:<> passes. -/
example : seen (fun l _ _ => (l.drop 2).map fun st => replies st.out) (driveAll (demoConfT b!"/d") (traitEnv traitDemo) {} {}
      (events [.helo true b!"me.com", .helo false b!"me", .helo false b!"me.com", .mailfrom b!"a@localhost", .mailfrom [], .rcptto b!"b@example.com"])) =
    .ok [[.rejected], [.rejected], [], [.rejected], [.accepted], [.accepted]] := by
  decide +kernel

/-- One of the client's reverse DNS names leads elsewhere. -/
example : seen (fun l _ _ => l.map fun st => (sent st.out, st.post.pc)) (driveAll (demoConfT b!"/d") (traitEnv [(.names, [.nodns, .inconsistent])]) {} {} (events [])) =
    .ok [([], .connect), ([], .closed)] := by
  decide +kernel

end Sink
