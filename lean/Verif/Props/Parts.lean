import Verif.Props.Manual
import Verif.Props.Traits

/-!
# C122: when a rule acts is a matter of all its parts

The last examples of the manual (doc.go:725-746): `@data reject to J`, and the difference between `reject from-has A or to-has B` and the two
lines `reject from-has A`, `reject to-has B`.  As in C101 they are the first lines of the first rules file and `more` are the rules of the others.
-/

namespace Sink
namespace Spec

/-- The address looks like one of the words. -/
def Has (E : Env) (a : Str) (ts : List Trait) : Prop := ∃ t ∈ ts, Looks E.W E.rip E.lip (facts E []).rdns (false, []) a t

/-- The words are words for addresses, and there are some. -/
def AddrWords (ts : List Trait) : Prop := ts ≠ [] ∧ ∀ t ∈ ts, t.about = .sender

/-- The words as they are written. -/
def wordsText (ts : List Trait) : Str := join b!"," (ts.map Trait.word)

/-- The recipient in question: the one of this RCPT TO, later any accepted one of the transaction. -/
def Recipient (l1 : List Step) (ph : Phase) (e : Evt) (y : Str) : Prop := ph = .rto ∧ y = e.arg ∨ ph > .rto ∧ y ∈ (envelope l1).rcpts

end Spec
open Spec
open Gram (Term Orl Andl Clause Clauses RuleG Stmt File IsArg conj needs needsC)

/-! ## Rules that do not mind the null sender -/

section
variable {E : Env} {r : Rule} {more : List Rule} {l : List Step} {ph : Phase} {e : Evt} {a : Action} {w : Withs}

theorem waiting_skip' (hm : ∀ l b x, ¬ HitsAt E r l .mfrom ⟨b, []⟩ x) : Waiting E (r :: more) l a w ↔ Waiting E more l a w := by
  unfold Waiting
  constructor <;> rintro ⟨l1, st, l2, b, id, h1, h2, h3, h4⟩
  · exact ⟨l1, st, l2, b, id, h1, h2, (says_skip (hm _ _)).1 h3, h4⟩
  · exact ⟨l1, st, l2, b, id, h1, h2, (says_skip (hm _ _)).2 h3, h4⟩

theorem as_skip' {l1 : List Step} {st : Step} {id : Str} (hm : ∀ l b x, ¬ HitsAt E r l .mfrom ⟨b, []⟩ x) (h : ∀ x, ¬ HitsAt E r l1 ph e x)
    (hr : AsIf E (r :: more) l1 st ph e id) : AsIf E more l1 st ph e id := by
  obtain ⟨a, w, h1, h0⟩ := hr
  refine ⟨a, w, ?_, h0⟩
  cases h1 with
  | late h1 h2 h3 => exact .late h1 h2 ((waiting_skip' hm).1 h3)
  | null h1 h2 h3 h4 => exact .null h1 h2 ((says_skip h).1 h3) h4
  | plain h1 h2 h3 =>
    exact .plain (h1.imp (fun h => h) (Or.imp (fun h => h) fun h1 a w hw => h1 a w ((waiting_skip' hm).2 hw))) ((says_skip h).1 h2) h3

theorem as_hit' {l1 : List Step} {st : Step} {id : Str} (hm : ∀ l b x, ¬ HitsAt E r l .mfrom ⟨b, []⟩ x) {x : Withs} (h : HitsAt E r l1 ph e x)
    (hd : Decides r) (hr : AsIf E (r :: more) l1 st ph e id) :
    Answered l1 st ph id r.result (x.message.getD []) ∨ (ph ≠ .mfrom ∧ Late E more l1 st ph id) := by
  obtain ⟨a, w, h1, h2⟩ := hr
  cases h1 with
  | late h1 h2' h3 => exact .inr ⟨h2', h1, a, w, (waiting_skip' hm).1 h3, h2⟩
  | null h1 h2' =>
    subst h1
    obtain ⟨b, y⟩ := e
    cases h2'
    exact absurd h (hm _ _ _)
  | plain _ h3 =>
    obtain ⟨rfl, rfl⟩ := says_stop h hd h3
    exact .inl h2

end

/-! ## The lines -/

theorem from_has_lx {A : List Trait} (hA : AddrWords A) :
    Lx (b!"from-has " ++ wordsText A) ((.kw .fromHas, b!"from-has") :: traitToks A) := by
  have := (Lx.kw (w := b!"from-has") (t := .kw .fromHas) (by decide +kernel) (by decide +kernel)).two (trait_lx hA.1)
  simpa [wordsText] using this

theorem to_has_lx {B : List Trait} (hB : AddrWords B) : Lx (b!"to-has " ++ wordsText B) ((.kw .toHas, b!"to-has") :: traitToks B) := by
  have := (Lx.kw (w := b!"to-has") (t := .kw .toHas) (by decide +kernel) (by decide +kernel)).two (trait_lx hB.1)
  simpa [wordsText] using this

theorem from_has_term (L : Lib) {A : List Trait} (hA : AddrWords A) :
    Term L (((Tok.kw .fromHas, b!"from-has") :: traitToks A).map mkI) (.optN .fromHas (traitBits A)) :=
  .has (it := mkI (.kw .fromHas, b!"from-has")) .fromHas rfl (trait_opts hA.1 hA.2)

theorem to_has_term (L : Lib) {B : List Trait} (hB : AddrWords B) :
    Term L (((Tok.kw .toHas, b!"to-has") :: traitToks B).map mkI) (.optN .toHas (traitBits B)) :=
  .has (it := mkI (.kw .toHas, b!"to-has")) .toHas rfl (trait_opts hB.1 hB.2)

theorem or_line (L : Lib) {A B : List Trait} (hA : AddrWords A) (hB : AddrWords B) :
    LineOf L (b!"reject from-has " ++ wordsText A ++ b!" or to-has " ++ wordsText B)
      (ruleOf .any .reject [⟨.orN (.optN .fromHas (traitBits A)) (.optN .toHas (traitBits B)), {}⟩]) := by
  have hx := (from_has_lx hA).two ((Lx.kw (w := b!"or") (t := .kw .or) (by decide +kernel) (by decide +kernel)).two (to_has_lx hB))
  have hg : Clauses L .reject (((Tok.kw .fromHas, b!"from-has") :: traitToks A).map mkI ++ mkI (.kw .or, b!"or") ::
      ((Tok.kw .toHas, b!"to-has") :: traitToks B).map mkI)
      [⟨conj [.orN (.optN .fromHas (traitBits A)) (.optN .toHas (traitBits B))], {}⟩] :=
    .one (.plain (.one (.or (from_has_term L hA) rfl (.one (to_has_term L hB))))) (by simp)
  have := line_plain (L := L) (w := b!"reject") (k := .reject) (a := .reject) (by decide +kernel) (by decide) (by decide) (by decide +kernel) .reject hx
    (by simpa using hg)
  simpa [conj] using this

theorem from_line (L : Lib) {A : List Trait} (hA : AddrWords A) :
    LineOf L (b!"reject from-has " ++ wordsText A) (ruleOf .any .reject [⟨.optN .fromHas (traitBits A), {}⟩]) := by
  have := line_plain (L := L) (w := b!"reject") (k := .reject) (a := .reject) (by decide +kernel) (by decide) (by decide) (by decide +kernel) .reject
    (from_has_lx hA) (one_clause (from_has_term L hA) (by simp))
  simpa using this

theorem to_line (L : Lib) {B : List Trait} (hB : AddrWords B) :
    LineOf L (b!"reject to-has " ++ wordsText B) (ruleOf .any .reject [⟨.optN .toHas (traitBits B), {}⟩]) := by
  have := line_plain (L := L) (w := b!"reject") (k := .reject) (a := .reject) (by decide +kernel) (by decide) (by decide) (by decide +kernel) .reject
    (to_has_lx hB) (one_clause (to_has_term L hB) (by simp))
  simpa using this

theorem data_to_line (L : Lib) {J : Str} (h : PlainWord J) :
    LineOf L (b!"@data reject to " ++ J) (ruleOf .data .reject [⟨.matchN .to J, {}⟩]) := by
  have := line_phased (L := L) (p := b!"@data") (w := b!"reject") (j := .aData) (k := .reject) (a := .reject) (by decide +kernel) (by decide) (by decide)
    (by decide +kernel) .data (by decide +kernel) (by decide +kernel) .reject
    (lx_op (o := b!"to") (k := .to) (by decide +kernel) (by decide +kernel) h) (one_clause (term_op L .to J) (by simp)) (show Phase.rto ≤ .data by decide)
  simpa using this

/-! ## What the lines mean -/

theorem looks_addr {W : World} {rip lip : Str} {rd : RDNS} {g g' : Bool × Str} {a : Str} {t : Trait} (h : t.about = .sender) :
    Looks W rip lip rd g a t ↔ Looks W rip lip rd g' a t := by
  cases t <;> first | exact Iff.rfl | cases h

theorem holds_from_has {E : Env} {l : List Step} {m : Mail} {A : List Trait} (hA : AddrWords A) :
    Holds E.W (facts E l) m (.optN .fromHas (traitBits A)) ↔ Has E m.from_ A := by
  have := trait_holds (W := E.W) (tr := facts E l) (m := m) (p := (.sender, A)) hA.2
  refine this.trans (exists_congr fun t => and_congr_right fun ht => ?_)
  exact looks_addr (hA.2 t ht)

theorem holds_to_has {E : Env} {l : List Step} {m : Mail} {B : List Trait} (hB : AddrWords B) :
    Holds E.W (facts E l) m (.optN .toHas (traitBits B)) ↔ Has E m.rcptto B :=
  holds_from_has (l := l) (m := { m with from_ := m.rcptto }) hB

/-- The null sender looks like nothing. -/
theorem has_null {E : Env} {A : List Trait} (hA : AddrWords A) : ¬ Has E [] A := by
  rintro ⟨t, ht, h⟩
  have := hA.2 t ht
  cases t <;> try cases this
  all_goals simp [Looks, IsNoat, IsRoute, IsUnqualified, IsQuoted, IsGarbage, HasDomain] at h

section
variable {E : Env} {A B : List Trait}

theorem said_from {l : List Step} {ph : Phase} {e : Evt} : ((heard l).said ph e).from_ = if ph = .mfrom then e.arg else lastSender l := by
  rw [← heard_sender]; cases ph <;> rfl

theorem hits_recipient {l : List Step} {ph d : Phase} {e : Evt} {x : Withs} {ex : Expr} (hn : NoFile ex) (hne : needs ex = .rto)
    {P : Str → Str → Prop} (hP : ∀ m, Holds E.W (facts E l) m ex ↔ P m.from_ m.rcptto) :
    HitsAt E (ruleOf d .reject [⟨ex, {}⟩]) l ph e x ↔ x = {} ∧ (d = .any ∨ d = ph) ∧ ∃ y, Recipient l ph e y ∧ P (lastSender l) y := by
  unfold HitsAt
  simp only [hits_one hn, hne, AtHand, hP]
  have hf : ph ≥ .rto → ((heard l).said ph e).from_ = lastSender l := by
    intro hp
    rw [said_from, if_neg]
    rintro rfl
    exact absurd hp (by decide)
  constructor
  · rintro ⟨⟨h1, h0⟩, rfl, h2⟩
    rw [hf h1] at h2
    split at h2
    · rename_i hg
      obtain ⟨y, hy, h3⟩ := h2
      exact ⟨rfl, h0, y, .inr ⟨hg.1, hy⟩, h3⟩
    · rename_i hg
      have : ph = .rto := by cases ph <;> first | rfl | exact absurd h1 (by decide) | exact absurd ⟨by decide, by decide⟩ hg
      subst this
      exact ⟨rfl, h0, e.arg, .inl ⟨rfl, rfl⟩, h2⟩
  · rintro ⟨rfl, h0, y, ⟨rfl, rfl⟩ | ⟨hg, hy⟩, h3⟩
    · refine ⟨⟨by decide, h0⟩, rfl, ?_⟩
      rw [if_neg (by decide), hf (by decide)]
      exact h3
    · have hge : ph ≥ .rto := by cases ph <;> first | decide | exact absurd hg (by decide)
      refine ⟨⟨hge, h0⟩, rfl, ?_⟩
      rw [if_pos ⟨hg, by decide⟩, hf hge]
      exact ⟨y, hy, h3⟩

theorem recipient_mfrom {l : List Step} {e : Evt} {y : Str} : ¬ Recipient l .mfrom e y := by
  rintro (⟨h, -⟩ | ⟨h, -⟩)
  · cases h
  · exact absurd h (by decide)

theorem hits_or {l : List Step} {ph : Phase} {e : Evt} {x : Withs} (hA : AddrWords A) (hB : AddrWords B) :
    HitsAt E (ruleOf .any .reject [⟨.orN (.optN .fromHas (traitBits A)) (.optN .toHas (traitBits B)), {}⟩]) l ph e x ↔
      x = {} ∧ ∃ y, Recipient l ph e y ∧ (Has E (lastSender l) A ∨ Has E y B) := by
  have hn : NoFile (.orN (.optN .fromHas (traitBits A)) (.optN .toHas (traitBits B))) := ⟨trivial, trivial⟩
  rw [hits_recipient (P := fun s y => Has E s A ∨ Has E y B) hn rfl]
  · simp
  · intro m
    rw [← holds_from_has (l := l) hA, ← holds_to_has (l := l) hB]
    simp only [Holds]

theorem hits_to_has {l : List Step} {ph : Phase} {e : Evt} {x : Withs} (hB : AddrWords B) :
    HitsAt E (ruleOf .any .reject [⟨.optN .toHas (traitBits B), {}⟩]) l ph e x ↔ x = {} ∧ ∃ y, Recipient l ph e y ∧ Has E y B := by
  have hn : NoFile (.optN .toHas (traitBits B)) := trivial
  rw [hits_recipient (P := fun _ y => Has E y B) hn rfl fun m => holds_to_has hB]
  simp

theorem hits_from_has {l : List Step} {ph : Phase} {e : Evt} {x : Withs} (hA : AddrWords A) :
    HitsAt E (ruleOf .any .reject [⟨.optN .fromHas (traitBits A), {}⟩]) l ph e x ↔
      x = {} ∧ .mfrom ≤ ph ∧ Has E (if ph = .mfrom then e.arg else lastSender l) A := by
  have hn : NoFile (.optN .fromHas (traitBits A)) := trivial
  have h1 : needs (.optN .fromHas (traitBits A)) = .mfrom := rfl
  unfold HitsAt
  rw [hits_one hn, h1]
  unfold AtHand
  rw [if_neg (fun h => absurd h.2 (by decide))]
  simp only [true_or, and_true, holds_from_has hA, said_from]
  exact ⟨fun ⟨a, b, c⟩ => ⟨b, a, c⟩, fun ⟨b, a, c⟩ => ⟨a, b, c⟩⟩

end

/-! ## The properties -/

section
variable {o : BaseOpts} {cf : Conf} (hb : Built o cf) {E : Env} (hs : E.W.Static) {more : List Rule} {l : List Step} {s : Sess}
  (h : Life cf E l s) (hst : s.stall = false)
include hb hs h hst

/-- **C122.** `@data reject to J`: DATA is refused exactly if one of the accepted recipients is J, whichever; everything else is as if the line
were not there. -/
theorem C122_data {J : Str} (hJ : Pattern J) (hF : FirstFile cf E (b!"@data reject to " ++ J ++ b!"\n") more) :
    ∀ l1 st l2 ph e id, l = l1 ++ st :: l2 → st.asked = some (ph, e, id) → ∀ bad : Prop,
      (bad ↔ ph = .data ∧ ∃ y ∈ (envelope l1).rcpts, AddrMatch (E.W.lib.lower y) (E.W.lib.lower J)) →
      (bad → Answered l1 st ph id .reject [] ∨ Late E more l1 st ph id) ∧ (¬ bad → AsIf E more l1 st ph e id) := by
  let R := ruleOf .data .reject [⟨.matchN .to J, {}⟩]
  have hls : ∀ x ∈ [(b!"@data reject to " ++ J, R)], LineOf E.W.lib x.1 x.2 := by
    intro x hx; rw [List.mem_singleton.1 hx]; exact data_to_line _ hJ.1
  have hF' : FirstFile cf E ([(b!"@data reject to " ++ J, R)].flatMap fun x => x.1 ++ b!"\n") more := by simpa using hF
  have hhit : ∀ {l ph e x}, HitsAt E R l ph e x ↔ x = {} ∧ ph = .data ∧ ∃ y ∈ (envelope l).rcpts, AddrMatch (E.W.lib.lower y) (E.W.lib.lower J) := by
    intro l ph e x
    have hn : NoFile (.matchN .to J) := hJ.2
    rw [hits_recipient (P := fun _ y => AddrMatch (E.W.lib.lower y) (E.W.lib.lower J)) hn rfl fun m => holds_to hJ.2]
    refine and_congr_right fun _ => ?_
    constructor
    · rintro ⟨h0 | rfl, y, h1, h2⟩
      · cases h0
      · rcases h1 with ⟨h1, -⟩ | ⟨-, h1⟩
        · cases h1
        · exact ⟨rfl, y, h1, h2⟩
    · rintro ⟨rfl, y, h1, h2⟩
      exact ⟨.inr rfl, y, .inr ⟨by decide, h1⟩, h2⟩
  have hm : ∀ l b x, ¬ HitsAt E R l .mfrom ⟨b, []⟩ x := fun l b x hx => by cases (hhit.1 hx).2.1
  intro l1 st l2 ph e id hl ha bad hbad
  have key := first_answers hb hs hls hF' h hst hl ha
  exact ⟨fun hx => (as_hit' hm (hhit.2 ⟨rfl, hbad.1 hx⟩) ⟨by simp [R, ruleOf], by simp [R, ruleOf]⟩ key).imp (fun h => h) And.right,
    fun hx => as_skip' hm (fun x hx' => hx (hbad.2 (hhit.1 hx').2)) key⟩

/-- **C122.** `reject from-has A or to-has B`: nothing is refused before RCPT TO, not even a sender with A; then every recipient is refused if
the sender has A, and otherwise those with B. -/
theorem C122_or {A B : List Trait} (hA : AddrWords A) (hB : AddrWords B)
    (hF : FirstFile cf E (b!"reject from-has " ++ wordsText A ++ b!" or to-has " ++ wordsText B ++ b!"\n") more) :
    ∀ l1 st l2 ph e id, l = l1 ++ st :: l2 → st.asked = some (ph, e, id) → ∀ bad : Prop,
      (bad ↔ ∃ y, Recipient l1 ph e y ∧ (Has E (lastSender l1) A ∨ Has E y B)) →
      (bad → Answered l1 st ph id .reject [] ∨ Late E more l1 st ph id) ∧ (¬ bad → AsIf E more l1 st ph e id) := by
  let R := ruleOf .any .reject [⟨.orN (.optN .fromHas (traitBits A)) (.optN .toHas (traitBits B)), {}⟩]
  have hls : ∀ x ∈ [(b!"reject from-has " ++ wordsText A ++ b!" or to-has " ++ wordsText B, R)], LineOf E.W.lib x.1 x.2 := by
    intro x hx; rw [List.mem_singleton.1 hx]; exact or_line _ hA hB
  have hF' : FirstFile cf E ([(b!"reject from-has " ++ wordsText A ++ b!" or to-has " ++ wordsText B, R)].flatMap fun x => x.1 ++ b!"\n") more := by
    simpa using hF
  have hm : ∀ l b x, ¬ HitsAt E R l .mfrom ⟨b, []⟩ x := by
    intro l b x hx
    obtain ⟨-, y, hy, -⟩ := (hits_or hA hB).1 hx
    exact recipient_mfrom hy
  intro l1 st l2 ph e id hl ha bad hbad
  have key := first_answers hb hs hls hF' h hst hl ha
  exact ⟨fun hx => (as_hit' hm ((hits_or hA hB).2 ⟨rfl, hbad.1 hx⟩) ⟨by simp [R, ruleOf], by simp [R, ruleOf]⟩ key).imp (fun h => h) And.right,
    fun hx => as_skip' hm (fun x hx' => hx (hbad.2 ((hits_or hA hB).1 hx').2)) key⟩

/-- **C122.** The two lines `reject from-has A` and `reject to-has B`: from MAIL FROM on everything of a sender with A is refused, and of other
senders the recipients with B. -/
theorem C122_two {A B : List Trait} (hA : AddrWords A) (hB : AddrWords B)
    (hF : FirstFile cf E (b!"reject from-has " ++ wordsText A ++ b!"\nreject to-has " ++ wordsText B ++ b!"\n") more) :
    ∀ l1 st l2 ph e id, l = l1 ++ st :: l2 → st.asked = some (ph, e, id) → ∀ bad : Prop,
      (bad ↔ (.mfrom ≤ ph ∧ Has E (if ph = .mfrom then e.arg else lastSender l1) A) ∨ ∃ y, Recipient l1 ph e y ∧ Has E y B) →
      (bad → Answered l1 st ph id .reject [] ∨ (ph ≠ .mfrom ∧ Late E more l1 st ph id)) ∧ (¬ bad → AsIf E more l1 st ph e id) := by
  let R := ruleOf .any .reject [⟨.optN .fromHas (traitBits A), {}⟩]
  let R' := ruleOf .any .reject [⟨.optN .toHas (traitBits B), {}⟩]
  let ls := [(b!"reject from-has " ++ wordsText A, R), (b!"reject to-has " ++ wordsText B, R')]
  have hls : ∀ x ∈ ls, LineOf E.W.lib x.1 x.2 := by
    intro x hx
    rcases List.mem_cons.1 hx with rfl | hx
    · exact from_line _ hA
    · rw [List.mem_singleton.1 hx]; exact to_line _ hB
  have hF' : FirstFile cf E (ls.flatMap fun x => x.1 ++ b!"\n") more := by
    simpa [ls] using hF
  have hm : ∀ l b x, ¬ HitsAt E R l .mfrom ⟨b, []⟩ x := by
    intro l b x hx
    exact has_null hA ((hits_from_has hA).1 hx).2.2
  have hm' : ∀ l b x, ¬ HitsAt E R' l .mfrom ⟨b, []⟩ x := by
    intro l b x hx
    obtain ⟨-, y, hy, -⟩ := (hits_to_has hB).1 hx
    exact recipient_mfrom hy
  intro l1 st l2 ph e id hl ha bad hbad
  have key : AsIf E (R :: R' :: more) l1 st ph e id := first_answers hb hs hls hF' h hst hl ha
  by_cases h1 : .mfrom ≤ ph ∧ Has E (if ph = .mfrom then e.arg else lastSender l1) A
  · refine ⟨fun _ => ?_, fun hx => absurd (hbad.2 (.inl h1)) hx⟩
    refine (as_hit' hm ((hits_from_has hA).2 ⟨rfl, h1⟩) ⟨by simp [R, ruleOf], by simp [R, ruleOf]⟩ key).imp (fun h => h) fun h => ⟨h.1, h.2.1, ?_⟩
    obtain ⟨-, -, a, w, h3, h4⟩ := h
    exact ⟨a, w, (waiting_skip' hm').1 h3, h4⟩
  · have key' := as_skip' hm (fun x hx => h1 ((hits_from_has hA).1 hx).2) key
    refine ⟨fun hx => ?_, fun hx => as_skip' hm' (fun x hx' => hx (hbad.2 (.inr ((hits_to_has hB).1 hx').2))) key'⟩
    exact as_hit' hm' ((hits_to_has hB).2 ⟨rfl, (hbad.1 hx).resolve_left h1⟩) ⟨by simp [R', ruleOf], by simp [R', ruleOf]⟩ key'

end

/-- **C122.** The important difference: under the one line the MAIL FROM of a sender with A is answered by the other rules and its recipients are
refused; under the two lines the MAIL FROM is refused. -/
theorem C122_difference {o o' : BaseOpts} {cf cf' : Conf} (hb : Built o cf) (hb' : Built o' cf') {E E' : Env} (hs : E.W.Static) (hs' : E'.W.Static)
    {more : List Rule} {A B : List Trait} (hA : AddrWords A) (hB : AddrWords B)
    (hF : FirstFile cf E (b!"reject from-has " ++ wordsText A ++ b!" or to-has " ++ wordsText B ++ b!"\n") more)
    (hF' : FirstFile cf' E' (b!"reject from-has " ++ wordsText A ++ b!"\nreject to-has " ++ wordsText B ++ b!"\n") more)
    {l l' : List Step} {s s' : Sess} (h : Life cf E l s) (h' : Life cf' E' l' s') (hst : s.stall = false) (hst' : s'.stall = false) :
    (∀ l1 st l2 e id, l = l1 ++ st :: l2 → st.asked = some (.mfrom, e, id) → AsIf E more l1 st .mfrom e id) ∧
    (∀ l1 st l2 e id, l = l1 ++ st :: l2 → st.asked = some (.rto, e, id) → Has E (lastSender l1) A →
      sent st.out = answerTo .rto .reject [] id (envelope l1).rcpts ∨ Late E more l1 st .rto id) ∧
    (∀ l1 st l2 e id, l' = l1 ++ st :: l2 → st.asked = some (.mfrom, e, id) → Has E' e.arg A →
      sent st.out = answerTo .mfrom .reject [] id (envelope l1).rcpts) := by
  have hno : ∀ {l1 st id ph}, Answered l1 st ph id .reject [] → sent st.out = answerTo ph .reject [] id (envelope l1).rcpts :=
    fun h => h.resolve_right fun h => h.1 (.inl rfl)
  refine ⟨fun l1 st l2 e id hl ha => ?_, fun l1 st l2 e id hl ha hx => ?_, fun l1 st l2 e id hl ha hx => ?_⟩
  · refine (C122_or hb hs h hst hA hB hF l1 st l2 _ e id hl ha _ Iff.rfl).2 ?_
    rintro ⟨y, hy, -⟩
    exact recipient_mfrom hy
  · exact ((C122_or hb hs h hst hA hB hF l1 st l2 _ e id hl ha _ Iff.rfl).1 ⟨e.arg, .inl ⟨rfl, rfl⟩, .inl hx⟩).imp hno fun h => h
  · rcases (C122_two hb' hs' h' hst' hA hB hF' l1 st l2 _ e id hl ha _ Iff.rfl).1 (.inl ⟨by decide, by rw [if_pos rfl]; exact hx⟩) with h1 | ⟨h1, -⟩
    · exact hno h1
    · exact absurd rfl h1

/-! ## The manual's own lines -/

example : AddrWords [.bad] ∧ b!"reject from-has " ++ wordsText [.bad] ++ b!" or to-has " ++ wordsText [.bad] ++ b!"\n" =
    b!"reject from-has bad or to-has bad\n" := ⟨⟨by decide, by decide⟩, by decide +kernel⟩

/-- A bad sender: under one line it is told so at each RCPT TO, under two at once.  A bad recipient is refused under both. -/
example : manualSays b!"reject from-has bad or to-has bad\n" [] (manualMail b!"nobody" b!"b@example.com") =
      .ok ([[], [.accept], [.rejectMsg b!"We do not consent to you emailing that address"], [.accept]], true) ∧
    manualSays b!"reject from-has bad\nreject to-has bad\n" [] (manualMail b!"nobody" b!"b@example.com") =
      .ok ([[], [.reject], [.rejectMsg b!"We do not consent to you emailing that address"],
        [.rejectMsg b!"We do not consent to you emailing that address"]], true) ∧
    manualSays b!"reject from-has bad or to-has bad\n" [] (manualMail b!"a@example.com" b!"nobody") =
      manualSays b!"reject from-has bad\nreject to-has bad\n" [] (manualMail b!"a@example.com" b!"nobody") := by
  decide +kernel

/-- One of two recipients is the one. -/
example : manualSays b!"@data reject to jim@example.com\n" []
      [.helo false b!"me", .mailfrom b!"a@example.com", .rcptto b!"jim@example.com", .rcptto b!"joe@example.com", .data] =
      .ok ([[], [.accept], [.accept], [.accept], [.rejectMsg b!"We do not consent to you emailing those addresses"]], true) ∧
    manualSays b!"@data reject to jim@example.com\n" [] [.helo false b!"me", .mailfrom b!"a@example.com", .rcptto b!"joe@example.com", .data] =
      .ok ([[], [.accept], [.accept], [.accept]], true) := by
  decide +kernel

end Sink
