import Verif.Props.Pairs
import Verif.Props.Adding
import Verif.Props.Priority

/-!
# C101: what the examples of the manual do

The examples of doc.go (lines 257-424 and 698), with any patterns in place of those of the manual, as the first lines of the first rules
file; the rules of the other files are `more`.
-/

namespace Sink
namespace Spec

/-- The first rules file has this text, and the other files contribute these rules; no rules come from the command line. -/
structure FirstFile (cf : Conf) (E : Env) (text : Str) (more : List Rule) : Prop where
  base : cf.base = []
  fds : E.fds ≠ 0
  file : ∃ f fs, f ≠ [] ∧ cf.rulefiles = f :: fs ∧ E.fs [0] f = .data text ∧ accumAll E.W.lib E.fs E.fds 1 [] fs = .ok more

/-- A verified name of the client matches. -/
def HostIs (E : Env) (p : Str) : Prop := ∃ n ∈ (lookupAddrVerified E.W E.rip []).1.verified, HostMatch (E.W.lib.lower n) (E.W.lib.lower p)

/-- The answer is what the ruling `a` with options `w` asks for; or the client is dropped after too many RSETs. -/
def Answered (l1 : List Step) (st : Step) (ph : Phase) (id : Str) (a : Action) (msg : Str) : Prop :=
  sent st.out = answerTo ph a msg id (envelope l1).rcpts ∨ (¬ Refuses a ∧ st.rsetDrop)

/-- The answer is that of these rules alone. -/
def AsIf (E : Env) (rules : List Rule) (l1 : List Step) (st : Step) (ph : Phase) (e : Evt) (id : Str) : Prop :=
  ∃ a w, Ruling E rules l1 ph e a w ∧ Answered l1 st ph id a (w.message.getD [])

end Spec
open Spec
open Gram (Term Orl Andl Clause Clauses RuleG WTerms ArgOp Stmt File IsArg conj needs needsC)

/-! ## The rules of the file come first -/

theorem first_loaded {cf : Conf} {E : Env} {ls : List (Str × Rule)} {more : List Rule} (h : ∀ x ∈ ls, LineOf E.W.lib x.1 x.2)
    (hF : FirstFile cf E (ls.flatMap fun x => x.1 ++ b!"\n") more) {rules : List Rule} (hl : Loaded cf E false rules) :
    rules = ls.map (·.2) ++ more := by
  obtain ⟨f, fs, hf, hr, ht, hm⟩ := hF.file
  have ha : accumAll E.W.lib E.fs E.fds 0 cf.base cf.rulefiles = .ok (ls.map (·.2) ++ more) := by
    obtain ⟨d, hd⟩ := Nat.exists_eq_succ_of_ne_zero hF.fds
    have h1 : accumRules E.W.lib E.fs E.fds 0 [] f = .ok (ls.map (·.2)) := by
      unfold accumRules
      rw [if_neg hf, hd]
      unfold loadRules
      simp only [ht, parseWith_lines ls h]
      rfl
    rw [hF.base, hr]
    unfold accumAll
    rw [h1]
    obtain ⟨rss, g1, rfl⟩ := accumAll_iff.1 hm
    exact accumAll_iff.2 ⟨rss, g1, by simp⟩
  rcases hl with ⟨h, -⟩ | ⟨-, h⟩ | ⟨-, ⟨g, m, h⟩, -⟩
  · cases h
  · rw [ha] at h; injection h with h; exact h.symm
  · rw [ha] at h; cases h

theorem first_answers {o : BaseOpts} {cf : Conf} (hb : Built o cf) {E : Env} (hs : E.W.Static) {ls : List (Str × Rule)} {more : List Rule}
    (hls : ∀ x ∈ ls, LineOf E.W.lib x.1 x.2) (hF : FirstFile cf E (ls.flatMap fun x => x.1 ++ b!"\n") more) {l : List Step} {s : Sess}
    (h : Life cf E l s) (hst : s.stall = false) {l1 l2 : List Step} {st : Step} {ph : Phase} {e : Evt} {id : Str} (hl : l = l1 ++ st :: l2)
    (ha : st.asked = some (ph, e, id)) : AsIf E (ls.map (·.2) ++ more) l1 st ph e id := by
  obtain ⟨rules, h1, h2⟩ := C76_answers hb hs h
  rw [hst] at h1
  obtain rfl := first_loaded hls hF h1
  obtain ⟨a, w, h3, -, h4⟩ := h2 l1 st l2 ph e id hl ha
  refine ⟨a, w, h3, h4.imp And.left fun h => ⟨?_, h.2⟩⟩
  rcases h.1 with rfl | rfl <;> rintro (h | h) <;> cases h

theorem first_connect {o : BaseOpts} {cf : Conf} (hb : Built o cf) {E : Env} (hs : E.W.Static) {ls : List (Str × Rule)} {more : List Rule}
    (hls : ∀ x ∈ ls, LineOf E.W.lib x.1 x.2) (hF : FirstFile cf E (ls.flatMap fun x => x.1 ++ b!"\n") more) {l : List Step} {s : Sess}
    (h : Life cf E l s) (hst : s.stall = false) {l1 l2 : List Step} {st : Step} (hl : l = l1 ++ st :: l2) (hp : st.pre.pc = .connect) :
    ∃ used a, FirstMatch E.W (facts E l1) (heard l1) .connect (ls.map (·.2) ++ more) used a ∧ sent st.out = [] ∧
      st.post.pc = if a = .reject then .closed else .ready := by
  obtain ⟨rules, h1, h2⟩ := C76_connect hb hs h
  rw [hst] at h1
  obtain rfl := first_loaded hls hF h1
  exact h2 l1 st l2 hl hp

theorem tlsStep_next {s s' : Sess} {sh sh' : Shared} {i : Inp} {o : List Out} (h : tlsStep s sh i = .ok (s', sh', o)) :
    s'.pc = .connect ∧ sent o = [] := by
  unfold tlsStep at h
  injection h with h
  injection h with h1 h2
  injection h2 with _ h2
  rw [← h1, ← h2]
  have key : ∀ b : Bool, sent (if b then [Out.count .notlscnt] else []) = [] := by intro b; cases b <;> rfl
  exact ⟨rfl, key _⟩

/-- A client whose connection is refused is told nothing and asked nothing. -/
theorem refused_silent {cf : Conf} {E : Env} {l : List Step} {s : Sess} (h : Life cf E l s)
    (hc : ∀ l1 st l2, l = l1 ++ st :: l2 → st.pre.pc = .connect → sent st.out = [] ∧ st.post.pc = .closed) :
    ∀ st ∈ l, st.asked = none ∧ sent st.out = [] := by
  obtain ⟨sh, i, s0, sh0, o, hst, hr⟩ := h
  have h0 : s0.pc = .tls := (startSess_init hst).1
  have inv : ∀ l1 l2 x, l = l1 ++ l2 → Run cf E s0 l1 x → x.pc = .tls ∨ x.pc = .connect ∨ x.pc = .closed := by
    intro l1
    induction l1 using List.reverseRecOn with
    | nil =>
      intro l2 x _ hx
      generalize hn : ([] : List Step) = k at hx
      cases hx with
      | nil => exact .inl h0
      | snoc => simp at hn
    | append_singleton k q ih =>
      intro l2 x hl hx
      obtain rfl := run_last hx
      obtain ⟨k1, hok, -⟩ := hr.split (l1 := k) (st := q) (l2 := l2) (by rw [hl]; simp)
      rcases ih (q :: l2) q.pre (by rw [hl]; simp) k1 with h1 | h1 | h1
      · unfold Step.Ok sstep at hok
        rw [h1] at hok
        exact .inr (.inl (tlsStep_next hok).1)
      · exact .inr (.inr (hc k q l2 (by rw [hl]; simp) h1).2)
      · exact .inr (.inr (closed_stays hok h1))
  intro st hm
  obtain ⟨l1, l2, rfl⟩ := List.append_of_mem hm
  obtain ⟨k1, hok, -⟩ := hr.split (l1 := l1) (st := st) (l2 := l2) rfl
  rcases inv l1 (st :: l2) st.pre rfl k1 with h1 | h1 | h1
  · refine ⟨by unfold Step.asked; rw [h1], ?_⟩
    unfold Step.Ok sstep at hok
    rw [h1] at hok
    exact (tlsStep_next hok).2
  · exact ⟨by unfold Step.asked; rw [h1], (hc l1 st l2 rfl h1).1⟩
  · refine ⟨by unfold Step.asked; rw [h1], ?_⟩
    unfold Step.Ok sstep at hok
    rw [h1] at hok
    injection hok with hok
    injection hok with _ h2
    injection h2 with _ h2
    rw [← h2]; rfl

/-! ## Rules that match and rules that do not -/

section
variable {E : Env} {r : Rule} {more : List Rule} {l : List Step} {ph : Phase} {e : Evt} {a : Action} {w : Withs}

/-- The rule matches the command. -/
def HitsAt (E : Env) (r : Rule) (l : List Step) (ph : Phase) (e : Evt) (x : Withs) : Prop :=
  Hits E.W (facts E l) ((heard l).said ph e) ph r x

theorem says_skip (h : ∀ x, ¬ HitsAt E r l ph e x) : Says1 E (r :: more) l ph e a w ↔ Says1 E more l ph e a w := by
  rw [says1_goes, says1_goes]
  constructor
  · intro hg
    cases hg with
    | skip _ h' => exact h'
    | set hx => exact absurd hx (h _)
    | stop hx => exact absurd hx (h _)
  · exact .skip h

theorem says_stop {x : Withs} (h : HitsAt E r l ph e x) (hd : Decides r) (hs : Says1 E (r :: more) l ph e a w) : a = r.result ∧ w = x := by
  have hg := says1_goes.1 hs
  cases hg with
  | skip h' => exact absurd h (h' _)
  | set _ hd' => exact absurd hd hd'
  | stop hx => exact ⟨rfl, by rw [hits_unique hx h]; cases x; simp [Withs.over]⟩

theorem waiting_skip (hm : ∀ l e x, ¬ HitsAt E r l .mfrom e x) : Waiting E (r :: more) l a w ↔ Waiting E more l a w := by
  unfold Waiting
  constructor <;> rintro ⟨l1, st, l2, b, id, h1, h2, h3, h4⟩
  · exact ⟨l1, st, l2, b, id, h1, h2, (says_skip (hm _ _)).1 h3, h4⟩
  · exact ⟨l1, st, l2, b, id, h1, h2, (says_skip (hm _ _)).2 h3, h4⟩

theorem ruling_skip (hm : ∀ l e x, ¬ HitsAt E r l .mfrom e x) (h : ∀ x, ¬ HitsAt E r l ph e x) (hr : Ruling E (r :: more) l ph e a w) :
    Ruling E more l ph e a w := by
  cases hr with
  | late h1 h2 h3 => exact .late h1 h2 ((waiting_skip hm).1 h3)
  | null h1 h2 h3 h4 => exact .null h1 h2 ((says_skip h).1 h3) h4
  | plain h1 h2 h3 =>
    refine .plain (h1.imp id (Or.imp id fun h1 a w hw => h1 a w ((waiting_skip hm).2 hw))) ((says_skip h).1 h2) h3

theorem ruling_hit (hm : ∀ l e x, ¬ HitsAt E r l .mfrom e x) {x : Withs} (h : HitsAt E r l ph e x) (hd : Decides r)
    (hr : Ruling E (r :: more) l ph e a w) : (a = r.result ∧ w = x) ∨ (ph ≠ .helo ∧ Waiting E more l a w) := by
  cases hr with
  | late h1 _ h3 => exact .inr ⟨h1, (waiting_skip hm).1 h3⟩
  | null h1 => subst h1; exact absurd h (hm _ _ _)
  | plain _ h2 => exact .inl (says_stop h hd h2)

end

namespace Spec

/-- The answer is the refusal that a null sender was spared. -/
def Late (E : Env) (rules : List Rule) (l1 : List Step) (st : Step) (ph : Phase) (id : Str) : Prop :=
  ph ≠ .helo ∧ ∃ a w, Waiting E rules l1 a w ∧ Answered l1 st ph id a (w.message.getD [])

end Spec

section
variable {E : Env} {r : Rule} {more : List Rule} {l1 : List Step} {st : Step} {ph : Phase} {e : Evt} {id : Str}

theorem as_skip (hm : ∀ l e x, ¬ HitsAt E r l .mfrom e x) (h : ∀ x, ¬ HitsAt E r l1 ph e x) (hr : AsIf E (r :: more) l1 st ph e id) :
    AsIf E more l1 st ph e id := by
  obtain ⟨a, w, h1, h2⟩ := hr
  exact ⟨a, w, ruling_skip hm h h1, h2⟩

theorem as_hit (hm : ∀ l e x, ¬ HitsAt E r l .mfrom e x) {x : Withs} (h : HitsAt E r l1 ph e x) (hd : Decides r)
    (hr : AsIf E (r :: more) l1 st ph e id) : Answered l1 st ph id r.result (x.message.getD []) ∨ Late E more l1 st ph id := by
  obtain ⟨a, w, h1, h2⟩ := hr
  rcases ruling_hit hm h hd h1 with ⟨rfl, rfl⟩ | ⟨h3, h4⟩
  · exact .inl h2
  · exact .inr ⟨h3, a, w, h4, h2⟩

end

theorem rsetDrop_phase {st : Step} {ph : Phase} {e : Evt} {id : Str} (ha : st.asked = some (ph, e, id)) (h : st.rsetDrop) : ph = .mfrom := by
  obtain ⟨⟨a, h1⟩, -⟩ := h
  rw [asked_of h1] at ha
  cases ha; rfl

/-! ## Lines -/

theorem line_plain {L : Lib} {w s : Str} {k : Kw} {a : Action} {ts : List (Tok × Str)} {cs : List RClause} (hw : PlainWord w)
    (h1 : w.head? ≠ some c!"#") (h2 : w.head? ≠ some c!"\\") (hk : wordTok w = .kw k) (ha : Gram.ActionWord k a) (hs : Lx s ts)
    (hc : Clauses L a (ts.map mkI) cs) : LineOf L (w ++ b!" " ++ s) (ruleOf .any a cs) :=
  lineOf_mk hw h1 h2 hs (RuleG.plain (ak := k) (by simp [mkI, hk]) ha hc)

theorem line_phased {L : Lib} {p w s : Str} {k j : Kw} {a : Action} {ph : Phase} {ts : List (Tok × Str)} {cs : List RClause} (hp : PlainWord p)
    (h1 : p.head? ≠ some c!"#") (h2 : p.head? ≠ some c!"\\") (hj : wordTok p = .kw j) (hph : Gram.PhaseWord j ph) (hw : PlainWord w)
    (hk : wordTok w = .kw k) (ha : Gram.ActionWord k a) (hs : Lx s ts) (hc : Clauses L a (ts.map mkI) cs) (hn : needsC cs ≤ ph) :
    LineOf L (p ++ b!" " ++ (w ++ b!" " ++ s)) (ruleOf ph a cs) :=
  lineOf_mk hp h1 h2 ((Lx.kw hw hk).two hs) (RuleG.phased (pk := j) (ak := k) (by simp [mkI, hj]) hph rfl ha hc hn)

/-- An operator and its argument. -/
theorem lx_op {o : Str} {k : Kw} (ho : PlainWord o) (hk : wordTok o = .kw k) {p : Str} (hp : PlainWord p) :
    Lx (o ++ b!" " ++ p) [(.kw k, o), (wordTok p, p)] := (Lx.kw ho hk).two (Lx.word hp)

theorem term_op (L : Lib) {o : Str} {k : Kw} {mk : Str → Expr} (h : ArgOp k mk) (p : Str) :
    Term L ([(Tok.kw k, o), (wordTok p, p)].map mkI) (mk p) := .arg (a := mkI (wordTok p, p)) h rfl (wordTok_isArg _)

theorem accept_host_line (L : Lib) {H : Str} (h : PlainWord H) :
    LineOf L (b!"accept host " ++ H) (ruleOf .any .accept [⟨.matchN .host H, {}⟩]) := by
  have := line_plain (L := L) (w := b!"accept") (k := .accept) (a := .accept) (by decide +kernel) (by decide) (by decide) (by decide +kernel) .accept
    (lx_op (o := b!"host") (k := .host) (by decide +kernel) (by decide +kernel) h) (one_clause (term_op L .host H) (by simp))
  simpa using this

theorem helo_accept_host_line (L : Lib) {H : Str} (h : PlainWord H) :
    LineOf L (b!"@helo accept host " ++ H) (ruleOf .helo .accept [⟨.matchN .host H, {}⟩]) := by
  have := line_phased (L := L) (p := b!"@helo") (w := b!"accept") (j := .aHelo) (k := .accept) (a := .accept) (by decide +kernel) (by decide) (by decide)
    (by decide +kernel) .helo (by decide +kernel) (by decide +kernel) .accept
    (lx_op (o := b!"host") (k := .host) (by decide +kernel) (by decide +kernel) h) (one_clause (term_op L .host H) (by simp)) (show Phase.any ≤ .helo by decide)
  simpa using this

theorem helo_accept_helo_line (L : Lib) {X : Str} (h : PlainWord X) :
    LineOf L (b!"@helo accept helo " ++ X) (ruleOf .helo .accept [⟨.matchN .helo X, {}⟩]) := by
  have := line_phased (L := L) (p := b!"@helo") (w := b!"accept") (j := .aHelo) (k := .accept) (a := .accept) (by decide +kernel) (by decide) (by decide)
    (by decide +kernel) .helo (by decide +kernel) (by decide +kernel) .accept
    (lx_op (o := b!"helo") (k := .helo) (by decide +kernel) (by decide +kernel) h) (one_clause (term_op L .helo X) (by simp)) (show Phase.helo ≤ .helo by decide)
  simpa using this

theorem reject_host_line (L : Lib) {Y : Str} (h : PlainWord Y) :
    LineOf L (b!"reject host " ++ Y) (ruleOf .any .reject [⟨.matchN .host Y, {}⟩]) := by
  have := line_plain (L := L) (w := b!"reject") (k := .reject) (a := .reject) (by decide +kernel) (by decide) (by decide) (by decide +kernel) .reject
    (lx_op (o := b!"host") (k := .host) (by decide +kernel) (by decide +kernel) h) (one_clause (term_op L .host Y) (by simp))
  simpa using this

theorem data_reject_line (L : Lib) : LineOf L b!"@data reject all" (ruleOf .data .reject [⟨.all, {}⟩]) := by
  have := line_phased (L := L) (p := b!"@data") (w := b!"reject") (j := .aData) (k := .reject) (a := .reject) (by decide +kernel) (by decide) (by decide)
    (by decide +kernel) .data (by decide +kernel) (by decide +kernel) .reject
    (Lx.kw (w := b!"all") (t := .kw .all) (by decide +kernel) (by decide +kernel)) (one_clause (.all rfl) (by simp)) (by decide)
  simpa using this

theorem not_from_line (L : Lib) {A B : Str} (hA : PlainWord A) (hB : PlainWord B) :
    LineOf L (b!"reject not from " ++ A ++ b!" to " ++ B)
      (ruleOf .any .reject [⟨.andL [.notN (.matchN .from_ A), .matchN .to B], {}⟩]) := by
  have hx := (Lx.kw (w := b!"not") (t := .kw .not_) (by decide +kernel) (by decide +kernel)).two
    ((lx_op (o := b!"from") (k := .from_) (by decide +kernel) (by decide +kernel) hA).two
      (lx_op (o := b!"to") (k := .to) (by decide +kernel) (by decide +kernel) hB))
  have hg : Clauses L .reject ((mkI (.kw .not_, b!"not") :: [(Tok.kw .from_, b!"from"), (wordTok A, A)].map mkI) ++
      [(Tok.kw .to, b!"to"), (wordTok B, B)].map mkI) [⟨conj [.notN (.matchN .from_ A), .matchN .to B], {}⟩] :=
    .one (.plain (.more (.one (.not_ rfl (term_op L .from_ A))) (.one (.one (term_op L .to B))))) (by simp)
  have := line_plain (L := L) (w := b!"reject") (k := .reject) (a := .reject) (by decide +kernel) (by decide) (by decide) (by decide +kernel) .reject hx
    (by simpa using hg)
  simpa [conj] using this

theorem message_line (L : Lib) {A B C D H : Str} (hA : PlainWord A) (hB : PlainWord B) (hC : PlainWord C) (hD : PlainWord D) (hH : PlainWord H) :
    LineOf L (b!"@message reject ( from " ++ A ++ b!" or from " ++ B ++ b!" or from " ++ C ++ b!" ) to " ++ D ++ b!" not host " ++ H)
      (ruleOf .message .reject [⟨.andL [.orN (.matchN .from_ A) (.orN (.matchN .from_ B) (.matchN .from_ C)), .matchN .to D,
        .notN (.matchN .host H)], {}⟩]) := by
  have hor := Lx.kw (w := b!"or") (t := .kw .or) (by decide +kernel) (by decide +kernel)
  have hfr := fun {p : Str} (h : PlainWord p) => lx_op (o := b!"from") (k := .from_) (by decide +kernel) (by decide +kernel) h
  have hx := Lx.lparen.two ((hfr hA).two (hor.two ((hfr hB).two (hor.two ((hfr hC).two (Lx.rparen.two
    ((lx_op (o := b!"to") (k := .to) (by decide +kernel) (by decide +kernel) hD).two
      ((Lx.kw (w := b!"not") (t := .kw .not_) (by decide +kernel) (by decide +kernel)).two
        (lx_op (o := b!"host") (k := .host) (by decide +kernel) (by decide +kernel) hH)))))))))
  have h1 : Orl L ([(Tok.kw .from_, b!"from"), (wordTok A, A)].map mkI ++ mkI (.kw .or, b!"or") ::
      ([(Tok.kw .from_, b!"from"), (wordTok B, B)].map mkI ++ mkI (.kw .or, b!"or") :: [(Tok.kw .from_, b!"from"), (wordTok C, C)].map mkI))
      (.orN (.matchN .from_ A) (.orN (.matchN .from_ B) (.matchN .from_ C))) :=
    .or (term_op L .from_ A) rfl (.or (term_op L .from_ B) rfl (.one (term_op L .from_ C)))
  have hg : Clauses L .reject ((mkI (.lparen, b!"(") :: (_ ++ [mkI (.rparen, b!")")])) ++ ([(Tok.kw .to, b!"to"), (wordTok D, D)].map mkI ++
      (mkI (.kw .not_, b!"not") :: [(Tok.kw .host, b!"host"), (wordTok H, H)].map mkI)))
      [⟨conj [conj [.orN (.matchN .from_ A) (.orN (.matchN .from_ B) (.matchN .from_ C))], .matchN .to D, .notN (.matchN .host H)], {}⟩] :=
    .one (.plain (.more (.one (.paren rfl (.one h1) rfl)) (.more (.one (term_op L .to D)) (.one (.one (.not_ rfl (term_op L .host H))))))) (by simp)
  have := line_phased (L := L) (p := b!"@message") (w := b!"reject") (j := .aMessage) (k := .reject) (a := .reject) (by decide +kernel) (by decide)
    (by decide) (by decide +kernel) .message (by decide +kernel) (by decide +kernel) .reject
    (cs := [⟨conj [conj [.orN (.matchN .from_ A) (.orN (.matchN .from_ B) (.matchN .from_ C))], .matchN .to D, .notN (.matchN .host H)], {}⟩]) hx
    (by simpa using hg) (show Phase.rto ≤ .message by decide)
  simpa [conj] using this

/-- An operator with `with message "M"`. -/
theorem lx_msg {s : Str} {ts : List (Tok × Str)} (hs : Lx s ts) {M : Str} (hM : QuoteBody M M) :
    Lx (s ++ b!" with message \"" ++ M ++ b!"\"") (ts ++ [(.kw .with_, b!"with"), (.kw .message, b!"message"), (.value, M)]) := by
  have := hs.two ((Lx.kw (w := b!"with") (t := .kw .with_) (by decide +kernel) (by decide +kernel)).two
    ((Lx.kw (w := b!"message") (t := .kw .message) (by decide +kernel) (by decide +kernel)).two (Lx.quoted hM)))
  simpa using this

theorem clause_msg {L : Lib} {ts : List (Tok × Str)} {e : Expr} (h : Term L (ts.map mkI) e) (M : Str) :
    Clause L ((ts ++ [(Tok.kw .with_, b!"with"), (Tok.kw .message, b!"message"), (Tok.value, M)]).map mkI) ⟨e, { message := some M }⟩ := by
  have := Clause.withs (L := L) (wi := mkI (.kw .with_, b!"with")) (us := [mkI (.kw .message, b!"message"), mkI (.value, M)])
    (w := { message := some M }) (.one (.one h)) rfl (by simp) (.message rfl (.inl rfl) ⟨by simp [mkI], by simp [mkI], by simp [mkI]⟩ .nil)
  simpa [conj] using this

theorem reject_dnsbl_line (L : Lib) {D D' M : Str} (hD : PlainWord D) (hd : Gram.IsDomain (mkI (wordTok D, D)) D') (hM : QuoteBody M M) :
    LineOf L (b!"reject dnsbl " ++ D ++ b!" with message \"" ++ M ++ b!"\"") (ruleOf .any .reject [⟨.dnsbl D', { message := some M }⟩]) := by
  have := line_plain (L := L) (w := b!"reject") (k := .reject) (a := .reject) (by decide +kernel) (by decide) (by decide) (by decide +kernel) .reject
    (lx_msg (lx_op (o := b!"dnsbl") (k := .dnsbl) (by decide +kernel) (by decide +kernel) hD) hM)
    (.one (clause_msg (ts := [(.kw .dnsbl, b!"dnsbl"), (wordTok D, D)]) (.dnsbl rfl hd) M) (fun h => by cases h))
  simpa using this

theorem set_from_line (L : Lib) {P M : Str} (hP : PlainWord P) (hM : QuoteBody M M) :
    LineOf L (b!"set-with from " ++ P ++ b!" with message \"" ++ M ++ b!"\"")
      (ruleOf .any .noresult [⟨.matchN .from_ P, { message := some M }⟩]) := by
  have := line_plain (L := L) (w := b!"set-with") (k := .setWith) (a := .noresult) (by decide +kernel) (by decide) (by decide) (by decide +kernel) .setWith
    (lx_msg (lx_op (o := b!"from") (k := .from_) (by decide +kernel) (by decide +kernel) hP) hM)
    (.one (clause_msg (term_op L (o := b!"from") .from_ P) M) (fun _ h => by cases h))
  simpa using this

theorem set_all_line (L : Lib) {M : Str} (hM : QuoteBody M M) :
    LineOf L (b!"set-with all with message \"" ++ M ++ b!"\"") (ruleOf .any .noresult [⟨.all, { message := some M }⟩]) := by
  have := line_plain (L := L) (w := b!"set-with") (k := .setWith) (a := .noresult) (by decide +kernel) (by decide) (by decide) (by decide +kernel) .setWith
    (lx_msg (Lx.kw (w := b!"all") (t := .kw .all) (by decide +kernel) (by decide +kernel)) hM)
    (.one (clause_msg (ts := [(.kw .all, b!"all")]) (.all rfl) M) (fun _ h => by cases h))
  simpa using this

theorem set_both_line (L : Lib) {P M M' : Str} (hP : PlainWord P) (hM : QuoteBody M M) (hM' : QuoteBody M' M') :
    LineOf L (b!"set-with from " ++ P ++ b!" with message \"" ++ M ++ b!"\"; all with message \"" ++ M' ++ b!"\"")
      (ruleOf .any .noresult [⟨.matchN .from_ P, { message := some M }⟩, ⟨.all, { message := some M' }⟩]) := by
  have h1 := lx_msg (lx_op (o := b!"from") (k := .from_) (by decide +kernel) (by decide +kernel) hP) hM
  have h2 := lx_msg (Lx.kw (w := b!"all") (t := .kw .all) (by decide +kernel) (by decide +kernel)) hM'
  have hx := (h1.append Lx.semicolon (.inr ⟨c!";", [], rfl, by decide⟩)).two h2
  have hg := Clauses.more (L := L) (act := .noresult) (sc := mkI (.semicolon, b!";")) (clause_msg (term_op L (o := b!"from") .from_ P) M)
    (fun _ h => by cases h) rfl (.one (clause_msg (ts := [(.kw .all, b!"all")]) (.all rfl) M') (fun _ h => by cases h))
  have := line_plain (L := L) (w := b!"set-with") (k := .setWith) (a := .noresult) (by decide +kernel) (by decide) (by decide) (by decide +kernel) .setWith hx
    (by simpa using hg)
  simpa using this


/-! ## What the expressions of the examples mean -/

theorem holds_op {W : World} {tr : TransR} {m : Mail} {k : MKind} {p : Str} (h : argFile p = none) :
    Holds W tr m (.matchN k p) ↔ ∃ n ∈ subjects tr m k, PatMatch W.lib k n (W.lib.lower p) := by
  rw [Holds]; unfold MatchHolds patterns; rw [h]; simp

/-- The condition on the host is a matter of the connection. -/
theorem holds_host {E : Env} {l : List Step} {m : Mail} {p : Str} (h : argFile p = none) :
    Holds E.W (facts E l) m (.matchN .host p) ↔ HostIs E p := holds_op h

theorem holds_from {W : World} {tr : TransR} {m : Mail} {p : Str} (h : argFile p = none) :
    Holds W tr m (.matchN .from_ p) ↔ AddrMatch (W.lib.lower m.from_) (W.lib.lower p) := by
  rw [holds_op h]; simp [subjects, PatMatch]

theorem holds_to {W : World} {tr : TransR} {m : Mail} {p : Str} (h : argFile p = none) :
    Holds W tr m (.matchN .to p) ↔ AddrMatch (W.lib.lower m.rcptto) (W.lib.lower p) := by
  rw [holds_op h]; simp [subjects, PatMatch]

/-- A rule about the host, in a phase of its own or in all. -/
theorem hits_host {E : Env} {l : List Step} {m : Mail} {ph d : Phase} {a : Action} {p : Str} (h : argFile p = none) {x : Withs} :
    Hits E.W (facts E l) m ph (ruleOf d a [⟨.matchN .host p, {}⟩]) x ↔ (d = .any ∨ d = ph) ∧ x = {} ∧ HostIs E p := by
  have hn : NoFile (.matchN .host p) := h
  rw [hits_one hn]
  have h1 : needs (.matchN .host p) = .any := rfl
  have h2 : ¬ (ph > .rto ∧ Phase.any ≥ .rto) := fun h => absurd h.2 (by decide)
  have h3 : Phase.any ≤ ph := by cases ph <;> decide
  rw [h1]
  unfold AtHand
  rw [if_neg h2]
  simp only [holds_host h, h3, true_and]

/-! ## Options that come first are defaults -/

theorem Withs.over_assoc (x w v : Withs) : x.over (w.over v) = (x.over w).over v := by
  apply Withs.ext_keys
  intro k
  simp only [Withs.of_over]
  cases k.of x <;> rfl

theorem Withs.empty_over (v : Withs) : ({} : Withs).over v = v := by cases v; rfl
theorem Withs.over_empty (v : Withs) : v.over {} = v := by cases v; simp [Withs.over]

theorem goes_over {H : Rule → Withs → Prop} {rs : List Rule} {w w' : Withs} {a : Action} (h : Goes H rs w a w') (v : Withs) :
    Goes H rs (w.over v) a (w'.over v) := by
  induction h with
  | nil => exact .nil
  | skip h _ ih => exact .skip h ih
  | set hx hd _ ih => exact .set hx hd (by rw [Withs.over_assoc]; exact ih)
  | @stop r rs w x hx hd => rw [← Withs.over_assoc]; exact .stop hx hd

theorem goes_sets {H : Rule → Withs → Prop} {rs : List Rule} (hn : ∀ r ∈ rs, ¬ Decides r) {w w' : Withs} {a : Action} (h : Goes H rs w a w') :
    a = .noresult := by
  induction h with
  | nil => rfl
  | skip _ _ ih => exact ih fun r hr => hn r (by simp [hr])
  | set _ _ _ ih => exact ih fun r hr => hn r (by simp [hr])
  | stop _ hd => exact absurd hd (hn _ (by simp))

section
variable {E : Env} {rs0 more : List Rule} {l : List Step} {ph : Phase} {e : Evt} {a : Action} {w : Withs}

theorem says_set (hn : ∀ r ∈ rs0, ¬ Decides r) : Says1 E (rs0 ++ more) l ph e a w ↔
    ∃ v w0, Goes (HitsAt E · l ph e) rs0 {} .noresult v ∧ Says1 E more l ph e a w0 ∧ w = w0.over v := by
  simp only [says1_goes, goes_append]
  constructor
  · rintro (⟨v, h1, h2⟩ | ⟨h1, h2⟩)
    · obtain ⟨a', w0, h3⟩ := goes_total (Hits E.W (facts E l) ((heard l).said ph e) ph) more {}
      have h4 := goes_over h3 v
      rw [Withs.empty_over] at h4
      obtain ⟨rfl, rfl⟩ := goes_unique h2 h4
      exact ⟨v, w0, h1, h3, rfl⟩
    · exact absurd (goes_sets hn h2) h1
  · rintro ⟨v, w0, h1, h2, rfl⟩
    have := goes_over h2 v
    rw [Withs.empty_over] at this
    exact .inl ⟨v, h1, this⟩

theorem waiting_set (hn : ∀ r ∈ rs0, ¬ Decides r) : (∃ w, Waiting E (rs0 ++ more) l a w) ↔ ∃ w0, Waiting E more l a w0 := by
  constructor
  · rintro ⟨w, l1, st, l2, b, id, h1, h2, h3, h4⟩
    obtain ⟨v, w0, -, h5, -⟩ := (says_set hn).1 h3
    exact ⟨w0, l1, st, l2, b, id, h1, h2, h5, h4⟩
  · rintro ⟨w0, l1, st, l2, b, id, h1, h2, h3, h4⟩
    obtain ⟨a', v, h5⟩ := goes_total (HitsAt E · l1 .mfrom ⟨b, []⟩) rs0 {}
    obtain rfl := goes_sets hn h5
    exact ⟨_, l1, st, l2, b, id, h1, h2, (says_set hn).2 ⟨v, w0, h5, h3, rfl⟩, h4⟩

/-- Lines that only set a message, in front of other rules: the rulings are the same, with the message where there was none.  Only the acceptance
of a null sender has no message. -/
theorem ruling_set (hn : ∀ r ∈ rs0, ¬ Decides r) {msg : List Step → Phase → Evt → Option Str}
    (hv : ∀ l ph e v, Goes (HitsAt E · l ph e) rs0 {} .noresult v → v.message = msg l ph e)
    (hw : ∀ l1 st l2 b id, l = l1 ++ st :: l2 → st.asked = some (.mfrom, ⟨b, []⟩, id) →
      (∀ q ∈ l2, ∀ ph e id, q.asked = some (ph, e, id) → ph ≠ .helo ∧ ph ≠ .mfrom) → ph ≠ .helo → ph ≠ .mfrom →
      msg l1 .mfrom ⟨b, []⟩ = msg l ph e)
    (h : Ruling E (rs0 ++ more) l ph e a w) : (∃ w0, Ruling E more l ph e a w0 ∧ w.message = (w0.message <|> msg l ph e)) ∨
      (Ruling E more l ph e .accept {} ∧ ph = .mfrom ∧ e.arg = [] ∧ a = .accept ∧ w = {}) := by
  cases h with
  | late h1 h2 h3 =>
    obtain ⟨l1, st, l2, b, id, g1, g2, g3, g4, g5⟩ := h3
    obtain ⟨v, w0, k1, k2, rfl⟩ := (says_set hn).1 g3
    refine .inl ⟨w0, .late h1 h2 ⟨l1, st, l2, b, id, g1, g2, k2, g4, g5⟩, ?_⟩
    rw [← hw l1 st l2 b id g1 g2 g5 h1 h2, ← hv _ _ _ _ k1]
    rfl
  | null h1 h2 h3 h4 =>
    obtain ⟨v, w0, -, k2, rfl⟩ := (says_set hn).1 h3
    exact .inr ⟨.null h1 h2 k2 h4, h1, h2, rfl, rfl⟩
  | plain h1 h2 h3 =>
    obtain ⟨v, w0, k1, k2, rfl⟩ := (says_set hn).1 h2
    refine .inl ⟨w0, .plain (h1.imp (fun h => h) (Or.imp (fun h => h) fun h1 a w hx => ?_)) k2 h3, by rw [← hv _ _ _ _ k1]; rfl⟩
    obtain ⟨w', hx⟩ := (waiting_set hn).2 ⟨w, hx⟩
    exact h1 a w' hx

theorem as_set {l1 : List Step} {st : Step} {id : Str} (hn : ∀ r ∈ rs0, ¬ Decides r) {msg : List Step → Phase → Evt → Option Str}
    (hv : ∀ l ph e v, Goes (HitsAt E · l ph e) rs0 {} .noresult v → v.message = msg l ph e)
    (hw : ∀ k1 q k2 b id, l1 = k1 ++ q :: k2 → q.asked = some (.mfrom, ⟨b, []⟩, id) →
      (∀ q ∈ k2, ∀ ph e id, q.asked = some (ph, e, id) → ph ≠ .helo ∧ ph ≠ .mfrom) → ph ≠ .helo → ph ≠ .mfrom →
      msg k1 .mfrom ⟨b, []⟩ = msg l1 ph e)
    (h : AsIf E (rs0 ++ more) l1 st ph e id) : ∃ a w0, Ruling E more l1 ph e a w0 ∧
      (Answered l1 st ph id a ((w0.message <|> msg l1 ph e).getD []) ∨ (ph = .mfrom ∧ e.arg = [] ∧ a = .accept ∧ Answered l1 st ph id .accept [])) := by
  obtain ⟨a, w, h1, h2⟩ := h
  rcases ruling_set hn hv hw h1 with ⟨w0, h3, h4⟩ | ⟨h3, h4, h5, rfl, rfl⟩
  · exact ⟨a, w0, h3, .inl (h4 ▸ h2)⟩
  · exact ⟨_, _, h3, .inr ⟨h4, h5, rfl, h2⟩⟩

end

/-- A null sender stays the last sender as long as no other is named. -/
theorem null_stays {k1 k2 : List Step} {q : Step} {b : Bool} {id : Str} (h1 : q.asked = some (.mfrom, ⟨b, []⟩, id))
    (h2 : ∀ q ∈ k2, ∀ ph e id, q.asked = some (ph, e, id) → ph ≠ .helo ∧ ph ≠ .mfrom) : (heard (k1 ++ q :: k2)).from_ = [] := by
  have key : ∀ (k2 : List Step) (m : Mail), m.from_ = [] → (∀ q ∈ k2, ∀ ph e id, q.asked = some (ph, e, id) → ph ≠ .helo ∧ ph ≠ .mfrom) →
      (k2.foldl hear m).from_ = [] := by
    intro k2
    induction k2 with
    | nil => exact fun _ h _ => h
    | cons x k2 ih =>
      intro m hm hx
      rw [List.foldl_cons]
      refine ih _ ?_ fun q hq => hx q (by simp [hq])
      unfold hear
      cases ha : x.asked with
      | none => exact hm
      | some t =>
        obtain ⟨ph, e, id⟩ := t
        have := (hx x (by simp) ph e id ha).2
        cases ph <;> first | exact hm | exact absurd rfl this
  unfold heard
  rw [List.foldl_append, List.foldl_cons]
  refine key _ _ ?_ h2
  unfold hear
  rw [h1]
  rfl

theorem hits_all {E : Env} {l : List Step} {ph : Phase} {e : Evt} {a : Action} {w x : Withs} :
    HitsAt E (ruleOf .any a [⟨.all, w⟩]) l ph e x ↔ x = w := by
  have hn : NoFile .all := trivial
  have h1 : needs .all = .any := rfl
  unfold HitsAt
  rw [hits_one hn, h1]
  unfold AtHand
  rw [if_neg (fun h => absurd h.2 (by decide))]
  have h3 : Phase.any ≤ ph := by cases ph <;> decide
  simp [h3, Holds]

/-! ## The examples -/

section
variable {o : BaseOpts} {cf : Conf} (hb : Built o cf) {E : Env} (hs : E.W.Static) {more : List Rule} {l : List Step} {s : Sess}
  (h : Life cf E l s) (hst : s.stall = false)
include hb hs h hst

/-- **C101.** `accept host H` as the first rule: everything a client of that name says is accepted, whatever the other rules say; for all others
it is as if the rule were not there. -/
theorem C101_accept {H : Str} (hH : Pattern H) (hF : FirstFile cf E (b!"accept host " ++ H ++ b!"\n") more) :
    ∀ l1 st l2, l = l1 ++ st :: l2 →
      (HostIs E H → (st.pre.pc = .connect → st.post.pc = .ready) ∧
        ∀ ph e id, st.asked = some (ph, e, id) → sent st.out = plainYes ph id ∨ st.rsetDrop) ∧
      (¬ HostIs E H → ∀ ph e id, st.asked = some (ph, e, id) → AsIf E more l1 st ph e id) := by
  have hls : ∀ x ∈ [(b!"accept host " ++ H, ruleOf .any .accept [⟨.matchN .host H, {}⟩])], LineOf E.W.lib x.1 x.2 := by
    intro x hx; rw [List.mem_singleton.1 hx]; exact accept_host_line _ hH.1
  have hF' : FirstFile cf E ([(b!"accept host " ++ H, ruleOf .any .accept [⟨.matchN .host H, {}⟩])].flatMap fun x => x.1 ++ b!"\n") more := by
    simpa using hF
  have hhit : ∀ {l ph e x}, HitsAt E (ruleOf .any .accept [⟨.matchN .host H, {}⟩]) l ph e x ↔ x = {} ∧ HostIs E H := by
    intro l ph e x; unfold HitsAt; rw [hits_host hH.2]; simp
  have hd : Decides (ruleOf .any .accept [⟨.matchN .host H, {}⟩]) := ⟨by simp [ruleOf], by simp [ruleOf]⟩
  intro l1 st l2 hl
  refine ⟨fun hh => ⟨fun hp => ?_, fun ph e id ha => ?_⟩, fun hh ph e id ha => ?_⟩
  · obtain ⟨used, a, h1, -, h3⟩ := first_connect hb hs hls hF' h hst hl hp
    have : a = .accept := by
      rcases h1 with ⟨-, -, h1⟩ | ⟨pre, r, post, w, h1, -, -, -, h2, h4⟩
      · exact absurd ((hits_host hH.2).2 ⟨.inl rfl, rfl, hh⟩) (h1 _ (by simp) hd {})
      · cases pre with
        | nil => simp at h1; rw [h2, ← h1.1]; rfl
        | cons q pre =>
          obtain ⟨rfl, -⟩ := List.cons.inj h1
          exact absurd ((hits_host hH.2).2 ⟨.inl rfl, rfl, hh⟩) (h4 _ (by simp) hd {})
    rw [h3, this]; rfl
  · obtain ⟨a, w, h1, h2⟩ := first_answers hb hs hls hF' h hst hl ha
    have hsay : ∀ {l ph e a w}, Says1 E ([(b!"accept host " ++ H, ruleOf .any .accept [⟨.matchN .host H, {}⟩])].map (·.2) ++ more) l ph e a w →
        a = .accept ∧ w = {} := fun hx => says_stop (hhit.2 ⟨rfl, hh⟩) hd hx
    have hna : ¬ Refuses Action.accept := by rintro (h | h) <;> cases h
    have hw : ∀ {l a w}, ¬ Waiting E ([(b!"accept host " ++ H, ruleOf .any .accept [⟨.matchN .host H, {}⟩])].map (·.2) ++ more) l a w := by
      rintro l a w ⟨_, _, _, _, _, -, -, k1, k2, -⟩
      obtain ⟨rfl, -⟩ := hsay k1
      exact hna k2
    have : a = .accept ∧ w = {} := by
      cases h1 with
      | late _ _ h3 => exact absurd h3 hw
      | null _ _ h3 h4 => obtain ⟨rfl, -⟩ := hsay h3; exact absurd h4 hna
      | plain _ h3 => exact hsay h3
    obtain ⟨rfl, rfl⟩ := this
    exact h2.imp (fun h => h) And.right
  · exact as_skip (fun l e x hx => hh (hhit.1 hx).2) (fun x hx => hh (hhit.1 hx).2) (first_answers hb hs hls hF' h hst hl ha)

/-- C101: `@helo accept host H` instead: the greeting is accepted, and everything else is as if the rule were not there. -/
theorem C101_accept_helo {H : Str} (hH : Pattern H) (hF : FirstFile cf E (b!"@helo accept host " ++ H ++ b!"\n") more) :
    ∀ l1 st l2 ph e id, l = l1 ++ st :: l2 → st.asked = some (ph, e, id) →
      (ph = .helo → HostIs E H → sent st.out = []) ∧ (¬ (ph = .helo ∧ HostIs E H) → AsIf E more l1 st ph e id) := by
  have hls : ∀ x ∈ [(b!"@helo accept host " ++ H, ruleOf .helo .accept [⟨.matchN .host H, {}⟩])], LineOf E.W.lib x.1 x.2 := by
    intro x hx; rw [List.mem_singleton.1 hx]; exact helo_accept_host_line _ hH.1
  have hF' : FirstFile cf E ([(b!"@helo accept host " ++ H, ruleOf .helo .accept [⟨.matchN .host H, {}⟩])].flatMap fun x => x.1 ++ b!"\n") more := by
    simpa using hF
  have hhit : ∀ {l ph e x}, HitsAt E (ruleOf .helo .accept [⟨.matchN .host H, {}⟩]) l ph e x ↔ ph = .helo ∧ x = {} ∧ HostIs E H := by
    intro l ph e x; unfold HitsAt; rw [hits_host hH.2]; simp [eq_comm]
  have hm : ∀ l e x, ¬ HitsAt E (ruleOf .helo .accept [⟨.matchN .host H, {}⟩]) l .mfrom e x := fun l e x hx => by cases (hhit.1 hx).1
  intro l1 st l2 ph e id hl ha
  have key := first_answers hb hs hls hF' h hst hl ha
  refine ⟨?_, fun hh => as_skip hm (fun x hx => hh ⟨(hhit.1 hx).1, (hhit.1 hx).2.2⟩) key⟩
  rintro rfl hh
  rcases as_hit hm (hhit.2 ⟨rfl, rfl, hh⟩) ⟨by simp [ruleOf], by simp [ruleOf]⟩ key with (h1 | ⟨-, h1⟩) | ⟨h1, -⟩
  · exact h1
  · cases rsetDrop_phase ha h1
  · exact absurd rfl h1

/-- C101: the manual's pair of rules `@helo accept helo X`, `reject host Y`.  It says of a client of the name Y that its greeting X is accepted
and its MAIL FROM refused.  In fact the client is dropped before it can say anything. -/
theorem C101_liar {X Y : Str} (hX : Pattern X) (hY : Pattern Y)
    (hF : FirstFile cf E (b!"@helo accept helo " ++ X ++ b!"\nreject host " ++ Y ++ b!"\n") more) (hh : HostIs E Y) :
    ∀ st ∈ l, st.asked = none ∧ sent st.out = [] := by
  have hls : ∀ x ∈ [(b!"@helo accept helo " ++ X, ruleOf .helo .accept [⟨.matchN .helo X, {}⟩]),
      (b!"reject host " ++ Y, ruleOf .any .reject [⟨.matchN .host Y, {}⟩])], LineOf E.W.lib x.1 x.2 := by
    intro x hx
    simp only [List.mem_cons, List.not_mem_nil, or_false] at hx
    rcases hx with rfl | rfl
    · exact helo_accept_helo_line _ hX.1
    · exact reject_host_line _ hY.1
  have hF' : FirstFile cf E ([(b!"@helo accept helo " ++ X, ruleOf .helo .accept [⟨.matchN .helo X, {}⟩]),
      (b!"reject host " ++ Y, ruleOf .any .reject [⟨.matchN .host Y, {}⟩])].flatMap fun x => x.1 ++ b!"\n") more := by
    simpa using hF
  refine refused_silent h fun l1 st l2 hl hp => ?_
  obtain ⟨used, a, h1, h2, h3⟩ := first_connect hb hs hls hF' h hst hl hp
  refine ⟨h2, ?_⟩
  have hm : FirstMatch E.W (facts E l1) (heard l1) .connect ([ruleOf .helo .accept [⟨.matchN .helo X, {}⟩],
      ruleOf .any .reject [⟨.matchN .host Y, {}⟩]] ++ more) _ .reject :=
    .inr ⟨[ruleOf .helo .accept [⟨.matchN .helo X, {}⟩]], ruleOf .any .reject [⟨.matchN .host Y, {}⟩], more, {}, rfl, rfl,
      ⟨by simp [ruleOf], by simp [ruleOf]⟩, (hits_host hY.2).2 ⟨.inl rfl, rfl, hh⟩, rfl, by
        intro q hq _ w hw
        rw [List.mem_singleton.1 hq] at hw
        exact absurd hw.1.2 (by simp [ruleOf])⟩
  rw [h3, (h1.unique hm).1]
  rfl

/-- C101: `reject dnsbl D with message "M"`.  A listed client never sees the message: it is dropped when it connects. -/
theorem C101_dnsbl {D D' M : Str} (hD : PlainWord D) (hd : Gram.IsDomain (mkI (wordTok D, D)) D') (hM : QuoteBody M M)
    (hF : FirstFile cf E (b!"reject dnsbl " ++ D ++ b!" with message \"" ++ M ++ b!"\"\n") more) (hh : DnsblHolds E.W (facts E []) D') :
    ∀ st ∈ l, st.asked = none ∧ sent st.out = [] := by
  have hls : ∀ x ∈ [(b!"reject dnsbl " ++ D ++ b!" with message \"" ++ M ++ b!"\"", ruleOf .any .reject [⟨.dnsbl D', { message := some M }⟩])],
      LineOf E.W.lib x.1 x.2 := by
    intro x hx; rw [List.mem_singleton.1 hx]; exact reject_dnsbl_line _ hD hd hM
  have hF' : FirstFile cf E ([(b!"reject dnsbl " ++ D ++ b!" with message \"" ++ M ++ b!"\"",
      ruleOf .any .reject [⟨.dnsbl D', { message := some M }⟩])].flatMap fun x => x.1 ++ b!"\n") more := by
    simpa using hF
  refine refused_silent h fun l1 st l2 hl hp => ?_
  obtain ⟨used, a, h1, h2, h3⟩ := first_connect hb hs hls hF' h hst hl hp
  refine ⟨h2, ?_⟩
  have hn : NoFile (.dnsbl D') := trivial
  have hx : Hits E.W (facts E l1) (heard l1) .connect (ruleOf .any .reject [⟨.dnsbl D', { message := some M }⟩]) { message := some M } := by
    rw [hits_one hn]
    refine ⟨⟨show Phase.any ≤ .connect by decide, .inl rfl⟩, rfl, ?_⟩
    unfold AtHand
    rw [if_neg (fun h => absurd h.1 (by decide))]
    exact hh
  have hm : FirstMatch E.W (facts E l1) (heard l1) .connect ([ruleOf .any .reject [⟨.dnsbl D', { message := some M }⟩]] ++ more) _ .reject :=
    .inr ⟨[], _, more, _, rfl, rfl, ⟨by simp [ruleOf], by simp [ruleOf]⟩, hx, rfl, by simp⟩
  rw [h3, (h1.unique hm).1]
  rfl

/-- C101: `@data reject all`: DATA is refused, and everything else is as if the rule were not there. -/
theorem C101_data (hF : FirstFile cf E b!"@data reject all\n" more) : ∀ l1 st l2 ph e id, l = l1 ++ st :: l2 → st.asked = some (ph, e, id) →
      (ph = .data → Answered l1 st ph id .reject [] ∨ Late E more l1 st ph id) ∧ (ph ≠ .data → AsIf E more l1 st ph e id) := by
  have hls : ∀ x ∈ [(b!"@data reject all", ruleOf .data .reject [⟨.all, {}⟩])], LineOf E.W.lib x.1 x.2 := by
    intro x hx; rw [List.mem_singleton.1 hx]; exact data_reject_line _
  have hF' : FirstFile cf E ([(b!"@data reject all", ruleOf .data .reject [⟨.all, {}⟩])].flatMap fun x => x.1 ++ b!"\n") more := by
    simpa using hF
  have hhit : ∀ {l ph e x}, HitsAt E (ruleOf .data .reject [⟨.all, {}⟩]) l ph e x ↔ ph = .data ∧ x = {} := by
    intro l ph e x
    have hn : NoFile .all := trivial
    have h1 : needs .all = .any := rfl
    unfold HitsAt
    rw [hits_one hn, h1]
    unfold AtHand
    rw [if_neg (fun h => absurd h.2 (by decide))]
    constructor
    · rintro ⟨⟨-, h | h⟩, rfl, -⟩
      · cases h
      · exact ⟨h.symm, rfl⟩
    · rintro ⟨rfl, rfl⟩
      exact ⟨⟨by decide, .inr rfl⟩, rfl, trivial⟩
  have hm : ∀ l e x, ¬ HitsAt E (ruleOf .data .reject [⟨.all, {}⟩]) l .mfrom e x := fun l e x hx => by cases (hhit.1 hx).1
  intro l1 st l2 ph e id hl ha
  have key := first_answers hb hs hls hF' h hst hl ha
  refine ⟨?_, fun hh => as_skip hm (fun x hx => hh (hhit.1 hx).1) key⟩
  rintro rfl
  exact as_hit hm (hhit.2 ⟨rfl, rfl⟩) ⟨by simp [ruleOf], by simp [ruleOf]⟩ key

/-- C101: `reject not from A to B`: a recipient B is refused unless the sender is A; if there is such a recipient all the same, DATA and messages
are refused; everything else is as if the rule were not there. -/
theorem C101_not {A B : Str} (hA : Pattern A) (hB : Pattern B) (hF : FirstFile cf E (b!"reject not from " ++ A ++ b!" to " ++ B ++ b!"\n") more) :
    ∀ l1 st l2 ph e id, l = l1 ++ st :: l2 → st.asked = some (ph, e, id) → ∀ bad : Prop,
      (bad ↔ ¬ AddrMatch (E.W.lib.lower (lastSender l1)) (E.W.lib.lower A) ∧ ∃ y, AddrMatch (E.W.lib.lower y) (E.W.lib.lower B) ∧
        (ph = .rto ∧ y = e.arg ∨ ph > .rto ∧ y ∈ (envelope l1).rcpts)) →
      (bad → Answered l1 st ph id .reject [] ∨ Late E more l1 st ph id) ∧ (¬ bad → AsIf E more l1 st ph e id) := by
  let R := ruleOf .any .reject [⟨.andL [.notN (.matchN .from_ A), .matchN .to B], {}⟩]
  have hls : ∀ x ∈ [(b!"reject not from " ++ A ++ b!" to " ++ B, R)], LineOf E.W.lib x.1 x.2 := by
    intro x hx; rw [List.mem_singleton.1 hx]; exact not_from_line _ hA.1 hB.1
  have hF' : FirstFile cf E ([(b!"reject not from " ++ A ++ b!" to " ++ B, R)].flatMap fun x => x.1 ++ b!"\n") more := by
    simpa using hF
  have hn : NoFile (.andL [.notN (.matchN .from_ A), .matchN .to B]) := ⟨hA.2, hB.2, trivial⟩
  have hne : needs (.andL [.notN (.matchN .from_ A), .matchN .to B]) = Phase.rto := rfl
  have hH : ∀ {tr m}, Holds E.W tr m (.andL [.notN (.matchN .from_ A), .matchN .to B]) ↔
      ¬ AddrMatch (E.W.lib.lower m.from_) (E.W.lib.lower A) ∧ AddrMatch (E.W.lib.lower m.rcptto) (E.W.lib.lower B) := by
    intro tr m
    rw [← holds_from (tr := tr) hA.2, ← holds_to (tr := tr) hB.2]
    simp only [Holds, HoldsAll, and_true]
  have hhit : ∀ {l ph e x}, HitsAt E R l ph e x ↔ x = {} ∧ ¬ AddrMatch (E.W.lib.lower (lastSender l)) (E.W.lib.lower A) ∧
      ∃ y, AddrMatch (E.W.lib.lower y) (E.W.lib.lower B) ∧ (ph = .rto ∧ y = e.arg ∨ ph > .rto ∧ y ∈ (envelope l).rcpts) := by
    intro l ph e x
    unfold HitsAt
    simp only [R, hits_one hn, hne, AtHand, hH, true_or, and_true]
    have hf : ph ≥ .rto → ((heard l).said ph e).from_ = lastSender l := by
      intro hp
      rw [← heard_sender]
      cases ph <;> first | rfl | exact absurd hp (by decide)
    constructor
    · rintro ⟨h1, rfl, h2⟩
      rw [hf h1] at h2
      split at h2
      · rename_i hg
        obtain ⟨y, hy, h3, h4⟩ := h2
        exact ⟨rfl, h3, y, h4, .inr ⟨hg.1, hy⟩⟩
      · rename_i hg
        have : ph = .rto := by cases ph <;> first | rfl | exact absurd h1 (by decide) | exact absurd ⟨by decide, by decide⟩ hg
        subst this
        exact ⟨rfl, h2.1, e.arg, h2.2, .inl ⟨rfl, rfl⟩⟩
    · rintro ⟨rfl, h1, y, h2, ⟨rfl, rfl⟩ | ⟨hg, hy⟩⟩
      · refine ⟨by decide, rfl, ?_⟩
        rw [if_neg (by decide), hf (by decide)]
        exact ⟨h1, h2⟩
      · have hge : ph ≥ .rto := by cases ph <;> first | decide | exact absurd hg (by decide)
        refine ⟨hge, rfl, ?_⟩
        rw [if_pos ⟨hg, by decide⟩, hf hge]
        exact ⟨y, hy, h1, h2⟩
  have hm : ∀ l e x, ¬ HitsAt E R l .mfrom e x := by
    intro l e x hx
    obtain ⟨-, -, y, -, ⟨h1, -⟩ | ⟨h1, -⟩⟩ := hhit.1 hx
    · cases h1
    · exact absurd h1 (by decide)
  intro l1 st l2 ph e id hl ha bad hbad
  have key := first_answers hb hs hls hF' h hst hl ha
  exact ⟨fun hx => as_hit hm (hhit.2 ⟨rfl, hbad.1 hx⟩) ⟨by simp [R, ruleOf], by simp [R, ruleOf]⟩ key,
    fun hx => as_skip hm (fun x hx' => hx (hbad.2 (hhit.1 hx').2)) key⟩

/-- C101: `@message reject ( from A or from B or from C ) to D not host H`: a message is refused if its sender is A, B or C, one of its recipients
D, and the client not H; everything else is as if the rule were not there. -/
theorem C101_message {A B C D H : Str} (hA : Pattern A) (hB : Pattern B) (hC : Pattern C) (hD : Pattern D) (hH : Pattern H)
    (hF : FirstFile cf E (b!"@message reject ( from " ++ A ++ b!" or from " ++ B ++ b!" or from " ++ C ++ b!" ) to " ++ D ++ b!" not host " ++ H ++
      b!"\n") more) : ∀ l1 st l2 ph e id, l = l1 ++ st :: l2 → st.asked = some (ph, e, id) → ∀ bad : Prop,
      (bad ↔ ph = .message ∧ (∃ p ∈ [A, B, C], AddrMatch (E.W.lib.lower (lastSender l1)) (E.W.lib.lower p)) ∧
        (∃ y ∈ (envelope l1).rcpts, AddrMatch (E.W.lib.lower y) (E.W.lib.lower D)) ∧ ¬ HostIs E H) →
      (bad → Answered l1 st ph id .reject [] ∨ Late E more l1 st ph id) ∧ (¬ bad → AsIf E more l1 st ph e id) := by
  let X : Expr := .andL [.orN (.matchN .from_ A) (.orN (.matchN .from_ B) (.matchN .from_ C)), .matchN .to D, .notN (.matchN .host H)]
  let R := ruleOf .message .reject [⟨X, {}⟩]
  let T := b!"@message reject ( from " ++ A ++ b!" or from " ++ B ++ b!" or from " ++ C ++ b!" ) to " ++ D ++ b!" not host " ++ H
  have hls : ∀ x ∈ [(T, R)], LineOf E.W.lib x.1 x.2 := by
    intro x hx; rw [List.mem_singleton.1 hx]; exact message_line _ hA.1 hB.1 hC.1 hD.1 hH.1
  have hF' : FirstFile cf E ([(T, R)].flatMap fun x => x.1 ++ b!"\n") more := by
    simpa [T] using hF
  have hn : NoFile X := ⟨⟨hA.2, hB.2, hC.2⟩, hD.2, hH.2, trivial⟩
  have hne : needs X = Phase.rto := rfl
  have hX : ∀ {l m}, Holds E.W (facts E l) m X ↔ (∃ p ∈ [A, B, C], AddrMatch (E.W.lib.lower m.from_) (E.W.lib.lower p)) ∧
      AddrMatch (E.W.lib.lower m.rcptto) (E.W.lib.lower D) ∧ ¬ HostIs E H := by
    intro l m
    have h1 := holds_from (W := E.W) (tr := facts E l) (m := m) hA.2
    have h2 := holds_from (W := E.W) (tr := facts E l) (m := m) hB.2
    have h3 := holds_from (W := E.W) (tr := facts E l) (m := m) hC.2
    have h4 := holds_to (W := E.W) (tr := facts E l) (m := m) hD.2
    have h5 := holds_host (E := E) (l := l) (m := m) hH.2
    simp only [Holds] at h1 h2 h3 h4 h5
    simp only [X, Holds, HoldsAll, and_true, h1, h2, h3, h4, h5, List.mem_cons, List.not_mem_nil, or_false, exists_eq_or_imp, exists_eq_left]
  have hhit : ∀ {l ph e x}, HitsAt E R l ph e x ↔ x = {} ∧ ph = .message ∧
      (∃ p ∈ [A, B, C], AddrMatch (E.W.lib.lower (lastSender l)) (E.W.lib.lower p)) ∧
        (∃ y ∈ (envelope l).rcpts, AddrMatch (E.W.lib.lower y) (E.W.lib.lower D)) ∧ ¬ HostIs E H := by
    intro l ph e x
    unfold HitsAt
    simp only [R, hits_one hn, hne, AtHand, hX]
    constructor
    · rintro ⟨⟨-, h | rfl⟩, rfl, h2⟩
      · cases h
      · rw [if_pos ⟨by decide, by decide⟩] at h2
        obtain ⟨y, hy, h3, h4, h5⟩ := h2
        rw [← heard_sender]
        exact ⟨rfl, rfl, h3, ⟨y, hy, h4⟩, h5⟩
    · rintro ⟨rfl, rfl, h3, ⟨y, hy, h4⟩, h5⟩
      refine ⟨⟨by decide, .inr rfl⟩, rfl, ?_⟩
      rw [if_pos ⟨by decide, by decide⟩]
      rw [← heard_sender] at h3
      exact ⟨y, hy, h3, h4, h5⟩
  have hm : ∀ l e x, ¬ HitsAt E R l .mfrom e x := fun l e x hx => by cases (hhit.1 hx).2.1
  intro l1 st l2 ph e id hl ha bad hbad
  have key := first_answers hb hs hls hF' h hst hl ha
  exact ⟨fun hx => as_hit hm (hhit.2 ⟨rfl, hbad.1 hx⟩) ⟨by simp [R, ruleOf], by simp [R, ruleOf]⟩ key,
    fun hx => as_skip hm (fun x hx' => hx (hbad.2 (hhit.1 hx').2)) key⟩

/-- C101: `set-with from P with message "M"`, `set-with all with message "M'"`: the answers are those of the other rules, with M' as the message
where they give none, whoever the sender is.  Only the acceptance of a null sender has no message. -/
theorem C101_set {P M M' : Str} (hP : Pattern P) (hM : QuoteBody M M) (hM' : QuoteBody M' M')
    (hF : FirstFile cf E (b!"set-with from " ++ P ++ b!" with message \"" ++ M ++ b!"\"\nset-with all with message \"" ++ M' ++ b!"\"\n") more) :
    ∀ l1 st l2 ph e id, l = l1 ++ st :: l2 → st.asked = some (ph, e, id) → ∃ a w, Ruling E more l1 ph e a w ∧
      (Answered l1 st ph id a (w.message.getD M') ∨ (ph = .mfrom ∧ e.arg = [] ∧ a = .accept ∧ Answered l1 st ph id .accept [])) := by
  let R1 := ruleOf .any .noresult [⟨.matchN .from_ P, { message := some M }⟩]
  let R2 := ruleOf .any .noresult [⟨.all, { message := some M' }⟩]
  let ls := [(b!"set-with from " ++ P ++ b!" with message \"" ++ M ++ b!"\"", R1), (b!"set-with all with message \"" ++ M' ++ b!"\"", R2)]
  have hls : ∀ x ∈ ls, LineOf E.W.lib x.1 x.2 := by
    intro x hx
    simp only [ls, List.mem_cons, List.not_mem_nil, or_false] at hx
    rcases hx with rfl | rfl
    · exact set_from_line _ hP.1 hM
    · exact set_all_line _ hM'
  have hF' : FirstFile cf E (ls.flatMap fun x => x.1 ++ b!"\n") more := by simpa [ls] using hF
  intro l1 st l2 ph e id hl ha
  have key := first_answers hb hs hls hF' h hst hl ha
  have hd : ∀ r ∈ [R1, R2], ¬ Decides r := by
    intro r hr hd
    simp only [List.mem_cons, List.not_mem_nil, or_false] at hr
    rcases hr with rfl | rfl <;> exact hd.1 rfl
  obtain ⟨a, w, h1, h2⟩ := as_set (rs0 := [R1, R2]) (msg := fun _ _ _ => some M') hd (by
    intro l ph e v hg
    have h2 : ∀ {w v}, Goes (HitsAt E · l ph e) [R2] w .noresult v → v.message = some M' := by
      intro w v hg
      cases hg with
      | skip h _ => exact absurd (hits_all.2 rfl) (h _)
      | set hx _ h => obtain rfl := hits_all.1 hx; cases h; rfl
      | stop _ hd' => exact absurd rfl hd'.1
    cases hg with
    | skip _ h => exact h2 h
    | set _ _ h => exact h2 h
    | stop _ hd' => exact absurd rfl hd'.1) (fun _ _ _ _ _ _ _ _ _ _ => rfl) key
  refine ⟨a, w, h1, h2.imp (fun h => ?_) (fun h => h)⟩
  revert h
  cases w.message <;> exact fun h => h

/-- C101: `set-with from P with message "M"; all with message "M'"`: from MAIL FROM on, the message is M if the sender is P and M' otherwise; greetings
are answered as if the rule were not there. -/
theorem C101_set_compact {P M M' : Str} (hP : Pattern P) (hM : QuoteBody M M) (hM' : QuoteBody M' M')
    (hF : FirstFile cf E (b!"set-with from " ++ P ++ b!" with message \"" ++ M ++ b!"\"; all with message \"" ++ M' ++ b!"\"\n") more) :
    ∀ l1 st l2 ph e id, l = l1 ++ st :: l2 → st.asked = some (ph, e, id) → ∀ sender, (sender = if ph = .mfrom then e.arg else lastSender l1) →
      ∃ a w, Ruling E more l1 ph e a w ∧
      ((ph = .helo ∧ Answered l1 st ph id a (w.message.getD [])) ∨
       (ph ≠ .helo ∧ AddrMatch (E.W.lib.lower sender) (E.W.lib.lower P) ∧ Answered l1 st ph id a (w.message.getD M)) ∨
       (ph ≠ .helo ∧ ¬ AddrMatch (E.W.lib.lower sender) (E.W.lib.lower P) ∧ Answered l1 st ph id a (w.message.getD M')) ∨
       (ph = .mfrom ∧ e.arg = [] ∧ a = .accept ∧ Answered l1 st ph id .accept [])) := by
  classical
  let R := ruleOf .any .noresult [⟨.matchN .from_ P, { message := some M }⟩, ⟨.all, { message := some M' }⟩]
  let ls := [(b!"set-with from " ++ P ++ b!" with message \"" ++ M ++ b!"\"; all with message \"" ++ M' ++ b!"\"", R)]
  have hls : ∀ x ∈ ls, LineOf E.W.lib x.1 x.2 := by
    intro x hx; rw [List.mem_singleton.1 hx]; exact set_both_line _ hP.1 hM hM'
  have hF' : FirstFile cf E (ls.flatMap fun x => x.1 ++ b!"\n") more := by simpa [ls] using hF
  intro l1 st l2 ph e id hl ha sender hse
  have key := first_answers hb hs hls hF' h hst hl ha
  have hd : ∀ r ∈ [R], ¬ Decides r := by
    intro r hr hd
    rw [List.mem_singleton.1 hr] at hd
    exact hd.1 rfl
  have hn : NoFile (.matchN .from_ P) := hP.2
  have hreq : R.requires = .mfrom := rfl
  have hhit : ∀ {l ph e x}, HitsAt E R l ph e x ↔ .mfrom ≤ ph ∧
      x = { message := some (if AddrMatch (E.W.lib.lower ((heard l).said ph e).from_) (E.W.lib.lower P) then M else M') } := by
    intro l ph e x
    unfold HitsAt Hits Eligible RuleTo
    rw [if_neg (fun h => absurd h.2 (by rw [hreq]; decide)), hreq, ← holds_from (tr := facts E l) hP.2]
    constructor
    · rintro ⟨⟨h1, -⟩, h2⟩
      refine ⟨h1, ?_⟩
      cases h2 with
      | hit _ h3 => rw [if_pos h3]
      | next _ h3 h4 =>
        rw [if_neg h3]
        cases h4 with
        | hit => rfl
        | next _ h5 => exact absurd trivial h5
    · rintro ⟨h1, rfl⟩
      refine ⟨⟨h1, .inl rfl⟩, ?_⟩
      by_cases h3 : Holds E.W (facts E l) ((heard l).said ph e) (.matchN .from_ P)
      · rw [if_pos h3]; exact .hit (noFile_sure _ hn) h3
      · rw [if_neg h3]; exact .next (noFile_sure _ hn) h3 (.hit (fun h => h) trivial)
  obtain ⟨a, w, h1, h2⟩ := as_set (rs0 := [R]) (msg := fun l ph e => if .mfrom ≤ ph then
      some (if AddrMatch (E.W.lib.lower ((heard l).said ph e).from_) (E.W.lib.lower P) then M else M') else none) hd (by
    intro l ph e v hg
    cases hg with
    | skip h h' =>
      cases h'
      rw [if_neg (fun hp => h _ (hhit.2 ⟨hp, rfl⟩))]
    | set hx _ h =>
      obtain ⟨hp, rfl⟩ := hhit.1 hx
      cases h
      rw [if_pos hp]
      rfl
    | stop _ hd' => exact absurd rfl hd'.1) (by
    rintro k1 q k2 b id rfl h2 h3 h4 h5
    have h6 : Phase.mfrom ≤ ph := by
      cases ph <;> first | decide | exact absurd rfl h4 | skip
      all_goals (exfalso; revert ha; unfold Step.asked; repeat' split
                 all_goals simp)
    have h7 : ((heard (k1 ++ q :: k2)).said ph e).from_ = [] := by
      rw [← null_stays (k1 := k1) h2 h3]
      cases ph <;> first | rfl | exact absurd rfl h5
    simp only [h6, if_true, h7]
    rfl) key
  refine ⟨a, w, h1, ?_⟩
  rcases h2 with h2 | h2
  · have hcase : ph = .helo ∨ Phase.mfrom ≤ ph := by
      cases ph <;> first | exact .inl rfl | exact .inr (by decide) | skip
      all_goals (exfalso; revert ha; unfold Step.asked; repeat' split
                 all_goals simp)
    rcases hcase with rfl | hp
    · rw [if_neg (by decide)] at h2
      exact .inl ⟨rfl, by revert h2; cases w.message <;> exact fun h => h⟩
    · have hne : ph ≠ .helo := by rintro rfl; exact absurd hp (by decide)
      have hfs : ((heard l1).said ph e).from_ = sender := by
        rw [hse, ← heard_sender]
        cases ph <;> rfl
      rw [if_pos hp, hfs] at h2
      by_cases hm : AddrMatch (E.W.lib.lower sender) (E.W.lib.lower P)
      · rw [if_pos hm] at h2
        exact .inr (.inl ⟨hne, hm, by revert h2; cases w.message <;> exact fun h => h⟩)
      · rw [if_neg hm] at h2
        exact .inr (.inr (.inl ⟨hne, hm, by revert h2; cases w.message <;> exact fun h => h⟩))
  · exact .inr (.inr (.inr h2))

end

/-! ## The examples of the manual in a conversation -/

/-- A server with this rules file; the client is `mail.example.com`, also called `mx.example.com`. -/
def manualConf : Conf := { demoConf with base := [], rulefiles := [b!"/m", b!"/n"] }
def manualEnv (text more : Str) : Env :=
  { demoEnv with fs := fun _ => tbl (.notExist b!"no such file") [(b!"/m", .data text), (b!"/n", .data more)] }

example : Built ⟨false, false, [], [], []⟩ manualConf ∧ (manualEnv [] []).W.Static :=
  ⟨⟨⟨demoLib, fun _ _ => .notExist [], 5, by decide +kernel⟩, ⟨demoLib, fun _ _ => .notExist [], 5, by decide +kernel⟩⟩, demoWorld_static⟩

/-- What is said to the client, command by command, and whether the connection is still open. -/
def manualSays (text more : Str) (evs : List SEv) : Except Panic (List (List Reply) × Bool) :=
  seen (fun l s _ => ((l.drop 2).map fun st => sent st.out, decide (s.pc ≠ .closed))) (driveAll manualConf (manualEnv text more) {} {} (events evs))

/-- A mail from beginning to end. -/
def manualMail (sender rcpt : Str) : List SEv := [.helo false b!"me", .mailfrom sender, .rcptto rcpt, .data]

example : FirstFile manualConf (manualEnv b!"accept host .example.com\n" b!"reject all\n") b!"accept host .example.com\n" [ruleOf .any .reject [⟨.all, {}⟩]] :=
  ⟨rfl, by decide, b!"/m", [b!"/n"], by decide, rfl, by decide +kernel, by decide +kernel⟩

example : HostIs (manualEnv [] []) b!".example.com" ∧ Pattern b!".example.com" :=
  ⟨⟨b!"mail.example.com.", by decide +kernel, .inr ⟨b!"example.com", .inr ⟨b!"mail", by decide +kernel⟩, by decide +kernel⟩⟩, by decide +kernel, by decide +kernel⟩

/-- The friend may do anything; with `@helo` only the greeting is excepted from the other rules. -/
example : manualSays b!"accept host .example.com\n" b!"reject from-has resolves,baddom\n" (manualMail b!"a@example.com" b!"b@example.com") =
      .ok ([[], [.accept], [.accept], [.accept]], true) ∧
    manualSays b!"@helo accept host .example.com\n" b!"@helo reject all\nreject from a@\n" [.helo false b!"me", .mailfrom b!"a@example.com"] =
      .ok ([[], [.reject]], true) := by
  decide +kernel

/-- The liar is not heard at all. -/
example : manualSays b!"@helo accept helo liar.com\nreject host .example.com\n" [] [.helo false b!"liar.com", .mailfrom b!"a@example.com"] =
    .ok ([[], []], false) := by decide +kernel

example : manualSays b!"@data reject all\n" [] (manualMail b!"a@example.com" b!"b@example.com") =
      .ok ([[], [.accept], [.accept], [.rejectMsg b!"We do not consent to you emailing that address"]], true) ∧
    manualSays b!"reject not from info@fbi.gov to joe@example.com\n" [] (manualMail b!"a@example.com" b!"joe@example.com") =
      .ok ([[], [.accept], [.rejectMsg b!"We do not consent to you emailing that address"], [.accept]], true) ∧
    manualSays b!"reject not from info@fbi.gov to joe@example.com\n" [] (manualMail b!"info@fbi.gov" b!"joe@example.com") =
      .ok ([[], [.accept], [.accept], [.accept]], true) := by
  decide +kernel

example : manualSays b!"set-with from @a.b with message \"Hi there\"\nset-with all with message \"You are here\"\n" b!"stall to x@\n"
      (manualMail b!"me@a.b" b!"x@a.b") =
      .ok ([[], [.acceptMsg b!"You are here"], [.tempfailMsg b!"You are here"], [.acceptMsg b!"You are here"]], true) ∧
    manualSays b!"set-with from @a.b with message \"Hi there\"; all with message \"You are here\"\n" b!"stall to x@\n"
      (manualMail b!"me@a.b" b!"x@a.b") =
      .ok ([[], [.acceptMsg b!"Hi there"], [.tempfailMsg b!"Hi there"], [.acceptMsg b!"Hi there"]], true) ∧
    manualSays b!"set-with from @a.b with message \"Hi there\"; all with message \"You are here\"\n" b!"stall to x@\n"
      (manualMail b!"me@a.c" b!"x@a.b") =
      .ok ([[], [.acceptMsg b!"You are here"], [.tempfailMsg b!"You are here"], [.acceptMsg b!"You are here"]], true) := by
  decide +kernel

/-- The message is saved (in four steps) and then refused. -/
example : seen (fun l _ _ => (l.drop 6).map fun st => replies st.out) (driveAll manualConf (manualEnv
      b!"@message reject ( from info@fbi.gov or from @.mil or from bounce@ ) to fred@example.net not host trusted.host\n" []) {} {}
      (events (manualMail b!"a@us.mil" b!"fred@example.net" ++ .gotdata b!"x" :: List.replicate 5 .data))) =
      .ok [[], [], [], [], [], [.rejected]] := by
  decide +kernel

/-- A listed client. -/
example : seen (fun l s _ => ((l.drop 2).map fun st => sent st.out, decide (s.pc = .closed))) (driveAll manualConf
    { manualEnv b!"reject dnsbl sbl.example with message \"You're SBL listed.\"\n" [] with rip := b!"1.2.3.4" } {} {}
    (events (manualMail b!"a@example.com" b!"b@example.com"))) = .ok ([[], [], [], []], true) := by
  decide +kernel

example : Gram.IsDomain (mkI (wordTok b!"sbl.example", b!"sbl.example")) b!"sbl.example." ∧ QuoteBody b!"You're SBL listed." b!"You're SBL listed." := by
  refine ⟨⟨by decide +kernel, by decide +kernel, .inr ⟨?_, by decide +kernel⟩⟩, ?_⟩
  · rintro ⟨p, h⟩
    have := congrArg List.getLast? h
    rw [List.getLast?_append] at this
    have h' : (c!"e" : Byte) = c!"." := Option.some.inj this
    exact absurd h' (by decide)
  · repeat' first | exact .nil | refine .plain (by decide) (by decide) ?_

end Sink
