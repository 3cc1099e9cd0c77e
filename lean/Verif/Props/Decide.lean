import Verif.Props.Parse
import Verif.Props.Eval
import Verif.Lemmas.Upd

/-!
# Decisions (C21 - C27)
-/

namespace Sink
open Spec
open Gram (later needs needsL needsC opNeeds)

/-- The rule comes out of a successful parse of some text (included files too). -/
def FromParse (r : Rule) : Prop := ∃ L fs d path input rs, parse L fs d path input = .ok rs ∧ r ∈ rs

theorem FromParse.requires {r : Rule} (h : FromParse r) : r.requires = needsC r.clauses := by
  obtain ⟨L, fs, d, path, input, rs, h, hr⟩ := h
  refine parse_derived (fs := fs) (P := fun r => r.requires = needsC r.clauses) ?_ h r hr
  intro ts r g
  cases g <;> rfl

theorem FromParse.le {r : Rule} (h : FromParse r) : needsC r.clauses ≤ r.requires := by
  rw [h.requires]; exact Nat.le_refl _

/-- The rules used in examples. -/
def demoText : Str := b!"set-with from-has unknown with note slow\n" ++
  b!"@data reject to a@ with message \"go away\"\n" ++
  b!"reject from /empty\nreject not from /empty ; host .good.com\n" ++
  b!"set-with all with note early savedir /d\n" ++
  b!"reject helo .evil.com with message bad ; to b@example.com with note late\n"

/-- What they parse to. -/
def demoRules : List Rule := [
  ⟨[⟨.optN .fromHas oDomainTempfail, { note := some b!"slow" }⟩], .noresult, .mfrom, .any⟩,
  ⟨[⟨.matchN .to b!"a@", { message := some b!"go away" }⟩], .reject, .rto, .data⟩,
  ⟨[⟨.matchN .from_ b!"/empty", {}⟩], .reject, .mfrom, .any⟩,
  ⟨[⟨.notN (.matchN .from_ b!"/empty"), {}⟩, ⟨.matchN .host b!".good.com", {}⟩], .reject, .mfrom, .any⟩,
  ⟨[⟨.all, { note := some b!"early", savedir := some b!"/d" }⟩], .noresult, .any, .any⟩,
  ⟨[⟨.matchN .helo b!".evil.com", { message := some b!"bad" }⟩, ⟨.matchN .to b!"b@example.com", { note := some b!"late" }⟩],
    .reject, .rto, .any⟩]

theorem demoRules_parsed : parse demoLib (fun _ _ => .notExist []) 5 [] demoText = .ok demoRules := by decide +kernel

theorem demoRules_fromParse : ∀ r ∈ demoRules, FromParse r := fun _ hr => ⟨_, _, _, _, _, _, demoRules_parsed, hr⟩

/-! ## C21 -/

theorem checkClauses_rcptto {W : World} {tr : TransR} : ∀ {cs : List RClause} {c c' : Ctx} {b : Bool},
    checkClauses W tr cs c = .ok (b, c') → c'.rcptto = c.rcptto := by
  intro cs
  induction cs with
  | nil => intro c c' b h; cases h; rfl
  | cons rc rcs ih =>
    intro c c' b h
    rw [checkClauses] at h
    cases he : eval W tr rc.expr c with
    | error p => rw [he] at h; cases h
    | ok r =>
      obtain ⟨b1, c1⟩ := r
      rw [he] at h
      simp only [bind, Except.bind, pure, Except.pure] at h
      have hw : c1.rcptto = c.rcptto := Ctx.rcptto_of_core (eval_steps _ he).core
      split at h
      · cases h; exact hw
      · split at h
        · exact (ih h).trans hw
        · cases h; exact hw

/-- **C21.** Checking a parsed rule in a phase its requirement allows gives the same outcome whatever the HELO name before
@helo, the sender and the TLS state before @from, and the recipient before @to are; the context comes out the same apart
from these fields.  In any world. -/
theorem C21_only_known_data (W : World) {r : Rule} (hp : FromParse r) {ph : Phase} (hr : r.requires ≤ ph)
    (tr : TransR) (tls : Bool) (rcpts : List Str) (c : Ctx) (i : Bool) (h f t : Str)
    (hh : .helo ≤ ph → i = c.isHelo ∧ h = c.heloname) (hf : .mfrom ≤ ph → f = c.from_ ∧ tls = tr.tlson)
    (ht : .rto ≤ ph → t = c.rcptto) :
    r.check W { tr with tlson := tls, rcptto := rcpts } { c with isHelo := i, heloname := h, from_ := f, rcptto := t } =
      (r.check W tr c).map fun x => (x.1, { x.2 with isHelo := i, heloname := h, from_ := f, rcptto := t }) := by
  have hn : needsC r.clauses ≤ ph := Nat.le_trans hp.le hr
  let u : Upd := { isHelo := if .helo ≤ ph then none else some i
                   heloname := if .helo ≤ ph then none else some h
                   from_ := if .mfrom ≤ ph then none else some f
                   rcptto := if .rto ≤ ph then none else some t }
  have hu : u.Safe ph := ⟨fun h => by simp [u, h], fun h => by simp [u, h], fun h => by simp [u, h]⟩
  have hs : tr.Same { tr with tlson := tls, rcptto := rcpts } ph := ⟨rfl, rfl, rfl, fun h => (hf h).2⟩
  have happ : ∀ c' : Ctx, c'.frame = c.frame → c'.rcptto = c.rcptto →
      u.app c' = { c' with isHelo := i, heloname := h, from_ := f, rcptto := t } := by
    intro c' hfr hrc
    have e1 := Ctx.isHelo_of_frame hfr
    have e2 := Ctx.heloname_of_frame hfr
    have e3 := Ctx.from_of_frame hfr
    have h1 : u.isHelo.getD c'.isHelo = i := by
      simp only [u]; split
      · rename_i hh'; simp [(hh hh').1, e1]
      · rfl
    have h2 : u.heloname.getD c'.heloname = h := by
      simp only [u]; split
      · rename_i hh'; simp [(hh hh').2, e2]
      · rfl
    have h3 : u.from_.getD c'.from_ = f := by
      simp only [u]; split
      · rename_i hh'; simp [(hf hh').1, e3]
      · rfl
    have h4 : u.rcptto.getD c'.rcptto = t := by
      simp only [u]; split
      · rename_i hh'; simp [ht hh', hrc]
      · rfl
    unfold Upd.app
    rw [h1, h2, h3, h4]
    rfl
  have key := upd_check hu hs W hn c
  rw [happ c rfl rfl] at key
  rw [key]
  cases hc : r.check W tr c with
  | error p => rfl
  | ok x =>
    obtain ⟨b, c'⟩ := x
    show Except.ok (b, u.app c') = Except.ok (b, _)
    rw [happ c' (check_steps hc).frame (checkClauses_rcptto (c := { c with rulemiss := false }) hc)]

example : (r : Rule) → r ∈ demoRules → r.requires ≤ .mfrom → r ≠ demoRules[1] ∧ r ≠ demoRules[5] := by decide +kernel

/-! ## C22, C23 -/

/-- No refusal of a null sender is waiting: always so at HELO and MAIL FROM. -/
def NoPending (ph : Phase) (c : Ctx) : Prop := ph = .helo ∨ ph = .mfrom ∨ c.defresult = .error

/-- The first eligible rule with a matching clause that decides, and its action; or there is none. -/
def FirstMatch (W : World) (tr : TransR) (m : Mail) (ph : Phase) (rules used : List Rule) (a : Action) : Prop :=
  (a = .noresult ∧ used = rules ∧ ∀ q ∈ rules, Decides q → ∀ w, ¬ Hits W tr m ph q w) ∨
  (∃ pre r post w, rules = pre ++ r :: post ∧ used = pre ++ [r] ∧ Decides r ∧ Hits W tr m ph r w ∧ a = r.result ∧
    ∀ q ∈ pre, Decides q → ∀ w, ¬ Hits W tr m ph q w)

/-- There is only one first match. -/
theorem FirstMatch.unique {W : World} {tr : TransR} {m : Mail} {ph : Phase} {rules used used' : List Rule} {a a' : Action}
    (h : FirstMatch W tr m ph rules used a) (h' : FirstMatch W tr m ph rules used' a') : a = a' ∧ used = used' := by
  have split : ∀ {pre pre' : List Rule} {r r' post post'}, pre ++ r :: post = pre' ++ r' :: post' →
      (∀ q ∈ pre, q ≠ r') → (∀ q ∈ pre', q ≠ r) → pre = pre' ∧ r = r' := by
    intro pre
    induction pre with
    | nil =>
      intro pre' r r' post post' he _ h2
      cases pre' with
      | nil => simp at he; exact ⟨rfl, he.1⟩
      | cons x pre' => simp at he; exact absurd he.1.symm (h2 x (by simp))
    | cons y pre ih =>
      intro pre' r r' post post' he h1 h2
      cases pre' with
      | nil => simp at he; exact absurd he.1 (h1 y (by simp))
      | cons x pre' =>
        simp only [List.cons_append, List.cons.injEq] at he
        obtain ⟨e1, e2⟩ := ih he.2 (fun q hq => h1 q (by simp [hq])) (fun q hq => h2 q (by simp [hq]))
        exact ⟨by rw [he.1, e1], e2⟩
  rcases h with ⟨rfl, rfl, h⟩ | ⟨pre, r, post, w, rfl, rfl, h1, h2, rfl, h3⟩
  · rcases h' with ⟨rfl, rfl, -⟩ | ⟨pre', r', post', w', rfl, rfl, h1', h2', rfl, h3'⟩
    · exact ⟨rfl, rfl⟩
    · exact absurd h2' (h r' (by simp) h1' w')
  · rcases h' with ⟨rfl, rfl, h⟩ | ⟨pre', r', post', w', he, rfl, h1', h2', rfl, h3'⟩
    · exact absurd h2 (h r (by simp) h1 w)
    · obtain ⟨e1, e2⟩ := split he (fun q hq hqr => h3 q hq (hqr ▸ h1') w' (hqr ▸ h2'))
        (fun q hq hqr => h3' q hq (hqr ▸ h1) w (hqr ▸ h2))
      rw [e1, e2]; exact ⟨rfl, rfl⟩

/-- The rules refuse. -/
def Refuses (a : Action) : Prop := a = .reject ∨ a = .stall

theorem refuses_iff {a : Action} : a > .accept ↔ Refuses a := by cases a <;> simp [Refuses] <;> decide

theorem noPending_shadow {ph : Phase} {e : Evt} {c : Ctx} (h : NoPending ph c) : ¬ (shadow ph e c).defresult ≥ .accept := by
  rcases h with rfl | rfl | h
  · show ¬ Action.error ≥ .accept; decide
  · show ¬ Action.error ≥ .accept; decide
  · cases ph <;> simp only [shadow, h] <;> decide

/-- The decision of C22 and C23 in one, for any context that knows only true things. -/
theorem decide_ctx {W : World} (hs : W.Static) {c c' : Ctx} (hp : ∀ r ∈ c.ruleset, FromParse r)
    (hc : CacheOK W c) {tr : TransR} {ph : Phase} (hph : ph ≠ .any) {e : Evt} (hn : NoPending ph c) {a : Action}
    (h : Decide W tr ph e c = .ok (a, c')) :
    ∃ used ret wp, FirstMatch W tr (c.mail.said ph e) ph c.ruleset used ret ∧
      (∀ k : WKey, LastGiven W tr (c.mail.said ph e) ph k used (k.of wp)) ∧
      ((¬ (ph = .mfrom ∧ e.arg = [] ∧ Refuses ret) ∧ a = ret ∧ c'.withprops = wp ∧ c'.frame = (shadow ph e c).frame) ∨
       (ph = .mfrom ∧ e.arg = [] ∧ Refuses ret ∧ a = .accept ∧ c'.withprops = {} ∧ c'.defprops = wp ∧ c'.defresult = ret)) := by
  obtain ⟨ret, wp, ⟨used, post, hu, hw, hd⟩, -, hout⟩ := decide_spec hs hph (fun r hr => (hp r hr).le) hc (noPending_shadow hn) h
  refine ⟨used, ret, wp, ?_, ?_, ?_⟩
  · rcases hd with ⟨h1, h2, h3⟩ | ⟨pre, r, w, h1, h2, h3, h4, h5⟩
    · subst h2
      rw [List.append_nil] at hu
      exact Or.inl ⟨h1, hu.symm, hu ▸ h3⟩
    · exact Or.inr ⟨pre, r, post, w, by rw [hu, h1]; simp, h1, h2, h3, h4, h5⟩
  · intro k
    obtain ⟨v, hv, he⟩ := hw k
    have : k.of ({} : Withs) = none := by cases k <;> rfl
    rw [this] at he
    have : k.of wp = v := by rw [he]; cases v <;> rfl
    rw [this]; exact hv
  · rw [← refuses_iff]
    exact hout

/-- The decision of C22 and C23 in one. -/
theorem decide_meaning {W : World} (hs : W.Static) {rules : List Rule} (hp : ∀ r ∈ rules, FromParse r) {c c' : Ctx}
    (hR : Reached W rules c) {tr : TransR} {ph : Phase} (hph : ph ≠ .any) {e : Evt} (hn : NoPending ph c) {a : Action}
    (h : Decide W tr ph e c = .ok (a, c')) :
    ∃ used ret wp, FirstMatch W tr (c.mail.said ph e) ph rules used ret ∧
      (∀ k : WKey, LastGiven W tr (c.mail.said ph e) ph k used (k.of wp)) ∧
      ((¬ (ph = .mfrom ∧ e.arg = [] ∧ Refuses ret) ∧ a = ret ∧ c'.withprops = wp) ∨
       (ph = .mfrom ∧ e.arg = [] ∧ Refuses ret ∧ a = .accept ∧ c'.withprops = {} ∧ c'.defprops = wp ∧ c'.defresult = ret)) := by
  obtain ⟨hc, rfl⟩ := hR.ok hs
  obtain ⟨used, ret, wp, h1, h2, h3⟩ := decide_ctx hs hp hc hph hn h
  exact ⟨used, ret, wp, h1, h2, h3.imp (fun h => ⟨h.1, h.2.1, h.2.2.1⟩) id⟩

/-- **C22.** In a world that does not change, the outcome of a phase is the action of the first rule, in order, that is
eligible, is not a set-with and has a matching clause, and no result if there is none.  The one exception is that a
refusal of the null sender is put off (C25, C26). -/
theorem C22_first_match {W : World} (hs : W.Static) {rules : List Rule} (hp : ∀ r ∈ rules, FromParse r) {c c' : Ctx}
    (hR : Reached W rules c) {tr : TransR} {ph : Phase} (hph : ph ≠ .any) {e : Evt} (hn : NoPending ph c) {a : Action}
    (h : Decide W tr ph e c = .ok (a, c')) :
    ∃ used ret, FirstMatch W tr (c.mail.said ph e) ph rules used ret ∧
      a = (if ph = .mfrom ∧ e.arg = [] ∧ (ret = .reject ∨ ret = .stall) then .accept else ret) := by
  obtain ⟨used, ret, wp, h1, -, h3⟩ := decide_meaning hs hp hR hph hn h
  refine ⟨used, ret, h1, ?_⟩
  rcases h3 with ⟨h4, h5, -⟩ | ⟨h4, h5, h6, h7, -⟩
  · have h4' : ¬ (ph = .mfrom ∧ e.arg = [] ∧ (ret = .reject ∨ ret = .stall)) := h4
    rw [if_neg h4', h5]
  · have h4' : ph = .mfrom ∧ e.arg = [] ∧ (ret = .reject ∨ ret = .stall) := ⟨h4, h5, h6⟩
    rw [if_pos h4', h7]

/-- **C23.** After a decision each with option has the value given by the last rule, up to and including the deciding one,
that matched with a clause giving one; it is unset if there is none, so nothing survives from earlier decisions.  (For a
refusal of the null sender, which is put off, these values are kept aside with it.) -/
theorem C23_withs {W : World} (hs : W.Static) {rules : List Rule} (hp : ∀ r ∈ rules, FromParse r) {c c' : Ctx}
    (hR : Reached W rules c) {tr : TransR} {ph : Phase} (hph : ph ≠ .any) {e : Evt} (hn : NoPending ph c) {a : Action}
    (h : Decide W tr ph e c = .ok (a, c')) :
    ∃ used ret, FirstMatch W tr (c.mail.said ph e) ph rules used ret ∧
      ∀ k : WKey, if ph = .mfrom ∧ e.arg = [] ∧ (ret = .reject ∨ ret = .stall)
        then LastGiven W tr (c.mail.said ph e) ph k used (k.of c'.defprops) ∧ k.of c'.withprops = none
        else LastGiven W tr (c.mail.said ph e) ph k used (k.of c'.withprops) := by
  obtain ⟨used, ret, wp, h1, h2, h3⟩ := decide_meaning hs hp hR hph hn h
  refine ⟨used, ret, h1, fun k => ?_⟩
  rcases h3 with ⟨h4, h5, h6⟩ | ⟨h4, h5, h6, h7, h8, h9, h10⟩
  · have h4' : ¬ (ph = .mfrom ∧ e.arg = [] ∧ (ret = .reject ∨ ret = .stall)) := h4
    rw [if_neg h4', h6]; exact h2 k
  · have h4' : ph = .mfrom ∧ e.arg = [] ∧ (ret = .reject ∨ ret = .stall) := ⟨h4, h5, h6⟩
    rw [if_pos h4', h9, h8]; exact ⟨h2 k, by cases k <;> rfl⟩

/-- C23: the value is determined. -/
theorem C23_determined {W : World} {tr : TransR} {m : Mail} {ph : Phase} {k : WKey} {rs : List Rule} {v v' : Option Str}
    (h : LastGiven W tr m ph k rs v) (h' : LastGiven W tr m ph k rs v') : v = v' := by
  have key : ∀ {rs pre r post w x pre' r' post' w' x'}, rs = pre ++ r :: post → rs = pre' ++ r' :: post' →
      Hits W tr m ph r w → k.of w = some x → Hits W tr m ph r' w' → k.of w' = some x' →
      (∀ q ∈ post, ∀ w, Hits W tr m ph q w → k.of w = none) → (∀ q ∈ post', ∀ w, Hits W tr m ph q w → k.of w = none) → x = x' := by
    intro rs pre
    induction pre generalizing rs with
    | nil =>
      intro r post w x pre' r' post' w' x' h1 h2 h3 h4 h5 h6 h7 h8
      cases pre' with
      | nil =>
        rw [h1] at h2; simp at h2
        rw [← h2.1] at h5
        have := hits_unique h3 h5
        subst this
        rw [h4] at h6; exact Option.some.inj h6
      | cons y pre' =>
        rw [h1] at h2; simp only [List.nil_append, List.cons_append, List.cons.injEq] at h2
        have := h7 r' (by rw [h2.2]; simp) w' h5
        rw [h6] at this; cases this
    | cons y pre ih =>
      intro r post w x pre' r' post' w' x' h1 h2 h3 h4 h5 h6 h7 h8
      cases pre' with
      | nil =>
        rw [h1] at h2; simp only [List.nil_append, List.cons_append, List.cons.injEq] at h2
        have := h8 r (by rw [← h2.2]; simp) w h3
        rw [h4] at this; cases this
      | cons z pre' =>
        rw [h1] at h2; simp only [List.cons_append, List.cons.injEq] at h2
        exact ih (rs := pre ++ r :: post) rfl h2.2 h3 h4 h5 h6 h7 h8
  rcases h with ⟨pre, r, post, w, x, h1, h2, h3, rfl, h5⟩ | ⟨rfl, h⟩
  · rcases h' with ⟨pre', r', post', w', x', h1', h2', h3', rfl, h5'⟩ | ⟨rfl, h'⟩
    · rw [key h1 h1' h2 h3 h2' h3' h5 h5']
    · have := h' r (by rw [h1]; simp) w h2
      rw [h3] at this; cases this
  · rcases h' with ⟨pre', r', post', w', x', h1', h2', h3', rfl, h5'⟩ | ⟨rfl, h'⟩
    · have := h r' (by rw [h1']; simp) w' h2'
      rw [h3'] at this; cases this
    · rfl

/-- The result and the with options. -/
def outcome (r : Except Panic (Action × Ctx)) : Except Panic (Action × Withs) := r.map fun x => (x.1, x.2.withprops)

/-- EHLO, MAIL FROM, RCPT TO: a with option of a set-with, then the deciding rule. -/
example : outcome (Decide demoWorld demoTrans .rto ⟨false, b!"b@example.com"⟩ { demoCtx with ruleset := demoRules }) =
    .ok (.reject, { note := some b!"early", savedir := some b!"/d", message := some b!"bad" }) := by decide +kernel
example : outcome (Decide demoWorld demoTrans .rto ⟨false, b!"b@example.com"⟩ { demoCtx with ruleset := demoRules, heloname := b!"x.org" }) =
    .ok (.reject, { note := some b!"late", savedir := some b!"/d" }) := by decide +kernel
example : outcome (Decide demoWorld demoTrans .mfrom ⟨false, b!"joe@slowmx.example.com"⟩ { demoCtx with ruleset := demoRules }) =
    .ok (.noresult, { note := some b!"early", savedir := some b!"/d" }) := by decide +kernel
example : Reached demoWorld demoRules (newContext demoRules []) ∧ NoPending .mfrom (newContext demoRules []) :=
  ⟨.new [], Or.inr (Or.inl rfl)⟩

/-! ## C24 -/

theorem ruleLoop_drop {W : World} {tr : TransR} {ph : Phase} {r : Rule} (hs : skipRule ph r = true) : ∀ (pre post : List Rule) (c : Ctx),
    ruleLoop W tr ph (pre ++ r :: post) c = ruleLoop W tr ph (pre ++ post) c := by
  intro pre
  induction pre with
  | nil => intro post c; rw [List.nil_append, List.nil_append, ruleLoop, hs]; rfl
  | cons q pre ih =>
    intro post c
    rw [List.cons_append, List.cons_append, ruleLoop, ruleLoop]
    split
    · exact ih post c
    · cases runRule W tr ph q c with
      | error p => rfl
      | ok x =>
        obtain ⟨b, c1⟩ := x
        simp only [bind, Except.bind, ih]

theorem Decide_eq (W : World) (tr : TransR) (ph : Phase) (e : Evt) (c : Ctx) : Decide W tr ph e c =
    if (shadow ph e c).defresult ≥ .accept then
      .ok ((shadow ph e c).defresult, { begun ph e c with dnsblhit := (shadow ph e c).defdnsblhit, withprops := (shadow ph e c).defprops })
    else (ruleLoop W tr ph (shadow ph e c).ruleset (begun ph e c)) >>= fun x =>
      if ph = .mfrom ∧ x.2.from_ = [] ∧ x.1 > .accept then
        .ok (.accept, { x.2 with defresult := x.1, defprops := x.2.withprops, defdnsblhit := x.2.dnsblhit, withprops := {} })
      else .ok x := rfl

/-- **C24.** Removing a rule with an explicit phase changes nothing in the decision of any other phase: same result, and
the same context (with options, hits, pending refusal, caches, external calls), in any world and context. -/
theorem C24_explicit_phase (W : World) (tr : TransR) {ph : Phase} (hph : ph ≠ .any) (e : Evt) (c : Ctx) (pre post : List Rule) (r : Rule)
    (h1 : r.deferto ≠ .any) (h2 : r.deferto ≠ ph) :
    Decide W tr ph e { c with ruleset := pre ++ post } =
      (Decide W tr ph e { c with ruleset := pre ++ r :: post }).map fun x => (x.1, { x.2 with ruleset := pre ++ post }) := by
  have hskip : skipRule ph r = true := by
    rw [← Bool.not_eq_false]
    intro h
    rcases (skipRule_iff hph).mp h with ⟨-, h | h⟩
    · exact h1 h
    · exact h2 h
  let u : Upd := { ruleset := some (pre ++ post) }
  have hu : u.Inert := ⟨rfl, rfl, rfl, rfl⟩
  have hloop := upd_ruleLoop hu W (tr := tr) (ph := ph) (pre ++ r :: post) (begun ph e { c with ruleset := pre ++ r :: post })
  have e1 : u.app (begun ph e { c with ruleset := pre ++ r :: post }) = begun ph e { c with ruleset := pre ++ post } := by
    cases ph <;> rfl
  rw [e1, ruleLoop_drop hskip] at hloop
  have hd : (shadow ph e { c with ruleset := pre ++ post }).defresult = (shadow ph e { c with ruleset := pre ++ r :: post }).defresult := by
    cases ph <;> rfl
  rw [Decide_eq, Decide_eq, hd]
  by_cases hpend : (shadow ph e { c with ruleset := pre ++ r :: post }).defresult ≥ .accept
  · rw [if_pos hpend, if_pos hpend]
    cases ph <;> rfl
  · rw [if_neg hpend, if_neg hpend, shadow_ruleset, shadow_ruleset]
    refine (congrArg (· >>= _) hloop).trans ?_
    cases ruleLoop W tr ph (pre ++ r :: post) (begun ph e { c with ruleset := pre ++ r :: post }) with
    | error p => rfl
    | ok x =>
      obtain ⟨ret, c3⟩ := x
      have e3 : (u.app c3).from_ = c3.from_ := rfl
      simp only [Upd.map, bind, Except.bind, e3]
      split <;> rfl

example : outcome (Decide demoWorld demoTrans .data {} { demoCtx with ruleset := demoRules }) =
    .ok (.reject, { message := some b!"go away" }) := by decide +kernel
example : outcome (Decide demoWorld demoTrans .message {} { demoCtx with ruleset := demoRules }) =
    .ok (.reject, { note := some b!"early", savedir := some b!"/d", message := some b!"bad" }) := by decide +kernel

/-! ## C25 -/

/-- **C25.** The decision on a null sender is never a refusal: in any world and context, for all rules. -/
theorem C25_null_sender {W : World} {tr : TransR} {c c' : Ctx} {i : Bool} {a : Action}
    (h : Decide W tr .mfrom ⟨i, []⟩ c = .ok (a, c')) : a ≠ .reject ∧ a ≠ .stall := by
  have key : ¬ a > .accept := by
    cases decide_end h with
    | pending hp => exact absurd hp (by show ¬ Action.error ≥ .accept; decide)
    | plain _ _ hn => exact fun ha => hn ⟨rfl, rfl, ha⟩
    | defer => decide
  constructor <;> (rintro rfl; exact key (by decide))

example : outcome (Decide demoWorld demoTrans .mfrom ⟨false, []⟩ { demoCtx with ruleset := [⟨[⟨.all, {}⟩], .reject, .any, .any⟩] }) =
    .ok (.accept, {}) := by decide +kernel

/-! ## C26 -/

/-- Any number of RCPT TO, DATA and message decisions, on any transaction data. -/
inductive LaterOn (W : World) : Ctx → Ctx → Prop
  | refl (c) : LaterOn W c c
  | step {c c1 c2 tr ph e a} : LaterOn W c c1 → ph ∈ [Phase.rto, .data, .message] → Decide W tr ph e c1 = .ok (a, c2) → LaterOn W c c2

theorem pending_step {W : World} {tr : TransR} {ph : Phase} {e : Evt} {c : Ctx} (hph : ph ∈ [Phase.rto, .data, .message])
    (hd : c.defresult ≥ .accept) : Decide W tr ph e c = .ok (c.defresult,
      { shadow ph e c with dnsblhit := c.defdnsblhit, withprops := c.defprops, domerr := none }) := by
  simp only [List.mem_cons, List.not_mem_nil, or_false] at hph
  unfold Decide
  rcases hph with rfl | rfl | rfl <;> simp only [shadow, hd, if_true] <;> rfl

theorem laterOn_pending {W : World} {c c1 : Ctx} (h : LaterOn W c c1) (hd : c.defresult ≥ .accept) :
    c1.defresult = c.defresult ∧ c1.defprops = c.defprops ∧ c1.defdnsblhit = c.defdnsblhit := by
  induction h with
  | refl => exact ⟨rfl, rfl, rfl⟩
  | step _ hph h2 ih =>
    obtain ⟨i1, i2, i3⟩ := ih
    rw [pending_step hph (by rw [i1]; exact hd)] at h2
    simp only [Except.ok.injEq, Prod.mk.injEq] at h2
    obtain ⟨-, rfl⟩ := h2
    simp only [List.mem_cons, List.not_mem_nil, or_false] at hph
    rcases hph with rfl | rfl | rfl <;> exact ⟨i1, i2, i3⟩

/-- **C26.** If running the rules on a null sender ends in a refusal `ret` with options `c0.withprops` and blocklist hits
`c0.dnsblhit`, then (the sender is accepted and) every later RCPT TO, DATA and message decision, after any number of such
decisions, is `ret` with exactly these options and hits, without any rule being run.  In any world. -/
theorem C26_sticks {W : World} {tr0 : TransR} {i0 : Bool} {c c0 : Ctx} {ret : Action}
    (h0 : ruleLoop W tr0 .mfrom c.ruleset (begun .mfrom ⟨i0, []⟩ c) = .ok (ret, c0)) (hr : ret = .reject ∨ ret = .stall) :
    ∃ c1, Decide W tr0 .mfrom ⟨i0, []⟩ c = .ok (.accept, c1) ∧
      ∀ c2, LaterOn W c1 c2 → ∀ tr ph e, ph ∈ [Phase.rto, .data, .message] →
        ∃ c3, Decide W tr ph e c2 = .ok (ret, c3) ∧ c3.withprops = c0.withprops ∧ c3.dnsblhit = c0.dnsblhit ∧ c3.trace = c2.trace := by
  have hgt : ret > .accept := refuses_iff.mpr hr
  have hge : ret ≥ .accept := Nat.le_of_lt hgt
  have hf : c0.from_ = [] := Ctx.from_of_frame (ruleLoop_steps h0).frame
  refine ⟨{ c0 with defresult := ret, defprops := c0.withprops, defdnsblhit := c0.dnsblhit, withprops := {} }, ?_, ?_⟩
  · unfold Decide
    have hp : ¬ (shadow .mfrom ⟨i0, []⟩ c).defresult ≥ .accept := by show ¬ Action.error ≥ .accept; decide
    have h0' : ruleLoop W tr0 .mfrom (shadow .mfrom ⟨i0, []⟩ c).ruleset
        { shadow .mfrom ⟨i0, []⟩ c with dnsblhit := [], withprops := {}, domerr := none } = .ok (ret, c0) := h0
    simp only [hp, if_false, h0', bind, Except.bind, pure, Except.pure]
    simp [hf, hgt]
  · intro c2 hl tr ph e hph
    obtain ⟨i1, i2, i3⟩ := laterOn_pending hl hge
    rw [pending_step hph (by rw [i1]; exact hge)]
    refine ⟨_, by rw [i1], i2, i3, ?_⟩
    simp only [List.mem_cons, List.not_mem_nil, or_false] at hph
    rcases hph with rfl | rfl | rfl <;> rfl

/-- C26, in terms of the rules: in a world that does not change, if the first matching rule for the null sender refuses,
every later decision is that refusal, with the with options the rules gave. -/
theorem C26_rules {W : World} (hs : W.Static) {rules : List Rule} (hp : ∀ r ∈ rules, FromParse r) {c c1 : Ctx}
    (hR : Reached W rules c) {tr0 : TransR} {i0 : Bool} {a : Action} (h : Decide W tr0 .mfrom ⟨i0, []⟩ c = .ok (a, c1))
    {used : List Rule} {ret : Action} (hfm : FirstMatch W tr0 (c.mail.said .mfrom ⟨i0, []⟩) .mfrom rules used ret)
    (hr : ret = .reject ∨ ret = .stall) :
    a = .accept ∧ ∀ c2, LaterOn W c1 c2 → ∀ tr ph e, ph ∈ [Phase.rto, .data, .message] →
      ∃ c3, Decide W tr ph e c2 = .ok (ret, c3) ∧
        ∀ k : WKey, LastGiven W tr0 (c.mail.said .mfrom ⟨i0, []⟩) .mfrom k used (k.of c3.withprops) := by
  obtain ⟨used', ret', wp, h1, h2, h3⟩ := decide_meaning hs hp hR (by simp) (Or.inr (Or.inl rfl)) h
  obtain ⟨rfl, rfl⟩ := hfm.unique h1
  rcases h3 with ⟨h4, -⟩ | ⟨-, -, -, h5, -, h6, h7⟩
  · exact absurd ⟨rfl, rfl, hr⟩ h4
  · refine ⟨h5, fun c2 hl tr ph e hph => ?_⟩
    have hge : c1.defresult ≥ .accept := by rw [h7]; exact Nat.le_of_lt (refuses_iff.mpr hr)
    obtain ⟨i1, i2, i3⟩ := laterOn_pending hl hge
    rw [pending_step hph (by rw [i1]; exact hge)]
    refine ⟨_, by rw [i1, h7], fun k => ?_⟩
    have : k.of c2.defprops = k.of wp := by rw [i2, h6]
    exact this ▸ h2 k

/-- **C26.** EHLO/HELO and a MAIL FROM with a sender clear the refusal: nothing is pending any more, so the following
decisions are those of the rules (C22). -/
theorem C26_cleared {W : World} {tr : TransR} {ph : Phase} {e : Evt} {c c1 : Ctx} {a : Action} (h : Decide W tr ph e c = .ok (a, c1))
    (hph : ph = .helo ∨ (ph = .mfrom ∧ e.arg ≠ [])) : ∀ ph', NoPending ph' c1 := by
  have key : c1.defresult = .error := by
    have fr : ∀ {c2 : Ctx} {a}, ruleLoop W tr ph c.ruleset (begun ph e c) = .ok (a, c2) → c2.defresult = .error := by
      intro c2 a hl
      have h1 := (ruleLoop_steps hl).frame
      have h2 : c2.defresult = (begun ph e c).defresult := by have := congrArg Ctx.defresult h1; exact this
      rw [h2]
      rcases hph with rfl | ⟨rfl, -⟩ <;> rfl
    cases decide_end h with
    | pending hp =>
      exfalso
      rcases hph with rfl | ⟨rfl, -⟩ <;> exact absurd hp (by show ¬ Action.error ≥ .accept; decide)
    | plain _ hl _ => exact fr hl
    | defer _ _ h1 h2 =>
      rcases hph with rfl | ⟨-, h3⟩
      · cases h1
      · exact absurd h2 h3
  exact fun _ => Or.inr (Or.inr key)

/-- A null sender under a rule that refuses it, and then two recipients and the data. -/
def demoNull : Ctx := newContext [⟨[⟨.matchN .from_ b!"<>", { message := some b!"no bounces" }⟩], .stall, .mfrom, .any⟩] []

example : outcome (do
    let (_, c) ← Decide demoWorld demoTrans .mfrom ⟨false, []⟩ demoNull
    let (_, c) ← Decide demoWorld demoTrans .rto ⟨false, b!"a@b.c"⟩ c
    Decide demoWorld demoTrans .data {} c) = .ok (.stall, { message := some b!"no bounces" }) := by decide +kernel

/-! ## C27 -/

theorem rcptsTo_hit {W : World} {tr : TransR} {m : Mail} {r : Rule} {as : List Str} {o : Outcome} (h : RcptsTo W tr m r as o) :
    (∀ w, o = .hit w → ∃ a ∈ as, ClausesTo W tr { m with rcptto := a } r.clauses (.hit w)) ∧
    (o = .no → ∀ a ∈ as, ClausesTo W tr { m with rcptto := a } r.clauses .no) := by
  induction h with
  | nil => exact ⟨by simp, by simp⟩
  | stop h1 h2 => exact ⟨fun w hw => ⟨_, by simp, hw ▸ h1⟩, fun h => absurd h h2⟩
  | next h1 _ ih =>
    refine ⟨fun w hw => ?_, fun ho a ha => ?_⟩
    · obtain ⟨a, ha, h⟩ := ih.1 w hw; exact ⟨a, by simp [ha], h⟩
    · rcases List.mem_cons.mp ha with rfl | ha
      · exact h1
      · exact ih.2 ho a ha

/-- **C27.** After RCPT TO, in a world that does not change, a rule that looks at recipients matches iff it matches for
some accepted recipient taken alone (if it consults no empty file). -/
theorem C27_each_recipient {W : World} (hs : W.Static) {tr : TransR} {ph : Phase} (hph : ph = .data ∨ ph = .message) {r : Rule}
    (hr : r.requires ≥ .rto) {c c' : Ctx} {b : Bool} (hc : CacheOK W c) (h : runRule W tr ph r c = .ok (b, c')) (hm : c'.rulemiss = false) :
    b = true ↔ ∃ a ∈ tr.rcptto, ∃ w, ClausesTo W tr { c.mail with rcptto := a } r.clauses (.hit w) := by
  have hp : ph > .rto := by rcases hph with rfl | rfl <;> decide
  unfold runRule at h
  simp only [hp, hr, and_self, if_true] at h
  obtain ⟨o, h1, h2⟩ := ruleForEachRcpt_spec hs (c := { c with rulemiss := false }) ⟨hc.files, hc.dnsbl, hc.domvalid⟩ rfl h
  have h1 : RcptsTo W tr c.mail r tr.rcptto o := h1
  have ho := h2.out
  obtain ⟨k1, k2⟩ := rcptsTo_hit h1
  cases o with
  | hit w =>
    obtain ⟨a, ha, hh⟩ := k1 w rfl
    exact iff_of_true ho.1 ⟨a, ha, w, hh⟩
  | no =>
    refine iff_of_false (by simp [ho.1]) ?_
    rintro ⟨a, ha, w, hh⟩
    exact absurd ((k2 rfl a ha).unique hh) (by simp)
  | miss => simp only at ho; rw [ho.2.1] at hm; cases hm

/-- C27: "matches for a recipient taken alone" is what checking the rule with that recipient in the context says. -/
theorem C27_alone {W : World} (hs : W.Static) {tr : TransR} {r : Rule} {c c' : Ctx} {b : Bool} (hc : CacheOK W c) (a : Str)
    (h : r.check W tr { c with rcptto := a } = .ok (b, c')) :
    b = true ↔ ∃ w, ClausesTo W tr { c.mail with rcptto := a } r.clauses (.hit w) := by
  obtain ⟨o, h1, h2, -⟩ := check_spec hs (c := { c with rcptto := a }) ⟨hc.files, hc.dnsbl, hc.domvalid⟩ h
  have h1 : ClausesTo W tr { c.mail with rcptto := a } r.clauses o := h1
  have ho := h2.out
  cases o with
  | hit w => exact iff_of_true ho.1 ⟨w, h1⟩
  | no => exact iff_of_false (by simp [ho.1]) (fun ⟨w, hw⟩ => absurd (h1.unique hw) (by simp))
  | miss => exact iff_of_false (by simp [ho.1]) (fun ⟨w, hw⟩ => absurd (h1.unique hw) (by simp))

/-- Forget the recipient in the context. -/
def noRcpt {α : Type} (r : Except Panic (α × Ctx)) : Except Panic (α × Ctx) := r.map fun x => (x.1, { x.2 with rcptto := [] })

theorem runRule_leftover {W : World} {tr : TransR} {ph : Phase} (hph : ph = .data ∨ ph = .message) {r : Rule} (hp : FromParse r)
    (c : Ctx) (x : Str) : noRcpt (runRule W tr ph r { c with rcptto := x }) = noRcpt (runRule W tr ph r c) := by
  have hgt : ph > .rto := by rcases hph with rfl | rfl <;> decide
  unfold runRule
  simp only
  split
  · cases hrc : tr.rcptto with
    | nil => rfl
    | cons a as =>
      exact congrArg noRcpt (ruleForEachRcpt_rcpt W tr r a as { c with rulemiss := false } x)
  · rename_i hn
    have hr : r.requires ≤ .mfrom := by
      have : ¬ r.requires ≥ .rto := fun h => hn ⟨hgt, h⟩
      revert this
      cases r.requires <;> decide
    have key := upd_check (u := { rcptto := some x }) (ph := .mfrom) ⟨fun _ => ⟨rfl, rfl⟩, fun _ => rfl, fun h => absurd h (by decide)⟩
      (TransR.Same.refl tr .mfrom) W (r := r) (Nat.le_trans hp.le hr) { c with rulemiss := false }
    refine (congrArg noRcpt key).trans ?_
    cases r.check W tr { c with rulemiss := false } with
    | error p => rfl
    | ok y => rfl

/-- **C27.** At DATA and message time the recipient left in the context by earlier rules does not matter: the run of the
rules has the same result and leaves the same context, whatever it is.  In any world. -/
theorem C27_leftover {W : World} {tr : TransR} {ph : Phase} (hph : ph = .data ∨ ph = .message) :
    ∀ (rules : List Rule), (∀ r ∈ rules, FromParse r) → ∀ (c : Ctx) (x : Str),
      noRcpt (ruleLoop W tr ph rules { c with rcptto := x }) = noRcpt (ruleLoop W tr ph rules c) := by
  intro rules
  induction rules with
  | nil => intro _ c x; rfl
  | cons r rs ih =>
    intro hp c x
    have hrs : ∀ q ∈ rs, FromParse q := fun q hq => hp q (by simp [hq])
    rw [ruleLoop, ruleLoop]
    split
    · exact ih hrs c x
    · have key := runRule_leftover (W := W) (tr := tr) hph (hp r (by simp)) c x
      cases h1 : runRule W tr ph r c with
      | error p =>
        rw [h1] at key
        cases h2 : runRule W tr ph r { c with rcptto := x } with
        | error q => rw [h2] at key; cases key; rfl
        | ok y => rw [h2] at key; cases key
      | ok y =>
        obtain ⟨b, c1⟩ := y
        rw [h1] at key
        cases h2 : runRule W tr ph r { c with rcptto := x } with
        | error q => rw [h2] at key; cases key
        | ok z =>
          obtain ⟨b', c2⟩ := z
          rw [h2] at key
          simp only [noRcpt, Except.map, Except.ok.injEq, Prod.mk.injEq] at key
          obtain ⟨rfl, hc⟩ := key
          have hm : c2.rulemiss = c1.rulemiss := by have := congrArg Ctx.rulemiss hc; exact this
          have hc2 : c2 = { c1 with rcptto := c2.rcptto } := by
            have := congrArg (fun d : Ctx => ({ d with rcptto := c2.rcptto } : Ctx)) hc
            exact this
          simp only [bind, Except.bind, pure, Except.pure, hm]
          split
          · rw [hc2]; exact ih hrs c1 _
          · split
            · simp only [noRcpt, Except.map, hc]
            · rw [hc2]; exact ih hrs c1 _

example : short (runRule demoWorld demoTrans .message ⟨[⟨.matchN .to b!"b@", {}⟩], .reject, .rto, .any⟩ demoCtx) = .ok (true, false) := by
  decide +kernel
example : short (runRule demoWorld { demoTrans with rcptto := [] } .message ⟨[⟨.matchN .to b!"b@", {}⟩], .reject, .rto, .any⟩ demoCtx) =
    .ok (false, false) := by decide +kernel

end Sink
