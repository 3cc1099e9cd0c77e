import Verif.Props.Manual
import Verif.Props.Server
import Verif.Props.Greet
import Verif.Props.StdRules

/-!
# C103: the `make-yakker` example of the manual

`reject ehlo NAME with make-yakker` (doc.go:699), with any name, as the first line of the first rules file, and with any options for rules on
the command line.
-/

namespace Sink
namespace Spec

/-- The first rules file has this text, and the other files contribute these rules. -/
structure LeadFile (cf : Conf) (E : Env) (text : Str) (more : List Rule) : Prop where
  fds : E.fds ≠ 0
  file : ∃ f fs, f ≠ [] ∧ cf.rulefiles = f :: fs ∧ E.fs [0] f = .data text ∧ accumAll E.W.lib E.fs E.fds 1 [] fs = .ok more

end Spec
open Spec
open Gram (Term Orl Andl Clause Clauses RuleG WTerms ArgOp Stmt File IsArg conj needs needsC)

theorem lead_loaded {cf : Conf} {E : Env} {ls : List (Str × Rule)} {more : List Rule} (h : ∀ x ∈ ls, LineOf E.W.lib x.1 x.2)
    (hF : LeadFile cf E (ls.flatMap fun x => x.1 ++ b!"\n") more) {rules : List Rule} (hl : Loaded cf E false rules) :
    rules = cf.base ++ (ls.map (·.2) ++ more) := by
  obtain ⟨f, fs, hf, hr, ht, hm⟩ := hF.file
  have ha : accumAll E.W.lib E.fs E.fds 0 cf.base cf.rulefiles = .ok (cf.base ++ (ls.map (·.2) ++ more)) := by
    obtain ⟨d, hd⟩ := Nat.exists_eq_succ_of_ne_zero hF.fds
    have h1 : accumRules E.W.lib E.fs E.fds 0 cf.base f = .ok (cf.base ++ ls.map (·.2)) := by
      unfold accumRules
      rw [if_neg hf, hd]
      unfold loadRules
      simp only [ht, parseWith_lines ls h]
    rw [hr]
    unfold accumAll
    rw [h1]
    obtain ⟨rss, g1, rfl⟩ := accumAll_iff.1 hm
    exact accumAll_iff.2 ⟨rss, g1, by simp⟩
  rcases hl with ⟨h, -⟩ | ⟨-, h⟩ | ⟨-, ⟨g, m, h⟩, -⟩
  · cases h
  · rw [ha] at h; injection h with h; exact h.symm
  · rw [ha] at h; cases h

/-! ## The line -/

/-- The rule of the example. -/
def yakRule (N : Str) : Rule := ruleOf .any .reject [⟨.matchN .helo N, { makeYakker := some [] }⟩]

theorem yak_line (L : Lib) {N : Str} (hN : PlainWord N) : LineOf L (b!"reject ehlo " ++ N ++ b!" with make-yakker") (yakRule N) := by
  have hx : Lx (b!"ehlo" ++ b!" " ++ N ++ b!" with make-yakker") ([(.kw .ehlo, b!"ehlo"), (wordTok N, N)] ++ [(.kw .with_, b!"with"), (.kw .makeYakker, b!"make-yakker")]) := by
    have := (lx_op (o := b!"ehlo") (k := .ehlo) (by decide +kernel) (by decide +kernel) hN).two
      ((Lx.kw (w := b!"with") (t := .kw .with_) (by decide +kernel) (by decide +kernel)).two
        (Lx.kw (w := b!"make-yakker") (t := .kw .makeYakker) (by decide +kernel) (by decide +kernel)))
    simpa using this
  have hc : Clause L (([(.kw .ehlo, b!"ehlo"), (wordTok N, N)] ++ [(Tok.kw .with_, b!"with"), (Tok.kw .makeYakker, b!"make-yakker")]).map mkI)
      ⟨.matchN .helo N, { makeYakker := some [] }⟩ := by
    have := Clause.withs (L := L) (wi := mkI (.kw .with_, b!"with")) (us := [mkI (.kw .makeYakker, b!"make-yakker")])
      (w := { makeYakker := some [] }) (.one (.one (term_op L (o := b!"ehlo") .ehlo N))) rfl (by simp) (.makeYakker rfl rfl .nil)
    simpa [conj] using this
  have := line_plain (L := L) (w := b!"reject") (k := .reject) (a := .reject) (by decide +kernel) (by decide) (by decide) (by decide +kernel) .reject
    hx (.one hc (fun h => by cases h))
  simpa [yakRule] using this

/-! ## On EHLO it comes first -/

/-- No rule made from options says anything to EHLO with a name. -/
theorem base_silent {E : Env} {std m : Bool} {f t h : Option Str} {r : Rule} (hr : r ∈ documentedRules std m f t h) {l : List Step} {e : Evt} (he : e.arg ≠ [])
    (x : Withs) : ¬ HitsAt E r l .helo e x := by
  intro hx
  have hx' := hx
  obtain ⟨⟨h1, h2⟩, h3⟩ := hx
  simp only [documentedRules, List.mem_append, Option.mem_toList, List.mem_map] at hr
  rcases hr with (((hr | hr) | ⟨y, _, rfl⟩) | ⟨y, _, rfl⟩) | ⟨y, _, rfl⟩
  · cases std
    · simp at hr
    · simp only [if_true, List.mem_cons, List.not_mem_nil, or_false] at hr
      rcases hr with rfl | rfl | rfl
      · revert h1; decide
      · revert h1; decide
      · have hh := (hits_one (d := .any) (a := .reject) (e := .optN .heloHas oNone) trivial).1 hx'
        obtain ⟨-, -, hh⟩ := hh
        unfold AtHand at hh
        rw [if_neg (fun h => absurd h.1 (by decide))] at hh
        obtain ⟨a, ha, hb⟩ := hh
        have : a = .none := by revert hb; cases a <;> decide
        subst this
        exact he ha
  · cases m
    · simp at hr
    · simp only [if_true, List.mem_cons, List.not_mem_nil, or_false] at hr
      subst hr
      revert h2; decide
  · exact absurd (show Phase.mfrom ≤ Phase.helo from h1) (by decide)
  · exact absurd (show Phase.rto ≤ Phase.helo from h1) (by decide)
  · exact absurd (show Phase.mfrom = Phase.any ∨ Phase.mfrom = Phase.helo from h2) (by decide)

theorem hits_yak {E : Env} {l : List Step} {N : Str} (hf : argFile N = none) {e : Evt} {x : Withs} :
    HitsAt E (yakRule N) l .helo e x ↔ x = { makeYakker := some [] } ∧ HostMatch (E.W.lib.lower e.arg) (E.W.lib.lower N) := by
  have hn : NoFile (.matchN .helo N) := hf
  unfold HitsAt yakRule
  rw [hits_one hn]
  unfold AtHand
  rw [if_neg (fun h => absurd h.1 (by decide))]
  simp only [holds_op hf]
  have : needs (.matchN .helo N) ≤ Phase.helo := by show Phase.helo ≤ Phase.helo; decide
  simp [this, subjects, PatMatch, Mail.said]

theorem says_over {E : Env} {pre rs : List Rule} {l : List Step} {ph : Phase} {e : Evt} (h : ∀ r ∈ pre, ∀ x, ¬ HitsAt E r l ph e x) {a : Action} {w : Withs} :
    Says1 E (pre ++ rs) l ph e a w ↔ Says1 E rs l ph e a w := by
  induction pre with
  | nil => rfl
  | cons r pre ih =>
    rw [List.cons_append, says_skip (h r List.mem_cons_self)]
    exact ih fun q hq => h q (List.mem_cons_of_mem _ hq)

section
variable {o : BaseOpts} {cf : Conf} {E : Env} {N : Str} {more : List Rule}

/-- C103: whoever says EHLO or HELO with such a name is refused, and this marks the client (as far as C39 goes). -/
theorem C103_refused (hc : Configured o cf) (hs : E.W.Static) (hN : Pattern N) (hF : LeadFile cf E (b!"reject ehlo " ++ N ++ b!" with make-yakker\n") more)
    {l : List Step} {s : Sess} (h : Life cf E l s) (hst : s.stall = false) {l1 l2 : List Step} {st : Step} {e : Evt} {id : Str} (hl : l = l1 ++ st :: l2)
    (ha : st.asked = some (.helo, e, id)) (hne : e.arg ≠ []) (hm : HostMatch (E.W.lib.lower e.arg) (E.W.lib.lower N)) :
    sent st.out = answerTo .helo .reject [] id (envelope l1).rcpts ∧ marked st = true := by
  obtain ⟨rules, h1, h2⟩ := C76_answers hc.built hs h
  rw [hst] at h1
  have hls : ∀ x ∈ [(b!"reject ehlo " ++ N ++ b!" with make-yakker", yakRule N)], LineOf E.W.lib x.1 x.2 := by
    intro x hx; rw [List.mem_singleton.1 hx]; exact yak_line _ hN.1
  obtain rfl := lead_loaded hls (by simpa using hF) h1
  obtain ⟨a, w, h3, h4, h5⟩ := h2 l1 st l2 _ e id hl ha
  have hsay : Says1 E (yakRule N :: more) l1 .helo e a w := by
    cases h3 with
    | late k => exact absurd rfl k
    | null k => cases k
    | plain _ k =>
      rw [hc.base_eq] at k
      exact (says_over fun r hr x => base_silent hr hne x).1 k
  obtain ⟨rfl, rfl⟩ := says_stop ((hits_yak hN.2).2 ⟨rfl, hm⟩) ⟨by simp [yakRule, ruleOf], by simp [yakRule, ruleOf]⟩ hsay
  constructor
  · rcases h5 with h5 | h5
    · exact h5.1
    · rcases h5.1 with h | h <;> cases h
  · have hd : st.decided = true := by
      unfold Step.asked at ha
      unfold Step.decided
      split at ha
      · rename_i hp; rw [hp]
        split at ha <;> first | (rename_i hev; rw [hev]) | cases ha
      · cases ha
      · cases ha
    unfold marked
    rw [hd, h4]
    rfl

end

/-! ## The next connection -/

/-- Since `h`, a session from the address ended that had got somewhere. -/
def Spec.Forgiven (cf : Conf) (ip : Str) (h2 h : List Hap) : Prop :=
  ∃ a b k E now s sh i s' sh' o, h2 = a ++ ⟨k, E, now, .stepped s sh i s' sh' o⟩ :: b ∧ E.rip = ip ∧
    contribution cf (stepsOf k (b ++ h)) ⟨s, i, sh, s', sh', o⟩ = some .del

theorem contribution_kinds {cf : Conf} {l : List Step} {st : Step} {op : IpOp} (h : contribution cf l st = some op) :
    op = .add ∨ op = .set cf.yakCount ∨ op = .del := by
  unfold contribution at h
  split at h
  · split at h
    · cases h; exact .inl rfl
    · cases h
  · repeat' split at h
    all_goals cases h
    · exact .inr (.inl rfl)
    · exact .inl rfl
    · exact .inr (.inr rfl)
  · repeat' split at h
    all_goals cases h
    · exact .inr (.inl rfl)
    · exact .inl rfl
    · exact .inr (.inr rfl)
  · cases h

theorem yakHist_since {cf : Conf} {ip : Str} {h : List Hap} {lo hi : Int} : ∀ {h2 : List Hap}, ¬ Forgiven cf ip h2 h → (∀ e ∈ h2, lo ≤ e.now ∧ e.now ≤ hi) →
    ∃ D, yakHist cf ip (h2 ++ h) = D ++ yakHist cf ip h ∧ ∀ p ∈ D, (p.2 = .add ∨ p.2 = .set cf.yakCount) ∧ lo ≤ p.1 ∧ p.1 ≤ hi := by
  intro h2
  induction h2 with
  | nil => intro _ _; exact ⟨[], rfl, by simp⟩
  | cons e h2 ih =>
    intro hF hn
    obtain ⟨D, h3, h4⟩ := ih (fun ⟨a, b, k, E, now, s, sh, i, s', sh', o, h5, h6⟩ => hF ⟨e :: a, b, k, E, now, s, sh, i, s', sh', o, by rw [h5]; rfl, h6⟩)
      (fun e he => hn e (List.mem_cons_of_mem _ he))
    obtain ⟨k, E, now, w⟩ := e
    have hn0 : lo ≤ now ∧ now ≤ hi := hn _ List.mem_cons_self
    cases w with
    | began sh s sh' o => exact ⟨D, h3, h4⟩
    | stepped s sh i s' sh' o =>
      rw [List.cons_append, yakHist]
      split
      · rename_i hE
        cases hc : contribution cf (stepsOf k (h2 ++ h)) ⟨s, i, sh, s', sh', o⟩ with
        | none => exact ⟨D, by simpa using h3, h4⟩
        | some op =>
          refine ⟨(now, op) :: D, by simp [h3], ?_⟩
          intro p hp
          rcases List.mem_cons.1 hp with rfl | hp
          · refine ⟨?_, hn0⟩
            rcases contribution_kinds hc with h | h | h
            · exact .inl h
            · exact .inr h
            · subst h
              exact absurd ⟨[], h2, k, E, now, s, sh, i, s', sh', o, rfl, hE.1, hc⟩ hF
          · exact h4 p hp
      · exact ⟨D, h3, h4⟩

theorem value_keeps {ttl n lo hi : Int} {r : List (Int × IpOp)} (hb : hi - lo < ttl) : ∀ {D : List (Int × IpOp)} {t : Int},
    (∀ p ∈ D, (p.2 = .add ∨ p.2 = .set n) ∧ lo ≤ p.1 ∧ p.1 ≤ hi) → t ≤ hi → ∃ v, value ttl t (D ++ (lo, .set n) :: r) = some v ∧ v ≥ n := by
  intro D
  induction D with
  | nil => intro t _ ht; exact ⟨n, by simp [value]; omega, le_refl _⟩
  | cons p D ih =>
    intro t hD ht
    obtain ⟨u, op⟩ := p
    obtain ⟨h1, h2, h3⟩ := hD _ List.mem_cons_self
    have hD' : ∀ p ∈ D, (p.2 = .add ∨ p.2 = .set n) ∧ lo ≤ p.1 ∧ p.1 ≤ hi := fun p hp => hD p (List.mem_cons_of_mem _ hp)
    simp only at h1 h2 h3
    rcases h1 with rfl | rfl
    · obtain ⟨v, h4, h5⟩ := ih hD' h3
      refine ⟨v + 1, ?_, by omega⟩
      rw [List.cons_append, value, if_pos (by omega), h4]
      rfl
    · exact ⟨n, by rw [List.cons_append, value, if_pos (by omega)], le_refl _⟩

theorem Server.Runs.times {cf : Conf} : ∀ {h2 h1 : List Hap} {e : Hap} {g : Server}, Server.Runs cf (h2 ++ e :: h1) g → ∀ x ∈ h2, e.now ≤ x.now := by
  intro h2
  induction h2 with
  | nil => intro _ _ _ _ x hx; cases hx
  | cons y h2 ih =>
    intro h1 e g hr x hx
    rw [List.cons_append] at hr
    rcases List.mem_cons.1 hx with rfl | hm
    · cases hr with
      | start hr hn _ _ => exact hn e (by simp)
      | step hr hn _ _ => exact hn e (by simp)
    · cases hr with
      | start hr _ _ _ => exact ih hr x hm
      | step hr _ _ _ => exact ih hr x hm

section
variable {op : BaseOpts} {cf : Conf} {E E' : Env} {N : Str} {more : List Rule}

/-- C103: a connection from the address of a client that was refused in this way, and decided about no more until its session ended, gets
nothing but deferrals, if it begins less than `-dndur` after that and no session from there that got somewhere ended in between. -/
theorem C103_shut (hc : Configured op cf) (hs : E.W.Static) (hN : Pattern N) (hF : LeadFile cf E (b!"reject ehlo " ++ N ++ b!" with make-yakker\n") more)
    (hcount : cf.yakCount > 0) (hlog : cf.smtplog = true)
    {h1 h2 h3 : List Hap} {g : Server} {k k' : Nat} {now now' : Int} {s s' s1 : Sess} {sh sh' sh1 sh2 : Shared} {i : Inp} {o o1 : List Out}
    (hr : Server.Runs cf (h3 ++ ⟨k', E', now', .began sh1 s1 sh2 o1⟩ :: (h2 ++ ⟨k, E, now, .stepped s sh i s' sh' o⟩ :: h1)) g)
    (hst : s.stall = false) (hend : Ends ⟨s, i, sh, s', sh', o⟩)
    {l1 l2 : List Step} {st : Step} {e : Evt} {id : Str} (hl : stepsOf k h1 = l1 ++ st :: l2) (ha : st.asked = some (.helo, e, id)) (hne : e.arg ≠ [])
    (hm : HostMatch (E.W.lib.lower e.arg) (E.W.lib.lower N)) (hlast : ∀ q ∈ l2, q.decided = false)
    (hip : E.rip ≠ []) (hsame : E'.rip = E.rip) (ht : now' - now < cf.yakTimeout)
    (hfor : ¬ Forgiven cf E.rip h2 (⟨k, E, now, .stepped s sh i s' sh' o⟩ :: h1)) :
    s1.stall = true ∧
    ∀ q ∈ stepsOf k' (h3 ++ ⟨k', E', now', .began sh1 s1 sh2 o1⟩ :: (h2 ++ ⟨k, E, now, .stepped s sh i s' sh' o⟩ :: h1)), PutOff q := by
  have hst1 : s1.stall = true := by
    obtain ⟨g1, hr1, -⟩ := hr.split
    have hb : ∀ x ∈ h2, x.now ≤ now' := by
      intro x hx
      cases hr1 with
      | start _ hn _ _ => exact hn x (by simp [hx])
    have hr2 : ∃ g2, Server.Runs cf (h2 ++ ⟨k, E, now, .stepped s sh i s' sh' o⟩ :: h1) g2 := by
      cases hr1 with
      | start h _ _ _ => exact ⟨_, h⟩
    obtain ⟨g2, hr2⟩ := hr2
    obtain ⟨g3, hr3, -⟩ := hr2.split
    have hlife : Life cf E (stepsOf k h1) s := by
      cases hr3 with
      | step h _ hk _ => exact h.life.1 _ _ hk
    have hcon : contribution cf (stepsOf k h1) ⟨s, i, sh, s', sh', o⟩ = some (.set cf.yakCount) :=
      (C39_exactly_partial hlife rfl hend).2 ⟨l1, st, l2, hl, (C103_refused hc hs hN hF hlife hst hl ha hne hm).2, hlast⟩
    obtain ⟨D, h4, h5⟩ := yakHist_since hfor (lo := now) (hi := now') fun x hx => ⟨hr2.times x hx, hb x hx⟩
    obtain ⟨v, h6, h7⟩ := value_keeps ht h5 (le_refl _) (r := yakHist cf E.rip h1)
    refine (C38_stalled_iff hr1).2 ⟨hcount, hlog, v, ?_, h7⟩
    rw [hsame, h4, yakHist, if_pos ⟨rfl, hip⟩, hcon]
    exact h6
  obtain ⟨s2, h2, h3, -⟩ := hr.settled
  exact ⟨hst1, fun q hq => (C38_stalled_effect hc.built hr h2 (h3.trans hst1) q hq).1⟩

end

/-! ## The example itself -/

/-- `reject ehlo ylmf-pc with make-yakker` and a further rule, besides the standard rules. -/
def ylmfConf : Conf := { demoConfY with rulefiles := [b!"/m", b!"/n"] }
def ylmfEnv : Env := manualEnv b!"reject ehlo ylmf-pc with make-yakker\n" b!"accept all\n"

theorem ylmf_configured : Configured ⟨true, false, [], [], []⟩ ylmfConf :=
  ⟨⟨cleanNil, cleanNil, cleanNil⟩, ⟨demoLib, fun _ _ => .notExist [], 5, C11_base_rules _ _ _ _ cleanNil cleanNil cleanNil⟩,
   ⟨demoLib, fun _ _ => .notExist [], 5, C11_stall_rules _ _ _⟩⟩

theorem ylmf_lead : LeadFile ylmfConf ylmfEnv (b!"reject ehlo " ++ b!"ylmf-pc" ++ b!" with make-yakker\n") [ruleOf .any .accept [⟨.all, {}⟩]] :=
  ⟨by decide, b!"/m", [b!"/n"], by decide, rfl, by decide +kernel, by decide +kernel⟩

example : Pattern b!"ylmf-pc" ∧ HostMatch (demoLib.lower b!"YLMF-PC") (demoLib.lower b!"ylmf-pc") ∧ ylmfEnv.W.Static :=
  ⟨⟨by decide +kernel, by decide +kernel⟩, .inl (by decide +kernel), demoWorld_static⟩

/-- What is said to the client in each connection, oldest first, and which connections are stalled, newest first. -/
def ylmfSees (as : List Act) : Option (List (List (List Reply)) × List Bool) :=
  served (fun h _ => ([0, 1, 2].map fun k => ((stepsOf k h).drop 2).map fun st => sent st.out, stalls h)) ylmfConf as

/-- The first session is refused; so is everything in the next one, but not in one that comes later than `-dndur`. -/
example : ylmfSees (session 0 ylmfEnv 1 [.helo false b!"ylmf-pc", .done] ++ session 1 ylmfEnv 50 (manualMail b!"a@example.com" b!"b@example.com" ++ [.done]) ++
      session 2 ylmfEnv 150 (manualMail b!"a@example.com" b!"b@example.com")) =
    some ([[[.reject], []], [[.tempfail], [.tempfail], [.tempfail], [.tempfail], []], [[], [.accept], [.accept], [.accept]]], [false, true, false]) := by
  decide +kernel

/-- C103, against the manual ("this happens regardless of what additional progress is made in the session", doc.go:687-688): a client that says EHLO
once more, with another name, is not marked. -/
theorem C103_escape : ∃ h g, Server.Runs ylmfConf h g ∧
    (∃ st ∈ stepsOf 0 h, st.asked = some (.helo, ⟨false, b!"ylmf-pc"⟩, []) ∧ sent st.out = [.reject] ∧ marked st = true) ∧
    (∃ st ∈ stepsOf 0 h, Ends st) ∧ (∃ sh s sh' o, h.head? = some ⟨1, ylmfEnv, 2, .began sh s sh' o⟩ ∧ s.stall = false) ∧ recorded g ylmfEnv.rip = some 1 := by
  have hx : served (fun h g => ((stepsOf 0 h).any (fun st => decide (st.asked = some (.helo, ⟨false, b!"ylmf-pc"⟩, []) ∧ sent st.out = [.reject] ∧ marked st = true)),
      (stepsOf 0 h).any (fun st => decide (Ends st)), recorded g ylmfEnv.rip))
      ylmfConf (session 0 ylmfEnv 1 [.helo false b!"ylmf-pc", .helo false b!"me", .done]) = some (true, true, some 1) := by decide +kernel
  have hy : (serveAll ylmfConf (session 0 ylmfEnv 1 [.helo false b!"ylmf-pc", .helo false b!"me", .done])).bind (fun r =>
      match startSess ylmfConf ylmfEnv r.2.sh { now := 2 } with
      | .ok (s, sh', _) => if s.stall = false ∧ r.1.all (fun e => decide (e.now ≤ 2)) = true ∧ (r.2.conns 1).isNone = true then
          some (recorded ⟨sh', r.2.conns⟩ ylmfEnv.rip) else none
      | .error _ => none) = some (some 1) := by decide +kernel
  unfold served at hx
  cases hs : serveAll ylmfConf (session 0 ylmfEnv 1 [.helo false b!"ylmf-pc", .helo false b!"me", .done]) with
  | none => rw [hs] at hx; cases hx
  | some r =>
    rw [hs] at hx hy
    simp only [Option.map_some, Option.some.injEq, Prod.mk.injEq] at hx
    simp only [Option.bind_some] at hy
    split at hy
    · rename_i s sh' o hst
      split at hy
      · rename_i hc
        have hc3 : r.2.conns 1 = none := by simpa using hc.2.2
        obtain ⟨st, h1, h2⟩ := List.any_eq_true.mp hx.1
        obtain ⟨st', h3, h4⟩ := List.any_eq_true.mp hx.2.1
        refine ⟨_, _, Server.Runs.start (serveAll_runs hs) (by simpa using hc.2.1) hc3 hst, ⟨st, ?_, of_decide_eq_true h2⟩, ⟨st', ?_, of_decide_eq_true h4⟩,
          ⟨_, _, _, _, rfl, hc.1⟩, Option.some.inj hy⟩
        · simpa [stepsOf] using h1
        · simpa [stepsOf] using h3
      · cases hy
    · cases hy

end Sink
