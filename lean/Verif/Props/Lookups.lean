import Verif.Lemmas.Lookups
import Verif.Props.Replies

/-!
# C75: the outside world is asked only what the rules need
-/

namespace Sink
open Spec Relation

theorem checkClauses_adds {W : World} {tr : TransR} : ∀ {cs : List RClause} {c c' : Ctx} {b : Bool},
    checkClauses W tr cs c = .ok (b, c') → Adds (fun ev => ∃ cl ∈ cs, Asks W tr c.mail cl.expr ev) c.trace c'.trace ∧ c'.mail = c.mail := by
  intro cs
  induction cs with
  | nil => intro c c' b h; cases h; exact ⟨.refl _, rfl⟩
  | cons rc rcs ih =>
    intro c c' b h
    rw [checkClauses] at h
    cases he : eval W tr rc.expr c with
    | error p => rw [he] at h; cases h
    | ok r =>
      obtain ⟨b1, c1⟩ := r
      rw [he] at h
      simp only [bind, Except.bind, pure, Except.pure] at h
      have h1 : Adds (fun ev => ∃ cl ∈ rc :: rcs, Asks W tr c.mail cl.expr ev) c.trace c1.trace :=
        (eval_adds _ he).mono fun ev ha => ⟨rc, by simp, ha⟩
      have hm := Ctx.core_mail (eval_steps _ he).core
      split at h
      · cases h; exact ⟨h1, hm⟩
      · split at h
        · obtain ⟨h2, h3⟩ := ih h
          rw [hm] at h2
          exact ⟨h1.trans (h2.mono fun ev ⟨cl, hc, ha⟩ => ⟨cl, List.mem_cons_of_mem _ hc, ha⟩), h3.trans hm⟩
        · cases h; exact ⟨h1, hm⟩

theorem check_adds {W : World} {tr : TransR} {r : Rule} {c c' : Ctx} {b : Bool} (h : r.check W tr c = .ok (b, c')) :
    Adds (fun ev => ∃ cl ∈ r.clauses, Asks W tr c.mail cl.expr ev) c.trace c'.trace ∧ c'.mail = c.mail :=
  checkClauses_adds (c := { c with rulemiss := false }) h

theorem ruleForEachRcpt_adds {W : World} {tr : TransR} {r : Rule} : ∀ {as : List Str} {c c' : Ctx} {b : Bool},
    ruleForEachRcpt W tr r as c = .ok (b, c') →
      Adds (fun ev => ∃ cl ∈ r.clauses, ∃ a ∈ as, Asks W tr { c.mail with rcptto := a } cl.expr ev) c.trace c'.trace ∧
      ∃ x, c'.mail = { c.mail with rcptto := x } ∧ (x = c.rcptto ∨ x ∈ as) := by
  intro as
  induction as with
  | nil => intro c c' b h; cases h; exact ⟨.refl _, c.rcptto, rfl, .inl rfl⟩
  | cons a as ih =>
    intro c c' b h
    rw [ruleForEachRcpt] at h
    cases he : r.check W tr { c with rcptto := a } with
    | error p => rw [he] at h; cases h
    | ok x =>
      obtain ⟨b1, c1⟩ := x
      rw [he] at h
      simp only [bind, Except.bind, pure, Except.pure] at h
      obtain ⟨h1, hm⟩ := check_adds he
      have hm : c1.mail = { c.mail with rcptto := a } := hm
      have h1 : Adds (fun ev => ∃ cl ∈ r.clauses, ∃ x ∈ a :: as, Asks W tr { c.mail with rcptto := x } cl.expr ev) c.trace c1.trace :=
        h1.mono fun ev ⟨cl, hc, ha⟩ => ⟨cl, hc, a, by simp, ha⟩
      split at h
      · cases h; exact ⟨h1, a, hm, .inr (by simp)⟩
      · split at h
        · cases h; exact ⟨h1, a, hm, .inr (by simp)⟩
        · obtain ⟨h2, y, h3, h4⟩ := ih h
          rw [hm] at h2 h3
          refine ⟨h1.trans (h2.mono fun ev ⟨cl, hc, x, hx, ha⟩ => ⟨cl, hc, x, List.mem_cons_of_mem _ hx, ha⟩), y, h3, .inr ?_⟩
          have hr : c1.rcptto = a := congrArg Mail.rcptto hm
          rcases h4 with h4 | h4
          · rw [h4, hr]; simp
          · exact List.mem_cons_of_mem _ h4

/-- What the client has said, with a recipient that may be one of those accepted. -/
def MailOf (tr : TransR) (ph : Phase) (m : Mail) (c : Ctx) : Prop :=
  ∃ x, c.mail = { m with rcptto := x } ∧ (x = m.rcptto ∨ (ph > .rto ∧ x ∈ tr.rcptto))

theorem runRule_adds {W : World} {tr : TransR} {ph : Phase} {r : Rule} {m : Mail} {c c' : Ctx} {b : Bool} (hel : Eligible ph r)
    (hm : MailOf tr ph m c) (h : runRule W tr ph r c = .ok (b, c')) : Adds (RuleAsks W tr m ph r) c.trace c'.trace ∧ MailOf tr ph m c' := by
  unfold runRule at h
  simp only at h
  obtain ⟨x, hx, hx'⟩ := hm
  split at h
  · rename_i hp
    obtain ⟨h1, y, h2, h3⟩ := ruleForEachRcpt_adds h
    have hc : ({ c with rulemiss := false } : Ctx).mail = { m with rcptto := x } := hx
    rw [hc] at h1 h2
    refine ⟨h1.mono fun ev ⟨cl, hcl, a, ha, h⟩ => ⟨hel, cl, hcl, .inr ⟨hp.1, a, ha, h⟩⟩, y, h2, ?_⟩
    have hr : c.rcptto = x := congrArg Mail.rcptto hx
    rcases h3 with h3 | h3
    · rw [h3]
      show c.rcptto = _ ∨ _
      rw [hr]; exact hx'
    · exact .inr ⟨hp.1, h3⟩
  · obtain ⟨h1, h2⟩ := check_adds h
    have hc : ({ c with rulemiss := false } : Ctx).mail = { m with rcptto := x } := hx
    rw [hc] at h1 h2
    refine ⟨h1.mono fun ev ⟨cl, hcl, h⟩ => ⟨hel, cl, hcl, ?_⟩, x, h2, hx'⟩
    rcases hx' with rfl | ⟨h3, h4⟩
    · exact .inl h
    · exact .inr ⟨h3, x, h4, h⟩

theorem ruleLoop_adds {W : World} {tr : TransR} {ph : Phase} (hph : ph ≠ .any) {m : Mail} : ∀ {rs : List Rule} {c c' : Ctx} {a : Action},
    MailOf tr ph m c → ruleLoop W tr ph rs c = .ok (a, c') →
    ∃ seen rest, rs = seen ++ rest ∧ Adds (fun ev => ∃ r ∈ seen, RuleAsks W tr m ph r ev) c.trace c'.trace ∧
      (rest ≠ [] → ∃ r, seen.getLast? = some r ∧ Eligible ph r ∧ r.result ≥ .accept ∧ a = r.result) := by
  intro rs
  induction rs with
  | nil => intro c c' a hm h; cases h; exact ⟨[], [], rfl, .refl _, fun h => absurd rfl h⟩
  | cons r rs ih =>
    intro c c' a hm h
    have more : ∀ {c1 : Ctx}, MailOf tr ph m c1 → ruleLoop W tr ph rs c1 = .ok (a, c') →
        Adds (fun ev => RuleAsks W tr m ph r ev) c.trace c1.trace →
        ∃ seen rest, r :: rs = seen ++ rest ∧ Adds (fun ev => ∃ r ∈ seen, RuleAsks W tr m ph r ev) c.trace c'.trace ∧
          (rest ≠ [] → ∃ r, seen.getLast? = some r ∧ Eligible ph r ∧ r.result ≥ .accept ∧ a = r.result) := by
      intro c1 hm1 h ha
      obtain ⟨seen, rest, h1, h2, h3⟩ := ih hm1 h
      refine ⟨r :: seen, rest, by rw [h1]; rfl, ?_, fun hr => ?_⟩
      · exact (ha.mono fun ev h => ⟨r, by simp, h⟩).trans (h2.mono fun ev ⟨q, hq, h⟩ => ⟨q, List.mem_cons_of_mem _ hq, h⟩)
      · obtain ⟨q, hq, hq'⟩ := h3 hr
        refine ⟨q, ?_, hq'⟩
        cases seen with
        | nil => cases hq
        | cons y ys => rw [List.getLast?_cons_cons]; exact hq
    rw [ruleLoop] at h
    split at h
    · exact more hm h (.refl _)
    · rename_i hsk
      have hel : Eligible ph r := (skipRule_iff hph).1 (by simpa using hsk)
      cases he : runRule W tr ph r c with
      | error p => rw [he] at h; cases h
      | ok x =>
        obtain ⟨b1, c1⟩ := x
        rw [he] at h
        simp only [bind, Except.bind, pure, Except.pure] at h
        obtain ⟨h1, h2⟩ := runRule_adds hel hm he
        split at h
        · exact more h2 h h1
        · split at h
          · rename_i hres
            cases h
            exact ⟨[r], rs, rfl, h1.mono fun ev h => ⟨r, by simp, h⟩, fun _ => ⟨r, rfl, hel, hres.2, rfl⟩⟩
          · exact more h2 h h1

/-- **C75.** A decision asks the outside world only what rules taking part in this phase ask, and no rule after the one that decided: if some
rules were not looked at, the last one looked at gave the result (or, for `MAIL FROM:<>`, the refusal to come). -/
theorem C75_decision {W : World} {tr : TransR} {ph : Phase} {e : Evt} {c c' : Ctx} {a : Action} (hph : ph ≠ .any)
    (h : Decide W tr ph e c = .ok (a, c')) :
    ∃ evs seen rest, c'.trace = evs ++ c.trace ∧ c.ruleset = seen ++ rest ∧
      (∀ ev ∈ evs, ∃ r ∈ seen, RuleAsks W tr (c.mail.said ph e) ph r ev) ∧
      (evs ≠ [] → rest ≠ [] → ∃ r, seen.getLast? = some r ∧ Eligible ph r ∧ (a = r.result ∨ (ph = .mfrom ∧ e.arg = [] ∧ a = .accept ∧ c'.defresult = r.result))) := by
  have hm : MailOf tr ph (c.mail.said ph e) (begun ph e c) :=
    ⟨(c.mail.said ph e).rcptto, by rw [← shadow_mail]; rfl, .inl rfl⟩
  have ht : (begun ph e c).trace = c.trace := by cases ph <;> rfl
  cases decide_end h with
  | pending _ => exact ⟨[], [], c.ruleset, by simpa using ht, rfl, by simp, fun h => absurd rfl h⟩
  | plain _ hl _ =>
    obtain ⟨seen, rest, h1, ⟨evs, h2, h2'⟩, h3⟩ := ruleLoop_adds hph hm hl
    refine ⟨evs, seen, rest, by rw [h2, ht], h1, h2', fun _ hr => ?_⟩
    obtain ⟨r, hr1, hr2, -, hr4⟩ := h3 hr
    exact ⟨r, hr1, hr2, .inl hr4⟩
  | defer _ hl hp he _ =>
    obtain ⟨seen, rest, h1, ⟨evs, h2, h2'⟩, h3⟩ := ruleLoop_adds hph hm hl
    refine ⟨evs, seen, rest, by rw [← ht, ← h2], h1, h2', fun _ hr => ?_⟩
    obtain ⟨r, hr1, hr2, -, hr4⟩ := h3 hr
    exact ⟨r, hr1, hr2, .inr ⟨hp, he, rfl, hr4⟩⟩

/-! ## Connections -/

/-- Finding the names of an address: the reverse query, and a query for each name it gave. -/
inductive Spec.ReverseQuery (W : World) (ip : Str) : Ev → Prop
  | names : ReverseQuery W ip (.lookupAddr ip)
  | back {n : Nat} {ns : List Str} {x : Str} : W.lookupAddr n ip = .ok ns → x ∈ ns → ReverseQuery W ip (.lookupIP x)

/-- The query for the reasons of an SBL listing. -/
def Spec.SblQuery (rip : Str) (ev : Ev) : Prop :=
  ∃ s0 s1 s2 s3 more, rip = s0 ++ b!"." ++ s1 ++ b!"." ++ s2 ++ b!"." ++ s3 ++ more ∧ (more = [] ∨ b!"." <+: more) ∧
    (∀ s ∈ [s0, s1, s2, s3], c!"." ∉ s) ∧
    ev = .lookupTXT (s3 ++ b!"." ++ s2 ++ b!"." ++ s1 ++ b!"." ++ s0 ++ b!".sbl.spamhaus.org.")

/-- The phase of a step in which the rules are asked, and what they are asked about. -/
def Spec.Step.phase (st : Step) : Option (Phase × Evt) :=
  if st.pre.pc = .connect then some (.connect, {}) else st.asked.map fun x => (x.1, x.2.1)

/-- What is known of the connection during a step: the reverse DNS names are looked up before the first decision. -/
def Spec.Step.facts (st : Step) : TransR := { st.pre.trans.r with rdns := st.post.trans.rdns }

/-- What a step may ask the outside world. -/
def Spec.Step.MayAsk (E : Env) (st : Step) (ev : Ev) : Prop :=
  (st.pre.pc = .connect ∧ ReverseQuery E.W st.pre.trans.rip ev) ∨
  (∃ ph e, st.phase = some (ph, e) ∧ ∃ r ∈ st.pre.c.ruleset, RuleAsks E.W st.facts (st.pre.c.mail.said ph e) ph r ev) ∨
  (st.decided = true ∧ st.pre.trans.hasLog = true ∧ b!"sbl.spamhaus.org." ∈ st.post.c.dnsblhit ∧ SblQuery st.pre.trans.rip ev)

theorem getSBLHits_adds {W : World} {rip : Str} {t t' : Trace} {l : List Str} (h : getSBLHits W rip t = .ok (l, t')) :
    Adds (SblQuery rip) t t' := by
  unfold getSBLHits at h
  split at h
  · rename_i s0 s1 s2 s3 more hsp
    obtain ⟨-, h2, h3⟩ := splitOn_spec c!"." rip
    rw [hsp] at h2 h3
    have hq : SblQuery rip (.lookupTXT (s3 ++ b!"." ++ s2 ++ b!"." ++ s1 ++ b!"." ++ s0 ++ b!".sbl.spamhaus.org.")) := by
      have h4 : ∀ s ∈ [s0, s1, s2, s3], c!"." ∉ s := fun s hs => h3 s (by
        simp only [List.mem_cons, List.not_mem_nil, or_false] at hs ⊢
        rcases hs with rfl | rfl | rfl | rfl <;> simp)
      cases more with
      | nil => exact ⟨s0, s1, s2, s3, [], by rw [h2]; simp [join], .inl rfl, h4, rfl⟩
      | cons x xs => exact ⟨s0, s1, s2, s3, b!"." ++ join b!"." (x :: xs), by rw [h2]; simp [join], .inr ⟨_, rfl⟩, h4, rfl⟩
    simp only at h
    split at h <;> · cases h; exact .one hq
  · cases h

theorem logSbls_adds {W : World} {rip : Str} : ∀ {hs : List Str} {t t' : Trace} {o : List Out},
    logSbls W rip hs t = .ok (o, t') → Adds (fun ev => b!"sbl.spamhaus.org." ∈ hs ∧ SblQuery rip ev) t t' := by
  intro hs
  induction hs with
  | nil => intro t t' o h; cases h; exact .refl _
  | cons x hs ih =>
    intro t t' o h
    rw [logSbls] at h
    split at h
    · rename_i hx
      cases h1 : getSBLHits W rip t with
      | error p => rw [h1] at h; cases h
      | ok r =>
        rw [h1] at h
        simp only [bind, Except.bind, pure, Except.pure] at h
        cases h2 : logSbls W rip hs r.2 with
        | error p => rw [h2] at h; cases h
        | ok q =>
          rw [h2] at h
          simp only at h
          have a1 : Adds (fun ev => b!"sbl.spamhaus.org." ∈ x :: hs ∧ SblQuery rip ev) t r.2 :=
            (getSBLHits_adds (l := r.1) h1).mono fun ev he => ⟨by rw [hx]; simp, he⟩
          have a2 : Adds (fun ev => b!"sbl.spamhaus.org." ∈ x :: hs ∧ SblQuery rip ev) r.2 q.2 :=
            (ih (o := q.1) h2).mono fun ev he => ⟨List.mem_cons_of_mem _ he.1, he.2⟩
          split at h <;> · cases h; exact a1.trans a2
    · exact (ih h).mono fun ev he => ⟨List.mem_cons_of_mem _ he.1, he.2⟩

theorem logDnsbls_adds {W : World} {t t' : Trans} {c c' : Ctx} {o : List Out} (h : logDnsbls W t c = .ok (t', c', o)) :
    Adds (fun ev => t.hasLog = true ∧ b!"sbl.spamhaus.org." ∈ c'.dnsblhit ∧ SblQuery t.rip ev) c.trace c'.trace := by
  unfold logDnsbls at h
  split at h
  · cases h; exact .refl _
  · rename_i hc
    simp only at h
    split at h
    · cases h; exact .refl _
    · split at h
      · cases h
      · rename_i hs
        cases h
        refine (logSbls_adds hs).mono fun ev he => ⟨?_, he.1, he.2⟩
        cases hl : t.hasLog with
        | true => rfl
        | false => exact absurd (.inr hl) hc

theorem rdnsLoop_adds {W : World} {eip : Option IP} : ∀ {names : List Str} {r : RDNS} {t : Trace},
    Adds (fun ev => ∃ x ∈ names, ev = .lookupIP x) t (rdnsLoop W eip names r t).2 := by
  intro names
  induction names with
  | nil => intro r t; exact .refl _
  | cons a names ih =>
    intro r t
    have key : ∀ r', Adds (fun ev => ∃ x ∈ a :: names, ev = .lookupIP x) t (rdnsLoop W eip names r' (.lookupIP a :: t)).2 := fun r' =>
      (Adds.one ⟨a, by simp, rfl⟩).trans (ih.mono fun ev ⟨x, hx, he⟩ => ⟨x, List.mem_cons_of_mem _ hx, he⟩)
    rw [rdnsLoop]
    split
    · exact key _
    · split <;> exact key _

theorem lookupAddrVerified_adds (W : World) (ip : Str) (t : Trace) : Adds (ReverseQuery W ip) t (lookupAddrVerified W ip t).2 := by
  unfold lookupAddrVerified
  split
  · exact .refl _
  · simp only
    split
    · exact .one .names
    · rename_i names hn
      exact (Adds.one .names).trans (rdnsLoop_adds.mono fun ev ⟨x, hx, he⟩ => by rw [he]; exact .back hn ((sortStrs_perm names).mem_iff.1 hx))

theorem DecR.adds {E : Env} {ph : Phase} {evt : Evt} {id : Str} {s s' : Sess} {ref : Bool} {o : List Out} {res : Action} {c1 : Ctx}
    (h : DecR E ph evt id s ref s' o res c1) (hp : ph ≠ .any) :
    Adds (fun ev => (∃ r ∈ s.c.ruleset, RuleAsks E.W s.trans.r (s.c.mail.said ph evt) ph r ev) ∨
      (s.trans.hasLog = true ∧ b!"sbl.spamhaus.org." ∈ s'.c.dnsblhit ∧ SblQuery s.trans.rip ev)) s.c.trace s'.c.trace ∧
    s'.trans.rdns = s.trans.rdns := by
  obtain ⟨evs, sn, rest, h1, h2, h3, -⟩ := C75_decision hp h.dec
  obtain ⟨t1, o1, o3, hl, -⟩ := h.said
  obtain ⟨m, a, ht⟩ := h.trans
  refine ⟨Adds.trans (b := c1.trace) ⟨evs, h1, fun ev he => ?_⟩ ((logDnsbls_adds hl).mono fun ev he => .inr he), by rw [ht]⟩
  obtain ⟨r, hr, ha⟩ := h3 ev he
  exact .inl ⟨r, by rw [h2]; simp [hr], ha⟩

/-- **C75.** In each step a connection asks the outside world only: on connecting, for the names of the client's address; when the rules are
asked, what rules taking part in that phase ask; and for the reasons of a reported SBL listing.  In all other steps it asks nothing. -/
theorem C75_step {cf : Conf} {E : Env} {st : Step} (h : st.Ok cf E) :
    ∃ evs, st.post.c.trace = evs ++ st.pre.c.trace ∧ ∀ ev ∈ evs, st.MayAsk E ev := by
  obtain ⟨pre, i, sh, post, sh', out⟩ := st
  have hd : Did cf E pre sh i post sh' out := sstep_did h
  show Adds (Step.MayAsk E ⟨pre, i, sh, post, sh', out⟩) pre.c.trace post.c.trace
  have conn : ∀ {ref s1 o res c1}, pre.pc = .connect → DecR E .connect {} [] (pre.withRdns E) ref s1 o res c1 →
      post.c = s1.c → post.trans = s1.trans → Adds (Step.MayAsk E ⟨pre, i, sh, post, sh', out⟩) pre.c.trace post.c.trace := by
    intro ref s1 o res c1 hp hd hc ht
    obtain ⟨h1, h2⟩ := hd.adds (by decide)
    rw [hc]
    refine Adds.trans (b := (pre.withRdns E).c.trace) ((lookupAddrVerified_adds E.W pre.trans.rip pre.c.trace).mono fun ev he => .inl ⟨hp, he⟩)
      (h1.mono fun ev he => ?_)
    rcases he with ⟨r, hr, ha⟩ | ⟨h3, h4, h5⟩
    · refine .inr (.inl ⟨.connect, {}, by simp [Step.phase, hp], r, hr, ?_⟩)
      have : (Step.mk pre i sh post sh' out).facts = (pre.withRdns E).trans.r := by
        show ({ pre.trans.r with rdns := post.trans.rdns } : TransR) = _
        rw [ht, h2]; rfl
      rw [this]; exact ha
    · exact .inr (.inr ⟨by simp [Step.decided, hp], h3, by rw [hc]; exact h4, h5⟩)
  have other : ∀ {ph evt id ref s1 o res c1}, DecR E ph evt id pre ref s1 o res c1 → ph ≠ .any →
      (Step.mk pre i sh post sh' out).phase = some (ph, evt) → (Step.mk pre i sh post sh' out).decided = true →
      post.c = s1.c → post.trans.rdns = s1.trans.rdns → Adds (Step.MayAsk E ⟨pre, i, sh, post, sh', out⟩) pre.c.trace post.c.trace := by
    intro ph evt id ref s1 o res c1 hd hp hph hdec hc ht
    obtain ⟨h1, h2⟩ := hd.adds hp
    rw [hc]
    refine h1.mono fun ev he => ?_
    rcases he with ⟨r, hr, ha⟩ | ⟨h3, h4, h5⟩
    · refine .inr (.inl ⟨ph, evt, hph, r, hr, ?_⟩)
      have : (Step.mk pre i sh post sh' out).facts = pre.trans.r := by
        show ({ pre.trans.r with rdns := post.trans.rdns } : TransR) = _
        rw [ht, h2]; rfl
      rw [this]; exact ha
    · exact .inr (.inr ⟨hdec, h3, by rw [hc]; exact h4, h5⟩)
  cases hd with
  | tls hp ht => unfold tlsStep at ht; cases ht; exact .refl _
  | drop hp hd | connect hp hd => exact conn hp hd rfl rfl
  | heloRef hp he hd | mailRef hp he hd | rcptRef hp he hd | dataRef hp he hd =>
    exact other hd (by decide) (by simp [Step.phase, Step.asked, hp, he]) (by simp [Step.decided, hp, he]) rfl rfl
  | heloAcc hp he hd | mailAcc hp he hd | mailCount hp he hd | mailDrop hp he hd | rcptAcc hp he hd | dataAcc hp he hd =>
    exact other hd (by decide) (by simp [Step.phase, Step.asked, hp, he]) (by simp [Step.decided, hp, he]) rfl rfl
  | gotKeep | gotSave | tlserror | finish | other | save | answerFail | closed => exact .refl _
  | answerRef hp hd | answerAcc hp hd =>
    exact other hd (by decide) (by simp [Step.phase, Step.asked, hp]) (by simp [Step.decided, hp]) rfl rfl

/-- **C75.** All that was ever asked for a connection: at the beginning for the name of the server, if none was given, and the connection
parameters, if there are any; then what its steps ask. -/
theorem C75_life {cf : Conf} {E : Env} {l : List Step} {s : Sess} (h : Life cf E l s) : ∀ ev ∈ s.c.trace,
    (cf.srvname = [] ∧ ev = .lookupAddr E.lip) ∨ (cf.connfile ≠ [] ∧ ev = .openFile cf.connfile) ∨ ∃ st ∈ l, st.MayAsk E ev := by
  obtain ⟨sh, i, s0, sh0, o, hst, hr⟩ := h
  have h0 : ∀ ev ∈ s0.c.trace, (cf.srvname = [] ∧ ev = .lookupAddr E.lip) ∨ (cf.connfile ≠ [] ∧ ev = .openFile cf.connfile) := by
    unfold startSess at hst
    simp only [bind, Except.bind, pure, Except.pure] at hst
    split at hst
    · cases hst
    · split at hst
      · cases hst
      · rename_i n hn
        cases hst
        have h1 : ∀ ev ∈ n.2, cf.srvname = [] ∧ ev = .lookupAddr E.lip := by
          unfold serverName at hn
          split at hn
          · cases hn; simp
          · rename_i hs
            have hs : cf.srvname = [] := by simpa using hs
            split at hn
            · cases hn; simp [hs]
            · cases hn; simp [hs]
            · split at hn
              · cases hn
              · cases hn; simp [hs]
        show ∀ ev ∈ (connParams cf E n.1 n.2).2.2.1, _
        unfold connParams
        split
        · exact fun ev he => .inl (h1 ev he)
        · rename_i hc
          have h2 : ∀ ev ∈ Ev.openFile cf.connfile :: n.2, (cf.srvname = [] ∧ ev = .lookupAddr E.lip) ∨ (cf.connfile ≠ [] ∧ ev = .openFile cf.connfile) := by
            intro ev he
            rcases List.mem_cons.1 he with rfl | he
            · exact .inr ⟨hc, rfl⟩
            · exact .inl (h1 ev he)
          simp only
          split
          · exact h2
          · split <;> exact h2
  refine Spec.Run.ind (P := fun l s => ∀ ev ∈ s.c.trace, (cf.srvname = [] ∧ ev = .lookupAddr E.lip) ∨
    (cf.connfile ≠ [] ∧ ev = .openFile cf.connfile) ∨ ∃ st ∈ l, st.MayAsk E ev) hr (fun ev he => (h0 ev he).imp_right .inl) ?_
  intro l s1 s2 sh sh' i o _ ih _ hs ev he
  obtain ⟨evs, h1, h2⟩ := C75_step (cf := cf) (st := ⟨s1, i, sh, s2, sh', o⟩) hs
  rw [h1] at he
  rcases List.mem_append.1 he with he | he
  · exact .inr (.inr ⟨_, by simp, h2 ev he⟩)
  · rcases ih ev he with h | h | ⟨st, h, h'⟩
    · exact .inl h
    · exact .inr (.inl h)
    · exact .inr (.inr ⟨st, by simp [h], h'⟩)

/-- A rule asking a DNS blocklist about the client, in MAIL FROM only; a rule reading a file, at RCPT TO. -/
def askingRules : Env := { demoEnv with fs := fun _ => tbl (.notExist b!"no such file") [
  (b!"/rules", .data b!"@from reject dnsbl sbl.example.\nreject to /bad\n")] }

/-- What each step asked. -/
def askedFor (r : Except Panic (List Step × Sess × Shared)) : Option (List (List Ev)) :=
  match r with
  | .ok (l, _) => some (l.map fun st => (st.post.c.trace.take (st.post.c.trace.length - st.pre.c.trace.length)).reverse)
  | .error _ => none

/-- The names of the client on connecting, nothing for EHLO, the blocklist at MAIL FROM, again at the second one as there was no answer,
the file at the first RCPT TO only, and nothing at the end. -/
example : askedFor (driveAll { demoConf with base := [] } askingRules {} {} [{}, {},
    { ev := .helo false b!"mail.example.com" }, { ev := .mailfrom b!"a@example.com" }, { ev := .mailfrom b!"b@example.com" },
    { ev := .rcptto b!"c@example.com" }, { ev := .rcptto b!"d@example.com" }, { ev := .done }]) =
    some [[], [.lookupAddr b!"192.0.2.2", .lookupIP b!"mail.example.com.", .lookupIP b!"mx.example.com.", .lookupIP b!"www.example.com."],
      [], [.lookupIP b!"2.2.0.192.sbl.example."], [.lookupIP b!"2.2.0.192.sbl.example."], [.openFile b!"/bad"], [], []] := by
  decide +kernel

end Sink
