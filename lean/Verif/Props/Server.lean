import Verif.Lemmas.Server
import Verif.Spec.DemoServer

/-!
# Do-nothing clients and TLS failures: C38 to C41
-/

namespace Sink
open Spec

/-! ## C38 -/

/-- **C38.** Under any interleaving of connections: a new connection is stalled iff do-nothing detection and the SMTP log are
on and the record of its address, made up of what its earlier sessions did, is not too old and has reached the limit. -/
theorem C38_stalled_iff {cf : Conf} {h : List Hap} {g : Server} {k : Nat} {E : Env} {now : Int} {sh sh' : Shared} {s : Sess} {o : List Out}
    (hr : Server.Runs cf (⟨k, E, now, .began sh s sh' o⟩ :: h) g) :
    s.stall = true ↔ cf.yakCount > 0 ∧ cf.smtplog = true ∧ ∃ v, value cf.yakTimeout now (yakHist cf E.rip h) = some v ∧ v ≥ cf.yakCount := by
  cases hr with
  | @start h g _ _ i _ _ _ hr hn hk hs =>
    obtain ⟨rules, good, w, t, -, -, -, -, -, h6, -⟩ := startSess_ctx hs
    have := (hr.tables E.rip hn).1.lookup.1
    rw [this] at h6
    rw [h6]
    simp only [decide_eq_true_eq]
    cases value cf.yakTimeout i.now (yakHist cf E.rip h) with
    | none => simp
    | some v => simp only [Option.isSome_some, Option.getD_some, true_and, Option.some.injEq, exists_eq_left']; tauto

/-- **C38.** The effect of being stalled: everything is put off, and the session adds nothing to the table. -/
theorem C38_stalled_effect {o : BaseOpts} {cf : Conf} (hc : Built o cf) {h : List Hap} {g : Server} (hr : Server.Runs cf h g)
    {k : Nat} {E : Env} {s : Sess} (hk : g.conns k = some (E, s)) (hst : s.stall = true) :
    ∀ st ∈ stepsOf k h, PutOff st ∧ NotCounted st := by
  obtain ⟨sh, i, s0, sh0, o0, hs, hrun⟩ := hr.life.1 _ _ hk
  obtain ⟨f1, -⟩ := run_flags hrun
  obtain ⟨rules, good, w, t, -, h2, -, h4, -⟩ := startSess_ctx hs
  rw [← f1, hst] at h2 h4
  simp only [if_true, Bool.not_true, Bool.false_and] at h2 h4
  rw [hc.stall_eq] at h2
  exact (run_stalling hrun ⟨by rw [h2]; exact ⟨rfl, .inl rfl, rfl, rfl⟩, h4⟩).2

/-- Everything a session did to the record of its client. -/
def Spec.sessionOps (cf : Conf) : List Step → List Step → List IpOp
  | _, [] => []
  | done, st :: l => (contribution cf done st).toList ++ sessionOps cf (done ++ [st]) l

/-- The session abandoned a transaction here: a MAIL FROM that was not refused by the rules, after an accepted one. -/
def Spec.abandons (cf : Conf) (l : List Step) (st : Step) : Bool :=
  (match st.event with
   | some (.mailfrom _) => true
   | _ => false) && decide ((envelope l).from_ ≠ []) && !reached cf l && (st.accepted || decide (st.post.pc = .closed))

/-- The number of abandoned transactions. -/
def Spec.abandoned (cf : Conf) : List Step → List Step → Nat
  | _, [] => 0
  | done, st :: l => (if abandons cf done st then 1 else 0) + abandoned cf (done ++ [st]) l

/-- The end of a session, as the client or the network brings it about. -/
def Spec.Ends (st : Step) : Prop := st.event = some .done ∨ st.event = some .abort

instance (st : Step) : Decidable (Ends st) := by unfold Ends; infer_instance

/-- **C38.** A session that counts and never got to `-minphase` adds one for each abandoned transaction and one at its end; one
that got there removes the record at its end.  `hcnt` says that the session counts all along; no rule said `make-yakker` last. -/
theorem C38_session (cf : Conf) : ∀ (l done : List Step) (e : Step),
    (∀ l1 st l2, l ++ [e] = l1 ++ st :: l2 → Counting cf (done ++ l1) st.pre) → (∀ st ∈ l, ¬ Ends st) → Ends e →
    e.pre.c.withprops.makeYakker = none →
    sessionOps cf done (l ++ [e]) =
      List.replicate (abandoned cf done l) .add ++ [if reached cf (done ++ l) then .del else .add] := by
  intro l
  induction l with
  | nil =>
    intro done e hc _ he hm
    have hce := hc [] e [] rfl
    rw [List.append_nil] at hce
    have : contribution cf done e = some (if reached cf done then .del else .add) := by
      unfold contribution
      rcases he with he | he <;>
      · rw [he]
        simp only [hm, Option.isSome_none, Bool.false_eq_true, if_false]
        cases hr : reached cf done with
        | true => simp [hce.1]
        | false => simp [hce]
    simp [sessionOps, this, abandoned]
  | cons st l ih =>
    intro done e hc hn he hm
    have hcs := hc [] st (l ++ [e]) rfl
    rw [List.append_nil] at hcs
    have h1 := ih (done ++ [st]) e (fun l1 q l2 hl => by
      have := hc (st :: l1) q l2 (by rw [List.cons_append, hl]; rfl)
      simpa using this) (fun q hq => hn q (List.mem_cons_of_mem _ hq)) he hm
    have hns := hn st List.mem_cons_self
    have : (contribution cf done st).toList = List.replicate (if abandons cf done st then 1 else 0) .add := by
      unfold contribution abandons
      cases hev : st.event with
      | none => simp
      | some ev =>
        cases ev with
        | mailfrom a =>
          simp only [hcs, true_and]
          by_cases hx : reached cf done = false ∧ (envelope done).from_ ≠ [] ∧ (st.accepted = true ∨ st.post.pc = .closed)
          · rw [if_pos hx]
            have : (st.accepted || decide (st.post.pc = .closed)) = true := by simpa using hx.2.2
            simp [hx.1, hx.2.1, this]
          · rw [if_neg hx]
            rw [if_neg]
            · rfl
            · intro hy
              simp only [Bool.true_and, Bool.and_eq_true, decide_eq_true_eq, Bool.not_eq_true', Bool.or_eq_true] at hy
              exact hx ⟨hy.1.2, hy.1.1, hy.2⟩
        | done => exact absurd (.inl hev) hns
        | abort => exact absurd (.inr hev) hns
        | helo | rcptto | data | gotdata | tlserror | other => simp
    rw [List.cons_append, sessionOps, this, h1, abandoned]
    rw [← List.append_assoc, ← List.replicate_add]
    simp

/-- The count after adds that are less than `ttl` apart is their number, if nothing was on record before them. -/
theorem value_chain {ttl : Int} {old : List (Int × IpOp)} : ∀ {ts : List Int} {now : Int}, ts ≠ [] → Chain ttl now ts →
    value ttl (ts.getLast?.getD now) old = none → value ttl now (addsAt ts ++ old) = some ts.length := by
  intro ts
  induction ts with
  | nil => intro now h; exact absurd rfl h
  | cons t ts ih =>
    intro now _ hch hold
    cases hch with
    | cons h1 h2 =>
      show (if now - t < ttl then _ else _) = _
      rw [if_pos h1]
      cases ts with
      | nil =>
        have : value ttl t old = none := hold
        show some ((value ttl t ([] ++ old)).getD 0 + 1) = _
        rw [List.nil_append, this]
        rfl
      | cons u us =>
        have := ih (now := t) (by simp) h2 (by rw [List.getLast?_cons_cons] at hold; rw [List.getLast?_cons] at hold ⊢; exact hold)
        show some ((value ttl t (addsAt (u :: us) ++ old)).getD 0 + 1) = _
        rw [this]
        simp

/-- **C38.** A client none of whose sessions got anywhere, each of its marks less than `-dndur` after the one before it: it is
stalled iff there are at least `-dncount` marks. -/
theorem C38_useless {cf : Conf} {h : List Hap} {g : Server} {k : Nat} {E : Env} {now : Int} {sh sh' : Shared} {s : Sess} {o : List Out}
    (hr : Server.Runs cf (⟨k, E, now, .began sh s sh' o⟩ :: h) g) (hy : cf.yakCount > 0) (hl : cf.smtplog = true) {ts : List Int}
    {old : List (Int × IpOp)} (hh : yakHist cf E.rip h = addsAt ts ++ old) (hch : Chain cf.yakTimeout now ts)
    (hold : value cf.yakTimeout (ts.getLast?.getD now) old = none) : s.stall = true ↔ (ts.length : Int) ≥ cf.yakCount := by
  rw [C38_stalled_iff hr, hh]
  cases ts with
  | nil =>
    have : value cf.yakTimeout now old = none := hold
    simp only [addsAt, List.map_nil, List.nil_append, this, List.length_nil]
    constructor
    · rintro ⟨-, -, v, h, -⟩; cases h
    · intro h; simp at h; omega
  | cons t ts =>
    rw [value_chain (by simp) hch hold]
    simp [hy, hl]

/-- `-dncount 2 -dndur 100ns -minphase to -smtplog`. -/
def demoConfY : Conf := { demoConf with yakCount := 2, yakTimeout := 100, minphase := b!"to", smtplog := true, dnlog := true }

/-- Whether the connections so far are stalled, newest first. -/
def stalls (h : List Hap) : List Bool := h.filterMap fun e => match e.what with
  | .began _ s _ _ => some s.stall
  | _ => none

/-- Two useless sessions, then the client is stalled; a long pause, a useless session, a good one, and it starts again. -/
example : served (fun h _ => stalls h) demoConfY (session 0 demoEnv 1 [.helo false b!"mail.example.com", .done] ++ session 1 demoEnv 2 [.done] ++
    session 2 demoEnv 3 [.done] ++ session 3 demoEnv 103 [.done] ++
    session 4 demoEnv 104 [.helo false b!"mail.example.com", .mailfrom b!"a@example.com", .rcptto b!"u@example.com", .done] ++
    session 5 demoEnv 105 [.done] ++ session 6 demoEnv 106 []) = some [false, false, false, false, true, false, false] := by
  decide +kernel

/-! ## C39 -/

/-- Rules that mark a client. -/
def demoEnvY : Env := { demoEnv with fs := fun _ => tbl (.notExist b!"no such file") [(b!"/rules", .data b!"reject from a@ with make-yakker\n")] }

/-- Some rule said `make-yakker` in this step. -/
def marked (st : Step) : Bool := st.decided && st.post.c.withprops.makeYakker.isSome

/-- The record of an address. -/
def recorded (g : Server) (ip : Str) : Option Int := (g.sh.yak.get ip).map (·.count)

/-- **C39** does not hold: a rule says `make-yakker`, a later decision of the session does not, and when the session has
ended nothing is on record. -/
theorem C39_not_always : ∃ (h : List Hap) (g : Server), Server.Runs demoConfY h g ∧
    ((stepsOf 0 h).any marked = true) ∧ (∃ st ∈ stepsOf 0 h, Ends st) ∧ recorded g demoEnvY.rip = none := by
  have hx : served (fun h g => ((stepsOf 0 h).any marked, (stepsOf 0 h).any (fun st => decide (st.event = some .done)), recorded g demoEnvY.rip))
      demoConfY (session 0 demoEnvY 1 [.helo false b!"mail.example.com", .mailfrom b!"a@example.com", .mailfrom b!"b@example.com",
        .rcptto b!"u@example.com", .done]) = some (true, true, none) := by decide +kernel
  unfold served at hx
  cases hs : serveAll demoConfY (session 0 demoEnvY 1 [.helo false b!"mail.example.com", .mailfrom b!"a@example.com", .mailfrom b!"b@example.com",
        .rcptto b!"u@example.com", .done]) with
  | none => rw [hs] at hx; cases hx
  | some r =>
    rw [hs] at hx
    simp only [Option.map_some, Option.some.injEq, Prod.mk.injEq] at hx
    refine ⟨r.1, r.2, serveAll_runs hs, hx.1, ?_, hx.2.2⟩
    obtain ⟨st, h1, h2⟩ := List.any_eq_true.mp hx.2.1
    exact ⟨st, h1, .inl (by simpa using h2)⟩

/-- A step without a decision leaves the attributes of the last one. -/
theorem Did.withprops {cf : Conf} {E : Env} {s s' : Sess} {sh sh' : Shared} {i : Inp} {o : List Out} (h : Did cf E s sh i s' sh' o)
    (hn : (⟨s, i, sh, s', sh', o⟩ : Step).decided = false) : s'.c.withprops = s.c.withprops := by
  unfold Step.decided at hn
  cases h with
  | tls hp ht _ _ =>
    unfold tlsStep at ht
    cases ht
    rfl
  | drop hp | connect hp | answerRef hp | answerAcc hp => simp [hp] at hn
  | heloRef hp he | heloAcc hp he | mailRef hp he | mailAcc hp he | mailCount hp he | mailDrop hp he | rcptRef hp he | rcptAcc hp he
  | dataRef hp he | dataAcc hp he => simp [hp, he] at hn
  | gotKeep | gotSave | tlserror | finish | other | save | answerFail | closed => rfl

/-- **C39**, the part that holds: if `make-yakker` was set by the last decision of a session, then when the session ends the
client is on record with exactly the limit.  Missing: earlier decisions count for nothing, and a session that ends because
the server drops the connection is not recorded. -/
theorem C39_last_decision_partial {cf : Conf} {h : List Hap} {g : Server} {k : Nat} {E : Env} {now : Int} {s s' : Sess} {sh sh' : Shared}
    {i : Inp} {o : List Out} (hr : Server.Runs cf (⟨k, E, now, .stepped s sh i s' sh' o⟩ :: h) g) (hip : E.rip ≠ [])
    (hend : Ends ⟨s, i, sh, s', sh', o⟩) {pre post : List Step} {st : Step} (hl : stepsOf k h = pre ++ st :: post)
    (hm : marked st = true) (hpost : ∀ q ∈ post, q.decided = false) :
    ∀ t, now ≤ t → g.sh.yak.live E.rip cf.yakTimeout t = if t - now < cf.yakTimeout then some cf.yakCount else none := by
  cases hr with
  | @step h g _ _ i _ _ _ _ hr hn hk hs =>
    have hlife := hr.life.1 _ _ hk
    have hw : s.c.withprops.makeYakker.isSome = true := by
      obtain ⟨sh0, i0, s0, sh1, o1, h2, h3⟩ := hlife
      obtain ⟨-, -, hr2⟩ := h3.split hl
      have : (∀ q ∈ post, q.decided = false) → s.c.withprops = st.post.c.withprops :=
        Spec.Run.ind (P := fun l s => (∀ q ∈ l, q.decided = false) → s.c.withprops = st.post.c.withprops) hr2 (fun _ => rfl)
          fun l s1 s2 sh sh' i o _ ih hd _ hq => (hd.withprops (hq _ (by simp))).trans (ih fun q hq' => hq q (by simp [hq']))
      rw [this hpost]
      unfold marked at hm
      simp only [Bool.and_eq_true] at hm
      exact hm.2
    have hc : contribution cf (stepsOf k h) ⟨s, i, g.sh, s', sh', o⟩ = some (.set cf.yakCount) := by
      unfold contribution
      rcases hend with he | he <;> · rw [he]; simp only [hw, if_true]
    have hrun := Server.Runs.step hr hn hk hs
    intro t ht
    have := (hrun.tables E.rip (now := i.now) (by
      intro e he
      rcases List.mem_cons.mp he with rfl | he
      · exact Int.le_refl _
      · exact hn e he)).1 t ht
    rw [this]
    simp only [yakHist, hip, ne_eq, not_false_eq_true, and_self, if_true, hc, Option.map_some, Option.toList_some, List.singleton_append, value]

/-- **C39**, exactly which sessions mark the client: at the end of a session (after the steps `l`) the record is set to the limit iff the last
decision of the session said `make-yakker`.  So earlier ones count for nothing. -/
theorem C39_exactly_partial {cf : Conf} {E : Env} {l : List Step} {s : Sess} (hl : Life cf E l s) {st : Step} (hst : st.pre = s) (hend : Ends st) :
    contribution cf l st = some (.set cf.yakCount) ↔
      ∃ pre q post, l = pre ++ q :: post ∧ marked q = true ∧ ∀ x ∈ post, x.decided = false := by
  have hc : contribution cf l st = some (.set cf.yakCount) ↔ s.c.withprops.makeYakker.isSome = true := by
    unfold contribution
    rcases hend with he | he <;>
      · rw [he, hst]
        simp only
        split
        · rename_i h; simp [h]
        · rename_i h
          simp only [h]
          repeat' split
          all_goals simp
  rw [hc]
  obtain ⟨sh0, i0, s0, sh1, o1, h2, h3⟩ := hl
  have h0 : s0.c.withprops.makeYakker = none := by
    obtain ⟨rules, good, w, t, -, hc, -⟩ := startSess_ctx h2
    rw [hc]
    rfl
  refine Spec.Run.ind (P := fun l s => s.c.withprops.makeYakker.isSome = true ↔
      ∃ pre q post, l = pre ++ q :: post ∧ marked q = true ∧ ∀ x ∈ post, x.decided = false) h3 ?_ ?_
  · rw [h0]
    simp
  · intro l s1 s2 sh sh' i o _ ih hd _
    cases hdec : (⟨s1, i, sh, s2, sh', o⟩ : Step).decided with
    | false =>
      rw [hd.withprops hdec, ih]
      constructor
      · rintro ⟨pre, q, post, rfl, hq, hp⟩
        exact ⟨pre, q, post ++ [⟨s1, i, sh, s2, sh', o⟩], by simp, hq, fun x hx => by
          rcases List.mem_append.1 hx with hx | hx
          · exact hp x hx
          · rw [List.mem_singleton.1 hx]; exact hdec⟩
      · rintro ⟨pre, q, post, he, hq, hp⟩
        rcases List.eq_nil_or_concat post with rfl | ⟨post', x, rfl⟩
        · rw [← List.concat_eq_append, ← List.concat_eq_append] at he
          have := (List.concat_inj.1 he).2
          subst this
          simp [marked, hdec] at hq
        · have he' : l ++ [⟨s1, i, sh, s2, sh', o⟩] = (pre ++ q :: post') ++ [x] := by simpa using he
          rw [← List.concat_eq_append, ← List.concat_eq_append] at he'
          exact ⟨pre, q, post', (List.concat_inj.1 he').1, hq, fun y hy => hp y (by simp [hy])⟩
    | true =>
      constructor
      · exact fun hm => ⟨l, _, [], rfl, by simp [marked, hdec, hm], by simp⟩
      · rintro ⟨pre, q, post, he, hq, hp⟩
        rcases List.eq_nil_or_concat post with rfl | ⟨post', x, rfl⟩
        · rw [← List.concat_eq_append, ← List.concat_eq_append] at he
          have := (List.concat_inj.1 he).2
          subst this
          simp only [marked, hdec, Bool.true_and] at hq
          exact hq
        · have he' : l ++ [⟨s1, i, sh, s2, sh', o⟩] = (pre ++ q :: post') ++ [x] := by simpa using he
          rw [← List.concat_eq_append, ← List.concat_eq_append] at he'
          have := (List.concat_inj.1 he').2
          subst this
          have := hp _ (by rw [List.concat_eq_append]; exact List.mem_append_right _ (List.mem_singleton.2 rfl))
          rw [hdec] at this
          cases this

/-- The last decision of the session marks the client. -/
example : served (fun _ g => recorded g demoEnvY.rip) demoConfY
    (session 0 demoEnvY 1 [.helo false b!"mail.example.com", .mailfrom b!"a@example.com", .done]) = some (some 2) := by
  decide +kernel

/-! ## C40 -/

/-- The client is reported as a new do-nothing client. -/
def Spec.Reports (o : List Out) : Prop := Out.count .yakads ∈ o

instance (o : List Out) : Decidable (Reports o) := by unfold Reports; infer_instance

theorem Mild.silent {o : List Out} (h : Mild o) : ¬ Reports o := fun hx => absurd (h _ hx) (by decide)

theorem silent_append {a b : List Out} : Reports (a ++ b) ↔ Reports a ∨ Reports b := List.mem_append

theorem silent_cons {x : Out} {b : List Out} (hx : x.mild = true) : Reports (x :: b) ↔ Reports b := by
  unfold Reports
  rw [List.mem_cons]
  constructor
  · rintro (h | h)
    · rw [← h] at hx; exact absurd hx (by decide)
    · exact h
  · exact .inr

/-- When a step reports its client, `v` being the count on record before it. -/
def Spec.ReportRule (cf : Conf) (v : Int) (st : Step) : Option IpOp → Prop
  | some .add => if Ends st then v + 1 = cf.yakCount else v + 1 > cf.yakCount
  | some (.set _) => v ≠ cf.yakCount
  | _ => False

theorem silent_writeLog {t : Trans} {x : Str} : ¬ Reports (writeLog t x) := (mild_writeLog t x).silent

theorem silent_yakLog {cf : Conf} {E : Env} {i : Inp} {t : Trans} {x : Str} : ¬ Reports (yakLog cf E i t x) := by
  unfold yakLog Reports
  split <;> simp

/-- The three kinds of steps. -/
theorem Did.reports {cf : Conf} {E : Env} {s s' : Sess} {sh sh' : Shared} {i : Inp} {o : List Out} (h : Did cf E s sh i s' sh' o)
    {l : List Step} (hl : SessOK cf E l s) :
    (contribution cf l ⟨s, i, sh, s', sh', o⟩ = none ∧ ¬ Reports o) ∨
    (contribution cf l ⟨s, i, sh, s', sh', o⟩ = some .add ∧ ¬ Ends ⟨s, i, sh, s', sh', o⟩ ∧
      (Reports o ↔ (sh.yak.add E.rip cf.yakTimeout i.now).1 > cf.yakCount)) ∨
    (Ends ⟨s, i, sh, s', sh', o⟩ ∧
      match contribution cf l ⟨s, i, sh, s', sh', o⟩ with
      | some .add => Reports o ↔ (sh.yak.add E.rip cf.yakTimeout i.now).1 = cf.yakCount
      | some (.set _) => Reports o ↔ (sh.yak.set E.rip cf.yakTimeout cf.yakCount i.now).1 ≠ cf.yakCount
      | _ => ¬ Reports o) := by
  unfold contribution Ends Step.event Step.accepted
  have counts_iff : ∀ {ph evt id ref s1 o res c1}, DecR E ph evt id s ref s1 o res c1 →
      (s1.counts ↔ (envelope l).from_ ≠ [] ∧ reached cf l = false ∧ Counting cf l s) := by
    intro ph evt id ref s1 o res c1 hd
    unfold Sess.counts
    rw [hd.sc, hd.got, hl.got, hl.counts]
    obtain ⟨m, a, ht⟩ := hd.trans
    rw [ht]
    simp only
    rw [hl.from_]
  have hrip : ∀ {ph evt id ref s1 o res c1}, DecR E ph evt id s ref s1 o res c1 → s1.trans.rip = E.rip := by
    intro ph evt id ref s1 o res c1 hd
    rw [hd.rip, hl.rip]
  have one : ∀ {ph evt id ref s1 o res c1} {c : Counter}, DecR E ph evt id s ref s1 o res c1 → (Out.count c).mild = true →
      ¬ Reports (.count c :: o) := by
    intro ph evt id ref s1 o res c1 c hd hc
    rw [silent_cons hc]
    exact hd.mild.silent
  have two : ∀ {ph evt id ref s1 o res c1} {c : Counter} {o' : List Out}, DecR E ph evt id s ref s1 o res c1 → (Out.count c).mild = true →
      Mild o' → ¬ Reports (.count c :: o ++ o') := by
    intro ph evt id ref s1 o res c1 c o' hd hc ho
    rw [List.cons_append, silent_cons hc, silent_append]
    rintro (h | h)
    · exact hd.mild.silent h
    · exact ho.silent h
  have acc : ∀ {r : Reply} {c : Counter}, (Out.count c).mild = true → Mild [.reply r, .count c] := fun hc => .cons rfl (.cons hc .nil)
  cases h with
  | tls hp ht _ hm => simp only [hp, reduceCtorEq, if_false]; exact .inl ⟨by trivial, hm.silent⟩
  | drop hp hd _ hm => simp only [hp, reduceCtorEq, if_false]; exact .inl ⟨by trivial, (hd.mild.append hm).silent⟩
  | connect hp hd => simp only [hp, reduceCtorEq, if_false]; exact .inl ⟨by trivial, hd.mild.silent⟩
  | heloRef hp he hd => simp only [hp, he, if_true]; exact .inl ⟨by trivial, one hd rfl⟩
  | heloAcc hp he hd _ hm => simp only [hp, he, if_true]; exact .inl ⟨by trivial, two hd rfl hm⟩
  | mailRef hp he hd =>
    simp only [hp, he, if_true]
    refine .inl ⟨?_, one hd rfl⟩
    rw [if_neg]
    rintro ⟨-, -, -, h⟩
    rcases h with h | h
    · rcases hd.refused (by decide) with hr | hr <;> simp [replies, hr] at h
    · rw [hd.pc, hp] at h; cases h
  | mailAcc hp he hd hc ho =>
    subst ho
    simp only [hp, he, if_true]
    refine .inl ⟨?_, two hd rfl (acc rfl)⟩
    rw [if_neg]
    rintro ⟨h1, h2, h3, -⟩
    exact hc ((counts_iff hd).mpr ⟨h3, h2, h1⟩)
  | mailCount hp he hd hc hn ho =>
    subst ho
    simp only [hp, he, if_true]
    obtain ⟨h1, h2, h3⟩ := (counts_iff hd).mp hc
    rw [hrip hd] at hn
    rw [if_pos ⟨h3, h2, h1, .inl (by simp [replies, replies_append, hd.quiet, verdict_doAccept])⟩]
    refine .inr (.inl ⟨by trivial, by simp, ?_⟩)
    constructor
    · intro h
      exact absurd h (two hd rfl (.cons rfl (acc rfl)))
    · intro h; omega
  | mailDrop hp he hd hc hn ho =>
    subst ho
    simp only [hp, he, if_true]
    obtain ⟨h1, h2, h3⟩ := (counts_iff hd).mp hc
    rw [hrip hd] at hn
    rw [if_pos ⟨h3, h2, h1, .inr (by trivial)⟩]
    refine .inr (.inl ⟨by trivial, by simp, ?_⟩)
    refine ⟨fun _ => hn, fun _ => ?_⟩
    simp [Reports]
  | rcptRef hp he hd => simp only [hp, he, if_true]; exact .inl ⟨by trivial, one hd rfl⟩
  | rcptAcc hp he hd ho => subst ho; simp only [hp, he, if_true]; exact .inl ⟨by trivial, two hd rfl (acc rfl)⟩
  | dataRef hp he hd => simp only [hp, he, if_true]; exact .inl ⟨by trivial, one hd rfl⟩
  | dataAcc hp he hd ho => subst ho; simp only [hp, he, if_true]; exact .inl ⟨by trivial, two hd rfl (acc rfl)⟩
  | gotKeep hp he _ ho =>
    subst ho
    simp only [hp, he, if_true]
    refine .inl ⟨by trivial, ?_⟩
    unfold Reports
    split <;> simp
  | gotSave hp he _ _ ho =>
    subst ho
    simp only [hp, he, if_true]
    refine .inl ⟨by trivial, ?_⟩
    unfold Reports
    split <;> simp
  | tlserror hp he =>
    simp only [hp, he, if_true]
    exact .inl ⟨by trivial, Mild.silent (.cons rfl (.cons rfl .nil))⟩
  | @finish x hp he _ =>
    have hx : (Out.count x).mild = true := by rcases he with ⟨_, rfl⟩ | ⟨_, rfl⟩ <;> rfl
    have hlast : ∀ {b : Prop} [Decidable b] {y : Bool}, ¬ Reports (if b then [.count (if y then .abandons else .refuseds)] else []) := by
      intro b _ y
      unfold Reports
      split
      · cases y <;> decide
      · decide
    have key : match (if s.c.withprops.makeYakker.isSome then some (.set cf.yakCount)
        else if reached cf l = false ∧ Counting cf l s then some .add
        else if reached cf l = true ∧ cf.yakCount > 0 then some .del
        else none : Option IpOp) with
      | some .add => Reports (.count x :: (endStep cf E s sh i).2.2) ↔ (sh.yak.add E.rip cf.yakTimeout i.now).1 = cf.yakCount
      | some (.set _) => Reports (.count x :: (endStep cf E s sh i).2.2) ↔ (sh.yak.set E.rip cf.yakTimeout cf.yakCount i.now).1 ≠ cf.yakCount
      | _ => ¬ Reports (.count x :: (endStep cf E s sh i).2.2) := by
      rw [silent_cons hx]
      unfold endStep
      simp only [hl.got, hl.counts, hl.rip]
      by_cases h1 : s.c.withprops.makeYakker.isSome = true
      · simp only [if_pos h1, silent_append, hlast, or_false]
        split
        · rename_i hc
          simp [Reports, hc]
        · rename_i hc
          simp [Reports, hc]
      · simp only [if_neg h1]
        by_cases h2 : reached cf l = false ∧ Counting cf l s
        · simp only [if_pos h2, silent_append, hlast, or_false]
          split
          · rename_i hc
            simp [Reports, hc]
          · rename_i hc
            simp [Reports, hc]
        · simp only [if_neg h2]
          by_cases h3 : cf.yakCount > 0 ∧ reached cf l = true
          · simp only [if_pos h3, if_pos h3.symm]
            exact hlast
          · have h3' : ¬ (reached cf l = true ∧ cf.yakCount > 0) := fun h => h3 h.symm
            simp only [if_neg h3, if_neg h3']
            exact hlast
    rcases he with ⟨he, _⟩ | ⟨he, _⟩
    · simp only [hp, he, if_true]; exact .inr (.inr ⟨.inl trivial, key⟩)
    · simp only [hp, he, if_true]; exact .inr (.inr ⟨.inr trivial, key⟩)
  | other hp he => simp only [hp, he, if_true]; exact .inl ⟨by trivial, Mild.nil.silent⟩
  | save hp hst _ _ hm => simp only [hp, reduceCtorEq, if_false]; exact .inl ⟨by trivial, hm.silent⟩
  | answerFail hp => simp only [hp, reduceCtorEq, if_false]; exact .inl ⟨by trivial, Mild.silent (.cons rfl .nil)⟩
  | answerRef hp hd => simp only [hp, reduceCtorEq, if_false]; exact .inl ⟨by trivial, hd.mild.silent⟩
  | answerAcc hp hd ho =>
    subst ho
    simp only [hp, reduceCtorEq, if_false]
    exact .inl ⟨by trivial, (hd.mild.append (.cons rfl .nil)).silent⟩
  | closed hp => simp only [hp, reduceCtorEq, if_false]; exact .inl ⟨by trivial, Mild.nil.silent⟩

/-- **C40**, what holds under every interleaving: exactly when a step reports its client as a new do-nothing client.  The end of
a useless session reports iff its mark is the one that reaches the limit; a MAIL FROM abandoning a transaction reports iff
its mark goes beyond the limit; `make-yakker` reports iff the count was not the limit.  Missing from the full claim: a MAIL
FROM whose mark reaches the limit exactly is not reported (`C40_not_always`). -/
theorem C40_reports_partial {cf : Conf} {h : List Hap} {g : Server} {k : Nat} {E : Env} {now : Int} {s s' : Sess} {sh sh' : Shared}
    {i : Inp} {o : List Out} (hr : Server.Runs cf (⟨k, E, now, .stepped s sh i s' sh' o⟩ :: h) g) (hip : E.rip ≠ []) :
    Reports o ↔ ReportRule cf ((value cf.yakTimeout now (yakHist cf E.rip h)).getD 0) ⟨s, i, sh, s', sh', o⟩
      (contribution cf (stepsOf k h) ⟨s, i, sh, s', sh', o⟩) := by
  cases hr with
  | @step h g _ _ i _ _ _ _ hr hn hk hs =>
    have hl := (hr.life.1 _ _ hk).ok
    have ht := (hr.tables E.rip hn).1
    have ha := (ht.add hip).1
    have hset := (ht.set (n := cf.yakCount) hip).1
    rcases (sstep_did hs).reports hl with ⟨h1, h2⟩ | ⟨h1, h2, h3⟩ | ⟨h1, h2⟩
    · rw [h1]; simpa [ReportRule] using h2
    · rw [h1, h3, ha]
      simp [ReportRule, h2]
    · generalize contribution cf (stepsOf k h) ⟨s, i, g.sh, s', sh', o⟩ = c at h2
      cases c with
      | none => simpa [ReportRule] using h2
      | some op => cases op with
        | add => simp only [ReportRule, if_pos h1]; rw [← ha]; exact h2
        | set n => simp only [ReportRule]; rw [← hset]; exact h2
        | del => simpa [ReportRule] using h2

/-- Only adds, each less than `ttl` after the one before and before `now`: the count grows. -/
theorem value_grows {ttl : Int} {old : List (Int × IpOp)} : ∀ {ts : List Int} {now t0 : Int}, Chain ttl now (ts ++ [t0]) →
    value ttl now (addsAt ts ++ (t0, .add) :: old) = some ((value ttl t0 old).getD 0 + 1 + ts.length) := by
  intro ts
  induction ts with
  | nil =>
    intro now t0 h
    cases h with
    | cons h1 _ =>
      show (if now - t0 < ttl then _ else _) = _
      rw [if_pos h1]
      simp
  | cons t ts ih =>
    intro now t0 h
    cases h with
    | cons h1 h2 =>
      show (if now - t < ttl then _ else _) = _
      rw [if_pos h1]
      show some ((value ttl t (addsAt ts ++ (t0, .add) :: old)).getD 0 + 1) = _
      rw [ih h2]
      simp only [Option.getD_some, List.length_cons, Option.some.injEq]
      push_cast
      ring

/-- **C40**: of the marks of one unbroken series at most one session's end reports, the one that reaches the limit.  After a
session whose end was reported, with only further marks that keep the record alive, no session's end is reported. -/
theorem C40_once_partial {cf : Conf} {h : List Hap} {g : Server} {k : Nat} {E : Env} {now : Int} {s s' : Sess} {sh sh' : Shared}
    {i : Inp} {o : List Out} (hr : Server.Runs cf (⟨k, E, now, .stepped s sh i s' sh' o⟩ :: h) g) (hip : E.rip ≠ [])
    (hend : Ends ⟨s, i, sh, s', sh', o⟩) (hadd : contribution cf (stepsOf k h) ⟨s, i, sh, s', sh', o⟩ = some .add)
    {ts : List Int} {t0 : Int} {old : List (Int × IpOp)} (hh : yakHist cf E.rip h = addsAt ts ++ (t0, .add) :: old)
    (hreached : (value cf.yakTimeout t0 old).getD 0 + 1 ≥ cf.yakCount) (hch : Chain cf.yakTimeout now (ts ++ [t0])) : ¬ Reports o := by
  rw [C40_reports_partial hr hip, hadd, hh, value_grows hch]
  simp only [ReportRule, if_pos hend, Option.getD_some]
  omega

/-- The effects of all steps. -/
def outs (h : List Hap) : List Out := (h.map fun e => match e.what with
  | .began _ _ _ o => o
  | .stepped _ _ _ _ _ o => o).flatten

/-- **C40** does not hold: two abandoned transactions take a client to the limit of 2; nothing is ever reported, and its next
connection is stalled. -/
theorem C40_not_always : ∃ (h : List Hap) (g : Server), Server.Runs demoConfY h g ∧ (outs h).count (.count .yakads) = 0 ∧ stalls h = [true, false] := by
  have hx : served (fun h _ => ((outs h).count (.count .yakads), stalls h)) demoConfY
      (session 0 demoEnv 1 [.helo false b!"mail.example.com", .mailfrom b!"a@example.com", .mailfrom b!"b@example.com",
        .mailfrom b!"a@example.com", .done] ++ session 1 demoEnv 2 []) = some (0, [true, false]) := by decide +kernel
  unfold served at hx
  cases hs : serveAll demoConfY (session 0 demoEnv 1 [.helo false b!"mail.example.com", .mailfrom b!"a@example.com", .mailfrom b!"b@example.com",
        .mailfrom b!"a@example.com", .done] ++ session 1 demoEnv 2 []) with
  | none => rw [hs] at hx; cases hx
  | some r =>
    rw [hs] at hx
    simp only [Option.map_some, Option.some.injEq, Prod.mk.injEq] at hx
    exact ⟨r.1, r.2, serveAll_runs hs, hx.1, hx.2⟩

/-- Two connections open at the same time both end; one of them reports. -/
example : served (fun h _ => (outs h).count (.count .yakads)) demoConfY
    ([.conn 0 demoEnv { now := 1 }, .conn 1 demoEnv { now := 1 }, .inp 1 { now := 1 }, .inp 0 { now := 1 }, .inp 0 { now := 1 }, .inp 1 { now := 1 },
      .inp 1 { ev := .abort, now := 2 }, .inp 0 { ev := .done, now := 2 }]) = some 1 := by
  decide +kernel

/-! ## C41 -/

/-- Two failures less than 72 hours apart, the second less than 72 hours ago. -/
def Spec.TwoRecent (now : Int) (fs : List Int) : Prop :=
  ∃ t t' rest, fs = t :: t' :: rest ∧ now - t < 72 * 3600 * 1000000000 ∧ t - t' < 72 * 3600 * 1000000000

/-- A failure less than 72 hours ago. -/
def Spec.OneRecent (now : Int) (fs : List Int) : Prop := ∃ t rest, fs = t :: rest ∧ now - t < 72 * 3600 * 1000000000

theorem value_adds_pos {ttl now : Int} {ts : List Int} {v : Int} (h : value ttl now (addsAt ts) = some v) : v ≥ 1 := by
  induction ts generalizing now v with
  | nil => cases h
  | cons t ts ih =>
    have h' : (if now - t < ttl then some ((value ttl t (addsAt ts)).getD 0 + 1) else none) = some v := h
    split at h'
    · injection h' with h'
      cases hv : value ttl t (addsAt ts) with
      | none => rw [hv] at h'; simp at h'; omega
      | some w => rw [hv] at h'; have := ih hv; simp at h'; omega
    · cases h'

theorem value_two {now : Int} {ts : List Int} : (∃ v, value tlsTimeout now (addsAt ts) = some v ∧ v ≥ 2) ↔ TwoRecent now ts := by
  unfold TwoRecent
  constructor
  · rintro ⟨v, h, hv⟩
    cases ts with
    | nil => cases h
    | cons t ts =>
      have h' : (if now - t < tlsTimeout then some ((value tlsTimeout t (addsAt ts)).getD 0 + 1) else none) = some v := h
      split at h'
      · rename_i h1
        injection h' with h'
        cases ts with
        | nil => have : (0 : Int) + 1 = v := h'; omega
        | cons t' rest =>
          refine ⟨t, t', rest, rfl, h1, ?_⟩
          by_contra hn
          have : value tlsTimeout t (addsAt (t' :: rest)) = none := if_neg (by unfold tlsTimeout; omega)
          rw [this] at h'
          simp at h'
          omega
      · cases h'
  · rintro ⟨t, t', rest, rfl, h1, h2⟩
    have e1 : value tlsTimeout now (addsAt (t :: t' :: rest)) = some ((value tlsTimeout t (addsAt (t' :: rest))).getD 0 + 1) := if_pos h1
    have e2 : value tlsTimeout t (addsAt (t' :: rest)) = some ((value tlsTimeout t' (addsAt rest)).getD 0 + 1) := if_pos h2
    have := value_adds_pos e2
    refine ⟨_, e1, ?_⟩
    rw [e2]
    simp only [Option.getD_some]
    omega

theorem value_one {now : Int} {ts : List Int} : (value tlsTimeout now (addsAt ts)).getD 0 = 0 ↔ ¬ OneRecent now ts := by
  unfold OneRecent
  cases ts with
  | nil => simp [addsAt, value]
  | cons t ts =>
    by_cases h : now - t < 72 * 3600 * 1000000000
    · have e : value tlsTimeout now (addsAt (t :: ts)) = some ((value tlsTimeout t (addsAt ts)).getD 0 + 1) := if_pos h
      have := value_adds_pos e
      rw [e]
      simp only [Option.getD_some]
      constructor
      · intro h0; omega
      · intro hn; exact absurd ⟨t, ts, rfl, h⟩ hn
    · have e : value tlsTimeout now (addsAt (t :: ts)) = none := if_neg h
      rw [e]
      simp only [Option.getD_none, true_iff]
      rintro ⟨t1, r, he, h1⟩
      cases he
      exact h h1

/-- **C41.** Under any interleaving of connections: when a connection is set up, TLS is offered iff there are certificates and the
address did not fail twice lately; client certificates are asked for iff it did not fail lately. -/
theorem C41_offered {cf : Conf} {h : List Hap} {g : Server} {k : Nat} {E : Env} {now : Int} {s s' : Sess} {sh sh' : Shared}
    {i : Inp} {o : List Out} (hr : Server.Runs cf (⟨k, E, now, .stepped s sh i s' sh' o⟩ :: h) g) (hp : s.pc = .tls) :
    (s'.tlsCfg.isSome = true ↔ s.certs ≠ [] ∧ ¬ TwoRecent now (tlsFailures E.rip h)) ∧
    ∀ x, s'.tlsCfg = some x → x.certs = s.certs ∧ (x.askClient = true ↔ ¬ OneRecent now (tlsFailures E.rip h)) := by
  cases hr with
  | @step h g _ _ i _ _ _ _ hr hn hk hs =>
    have hl := (hr.life.1 _ _ hk).ok
    have hlook := (hr.tables E.rip hn).2.lookup.1
    simp only [sstep, hp] at hs
    have htwo := value_two (now := i.now) (ts := tlsFailures E.rip h)
    have hone := value_one (now := i.now) (ts := tlsFailures E.rip h)
    generalize hv : value tlsTimeout i.now (addsAt (tlsFailures E.rip h)) = v at hlook htwo hone
    have hcfg : s'.tlsCfg = if s.certs.length > 0 ∧ (v.isSome && decide (v.getD 0 ≥ 2)) = false then some ⟨s.certs, decide (v.getD 0 = 0)⟩ else none := by
      unfold tlsStep at hs
      simp only [Except.ok.injEq, Prod.mk.injEq] at hs
      rw [← hs.1]
      simp only [hl.rip, hlook]
    rw [hcfg, ← htwo, ← hone]
    have hb : (v.isSome && decide (v.getD 0 ≥ 2)) = false ↔ ¬ ∃ x, v = some x ∧ x ≥ 2 := by
      cases v with
      | none => simp
      | some x => simp
    constructor
    · rw [← hb]
      split
      · rename_i hc
        simp only [Option.isSome_some, true_iff]
        exact ⟨List.ne_nil_of_length_pos hc.1, hc.2⟩
      · rename_i hc
        simp only [Option.isSome_none, Bool.false_eq_true, false_iff]
        rintro ⟨h1, h2⟩
        exact hc ⟨List.length_pos_iff.mpr h1, h2⟩
    · intro x hx
      split at hx
      · cases hx
        exact ⟨rfl, by simp⟩
      · cases hx

/-- **C41.** After that only rules change it: a decision with `tls-opt off` withdraws the offer, one with `tls-opt no-client`
stops the asking for client certificates; everything else leaves the offer alone. -/
theorem C41_rules {cf : Conf} {E : Env} {s s' : Sess} {sh sh' : Shared} {i : Inp} {o : List Out}
    (h : sstep cf E s sh i = .ok (s', sh', o)) (hp : s.pc ≠ .tls) :
    s'.tlsCfg =
      if (⟨s, i, sh, s', sh', o⟩ : Step).decided = false then s.tlsCfg
      else if s'.c.withprops.tlsOpt = some b!"off" then none
      else if s'.c.withprops.tlsOpt = some b!"no-client" then s.tlsCfg.map fun x => { x with askClient := false }
      else s.tlsCfg := by
  have key : ∀ {ph evt id ref s0 s1 o res c1}, DecR E ph evt id s0 ref s1 o res c1 → s1.tlsCfg =
      if s1.c.withprops.tlsOpt = some b!"off" then none
      else if s1.c.withprops.tlsOpt = some b!"no-client" then s0.tlsCfg.map fun x => { x with askClient := false }
      else s0.tlsCfg := by
    intro ph evt id ref s0 s1 o res c1 hd
    obtain ⟨d, tr, hc⟩ := hd.ctx
    have h1 : s1.tlsCfg = tlsOpt c1 s0.tlsCfg := by rw [hd.sess]
    rw [h1, hc]
    rfl
  have hd := sstep_did h
  unfold Step.decided
  cases hd with
  | tls hp' => exact absurd hp' hp
  | drop hp hd _ => have r := key hd; simp only [hp, Bool.true_eq_false, if_false]; exact r
  | connect hp hd => have r := key hd; simp only [hp, Bool.true_eq_false, if_false]; exact r
  | heloRef hp he hd => have r := key hd; simp only [hp, he, Bool.true_eq_false, if_false]; exact r
  | heloAcc hp he hd => have r := key hd; simp only [hp, he, Bool.true_eq_false, if_false]; exact r
  | mailRef hp he hd => have r := key hd; simp only [hp, he, Bool.true_eq_false, if_false]; exact r
  | mailAcc hp he hd => have r := key hd; simp only [hp, he, Bool.true_eq_false, if_false]; exact r
  | mailCount hp he hd => have r := key hd; simp only [hp, he, Bool.true_eq_false, if_false]; exact r
  | mailDrop hp he hd => have r := key hd; simp only [hp, he, Bool.true_eq_false, if_false]; exact r
  | rcptRef hp he hd => have r := key hd; simp only [hp, he, Bool.true_eq_false, if_false]; exact r
  | rcptAcc hp he hd => have r := key hd; simp only [hp, he, Bool.true_eq_false, if_false]; exact r
  | dataRef hp he hd => have r := key hd; simp only [hp, he, Bool.true_eq_false, if_false]; exact r
  | dataAcc hp he hd => have r := key hd; simp only [hp, he, Bool.true_eq_false, if_false]; exact r
  | answerRef hp hd => have r := key hd; simp only [hp, Bool.true_eq_false, if_false]; exact r
  | answerAcc hp hd => have r := key hd; simp only [hp, Bool.true_eq_false, if_false]; exact r
  | gotKeep hp he | gotSave hp he | tlserror hp he | other hp he => simp only [hp, he, if_true] <;> rfl
  | finish hp he _ => rcases he with ⟨he, _⟩ | ⟨he, _⟩ <;> · simp only [hp, he, if_true]
  | save hp | answerFail hp | closed hp => simp only [hp, if_true]

/-- The TLS offers of the connections so far, newest first. -/
def offers (h : List Hap) : List (Option Bool) := h.filterMap fun e => match e.what with
  | .stepped s _ _ s' _ _ => if s.pc = .tls then some (s'.tlsCfg.map (·.askClient)) else none
  | _ => none

/-- A failure; then no client certificates; another failure; then no TLS; three days later all is forgotten. -/
example : served (fun h _ => offers h) { demoConf with certs := [(⟨b!"cert", b!"key"⟩ : TlsCert)] } (session 0 demoEnv 1 [.tlserror, .done] ++
    session 1 demoEnv 2 [.tlserror] ++ session 2 demoEnv 3 [] ++ session 3 demoEnv (3 + 72 * 3600 * 1000000000) []) =
    some [some true, none, some false, some true] := by
  decide +kernel

end Sink
