import Verif.Lemmas.Decide

/-!
# Evaluation does not see what it does not need

Changing fields of the context that an expression does not look at commutes with its evaluation, in any world (the world
may change during the evaluation).
-/

namespace Sink
open Spec
open Gram (later needs needsL needsC opNeeds)

/-- A change of some fields of the context. -/
structure Upd where
  isHelo : Option Bool := none
  heloname : Option Str := none
  from_ : Option Str := none
  rcptto : Option Str := none
  ruleset : Option (List Rule) := none
  defresult : Option Action := none
  defdnsblhit : Option (List Str) := none
  defprops : Option Withs := none

def Upd.app (u : Upd) (c : Ctx) : Ctx :=
  { c with
    isHelo := u.isHelo.getD c.isHelo
    heloname := u.heloname.getD c.heloname
    from_ := u.from_.getD c.from_
    rcptto := u.rcptto.getD c.rcptto
    ruleset := u.ruleset.getD c.ruleset
    defresult := u.defresult.getD c.defresult
    defdnsblhit := u.defdnsblhit.getD c.defdnsblhit
    defprops := u.defprops.getD c.defprops }

/-- Data known at phase `ph` is not changed. -/
structure Upd.Safe (u : Upd) (ph : Phase) : Prop where
  helo : .helo ≤ ph → u.isHelo = none ∧ u.heloname = none
  from_ : .mfrom ≤ ph → u.from_ = none
  rcptto : .rto ≤ ph → u.rcptto = none

/-- The two transactions agree in what is known at phase `ph` and looked at by operators. -/
structure TransR.Same (tr tr' : TransR) (ph : Phase) : Prop where
  rip : tr'.rip = tr.rip
  lip : tr'.lip = tr.lip
  rdns : tr'.rdns = tr.rdns
  tlson : .mfrom ≤ ph → tr'.tlson = tr.tlson

/-- Apply a change to the context part of a result. -/
def Upd.map {α : Type} (u : Upd) : Except Panic (α × Ctx) → Except Panic (α × Ctx)
  | .ok (b, c) => .ok (b, u.app c)
  | .error p => .error p

theorem upd_getDnsblRes (u : Upd) (W : World) (n : Str) (c : Ctx) :
    getDnsblRes W n (u.app c) = ((getDnsblRes W n c).1, u.app (getDnsblRes W n c).2) := by
  unfold getDnsblRes
  have : (u.app c).dnsbl = c.dnsbl := rfl
  rw [this]
  cases c.dnsbl n with
  | some r => rfl
  | none =>
    have : (u.app c).trace = c.trace := rfl
    simp only [this]
    cases W.lookupIP c.trace.length n <;> rfl

theorem upd_addDnsblHit (u : Upd) (d : Str) (c : Ctx) : addDnsblHit d (u.app c) = u.app (addDnsblHit d c) := by
  unfold addDnsblHit
  have : (u.app c).dnsblhit = c.dnsblhit := rfl
  rw [this]
  split <;> rfl

theorem upd_validDomain (u : Upd) (W : World) (d : Str) (c : Ctx) :
    (u.app c).validDomain W d = ((c.validDomain W d).1, u.app (c.validDomain W d).2) := by
  unfold Ctx.validDomain
  have : (u.app c).domvalid = c.domvalid := rfl
  rw [this]
  cases c.domvalid d <;> rfl

theorem upd_getMatchList (u : Upd) (W : World) (a : Str) (c : Ctx) :
    getMatchList W a (u.app c) = u.map (getMatchList W a c) := by
  unfold getMatchList
  have : (u.app c).files = c.files := rfl
  cases matchFile a with
  | error p => rfl
  | ok r =>
    cases r with
    | none => rfl
    | some f =>
      simp only [this]
      cases c.files f <;> rfl

theorem upd_getAddrOpts (u : Upd) (W : World) (a : Str) (c : Ctx) :
    getAddrOpts W a (u.app c) = ((getAddrOpts W a c).1, u.app (getAddrOpts W a c).2) := by
  unfold getAddrOpts
  split
  · rfl
  · simp only [upd_validDomain]
    split
    · generalize (c.validDomain W _) = x
      obtain ⟨⟨v, e⟩, c1⟩ := x
      cases v <;> rfl
    · rfl

theorem upd_names {u : Upd} {ph : Phase} (hu : u.Safe ph) {tr tr' : TransR} (ht : tr.Same tr' ph) {k : MKind} {a : Str}
    (hn : opNeeds (.matchN k a) ≤ ph) (c : Ctx) : k.names tr' (u.app c) = k.names tr c := by
  cases k with
  | helo =>
    have := (hu.helo hn).2
    simp [MKind.names, Upd.app, this]
  | host => simp [MKind.names, ht.rdns]
  | from_ =>
    have := hu.from_ hn
    simp [MKind.names, Upd.app, this]
  | «to» =>
    have := hu.rcptto hn
    simp [MKind.names, Upd.app, this]
  | ip => simp [MKind.names, ht.rip]
  | sourceFrom =>
    have := hu.from_ hn
    simp [MKind.names, Upd.app, this]

theorem upd_evalMatch {u : Upd} {ph : Phase} (hu : u.Safe ph) {tr tr' : TransR} (ht : tr.Same tr' ph) (W : World) {k : MKind}
    {a : Str} (hn : opNeeds (.matchN k a) ≤ ph) (c : Ctx) : evalMatch W tr' k a (u.app c) = u.map (evalMatch W tr k a c) := by
  unfold evalMatch
  rw [upd_getMatchList]
  cases getMatchList W a c with
  | error p => rfl
  | ok x =>
    obtain ⟨l, c1⟩ := x
    simp only [Upd.map, bind, Except.bind, pure, Except.pure]
    split
    · rfl
    · rw [upd_names hu ht hn]
      cases matchPats (k.matcher W.lib) (k.names tr c1) l <;> rfl

theorem upd_evalSource {u : Upd} {ph : Phase} (hu : u.Safe ph) {tr tr' : TransR} (ht : tr.Same tr' ph) (W : World)
    {a : Str} (hn : .mfrom ≤ ph) (c : Ctx) : evalSource W tr' a (u.app c) = u.map (evalSource W tr a c) := by
  unfold evalSource
  rw [upd_evalMatch hu ht W (k := .host) (Nat.zero_le _)]
  cases evalMatch W tr .host a c with
  | error p => rfl
  | ok x =>
    obtain ⟨b1, c1⟩ := x
    simp only [Upd.map, bind, Except.bind, pure, Except.pure]
    cases b1 with
    | true => rfl
    | false =>
      simp only [Bool.false_eq_true, if_false]
      rw [upd_evalMatch hu ht W (k := .helo) (Nat.le_trans (show Phase.helo.num ≤ Phase.mfrom.num by decide) hn)]
      cases evalMatch W tr .helo a c1 with
      | error p => rfl
      | ok x =>
        obtain ⟨b2, c2⟩ := x
        simp only [Upd.map]
        cases b2 with
        | true => rfl
        | false =>
          simp only [Bool.false_eq_true, if_false]
          rw [upd_evalMatch hu ht W (k := .sourceFrom) hn]
          rfl

theorem upd_evalDnsbl (u : Upd) (W : World) {tr tr' : TransR} {ph : Phase} (ht : tr.Same tr' ph) (d : Str) (c : Ctx) :
    evalDnsbl W tr' d (u.app c) = ((evalDnsbl W tr d c).1, u.app (evalDnsbl W tr d c).2) := by
  unfold evalDnsbl
  rw [ht.rip]
  split
  · rfl
  · split
    · simp only [upd_getDnsblRes]
      split
      · rename_i h; simp only [h, if_true, upd_addDnsblHit]
      · rename_i h; simp only [h]; first | done | rfl
    · rfl

theorem upd_dblLookups (u : Upd) (W : World) (d : Str) : ∀ (l : List Str) (ret : Bool) (c : Ctx),
    dblLookups W d l ret (u.app c) = ((dblLookups W d l ret c).1, u.app (dblLookups W d l ret c).2) := by
  intro l
  induction l with
  | nil => intro ret c; rfl
  | cons s ss ih =>
    intro ret c
    rw [dblLookups, dblLookups]
    simp only [upd_getDnsblRes]
    split
    · rw [upd_addDnsblHit, ih]
    · rw [ih]

theorem upd_evalDbl {u : Upd} {ph : Phase} (hu : u.Safe ph) {tr tr' : TransR} (ht : tr.Same tr' ph) (W : World) {src : Opts} {d : Str}
    (hn : opNeeds (.dbl src d) ≤ ph) (c : Ctx) : evalDbl W tr' src d (u.app c) = u.map (evalDbl W tr src d c) := by
  have h1 : dblNames tr' src (u.app c) = dblNames tr src c := by
    unfold dblNames
    rw [ht.rdns]
    have : (if src &&& (oEhlo ||| oHelo) ≠ 0 ∧ (u.app c).heloname ≠ [] then [(u.app c).heloname] else []) =
        (if src &&& (oEhlo ||| oHelo) ≠ 0 ∧ c.heloname ≠ [] then [c.heloname] else []) := by
      by_cases hb : src &&& (oEhlo ||| oHelo) ≠ 0
      · have hh : Phase.helo ≤ ph := by
          simp only [opNeeds] at hn
          split at hn
          · exact Nat.le_trans (show Phase.helo.num ≤ Phase.mfrom.num by decide) hn
          · exact hn
        have := (hu.helo hh).2
        simp [Upd.app, this]
      · rw [if_neg (fun h => hb h.1), if_neg (fun h => hb h.1)]
    rw [this]
  have h2 : ∀ chk, dblFrom W src chk (u.app c) = ((dblFrom W src chk c).1, u.app (dblFrom W src chk c).2) := by
    intro chk
    unfold dblFrom
    by_cases hb : src &&& oFrom = oFrom
    · have hh : Phase.mfrom ≤ ph := by
        simp only [opNeeds] at hn
        rw [if_pos (by rw [hb]; decide)] at hn; exact hn
      have hf := hu.from_ hh
      have : (u.app c).from_ = c.from_ := by simp [Upd.app, hf]
      rw [this]
      simp only [upd_getAddrOpts]
      split
      · split
        · split <;> rfl
        · rfl
      · rfl
    · rw [if_neg (fun h => hb h.1), if_neg (fun h => hb h.1)]
  unfold evalDbl
  rw [h1]
  cases dblNames tr src c with
  | error p => rfl
  | ok chk =>
    simp only [bind, Except.bind, pure, Except.pure, h2]
    split
    · rfl
    · have e : ∀ c : Ctx, ({ u.app c with trace := .mapIter :: (u.app c).trace } : Ctx) = u.app { c with trace := .mapIter :: c.trace } :=
        fun _ => rfl
      rw [e, upd_dblLookups]
      rfl

theorem upd_evalOpt {u : Upd} {ph : Phase} (hu : u.Safe ph) {tr tr' : TransR} (ht : tr.Same tr' ph) (W : World) {k : OKind} {o : Opts}
    (hn : opNeeds (.optN k o) ≤ ph) (c : Ctx) :
    evalOpt W tr' k o (u.app c) = ((evalOpt W tr k o c).1, u.app (evalOpt W tr k o c).2) := by
  unfold evalOpt
  cases k with
  | dns => simp only [OKind.get, dnsGetter, ht.rdns]; rfl
  | heloHas =>
    have h := hu.helo hn
    simp only [OKind.get, heloGetter]
    have h1 : (u.app c).isHelo = c.isHelo := by simp [Upd.app, h.1]
    have h2 : (u.app c).heloname = c.heloname := by simp [Upd.app, h.2]
    rw [h1, h2, ht.rip, ht.lip]
  | fromHas =>
    have h := hu.from_ hn
    have h1 : (u.app c).from_ = c.from_ := by simp [Upd.app, h]
    simp only [OKind.get, h1, upd_getAddrOpts]; rfl
  | toHas =>
    have h := hu.rcptto hn
    have h1 : (u.app c).rcptto = c.rcptto := by simp [Upd.app, h]
    simp only [OKind.get, h1, upd_getAddrOpts]; rfl

mutual
theorem upd_eval {u : Upd} {ph : Phase} (hu : u.Safe ph) {tr tr' : TransR} (ht : tr.Same tr' ph) (W : World) :
    ∀ (e : Expr) (c : Ctx), needs e ≤ ph → eval W tr' e (u.app c) = u.map (eval W tr e c)
  | .andL ns, c, hn => by rw [eval, eval]; exact upd_evalAnd hu ht W ns c (by rwa [needs] at hn)
  | .notN e, c, hn => by
    rw [needs] at hn
    rw [eval, eval, upd_eval hu ht W e c hn]
    cases eval W tr e c <;> rfl
  | .orN l r, c, hn => by
    rw [needs] at hn
    rw [eval, eval, upd_eval hu ht W l c (later_le hn).1]
    cases eval W tr l c with
    | error p => rfl
    | ok x =>
      obtain ⟨b, c1⟩ := x
      simp only [Upd.map, bind, Except.bind]
      cases b with
      | true => rfl
      | false =>
        simp only [Bool.false_eq_true, if_false]
        rw [upd_eval hu ht W r c1 (later_le hn).2]
        rfl
  | .all, c, _ => by rw [eval, eval]; rfl
  | .tls on, c, hn => by
    rw [needs] at hn
    rw [eval, eval, ht.tlson hn]; rfl
  | .dnsbl d, c, _ => by rw [eval, eval, upd_evalDnsbl u W ht]; rfl
  | .matchN k a, c, hn => by
    rw [needs] at hn
    rw [eval, eval]; exact upd_evalMatch hu ht W hn c
  | .source a, c, hn => by
    rw [needs] at hn
    rw [eval, eval]; exact upd_evalSource hu ht W hn c
  | .dbl s d, c, hn => by
    rw [needs] at hn
    rw [eval, eval]; exact upd_evalDbl hu ht W hn c
  | .optN k o, c, hn => by
    rw [needs] at hn
    rw [eval, eval, upd_evalOpt hu ht W hn]; rfl
theorem upd_evalAnd {u : Upd} {ph : Phase} (hu : u.Safe ph) {tr tr' : TransR} (ht : tr.Same tr' ph) (W : World) :
    ∀ (es : List Expr) (c : Ctx), needsL es ≤ ph → evalAnd W tr' es (u.app c) = u.map (evalAnd W tr es c)
  | [], c, _ => by rw [evalAnd, evalAnd]; rfl
  | e :: es, c, hn => by
    rw [needsL] at hn
    rw [evalAnd, evalAnd, upd_eval hu ht W e c (later_le hn).1]
    cases eval W tr e c with
    | error p => rfl
    | ok x =>
      obtain ⟨b, c1⟩ := x
      simp only [Upd.map, bind, Except.bind]
      cases b with
      | false => rfl
      | true =>
        simp only [if_true]
        rw [upd_evalAnd hu ht W es c1 (later_le hn).2]
        rfl
end

theorem upd_checkClauses {u : Upd} {ph : Phase} (hu : u.Safe ph) {tr tr' : TransR} (ht : tr.Same tr' ph) (W : World) :
    ∀ (cs : List RClause) (c : Ctx), needsC cs ≤ ph → checkClauses W tr' cs (u.app c) = u.map (checkClauses W tr cs c) := by
  intro cs
  induction cs with
  | nil => intro c _; rfl
  | cons rc rcs ih =>
    intro c hn
    rw [needsC] at hn
    rw [checkClauses, checkClauses, upd_eval hu ht W rc.expr c (later_le hn).1]
    cases eval W tr rc.expr c with
    | error p => rfl
    | ok x =>
      obtain ⟨b, c1⟩ := x
      simp only [Upd.map, bind, Except.bind, pure, Except.pure]
      have : (u.app c1).rulemiss = c1.rulemiss := rfl
      rw [this]
      split
      · rfl
      · cases b with
        | false =>
          simp only [Bool.not_false, if_true]
          rw [ih c1 (later_le hn).2]
          rfl
        | true => rfl

theorem upd_check {u : Upd} {ph : Phase} (hu : u.Safe ph) {tr tr' : TransR} (ht : tr.Same tr' ph) (W : World) {r : Rule}
    (hn : needsC r.clauses ≤ ph) (c : Ctx) : r.check W tr' (u.app c) = u.map (r.check W tr c) := by
  unfold Rule.check
  rw [← upd_checkClauses hu ht W r.clauses _ hn]
  rfl

theorem TransR.Same.refl (tr : TransR) (ph : Phase) : tr.Same tr ph := ⟨rfl, rfl, rfl, fun _ => rfl⟩

/-- A change that touches none of the data rules look at. -/
structure Upd.Inert (u : Upd) : Prop where
  isHelo : u.isHelo = none
  heloname : u.heloname = none
  from_ : u.from_ = none
  rcptto : u.rcptto = none

theorem Upd.Inert.safe {u : Upd} (h : u.Inert) (ph : Phase) : u.Safe ph :=
  ⟨fun _ => ⟨h.isHelo, h.heloname⟩, fun _ => h.from_, fun _ => h.rcptto⟩

theorem phase_le_message (p : Phase) : p ≤ .message := by cases p <;> decide

theorem upd_ruleForEachRcpt {u : Upd} (hu : u.Inert) (W : World) {tr : TransR} {r : Rule} : ∀ (as : List Str) (c : Ctx),
    ruleForEachRcpt W tr r as (u.app c) = u.map (ruleForEachRcpt W tr r as c) := by
  intro as
  induction as with
  | nil => intro c; rfl
  | cons a as ih =>
    intro c
    rw [ruleForEachRcpt, ruleForEachRcpt]
    have e : ({ u.app c with rcptto := a } : Ctx) = u.app { c with rcptto := a } := by
      simp [Upd.app, hu.rcptto]
    rw [e, upd_check (hu.safe .message) (.refl tr .message) W (phase_le_message _)]
    cases r.check W tr { c with rcptto := a } with
    | error p => rfl
    | ok x =>
      obtain ⟨b, c1⟩ := x
      simp only [Upd.map, bind, Except.bind, pure, Except.pure]
      cases b with
      | true => rfl
      | false =>
        simp only [Bool.false_eq_true, if_false]
        have : (u.app c1).rulemiss = c1.rulemiss := rfl
        rw [this]
        split
        · rfl
        · rw [ih]; rfl

theorem upd_runRule {u : Upd} (hu : u.Inert) (W : World) {tr : TransR} {ph : Phase} (r : Rule) (c : Ctx) :
    runRule W tr ph r (u.app c) = u.map (runRule W tr ph r c) := by
  unfold runRule
  simp only
  have e : ({ u.app c with rulemiss := false } : Ctx) = u.app { c with rulemiss := false } := rfl
  rw [e]
  split
  · exact upd_ruleForEachRcpt hu W _ _
  · exact upd_check (hu.safe .message) (.refl tr .message) W (phase_le_message _) _

theorem upd_ruleLoop {u : Upd} (hu : u.Inert) (W : World) {tr : TransR} {ph : Phase} : ∀ (rs : List Rule) (c : Ctx),
    ruleLoop W tr ph rs (u.app c) = u.map (ruleLoop W tr ph rs c) := by
  intro rs
  induction rs with
  | nil => intro c; rfl
  | cons r rs ih =>
    intro c
    rw [ruleLoop, ruleLoop]
    split
    · exact ih c
    · rw [upd_runRule hu]
      cases runRule W tr ph r c with
      | error p => rfl
      | ok x =>
        obtain ⟨b, c1⟩ := x
        simp only [Upd.map, bind, Except.bind, pure, Except.pure]
        have : (u.app c1).rulemiss = c1.rulemiss := rfl
        rw [this]
        split
        · exact ih c1
        · split
          · rfl
          · exact ih c1

/-! ## The recipient left behind by an earlier rule -/

theorem ruleForEachRcpt_rcpt (W : World) (tr : TransR) (r : Rule) (a : Str) (as : List Str) (c : Ctx) (x : Str) :
    ruleForEachRcpt W tr r (a :: as) { c with rcptto := x } = ruleForEachRcpt W tr r (a :: as) c := by
  rw [ruleForEachRcpt, ruleForEachRcpt]

end Sink
