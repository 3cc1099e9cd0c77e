import Verif.Props.Parse
import Verif.Props.Match
import Verif.Props.Mx
import Verif.Lemmas.BaseRules

/-!
# Evaluation and decisions without crashes
-/

namespace Sink
open Spec Gram

/-- The address has at least four parts between dots, as every IPv4 address in text form. -/
def FourParts (rip : Str) : Prop := ∃ a b c d l, splitOn c!"." rip = a :: b :: c :: d :: l

/-- The blocklist that makes `logDnsbls` look up SBL records. -/
def sblName : Str := b!"sbl.spamhaus.org."

/-- A match operator that cannot crash by its argument.  `v4`: the client has an IPv4 address. -/
def OpSafe (v4 : Prop) : Expr → Prop
  | .matchN _ a => a ≠ []
  | .source a => a ≠ []
  | .dbl _ d => v4 ∨ d ≠ sblName
  | _ => True

/-- The operator looks at the EHLO name with `matchHost`. -/
def UsesHelo : Expr → Prop
  | .matchN .helo _ => True
  | .source _ => True
  | _ => False

/-- All operators of the rule are safe, and it sets no note unless there is a log. -/
def RuleSafe (v4 log : Prop) (r : Rule) : Prop :=
  (∀ c ∈ r.clauses, ∀ o, OpIn o c.expr → OpSafe v4 o) ∧ (log ∨ ∀ c ∈ r.clauses, c.withs.note.getD [] = [])

def RuleUsesHelo (r : Rule) : Prop := ∃ c ∈ r.clauses, ∃ o, OpIn o c.expr ∧ UsesHelo o

/-- No reverse DNS name is empty. -/
def NamesOK (r : RDNS) : Prop := ∀ n, n ∈ r.verified ∨ n ∈ r.nofwd ∨ n ∈ r.inconsist → n ≠ []

/-- A context in which nothing can go wrong. -/
structure Calm (W : World) (v4 : Prop) (c : Ctx) : Prop where
  files : FilesOK W c
  hits : v4 ∨ sblName ∉ c.dnsblhit

theorem Ctx.heloname_of_core {c c' : Ctx} (h : c'.core = c.core) : c'.heloname = c.heloname := by
  have := congrArg Ctx.heloname h; exact this

theorem getMatchList_ok {W : World} {v4 : Prop} {a : Str} {c : Ctx} (ha : a ≠ []) (hc : Calm W v4 c) :
    ∃ l c', getMatchList W a c = .ok (l, c') ∧ Calm W v4 c' ∧ c'.heloname = c.heloname ∧ ∀ p ∈ l, p ≠ [] := by
  have hent : ∀ n f, ∀ p ∈ entriesAt W n f, p ≠ [] := by
    intro n f p hp
    unfold entriesAt at hp
    split at hp
    · cases hp
    · split at hp
      · exact C16_no_empty_entry W.lib _ p hp
      · cases hp
  cases hg : getMatchList W a c with
  | error p =>
    unfold getMatchList at hg
    cases hm : matchFile a with
    | error q =>
      obtain ⟨x, xs, rfl⟩ := List.exists_cons_of_ne_nil ha
      unfold matchFile at hm
      simp only at hm
      split at hm
      · cases hm
      · split at hm <;> cases hm
    | ok r =>
      rw [hm] at hg
      cases r with
      | none => cases hg
      | some f =>
        simp only at hg
        split at hg <;> cases hg
  | ok r =>
    obtain ⟨l, c'⟩ := r
    have hst := getMatchList_steps hg
    have hf := hst.rsteps.filesOK hc.files
    refine ⟨l, c', rfl, ⟨hf, ?_⟩, ?_, ?_⟩
    · have : c'.dnsblhit = c.dnsblhit := by
        unfold getMatchList at hg
        split at hg
        · cases hg
        · cases hg; rfl
        · split at hg <;> (cases hg; rfl)
      rw [this]; exact hc.hits
    · have := congrArg Ctx.heloname hst.core; exact this
    · unfold getMatchList at hg
      split at hg
      · cases hg
      · cases hg
        intro p hp
        rw [List.mem_singleton] at hp
        subst hp
        exact lower_ne W.lib ha
      · split at hg
        · rename_i f _ _ l' hl
          cases hg
          obtain ⟨n, rfl⟩ := hc.files f _ hl
          exact hent n f
        · rename_i f _ _ _
          cases hg
          rw [loadList_entries]
          exact hent _ f

theorem matchNames_ok {m : Str → Str → Except Panic Bool} {p : Str} : ∀ {es : List Str}, (∀ e ∈ es, ∃ b, m e p = .ok b) →
    ∃ b, matchNames m p es = .ok b
  | [], _ => ⟨false, rfl⟩
  | e :: es, h => by
    obtain ⟨b, hb⟩ := h e List.mem_cons_self
    obtain ⟨b', hb'⟩ := matchNames_ok (es := es) fun x hx => h x (List.mem_cons_of_mem _ hx)
    refine ⟨if b then true else b', ?_⟩
    rw [matchNames, hb]
    cases b
    · exact hb'
    · rfl

theorem matchPats_ok {m : Str → Str → Except Panic Bool} {es : List Str} : ∀ {ps : List Str}, (∀ p ∈ ps, ∀ e ∈ es, ∃ b, m e p = .ok b) →
    ∃ b, matchPats m es ps = .ok b
  | [], _ => ⟨false, rfl⟩
  | p :: ps, h => by
    obtain ⟨b, hb⟩ := matchNames_ok (h p List.mem_cons_self)
    obtain ⟨b', hb'⟩ := matchPats_ok (ps := ps) fun x hx => h x (List.mem_cons_of_mem _ hx)
    refine ⟨if b then true else b', ?_⟩
    rw [matchPats, hb]
    cases b
    · exact hb'
    · rfl

theorem matchAddress_ok (L : Lib) (a p : Str) : ∃ b, matchAddress L a p = .ok b := by
  obtain ⟨b, h, -⟩ := matchAddress_spec L a p
  exact ⟨b, h⟩

theorem matchHost_ok (L : Lib) {a p : Str} (ha : a ≠ []) (hp : p ≠ []) : ∃ b, matchHost L a p = .ok b := by
  obtain ⟨b, h, -⟩ := matchHost_spec L ha (.inl hp)
  exact ⟨b, h⟩

theorem evalMatch_ok {W : World} {v4 : Prop} {tr : TransR} (hn : NamesOK tr.rdns) {k : MKind} {a : Str} {c : Ctx} (ha : a ≠ [])
    (hh : k = .helo → c.heloname ≠ []) (hc : Calm W v4 c) :
    ∃ b c', evalMatch W tr k a c = .ok (b, c') ∧ Calm W v4 c' ∧ c'.heloname = c.heloname := by
  obtain ⟨l, c', h1, h2, h3, h4⟩ := getMatchList_ok (v4 := v4) ha hc
  unfold evalMatch
  simp only [h1, bind, Except.bind, pure, Except.pure]
  split
  · exact ⟨_, _, rfl, ⟨h2.files, h2.hits⟩, h3⟩
  · have : ∃ b, matchPats (k.matcher W.lib) (k.names tr c') l = .ok b := by
      apply matchPats_ok
      intro p hp e he
      cases k with
      | helo =>
        simp only [MKind.names, List.mem_singleton] at he
        subst he
        exact matchHost_ok _ (by rw [h3]; exact hh rfl) (h4 p hp)
      | host => exact matchHost_ok _ (hn e (.inl he)) (h4 p hp)
      | from_ => exact matchAddress_ok _ _ _
      | «to» => exact matchAddress_ok _ _ _
      | ip => exact ⟨_, rfl⟩
      | sourceFrom => exact matchAddress_ok _ _ _
    obtain ⟨b, hb⟩ := this
    rw [hb]
    exact ⟨_, _, rfl, h2, h3⟩

theorem evalSource_ok {W : World} {v4 : Prop} {tr : TransR} (hn : NamesOK tr.rdns) {a : Str} {c : Ctx} (ha : a ≠ [])
    (hh : c.heloname ≠ []) (hc : Calm W v4 c) :
    ∃ b c', evalSource W tr a c = .ok (b, c') ∧ Calm W v4 c' ∧ c'.heloname = c.heloname := by
  unfold evalSource
  obtain ⟨b1, c1, h1, h2, h3⟩ := evalMatch_ok (k := .host) (v4 := v4) hn ha nofun hc
  simp only [h1, bind, Except.bind, pure, Except.pure]
  split
  · exact ⟨_, _, rfl, h2, h3⟩
  · obtain ⟨b2, c2, h4, h5, h6⟩ := evalMatch_ok (k := .helo) hn ha (fun _ => by rw [h3]; exact hh) h2
    simp only [h4]
    split
    · exact ⟨_, _, rfl, h5, h6.trans h3⟩
    · obtain ⟨b3, c3, h7, h8, h9⟩ := evalMatch_ok (k := .sourceFrom) hn ha nofun h5
      exact ⟨_, _, h7, h8, h9.trans (h6.trans h3)⟩

theorem getDnsblRes_hits (W : World) (n : Str) (c : Ctx) : (getDnsblRes W n c).2.dnsblhit = c.dnsblhit := by
  unfold getDnsblRes
  split
  · rfl
  · simp only; split <;> rfl

theorem mem_addDnsblHit {x d : Str} {c : Ctx} (h : x ∈ (addDnsblHit d c).dnsblhit) : x = d ∨ x ∈ c.dnsblhit := by
  unfold addDnsblHit at h
  split at h
  · exact .inr h
  · rcases List.mem_append.1 h with h | h
    · exact .inr h
    · exact .inl (List.mem_singleton.1 h)

theorem evalDnsbl_hits {W : World} {tr : TransR} {d : Str} {c : Ctx} (h : FourParts tr.rip ∨ sblName ∉ c.dnsblhit) :
    FourParts tr.rip ∨ sblName ∉ (evalDnsbl W tr d c).2.dnsblhit := by
  unfold evalDnsbl
  split
  · exact h
  · split
    · rename_i heq; exact .inl ⟨_, _, _, _, _, heq⟩
    · exact h

theorem dblLookups_hits {W : World} {v4 : Prop} {d : Str} (hd : v4 ∨ d ≠ sblName) : ∀ {l : List Str} {ret : Bool} {c : Ctx},
    (v4 ∨ sblName ∉ c.dnsblhit) → (v4 ∨ sblName ∉ (dblLookups W d l ret c).2.dnsblhit)
  | [], _, _, h => h
  | s :: ss, ret, c, h => by
    rw [dblLookups]
    split
    · apply dblLookups_hits hd
      rcases h with h | h
      · exact .inl h
      · rcases hd with hd | hd
        · exact .inl hd
        · refine .inr fun hm => ?_
          rcases mem_addDnsblHit hm with hm | hm
          · exact hd hm.symm
          · rw [getDnsblRes_hits] at hm; exact h hm
    · apply dblLookups_hits hd
      rw [getDnsblRes_hits]; exact h

theorem getAddrOpts_hits (W : World) (a : Str) (c : Ctx) : (getAddrOpts W a c).2.dnsblhit = c.dnsblhit := by
  have hv : ∀ d, (c.validDomain W d).2.dnsblhit = c.dnsblhit := by
    intro d; unfold Ctx.validDomain; split <;> rfl
  unfold getAddrOpts
  split
  · rfl
  · simp only
    split
    · split <;> exact hv _
    · rfl

theorem dblFrom_hits (W : World) (src : Opts) (chk : List Str) (c : Ctx) : (dblFrom W src chk c).2.dnsblhit = c.dnsblhit := by
  unfold dblFrom
  split
  · simp only
    split
    · split <;> exact getAddrOpts_hits _ _ _
    · exact getAddrOpts_hits _ _ _
  · rfl

theorem dblHosts_ok : ∀ {l chk : List Str}, (∀ n ∈ l, n ≠ []) → ∃ r, dblHosts l chk = .ok r
  | [], chk, _ => ⟨chk, rfl⟩
  | s :: ss, chk, h => by
    rw [dblHosts, if_neg (h s List.mem_cons_self)]
    exact dblHosts_ok fun n hn => h n (List.mem_cons_of_mem _ hn)

theorem evalDbl_ok {W : World} {v4 : Prop} {tr : TransR} (hn : NamesOK tr.rdns) {src : Opts} {d : Str} {c : Ctx} (hd : v4 ∨ d ≠ sblName)
    (hc : Calm W v4 c) : ∃ b c', evalDbl W tr src d c = .ok (b, c') ∧ Calm W v4 c' := by
  have h1 : ∃ chk, dblNames tr src c = .ok chk := by
    unfold dblNames
    simp only
    split
    · apply dblHosts_ok
      intro n hm
      rw [List.mem_append, List.mem_append, or_assoc] at hm
      exact hn n hm
    · exact ⟨_, rfl⟩
  obtain ⟨chk, h1⟩ := h1
  have h2 : ∃ x, evalDbl W tr src d c = .ok x ∧ (v4 ∨ sblName ∉ x.2.dnsblhit) := by
    unfold evalDbl
    simp only [h1, bind, Except.bind, pure, Except.pure]
    split
    · refine ⟨_, rfl, ?_⟩
      simp only
      rw [dblFrom_hits]; exact hc.hits
    · refine ⟨_, rfl, dblLookups_hits hd ?_⟩
      simp only
      rw [dblFrom_hits]; exact hc.hits
  obtain ⟨⟨b, c'⟩, h2, h3⟩ := h2
  exact ⟨b, c', h2, (evalDbl_steps h2).rsteps.filesOK hc.files, h3⟩

theorem evalOpt_hits (W : World) (tr : TransR) (k : OKind) (o : Opts) (c : Ctx) : (evalOpt W tr k o c).2.dnsblhit = c.dnsblhit := by
  unfold evalOpt OKind.get
  cases k
  · rfl
  · rfl
  · exact getAddrOpts_hits _ _ _
  · exact getAddrOpts_hits _ _ _

mutual
theorem eval_ok {W : World} {tr : TransR} (hn : NamesOK tr.rdns) : ∀ (e : Expr) {c : Ctx},
    (∀ o, OpIn o e → OpSafe (FourParts tr.rip) o ∧ (UsesHelo o → c.heloname ≠ [])) → Calm W (FourParts tr.rip) c →
    ∃ b c', eval W tr e c = .ok (b, c') ∧ Calm W (FourParts tr.rip) c'
  | .andL ns, c, h, hc => by
    rw [eval]
    exact evalAnd_ok hn ns (fun e he o ho => h o (.andL he ho)) hc
  | .notN e, c, h, hc => by
    obtain ⟨b, c', h1, h2⟩ := eval_ok hn e (fun o ho => h o (.notN ho)) hc
    exact ⟨!b, c', by rw [eval, h1]; rfl, h2⟩
  | .orN l r, c, h, hc => by
    obtain ⟨b, c', h1, h2⟩ := eval_ok hn l (fun o ho => h o (.orL ho)) hc
    have hh : c'.heloname = c.heloname := Ctx.heloname_of_core (eval_steps l h1).core
    obtain ⟨b', c'', h3, h4⟩ := eval_ok hn r (c := c') (fun o ho => by rw [hh]; exact h o (.orR ho)) h2
    rw [eval, h1]
    cases b
    · exact ⟨b', c'', h3, h4⟩
    · exact ⟨true, c', rfl, h2⟩
  | .all, c, _, hc => ⟨true, c, by rw [eval], hc⟩
  | .tls on, c, _, hc => ⟨_, c, by rw [eval], hc⟩
  | .dnsbl d, c, _, hc => ⟨_, _, by rw [eval], (evalDnsbl_steps W tr d c).rsteps.filesOK hc.files, evalDnsbl_hits hc.hits⟩
  | .matchN k a, c, h, hc => by
    have := h (.matchN k a) (.self nofun nofun nofun)
    rw [eval]
    obtain ⟨b, c', h1, h2, -⟩ := evalMatch_ok hn this.1 (k := k) (fun hk => this.2 (by rw [hk]; trivial)) hc
    exact ⟨b, c', h1, h2⟩
  | .source a, c, h, hc => by
    have := h (.source a) (.self nofun nofun nofun)
    rw [eval]
    obtain ⟨b, c', h1, h2, -⟩ := evalSource_ok hn this.1 (this.2 trivial) hc
    exact ⟨b, c', h1, h2⟩
  | .dbl s d, c, h, hc => by
    have := h (.dbl s d) (.self nofun nofun nofun)
    rw [eval]
    exact evalDbl_ok hn this.1 hc
  | .optN k o, c, _, hc => ⟨_, _, by rw [eval], (evalOpt_steps W tr k o c).rsteps.filesOK hc.files, by rw [evalOpt_hits]; exact hc.hits⟩
theorem evalAnd_ok {W : World} {tr : TransR} (hn : NamesOK tr.rdns) : ∀ (es : List Expr) {c : Ctx},
    (∀ e ∈ es, ∀ o, OpIn o e → OpSafe (FourParts tr.rip) o ∧ (UsesHelo o → c.heloname ≠ [])) → Calm W (FourParts tr.rip) c →
    ∃ b c', evalAnd W tr es c = .ok (b, c') ∧ Calm W (FourParts tr.rip) c'
  | [], c, _, hc => ⟨true, c, by rw [evalAnd], hc⟩
  | e :: es, c, h, hc => by
    obtain ⟨b, c', h1, h2⟩ := eval_ok hn e (fun o ho => h e List.mem_cons_self o ho) hc
    have hh : c'.heloname = c.heloname := Ctx.heloname_of_core (eval_steps e h1).core
    obtain ⟨b', c'', h3, h4⟩ := evalAnd_ok hn es (c := c') (fun x hx o ho => by rw [hh]; exact h x (List.mem_cons_of_mem _ hx) o ho) h2
    rw [evalAnd, h1]
    cases b
    · exact ⟨false, c', rfl, h2⟩
    · exact ⟨b', c'', h3, h4⟩
end

/-- The rule level: no note without a log. -/
structure Quieter (W : World) (v4 log : Prop) (c : Ctx) : Prop extends Calm W v4 c where
  note : log ∨ c.withprops.note.getD [] = []

theorem checkClauses_ok {W : World} {tr : TransR} {log : Prop} (hn : NamesOK tr.rdns) : ∀ (cs : List RClause) {c : Ctx},
    (∀ x ∈ cs, ∀ o, OpIn o x.expr → OpSafe (FourParts tr.rip) o ∧ (UsesHelo o → c.heloname ≠ [])) →
    (log ∨ ∀ x ∈ cs, x.withs.note.getD [] = []) → Quieter W (FourParts tr.rip) log c →
    ∃ b c', checkClauses W tr cs c = .ok (b, c') ∧ Quieter W (FourParts tr.rip) log c' ∧ c'.heloname = c.heloname
  | [], c, _, _, hc => ⟨false, c, rfl, hc, rfl⟩
  | rc :: rcs, c, h, hl, hc => by
    obtain ⟨b, c', h1, h2⟩ := eval_ok hn rc.expr (fun o ho => h rc List.mem_cons_self o ho) hc.toCalm
    have hcore := (eval_steps _ h1).core
    have hh : c'.heloname = c.heloname := Ctx.heloname_of_core hcore
    have hw : c'.withprops = c.withprops := Ctx.withprops_of_core hcore
    have hq : Quieter W (FourParts tr.rip) log c' := ⟨h2, by rw [hw]; exact hc.note⟩
    rw [checkClauses, h1]
    simp only [bind, Except.bind, pure, Except.pure]
    split
    · exact ⟨_, _, rfl, hq, hh⟩
    · split
      · obtain ⟨b', c'', h3, h4, h5⟩ := checkClauses_ok hn rcs (c := c') (fun x hx o ho => by rw [hh]; exact h x (List.mem_cons_of_mem _ hx) o ho)
          (hl.imp id fun hl x hx => hl x (List.mem_cons_of_mem _ hx)) hq
        exact ⟨_, _, h3, h4, h5.trans hh⟩
      · refine ⟨_, _, rfl, ⟨⟨h2.files, h2.hits⟩, ?_⟩, hh⟩
        rcases hl with hl | hl
        · exact .inl hl
        · rcases hq.note with hn | hn
          · exact .inl hn
          · right
            have := hl rc List.mem_cons_self
            simp only [Withs.merge]
            cases hx : rc.withs.note with
            | none => exact hn
            | some y => rw [hx] at this; exact this

theorem check_ok {W : World} {tr : TransR} {log : Prop} (hn : NamesOK tr.rdns) {r : Rule} {c : Ctx}
    (hr : RuleSafe (FourParts tr.rip) log r) (hh : RuleUsesHelo r → c.heloname ≠ []) (hc : Quieter W (FourParts tr.rip) log c) :
    ∃ b c', r.check W tr c = .ok (b, c') ∧ Quieter W (FourParts tr.rip) log c' ∧ c'.heloname = c.heloname :=
  checkClauses_ok hn r.clauses (c := { c with rulemiss := false }) (fun x hx o ho => ⟨hr.1 x hx o ho, fun hu => hh ⟨x, hx, o, ho, hu⟩⟩) hr.2
    ⟨⟨hc.files, hc.hits⟩, hc.note⟩

theorem ruleForEachRcpt_ok {W : World} {tr : TransR} {log : Prop} (hn : NamesOK tr.rdns) {r : Rule}
    (hr : RuleSafe (FourParts tr.rip) log r) : ∀ (l : List Str) {c : Ctx}, (RuleUsesHelo r → c.heloname ≠ []) → Quieter W (FourParts tr.rip) log c →
    ∃ b c', ruleForEachRcpt W tr r l c = .ok (b, c') ∧ Quieter W (FourParts tr.rip) log c' ∧ c'.heloname = c.heloname
  | [], c, _, hc => ⟨_, _, rfl, hc, rfl⟩
  | x :: xs, c, hh, hc => by
    obtain ⟨b, c', h1, h2, h3⟩ := check_ok hn (c := { c with rcptto := x }) hr hh ⟨⟨hc.files, hc.hits⟩, hc.note⟩
    rw [ruleForEachRcpt, h1]
    simp only [bind, Except.bind, pure, Except.pure]
    split
    · exact ⟨_, _, rfl, h2, h3⟩
    · split
      · exact ⟨_, _, rfl, h2, h3⟩
      · obtain ⟨b', c'', h4, h5, h6⟩ := ruleForEachRcpt_ok hn hr xs (c := c') (fun hu => by rw [h3]; exact hh hu) h2
        exact ⟨_, _, h4, h5, h6.trans h3⟩

theorem runRule_ok {W : World} {tr : TransR} {log : Prop} (hn : NamesOK tr.rdns) {ph : Phase} {r : Rule} {c : Ctx}
    (hr : RuleSafe (FourParts tr.rip) log r) (hh : RuleUsesHelo r → c.heloname ≠ []) (hc : Quieter W (FourParts tr.rip) log c) :
    ∃ b c', runRule W tr ph r c = .ok (b, c') ∧ Quieter W (FourParts tr.rip) log c' ∧ c'.heloname = c.heloname := by
  unfold runRule
  simp only
  split
  · exact ruleForEachRcpt_ok hn hr _ hh ⟨⟨hc.files, hc.hits⟩, hc.note⟩
  · exact check_ok hn hr hh ⟨⟨hc.files, hc.hits⟩, hc.note⟩

/-- The standard rules, sinksmtp.go:1304-1313. -/
def stdRules : List Rule :=
  [⟨[⟨.optN .fromHas (oBad ||| oRoute), {}⟩], .reject, .mfrom, .any⟩,
   ⟨[⟨.optN .toHas (oBad ||| oRoute), {}⟩], .reject, .rto, .any⟩,
   ⟨[⟨.optN .heloHas oNone, {}⟩], .reject, .helo, .any⟩]

theorem ruleLoop_ok {W : World} {tr : TransR} {log : Prop} (hn : NamesOK tr.rdns) {ph : Phase} : ∀ (rs : List Rule) {c : Ctx},
    (∀ r ∈ rs, RuleSafe (FourParts tr.rip) log r ∧ (RuleUsesHelo r → skipRule ph r = false → c.heloname ≠ [])) →
    Quieter W (FourParts tr.rip) log c →
    ∃ a c', ruleLoop W tr ph rs c = .ok (a, c') ∧ Quieter W (FourParts tr.rip) log c'
  | [], c, _, hc => ⟨_, _, rfl, hc⟩
  | r :: rs, c, h, hc => by
    rw [ruleLoop]
    split
    · exact ruleLoop_ok hn rs (fun x hx => h x (List.mem_cons_of_mem _ hx)) hc
    · rename_i hsk
      obtain ⟨b, c', h1, h2, h3⟩ := runRule_ok hn (ph := ph) (h r List.mem_cons_self).1 (fun hu => (h r List.mem_cons_self).2 hu (by simpa using hsk)) hc
      have hrec := ruleLoop_ok hn rs (c := c') (fun x hx => by rw [h3]; exact h x (List.mem_cons_of_mem _ hx)) h2
      simp only [h1, bind, Except.bind, pure, Except.pure]
      split
      · exact hrec
      · split
        · exact ⟨_, _, rfl, h2⟩
        · exact hrec

/-- With an empty EHLO name the standard rules decide, from EHLO on. -/
theorem ruleLoop_std {W : World} {tr : TransR} {log : Prop} (hn : NamesOK tr.rdns) {ph : Phase} (hph : ph ≥ .helo) {rest : List Rule} {c : Ctx}
    (hh : c.heloname = []) (hc : Quieter W (FourParts tr.rip) log c) :
    ∃ a c', ruleLoop W tr ph (stdRules ++ rest) c = .ok (a, c') ∧ Quieter W (FourParts tr.rip) log c' := by
  have hsafe : ∀ r ∈ stdRules, RuleSafe (FourParts tr.rip) log r ∧ ¬ RuleUsesHelo r := by
    have key : ∀ k o, ∀ x, OpIn x (.optN k o) → x = .optN k o := by
      intro k o x hx; cases hx; rfl
    intro r hr
    simp only [stdRules, List.mem_cons, List.not_mem_nil, or_false] at hr
    rcases hr with rfl | rfl | rfl <;> refine ⟨⟨?_, .inr ?_⟩, ?_⟩
    all_goals first
      | (intro cl hcl o ho; simp only [List.mem_singleton] at hcl; subst hcl; rw [key _ _ _ ho]; trivial)
      | (intro cl hcl; simp only [List.mem_singleton] at hcl; subst hcl; rfl)
      | (rintro ⟨cl, hcl, o, ho, hu⟩; simp only [List.mem_singleton] at hcl; subst hcl; rw [key _ _ _ ho] at hu; exact hu)
  have step : ∀ (r : Rule) (rs : List Rule) (c : Ctx), r ∈ stdRules → c.heloname = [] → Quieter W (FourParts tr.rip) log c →
      (∀ c', c'.heloname = [] → Quieter W (FourParts tr.rip) log c' → ∃ a c'', ruleLoop W tr ph rs c' = .ok (a, c'') ∧ Quieter W (FourParts tr.rip) log c'') →
      ∃ a c', ruleLoop W tr ph (r :: rs) c = .ok (a, c') ∧ Quieter W (FourParts tr.rip) log c' := by
    intro r rs c hr hh hc hrec
    rw [ruleLoop]
    split
    · exact hrec c hh hc
    · obtain ⟨b, c', h1, h2, h3⟩ := runRule_ok hn (ph := ph) (hsafe r hr).1 (fun hu => absurd hu (hsafe r hr).2) hc
      simp only [h1, bind, Except.bind, pure, Except.pure]
      split
      · exact hrec c' (h3.trans hh) h2
      · split
        · exact ⟨_, _, rfl, h2⟩
        · exact hrec c' (h3.trans hh) h2
  refine step _ _ c (by simp [stdRules]) hh hc fun c1 hh1 hc1 => ?_
  refine step _ _ c1 (by simp [stdRules]) hh1 hc1 fun c2 hh2 hc2 => ?_
  show ∃ a c', ruleLoop W tr ph (⟨[⟨.optN .heloHas oNone, {}⟩], .reject, .helo, .any⟩ :: rest) c2 = .ok (a, c') ∧ _
  rw [ruleLoop]
  have hsk : skipRule ph ⟨[⟨.optN .heloHas oNone, {}⟩], .reject, .helo, .any⟩ = false := by
    cases ph <;> first | rfl | exact absurd hph (by decide)
  rw [hsk]
  have hev : evalOpt W tr .heloHas oNone { c2 with rulemiss := false } = (true, { c2 with rulemiss := false }) := by
    unfold evalOpt OKind.get heloGetter
    simp only [hh2, if_true]
    cases c2.isHelo <;> rfl
  have hrun : runRule W tr ph ⟨[⟨.optN .heloHas oNone, {}⟩], .reject, .helo, .any⟩ c2 =
      .ok (true, { c2 with rulemiss := false, withprops := c2.withprops.merge {} }) := by
    unfold runRule
    rw [if_neg (by rintro ⟨-, h⟩; exact absurd h (by decide))]
    unfold Rule.check
    simp only [checkClauses, eval, hev]
    rfl
  rw [hrun]
  exact ⟨_, _, rfl, ⟨hc2.files, hc2.hits⟩, hc2.note⟩

/-- What is assumed of the rules: they are safe, they wait for the EHLO if they look at it, and an empty EHLO name never gets to a
rule that looks at it. -/
structure RulesSafe (v4 log : Prop) (rs : List Rule) : Prop where
  safe : ∀ r ∈ rs, RuleSafe v4 log r
  wait : ∀ r ∈ rs, RuleUsesHelo r → r.requires ≥ .helo
  helo : (∃ rest, rs = stdRules ++ rest) ∨ ∀ r ∈ rs, ¬ RuleUsesHelo r

/-- A context between decisions. -/
structure Settled (W : World) (v4 log : Prop) (c : Ctx) : Prop where
  files : FilesOK W c
  defhits : v4 ∨ sblName ∉ c.defdnsblhit
  defnote : log ∨ c.defprops.note.getD [] = []

theorem Decide_ok {W : World} {tr : TransR} {log : Prop} (hn : NamesOK tr.rdns) {ph : Phase} {e : Evt} {c : Ctx}
    (hr : RulesSafe (FourParts tr.rip) log c.ruleset) (hc : Settled W (FourParts tr.rip) log c) :
    ∃ a c', Decide W tr ph e c = .ok (a, c') ∧ Quieter W (FourParts tr.rip) log c' ∧ Settled W (FourParts tr.rip) log c' := by
  have hb : Quieter W (FourParts tr.rip) log (begun ph e c) :=
    ⟨⟨by unfold FilesOK; rw [begun_files]; exact hc.files, .inr (by simp [begun])⟩, .inr rfl⟩
  have hs1 : (shadow ph e c).defdnsblhit = c.defdnsblhit := by cases ph <;> rfl
  have hs2 : (shadow ph e c).defprops = c.defprops := by cases ph <;> rfl
  have hl : ∃ a c', ruleLoop W tr ph c.ruleset (begun ph e c) = .ok (a, c') ∧ Quieter W (FourParts tr.rip) log c' := by
    by_cases hp : ph ≥ .helo
    · by_cases hh : (begun ph e c).heloname = []
      · rcases hr.helo with ⟨rest, h⟩ | h
        · rw [h]; exact ruleLoop_std hn hp hh hb
        · exact ruleLoop_ok hn _ (fun r hm => ⟨hr.safe r hm, fun hu => absurd hu (h r hm)⟩) hb
      · exact ruleLoop_ok hn _ (fun r hm => ⟨hr.safe r hm, fun _ _ => hh⟩) hb
    · refine ruleLoop_ok hn _ (fun r hm => ⟨hr.safe r hm, fun hu hsk => ?_⟩) hb
      exfalso
      have := hr.wait r hm hu
      unfold skipRule at hsk
      simp only [Bool.or_eq_false_iff, decide_eq_false_iff_not] at hsk
      have h1 := hsk.1.1
      apply h1
      show ph.num < r.requires.num
      have h2 : ¬ (2 ≤ ph.num) := hp
      have h3 : 2 ≤ r.requires.num := this
      omega
  obtain ⟨a, c', h1, h2⟩ := hl
  have hf := (ruleLoop_steps h1).frame
  have hd1 : c'.defdnsblhit = c.defdnsblhit := by
    have := congrArg Ctx.defdnsblhit hf
    exact this.trans hs1
  have hd2 : c'.defprops = c.defprops := by
    have := congrArg Ctx.defprops hf
    exact this.trans hs2
  have h1' : ruleLoop W tr ph (shadow ph e c).ruleset (begun ph e c) = .ok (a, c') := by rw [shadow_ruleset]; exact h1
  unfold Decide
  simp only [bind, Except.bind, pure, Except.pure]
  split
  · refine ⟨_, _, rfl, ⟨⟨hb.files, ?_⟩, ?_⟩, hb.files, ?_, ?_⟩
    · simp only; rw [hs1]; exact hc.defhits
    · simp only; rw [hs2]; exact hc.defnote
    · simp only; rw [hs1]; exact hc.defhits
    · simp only; rw [hs2]; exact hc.defnote
  · have : ruleLoop W tr ph ({ shadow ph e c with dnsblhit := [], withprops := {}, domerr := none } : Ctx).ruleset
        { shadow ph e c with dnsblhit := [], withprops := {}, domerr := none } = .ok (a, c') := h1'
    rw [this]
    simp only
    split
    · exact ⟨_, _, rfl, ⟨⟨h2.files, h2.hits⟩, .inr rfl⟩, h2.files, h2.hits, h2.note⟩
    · exact ⟨_, _, rfl, h2, h2.files, by rw [hd1]; exact hc.defhits, by rw [hd2]; exact hc.defnote⟩

end Sink
