import Verif.Lemmas.Steps

/-!
# Decisions in a changing world

The code keeps what it has found out about pattern files, mail domains and blocklists for the rest of a connection.  So if a world `W0` that
does not change agrees with what is kept at the end, everything went as in `W0`.  Only negative answers of blocklists are not
kept, so blocklists have to agree all the time.
-/

namespace Sink
open Spec Relation

/-- The name has an address at time `t`. -/
def ListedAt (W : World) (t : Nat) (n : Str) : Prop := ∃ ips, W.lookupIP t n = .ok ips ∧ ips ≠ []

/-- The blocklists in `P` are those of `W0` all the time. -/
def Lists (P : Str → Prop) (W W0 : World) : Prop := ∀ t x d, P d → (ListedAt W t (x ++ b!"." ++ d) ↔ Listed W0 (x ++ b!"." ++ d))

/-- Known answers stay. -/
structure Grows (c c' : Ctx) : Prop where
  files : ∀ f l, c.files f = some l → c'.files f = some l
  dnsbl : ∀ n b, c.dnsbl n = some b → c'.dnsbl n = some b
  domvalid : ∀ d r, c.domvalid d = some r → c'.domvalid d = some r

theorem Grows.refl (c : Ctx) : Grows c c := ⟨fun _ _ h => h, fun _ _ h => h, fun _ _ h => h⟩
theorem Grows.trans {a b c : Ctx} (h : Grows a b) (h' : Grows b c) : Grows a c :=
  ⟨fun f l hx => h'.files f l (h.files f l hx), fun n b hx => h'.dnsbl n b (h.dnsbl n b hx), fun d r hx => h'.domvalid d r (h.domvalid d r hx)⟩

theorem Grows.cache {W : World} {c c' : Ctx} (h : Grows c c') (hc : CacheOK W c') : CacheOK W c :=
  ⟨fun f l hx => hc.files f l (h.files f l hx), fun n b hx => hc.dnsbl n b (h.dnsbl n b hx), fun d r hx => hc.domvalid d r (h.domvalid d r hx)⟩

theorem upd_grows {α : Type} {f : Str → Option α} {k : Str} {v : α} (h : f k = none) {x : Str} {y : α} (hx : f x = some y) :
    upd f k v x = some y := by
  unfold upd
  split
  · rename_i he; subst he; rw [h] at hx; cases hx
  · exact hx

theorem EStep.grows {W : World} {c c' : Ctx} (h : EStep W c c') : Grows c c' := by
  cases h with
  | lookup n =>
    unfold getDnsblRes
    split
    · exact .refl c
    · rename_i hn
      simp only
      split
      · exact ⟨fun _ _ h => h, fun _ _ h => h, fun _ _ h => h⟩
      · exact ⟨fun _ _ h => h, fun _ _ h => upd_grows hn h, fun _ _ h => h⟩
  | hit =>
    unfold addDnsblHit
    split
    · exact .refl c
    · exact ⟨fun _ _ h => h, fun _ _ h => h, fun _ _ h => h⟩
  | valid d =>
    unfold Ctx.validDomain
    split
    · exact .refl c
    · rename_i hn
      exact ⟨fun _ _ h => h, fun _ _ h => h, fun _ _ h => upd_grows hn h⟩
  | load hn => exact ⟨fun _ _ h => upd_grows hn h, fun _ _ h => h, fun _ _ h => h⟩
  | domerr | miss | mapIter => exact ⟨fun _ _ h => h, fun _ _ h => h, fun _ _ h => h⟩

theorem ESteps.grows {W : World} {c c' : Ctx} (h : ESteps W c c') : Grows c c' := by
  induction h with
  | refl => exact .refl _
  | tail _ h ih => exact ih.trans h.grows

theorem RSteps.grows {W : World} {c c' : Ctx} (h : RSteps W c c') : Grows c c' := by
  induction h with
  | refl => exact .refl _
  | tail _ h ih =>
    refine ih.trans ?_
    cases h with
    | eval h => exact h.grows
    | «with» | rcpt | reset => exact ⟨fun _ _ h => h, fun _ _ h => h, fun _ _ h => h⟩

/-- The context without what has been found out, and how. -/
def Ctx.bare (c : Ctx) : Ctx :=
  { c with files := fun _ => none, dnsbl := fun _ => none, domvalid := fun _ => none, domerr := none, trace := [] }

/-- The same situation, seen in `W0`. -/
structure Twin (W0 : World) (c d : Ctx) : Prop where
  bare : c.bare = d.bare
  cache : CacheOK W0 d

section Twin
variable {W W0 : World} {c d : Ctx}

theorem Twin.heloname (h : Twin W0 c d) : c.heloname = d.heloname := (congrArg Ctx.heloname h.bare :)
theorem Twin.isHelo (h : Twin W0 c d) : c.isHelo = d.isHelo := (congrArg Ctx.isHelo h.bare :)
theorem Twin.from_ (h : Twin W0 c d) : c.from_ = d.from_ := (congrArg Ctx.from_ h.bare :)
theorem Twin.rcptto (h : Twin W0 c d) : c.rcptto = d.rcptto := (congrArg Ctx.rcptto h.bare :)
theorem Twin.ruleset (h : Twin W0 c d) : c.ruleset = d.ruleset := (congrArg Ctx.ruleset h.bare :)
theorem Twin.withprops (h : Twin W0 c d) : c.withprops = d.withprops := (congrArg Ctx.withprops h.bare :)
theorem Twin.defresult (h : Twin W0 c d) : c.defresult = d.defresult := (congrArg Ctx.defresult h.bare :)
theorem Twin.defdnsblhit (h : Twin W0 c d) : c.defdnsblhit = d.defdnsblhit := (congrArg Ctx.defdnsblhit h.bare :)
theorem Twin.defprops (h : Twin W0 c d) : c.defprops = d.defprops := (congrArg Ctx.defprops h.bare :)
theorem Twin.dnsblhit (h : Twin W0 c d) : c.dnsblhit = d.dnsblhit := (congrArg Ctx.dnsblhit h.bare :)
theorem Twin.rulemiss (h : Twin W0 c d) : c.rulemiss = d.rulemiss := (congrArg Ctx.rulemiss h.bare :)

/-- Any part can be changed in both. -/
theorem Twin.map (h : Twin W0 c d) (f : Ctx → Ctx) (hf : ∀ x : Ctx, (f x).bare = f x.bare)
    (hc : ∀ x : Ctx, (f x).files = x.files ∧ (f x).dnsbl = x.dnsbl ∧ (f x).domvalid = x.domvalid) : Twin W0 (f c) (f d) := by
  refine ⟨by rw [hf, hf, h.bare], ?_⟩
  obtain ⟨h1, h2, h3⟩ := hc d
  exact ⟨by rw [h1]; exact h.cache.files, by rw [h2]; exact h.cache.dnsbl, by rw [h3]; exact h.cache.domvalid⟩

theorem Twin.of_bare {c' : Ctx} (h : Twin W0 c d) (hb : c'.bare = c.bare) : Twin W0 c' d := ⟨hb.trans h.bare, h.cache⟩

theorem getDnsblRes_bare (W : World) (n : Str) (c : Ctx) : (getDnsblRes W n c).2.bare = c.bare := by
  unfold getDnsblRes
  split
  · rfl
  · simp only; split <;> rfl

theorem getDnsblRes_view {n : Str} (hl : ∀ t, ListedAt W t n ↔ Listed W0 n) (hc : CacheOK W0 (getDnsblRes W n c).2) :
    (getDnsblRes W n c).1 = true ↔ Listed W0 n := by
  unfold getDnsblRes at hc ⊢
  split
  · rename_i r hr
    rw [hr] at hc
    exact hc.dnsbl n r hr
  · have := hl c.trace.length
    unfold ListedAt at this
    simp only
    split
    · rename_i he
      rw [← this, he]
      simp
    · rename_i ips he
      rw [← this, he]
      simp [List.length_pos_iff]

theorem Twin.getDnsblRes (h : Twin W0 c d) (hs : W0.Static) {n : Str} (hl : ∀ t, ListedAt W t n ↔ Listed W0 n)
    (hc : CacheOK W0 (getDnsblRes W n c).2) :
    (Sink.getDnsblRes W0 n d).1 = (Sink.getDnsblRes W n c).1 ∧ Twin W0 (Sink.getDnsblRes W n c).2 (Sink.getDnsblRes W0 n d).2 := by
  obtain ⟨k1, k2⟩ := getDnsblRes_spec hs h.cache n
  refine ⟨?_, by rw [getDnsblRes_bare, getDnsblRes_bare]; exact h.bare, k1.cache⟩
  rw [Bool.eq_iff_iff, k2, getDnsblRes_view hl hc]

theorem Twin.addDnsblHit (h : Twin W0 c d) (x : Str) : Twin W0 (addDnsblHit x c) (addDnsblHit x d) := by
  unfold Sink.addDnsblHit
  rw [h.dnsblhit]
  split
  · exact h
  · refine ⟨?_, ⟨h.cache.files, h.cache.dnsbl, h.cache.domvalid⟩⟩
    have := congrArg (fun x : Ctx => { x with dnsblhit := d.dnsblhit ++ [‹Str›] }) h.bare
    exact this

theorem validDomain_bare (W : World) (x : Str) (c : Ctx) : (c.validDomain W x).2.bare = c.bare := by
  unfold Ctx.validDomain
  split <;> rfl

theorem validDomain_known (W : World) (x : Str) (c : Ctx) : (c.validDomain W x).2.domvalid x = some (c.validDomain W x).1 := by
  unfold Ctx.validDomain
  split
  · assumption
  · simp [upd]

theorem verdict_eq {a b : DnsRes} {P Q R : Prop} (ha : (a = .good ↔ P) ∧ (a = .tempfail ↔ Q) ∧ (a = .undef ↔ R))
    (hb : (b = .good ↔ P) ∧ (b = .tempfail ↔ Q) ∧ (b = .undef ↔ R)) : a = b := by
  have h1 := ha.1.trans hb.1.symm
  have h2 := ha.2.1.trans hb.2.1.symm
  have h3 := ha.2.2.trans hb.2.2.symm
  revert h1 h2 h3
  cases a <;> cases b <;> simp

theorem Twin.validDomain (h : Twin W0 c d) (hs : W0.Static) (x : Str) (hc : CacheOK W0 (c.validDomain W x).2) :
    (d.validDomain W0 x).1.1 = (c.validDomain W x).1.1 ∧ Twin W0 (c.validDomain W x).2 (d.validDomain W0 x).2 := by
  obtain ⟨k1, k2⟩ := ctxValidDomain_spec hs h.cache x
  exact ⟨verdict_eq k2 (hc.domvalid x _ (validDomain_known W x c)), by rw [validDomain_bare, validDomain_bare]; exact h.bare, k1.cache⟩

theorem Twin.domerr (h : Twin W0 c d) (e e' : Option Str) : Twin W0 { c with domerr := e } { d with domerr := e' } :=
  ⟨h.bare, ⟨h.cache.files, h.cache.dnsbl, h.cache.domvalid⟩⟩

theorem CacheOK.of_domerr {W : World} {c : Ctx} {e : Option Str} (h : CacheOK W { c with domerr := e }) : CacheOK W c :=
  ⟨h.files, h.dnsbl, h.domvalid⟩

theorem Twin.getAddrOpts (h : Twin W0 c d) (hs : W0.Static) (a : Str) (hc : CacheOK W0 (getAddrOpts W a c).2) :
    (Sink.getAddrOpts W0 a d).1 = (Sink.getAddrOpts W a c).1 ∧ Twin W0 (Sink.getAddrOpts W a c).2 (Sink.getAddrOpts W0 a d).2 := by
  by_cases ha : a = []
  · rw [Sink.getAddrOpts, Sink.getAddrOpts, if_pos ha, if_pos ha]; exact ⟨rfl, h⟩
  · by_cases ho : addrShape a &&& (oNoat ||| oUnqualified ||| oGarbage ||| oRoute) = 0
    ·
      obtain ⟨dom, hd⟩ : ∃ dom, dom = (match indexByte a c!"@" with
        | some idx => a.drop (idx + 1)
        | none => a) := ⟨_, rfl⟩
      have key : ∀ W c, Sink.getAddrOpts W a c = (match (c.validDomain W dom).1.1 with
        | .good => (addrShape a ||| oDomainValid, (c.validDomain W dom).2)
        | .bad => (addrShape a ||| oDomainInvalid, { (c.validDomain W dom).2 with domerr := some (b!"domain " ++ dom ++ b!": " ++ errText (c.validDomain W dom).1.2) })
        | .tempfail => (addrShape a ||| oDomainTempfail, { (c.validDomain W dom).2 with domerr := some (b!"domain " ++ dom ++ b!": " ++ errText (c.validDomain W dom).1.2) })
        | .undef => (addrShape a, (c.validDomain W dom).2)) := by
        intro W c
        rw [hd, Sink.getAddrOpts, if_neg ha]
        simp only
        rw [if_pos ho]
        cases indexByte a c!"@" <;> rfl
      rw [key] at hc
      rw [key, key]
      have hc' : CacheOK W0 (c.validDomain W dom).2 := by
        split at hc
        · exact hc
        · exact hc.of_domerr
        · exact hc.of_domerr
        · exact hc
      obtain ⟨k1, k2⟩ := h.validDomain (W := W) hs dom hc'
      rw [k1]
      cases (c.validDomain W dom).1.1 with
      | good => exact ⟨rfl, k2⟩
      | bad => exact ⟨rfl, k2.domerr _ _⟩
      | tempfail => exact ⟨rfl, k2.domerr _ _⟩
      | undef => exact ⟨rfl, k2⟩
    · rw [Sink.getAddrOpts, Sink.getAddrOpts, if_neg ha, if_neg ha]
      simp only
      rw [if_neg ho, if_neg ho]
      exact ⟨rfl, h⟩

theorem Twin.getMatchList (h : Twin W0 c d) (hs : W0.Static) (hL : W0.lib = W.lib) {a : Str} {c' : Ctx} {l : List Str}
    (he : getMatchList W a c = .ok (l, c')) (hc : CacheOK W0 c') :
    ∃ d', Sink.getMatchList W0 a d = .ok (l, d') ∧ Twin W0 c' d' := by
  unfold Sink.getMatchList at he ⊢
  cases hm : matchFile a with
  | error p => rw [hm] at he; cases he
  | ok r =>
    rw [hm] at he
    cases r with
    | none => cases he; simp only [hL]; exact ⟨d, rfl, h⟩
    | some f =>
      simp only at he ⊢
      have hl : l = fileEntries W0 f ∧ c'.bare = c.bare := by
        cases hf : c.files f with
        | some l' => rw [hf] at he; cases he; exact ⟨hc.files f _ hf, rfl⟩
        | none =>
          rw [hf] at he
          cases he
          exact ⟨hc.files f _ (by simp [upd]), rfl⟩
      cases hf : d.files f with
      | some l' =>
        rw [h.cache.files f l' hf, hl.1]
        exact ⟨d, rfl, h.of_bare hl.2⟩
      | none =>
        rw [loadList_static hs, hl.1]
        refine ⟨_, rfl, hl.2.trans h.bare, ?_⟩
        refine ⟨fun g k hg => ?_, h.cache.dnsbl, h.cache.domvalid⟩
        simp only [upd] at hg
        split at hg
        · rename_i hgf; cases hg; rw [hgf]
        · exact h.cache.files g k hg

theorem Twin.evalMatch (h : Twin W0 c d) (hs : W0.Static) (hL : W0.lib = W.lib) {tr : TransR} {k : MKind} {a : Str} {c' : Ctx} {b : Bool}
    (he : evalMatch W tr k a c = .ok (b, c')) (hc : CacheOK W0 c') : ∃ d', Sink.evalMatch W0 tr k a d = .ok (b, d') ∧ Twin W0 c' d' := by
  unfold Sink.evalMatch at he ⊢
  cases hl : Sink.getMatchList W a c with
  | error p => rw [hl] at he; cases he
  | ok x =>
    obtain ⟨l, c1⟩ := x
    rw [hl] at he
    simp only [bind, Except.bind, pure, Except.pure] at he
    have hc1 : CacheOK W0 c1 := by
      split at he
      · cases he; exact ⟨hc.files, hc.dnsbl, hc.domvalid⟩
      · cases hp : matchPats (k.matcher W.lib) (k.names tr c1) l with
        | error p => rw [hp] at he; cases he
        | ok r => rw [hp] at he; cases he; exact hc
    obtain ⟨d1, hd, ht⟩ := h.getMatchList hs hL hl hc1
    rw [hd]
    simp only [bind, Except.bind, pure, Except.pure]
    have hn : k.names tr d1 = k.names tr c1 := by cases k <;> simp only [MKind.names, ht.heloname, ht.from_, ht.rcptto]
    split at he
    · rename_i h0
      cases he
      rw [if_pos h0]
      exact ⟨_, rfl, ht.map (fun x => { x with rulemiss := true }) (fun _ => rfl) (fun _ => ⟨rfl, rfl, rfl⟩)⟩
    · rename_i h0
      rw [if_neg h0, hn, hL]
      cases hp : matchPats (k.matcher W.lib) (k.names tr c1) l with
      | error p => rw [hp] at he; cases he
      | ok r => rw [hp] at he; cases he; exact ⟨_, rfl, ht⟩

theorem Twin.evalSource (h : Twin W0 c d) (hs : W0.Static) (hL : W0.lib = W.lib) {tr : TransR} {a : Str} {c' : Ctx} {b : Bool}
    (he : evalSource W tr a c = .ok (b, c')) (hc : CacheOK W0 c') : ∃ d', Sink.evalSource W0 tr a d = .ok (b, d') ∧ Twin W0 c' d' := by
  unfold Sink.evalSource at he ⊢
  cases h1 : Sink.evalMatch W tr .host a c with
  | error p => rw [h1] at he; cases he
  | ok r1 =>
    obtain ⟨b1, c1⟩ := r1
    rw [h1] at he
    cases b1 with
    | true =>
      cases he
      obtain ⟨d1, hd, ht⟩ := h.evalMatch hs hL h1 hc
      exact ⟨d1, by rw [hd]; rfl, ht⟩
    | false =>
      simp only [bind, Except.bind, Bool.false_eq_true, if_false] at he
      cases h2 : Sink.evalMatch W tr .helo a c1 with
      | error p => rw [h2] at he; cases he
      | ok r2 =>
        obtain ⟨b2, c2⟩ := r2
        rw [h2] at he
        have g1 := (evalMatch_steps h2).grows
        cases b2 with
        | true =>
          cases he
          obtain ⟨d1, hd, ht⟩ := h.evalMatch hs hL h1 (g1.cache hc)
          obtain ⟨d2, hd2, ht2⟩ := ht.evalMatch hs hL h2 hc
          refine ⟨d2, ?_, ht2⟩
          rw [hd]; simp only [bind, Except.bind, Bool.false_eq_true, if_false]; rw [hd2]; rfl
        | false =>
          simp only [Bool.false_eq_true, if_false] at he
          have g2 := (evalMatch_steps he).grows
          obtain ⟨d1, hd, ht⟩ := h.evalMatch hs hL h1 (g1.cache (g2.cache hc))
          obtain ⟨d2, hd2, ht2⟩ := ht.evalMatch hs hL h2 (g2.cache hc)
          obtain ⟨d3, hd3, ht3⟩ := ht2.evalMatch hs hL he hc
          refine ⟨d3, ?_, ht3⟩
          rw [hd]; simp only [bind, Except.bind, Bool.false_eq_true, if_false]; rw [hd2]; simp only [Bool.false_eq_true, if_false]; exact hd3

theorem addDnsblHit_grows (x : Str) (c : Ctx) : Grows c (addDnsblHit x c) := by
  unfold Sink.addDnsblHit
  split
  · exact .refl c
  · exact ⟨fun _ _ h => h, fun _ _ h => h, fun _ _ h => h⟩

theorem Twin.evalDnsbl (h : Twin W0 c d) (hs : W0.Static) {P : Str → Prop} (hl : Lists P W W0) {tr : TransR} {x : Str} (hx : P x)
    (hc : CacheOK W0 (evalDnsbl W tr x c).2) :
    (Sink.evalDnsbl W0 tr x d).1 = (Sink.evalDnsbl W tr x c).1 ∧ Twin W0 (Sink.evalDnsbl W tr x c).2 (Sink.evalDnsbl W0 tr x d).2 := by
  unfold Sink.evalDnsbl at hc ⊢
  by_cases hr : tr.rip = []
  · rw [if_pos hr, if_pos hr]; exact ⟨rfl, h⟩
  · rw [if_neg hr] at hc
    rw [if_neg hr, if_neg hr]
    split
    · rename_i s0 s1 s2 s3 hsp
      rw [hsp] at hc
      simp only at hc ⊢
      have hn := fun t => hl t (s3 ++ b!"." ++ s2 ++ b!"." ++ s1 ++ b!"." ++ s0) x hx
      have hc1 : CacheOK W0 (Sink.getDnsblRes W (s3 ++ b!"." ++ s2 ++ b!"." ++ s1 ++ b!"." ++ s0 ++ b!"." ++ x) c).2 := by
        split at hc
        · exact (addDnsblHit_grows _ _).cache hc
        · exact hc
      obtain ⟨k1, k2⟩ := h.getDnsblRes hs hn hc1
      rw [k1]
      split
      · exact ⟨rfl, k2.addDnsblHit x⟩
      · exact ⟨rfl, k2⟩
    · exact ⟨rfl, h⟩

theorem addDnsblHit_bare (x : Str) (c : Ctx) : (addDnsblHit x c).bare = addDnsblHit x c.bare := by
  unfold Sink.addDnsblHit
  have : c.bare.dnsblhit = c.dnsblhit := rfl
  rw [this]
  split <;> rfl

theorem addDnsblHit_twice (x : Str) (c : Ctx) : addDnsblHit x (addDnsblHit x c) = addDnsblHit x c := by
  have : ((addDnsblHit x c).dnsblhit.any fun y => y == x) = true := by
    unfold Sink.addDnsblHit
    split
    · assumption
    · simp
  generalize addDnsblHit x c = y at this
  unfold Sink.addDnsblHit
  rw [if_pos this]

open Classical in
theorem dblLookups_view {P : Str → Prop} (hl : Lists P W W0) {x : Str} (hx : P x) : ∀ (l : List Str) (ret : Bool) (c : Ctx),
    CacheOK W0 (dblLookups W x l ret c).2 →
    ((dblLookups W x l ret c).1 = true ↔ ret = true ∨ ∃ n ∈ l, Listed W0 (n ++ b!"." ++ x)) ∧
    (dblLookups W x l ret c).2.bare = if ∃ n ∈ l, Listed W0 (n ++ b!"." ++ x) then addDnsblHit x c.bare else c.bare := by
  intro l
  induction l with
  | nil => intro ret c _; simp [dblLookups]
  | cons s ss ih =>
    intro ret c hc
    rw [dblLookups] at hc ⊢
    have hn := fun t => hl t s x hx
    split
    · rename_i hr
      rw [if_pos hr] at hc
      obtain ⟨i1, i2⟩ := ih _ _ hc
      have hv := getDnsblRes_view hn ((addDnsblHit_grows _ _).cache ((dblLookups_steps W x ss true _).grows.cache hc))
      have he : ∃ n ∈ s :: ss, Listed W0 (n ++ b!"." ++ x) := ⟨s, by simp, hv.mp hr⟩
      rw [if_pos he]
      refine ⟨by rw [i1]; exact ⟨fun _ => Or.inr he, fun _ => Or.inl rfl⟩, ?_⟩
      rw [i2, addDnsblHit_bare, getDnsblRes_bare, addDnsblHit_twice, ite_self]
    · rename_i hr
      rw [if_neg hr] at hc
      obtain ⟨i1, i2⟩ := ih _ _ hc
      have hv := getDnsblRes_view hn ((dblLookups_steps W x ss ret _).grows.cache hc)
      have hnl : ¬ Listed W0 (s ++ b!"." ++ x) := fun hh => hr (hv.mpr hh)
      have he : (∃ n ∈ s :: ss, Listed W0 (n ++ b!"." ++ x)) ↔ ∃ n ∈ ss, Listed W0 (n ++ b!"." ++ x) := by
        simp only [List.mem_cons, exists_eq_or_imp, hnl, false_or]
      simp only [he]
      exact ⟨i1, by rw [i2, getDnsblRes_bare]⟩

theorem Lists.self {W : World} (hs : W.Static) (P : Str → Prop) : Lists P W W := fun t x d _ => by
  unfold ListedAt Listed
  rw [hs.lookupIP t]

theorem Twin.dblFrom (h : Twin W0 c d) (hs : W0.Static) (src : Opts) (chk : List Str) (hc : CacheOK W0 (dblFrom W src chk c).2) :
    (Sink.dblFrom W0 src chk d).1 = (Sink.dblFrom W src chk c).1 ∧ Twin W0 (Sink.dblFrom W src chk c).2 (Sink.dblFrom W0 src chk d).2 := by
  unfold Sink.dblFrom at hc ⊢
  rw [← h.from_]
  by_cases hf : src &&& oFrom = oFrom ∧ c.from_ ≠ []
  · rw [if_pos hf] at hc
    rw [if_pos hf, if_pos hf]
    simp only at hc ⊢
    have hc1 : CacheOK W0 (Sink.getAddrOpts W c.from_ c).2 := by
      split at hc
      · split at hc <;> exact hc
      · exact hc
    obtain ⟨k1, k2⟩ := h.getAddrOpts hs c.from_ hc1
    rw [k1]
    split
    · split <;> exact ⟨rfl, k2⟩
    · exact ⟨rfl, k2⟩
  · rw [if_neg hf, if_neg hf]; exact ⟨rfl, h⟩

theorem Twin.evalDbl (h : Twin W0 c d) (hs : W0.Static) {P : Str → Prop} (hl : Lists P W W0) {tr : TransR} {src : Opts} {x : Str} (hx : P x)
    {c' : Ctx} {b : Bool} (he : evalDbl W tr src x c = .ok (b, c')) (hc : CacheOK W0 c') :
    ∃ d', Sink.evalDbl W0 tr src x d = .ok (b, d') ∧ Twin W0 c' d' := by
  unfold Sink.evalDbl at he ⊢
  have hn : dblNames tr src d = dblNames tr src c := by unfold dblNames; rw [h.heloname]
  rw [hn]
  cases hx' : dblNames tr src c with
  | error p => rw [hx'] at he; cases he
  | ok chk =>
    rw [hx'] at he
    simp only [bind, Except.bind, pure, Except.pure] at he ⊢
    split at he
    · rename_i h0
      cases he
      obtain ⟨k1, k2⟩ := h.dblFrom hs src chk hc
      rw [k1, if_pos h0]
      exact ⟨_, rfl, k2⟩
    · rename_i h0
      simp only [Except.ok.injEq] at he
      have hcc : CacheOK W0 (dblLookups W x (W.mapOrder (Sink.dblFrom W src chk c).2.trace.length (Sink.dblFrom W src chk c).1) false
          { (Sink.dblFrom W src chk c).2 with trace := .mapIter :: (Sink.dblFrom W src chk c).2.trace }).2 := by rw [he]; exact hc
      have hc1 := (dblLookups_steps W x _ false _).grows.cache hcc
      obtain ⟨k1, k2⟩ := h.dblFrom hs src chk ⟨hc1.files, hc1.dnsbl, hc1.domvalid⟩
      rw [k1, if_neg h0]
      have hcd : CacheOK W0 { (Sink.dblFrom W0 src chk d).2 with trace := .mapIter :: (Sink.dblFrom W0 src chk d).2.trace } :=
        ⟨k2.cache.files, k2.cache.dnsbl, k2.cache.domvalid⟩
      have hk := (dblLookups_spec hs x (W0.mapOrder (Sink.dblFrom W0 src chk d).2.trace.length (Sink.dblFrom W src chk c).1) false hcd).1.cache
      obtain ⟨a1, a2⟩ := dblLookups_view hl hx _ _ _ hcc
      obtain ⟨b1, b2⟩ := dblLookups_view (Lists.self hs (fun y => y = x)) rfl _ _ _ hk
      have hp : (∃ n ∈ W0.mapOrder (Sink.dblFrom W0 src chk d).2.trace.length (Sink.dblFrom W src chk c).1, Listed W0 (n ++ b!"." ++ x)) ↔
          ∃ n ∈ W.mapOrder (Sink.dblFrom W src chk c).2.trace.length (Sink.dblFrom W src chk c).1, Listed W0 (n ++ b!"." ++ x) := by
        simp only [(W0.mapOrder_perm _ _).mem_iff, (W.mapOrder_perm _ _).mem_iff]
      rw [he] at a1 a2
      refine ⟨_, ?_, ?_, hk⟩
      · rw [Except.ok.injEq, Prod.ext_iff]
        exact ⟨by rw [Bool.eq_iff_iff, b1, a1, hp], rfl⟩
      · rw [b2]
        have : ({ (Sink.dblFrom W src chk c).2 with trace := .mapIter :: (Sink.dblFrom W src chk c).2.trace } : Ctx).bare =
            ({ (Sink.dblFrom W0 src chk d).2 with trace := .mapIter :: (Sink.dblFrom W0 src chk d).2.trace } : Ctx).bare := k2.bare
        rw [← this, a2]
        by_cases hq : ∃ n ∈ W.mapOrder (Sink.dblFrom W src chk c).2.trace.length (Sink.dblFrom W src chk c).1, Listed W0 (n ++ b!"." ++ x)
        · rw [if_pos hq, if_pos (hp.mpr hq)]
        · rw [if_neg hq, if_neg (fun hh => hq (hp.mp hh))]

theorem Twin.evalOpt (h : Twin W0 c d) (hs : W0.Static) (hL : W0.lib = W.lib) {tr : TransR} (k : OKind) (o : Opts)
    (hc : CacheOK W0 (evalOpt W tr k o c).2) :
    (Sink.evalOpt W0 tr k o d).1 = (Sink.evalOpt W tr k o c).1 ∧ Twin W0 (Sink.evalOpt W tr k o c).2 (Sink.evalOpt W0 tr k o d).2 := by
  unfold Sink.evalOpt at hc ⊢
  have key : (k.get W0 tr d).1 = (k.get W tr c).1 ∧ Twin W0 (k.get W tr c).2 (k.get W0 tr d).2 := by
    cases k with
    | dns => exact ⟨rfl, h⟩
    | heloHas =>
      refine ⟨?_, h⟩
      simp only [OKind.get, heloGetter, h.heloname, h.isHelo, hL]
    | fromHas => simp only [OKind.get] at hc ⊢; rw [← h.from_]; exact h.getAddrOpts hs _ hc
    | toHas => simp only [OKind.get] at hc ⊢; rw [← h.rcptto]; exact h.getAddrOpts hs _ hc
  simp only
  rw [key.1]
  exact ⟨rfl, key.2⟩

end Twin

/-- The blocklists in an expression are in `P`. -/
def Blocks (P : Str → Prop) : Expr → Prop
  | .andL ns => ∀ n ∈ ns, Blocks P n
  | .notN e => Blocks P e
  | .orN l r => Blocks P l ∧ Blocks P r
  | .dnsbl d => P d
  | .dbl _ d => P d
  | .all | .tls _ | .matchN _ _ | .source _ | .optN _ _ => True

mutual
theorem Twin.eval {W W0 : World} (hs : W0.Static) (hL : W0.lib = W.lib) {P : Str → Prop} (hl : Lists P W W0) {tr : TransR} :
    ∀ (e : Expr) {c d c' : Ctx} {b : Bool}, Blocks P e → Twin W0 c d → eval W tr e c = .ok (b, c') → CacheOK W0 c' →
      ∃ d', Sink.eval W0 tr e d = .ok (b, d') ∧ Twin W0 c' d'
  | .andL ns, c, d, c', b, hP, h, he, hc => by
    rw [Sink.eval] at he ⊢
    rw [Blocks] at hP
    exact Twin.evalAnd hs hL hl ns hP h he hc
  | .notN e, c, d, c', b, hP, h, he, hc => by
    rw [Sink.eval] at he ⊢
    rw [Blocks] at hP
    cases h1 : Sink.eval W tr e c with
    | error p => rw [h1] at he; cases he
    | ok r =>
      rw [h1] at he; cases he
      obtain ⟨d', h2, h3⟩ := Twin.eval hs hL hl e hP h h1 hc
      exact ⟨d', by rw [h2]; rfl, h3⟩
  | .orN l r, c, d, c', b, hP, h, he, hc => by
    rw [Sink.eval] at he ⊢
    rw [Blocks] at hP
    cases h1 : Sink.eval W tr l c with
    | error p => rw [h1] at he; cases he
    | ok x =>
      obtain ⟨b1, c1⟩ := x
      rw [h1] at he
      cases b1 with
      | true =>
        cases he
        obtain ⟨d', h2, h3⟩ := Twin.eval hs hL hl l hP.1 h h1 hc
        exact ⟨d', by rw [h2]; rfl, h3⟩
      | false =>
        simp only [bind, Except.bind, Bool.false_eq_true, if_false] at he
        obtain ⟨d1, h2, h3⟩ := Twin.eval hs hL hl l hP.1 h h1 ((eval_steps r he).grows.cache hc)
        obtain ⟨d', h4, h5⟩ := Twin.eval hs hL hl r hP.2 h3 he hc
        refine ⟨d', ?_, h5⟩
        rw [h2]
        simp only [bind, Except.bind, Bool.false_eq_true, if_false]
        exact h4
  | .all, c, d, c', b, _, h, he, _ => by rw [Sink.eval] at he ⊢; cases he; exact ⟨d, rfl, h⟩
  | .tls on, c, d, c', b, _, h, he, _ => by rw [Sink.eval] at he ⊢; cases he; exact ⟨d, rfl, h⟩
  | .dnsbl x, c, d, c', b, hP, h, he, hc => by
    rw [Sink.eval] at he ⊢
    rw [Blocks] at hP
    simp only [Except.ok.injEq] at he
    have := h.evalDnsbl hs hl (tr := tr) hP (by rw [he]; exact hc)
    rw [he] at this
    exact ⟨_, by rw [Except.ok.injEq, Prod.ext_iff]; exact ⟨this.1, rfl⟩, this.2⟩
  | .matchN k a, c, d, c', b, _, h, he, hc => by rw [Sink.eval] at he ⊢; exact h.evalMatch hs hL he hc
  | .source a, c, d, c', b, _, h, he, hc => by rw [Sink.eval] at he ⊢; exact h.evalSource hs hL he hc
  | .dbl s x, c, d, c', b, hP, h, he, hc => by
    rw [Sink.eval] at he ⊢
    rw [Blocks] at hP
    exact h.evalDbl hs hl hP he hc
  | .optN k o, c, d, c', b, _, h, he, hc => by
    rw [Sink.eval] at he ⊢
    simp only [Except.ok.injEq] at he
    have := h.evalOpt hs hL (tr := tr) k o (by rw [he]; exact hc)
    rw [he] at this
    exact ⟨_, by rw [Except.ok.injEq, Prod.ext_iff]; exact ⟨this.1, rfl⟩, this.2⟩
theorem Twin.evalAnd {W W0 : World} (hs : W0.Static) (hL : W0.lib = W.lib) {P : Str → Prop} (hl : Lists P W W0) {tr : TransR} :
    ∀ (es : List Expr) {c d c' : Ctx} {b : Bool}, (∀ e ∈ es, Blocks P e) → Twin W0 c d → evalAnd W tr es c = .ok (b, c') →
      CacheOK W0 c' → ∃ d', Sink.evalAnd W0 tr es d = .ok (b, d') ∧ Twin W0 c' d'
  | [], c, d, c', b, _, h, he, _ => by rw [Sink.evalAnd] at he ⊢; cases he; exact ⟨d, rfl, h⟩
  | e :: es, c, d, c', b, hP, h, he, hc => by
    rw [Sink.evalAnd] at he ⊢
    cases h1 : Sink.eval W tr e c with
    | error p => rw [h1] at he; cases he
    | ok x =>
      obtain ⟨b1, c1⟩ := x
      rw [h1] at he
      cases b1 with
      | false =>
        cases he
        obtain ⟨d', h2, h3⟩ := Twin.eval hs hL hl e (hP e (by simp)) h h1 hc
        exact ⟨d', by rw [h2]; rfl, h3⟩
      | true =>
        simp only [bind, Except.bind, if_true] at he
        obtain ⟨d1, h2, h3⟩ := Twin.eval hs hL hl e (hP e (by simp)) h h1 ((evalAnd_steps es he).grows.cache hc)
        obtain ⟨d', h4, h5⟩ := Twin.evalAnd hs hL hl es (fun x hx => hP x (by simp [hx])) h3 he hc
        refine ⟨d', ?_, h5⟩
        rw [h2]
        simp only [bind, Except.bind, if_true]
        exact h4
end

section Decide
variable {W W0 : World} (hs : W0.Static) (hL : W0.lib = W.lib) {P : Str → Prop} (hl : Lists P W W0) {tr : TransR}
include hs hL hl

theorem Twin.checkClauses : ∀ {cs : List RClause} {c d c' : Ctx} {b : Bool}, (∀ x ∈ cs, Blocks P x.expr) → Twin W0 c d →
    checkClauses W tr cs c = .ok (b, c') → CacheOK W0 c' → ∃ d', Sink.checkClauses W0 tr cs d = .ok (b, d') ∧ Twin W0 c' d' := by
  intro cs
  induction cs with
  | nil => intro c d c' b _ h he _; cases he; exact ⟨d, rfl, h⟩
  | cons rc rcs ih =>
    intro c d c' b hP h he hc
    rw [Sink.checkClauses] at he ⊢
    cases h1 : Sink.eval W tr rc.expr c with
    | error p => rw [h1] at he; cases he
    | ok x =>
      obtain ⟨b1, c1⟩ := x
      rw [h1] at he
      simp only [bind, Except.bind, pure, Except.pure] at he ⊢
      have hc1 : CacheOK W0 c1 := by
        split at he
        · cases he; exact hc
        · split at he
          · exact (checkClauses_steps he).grows.cache hc
          · cases he; exact ⟨hc.files, hc.dnsbl, hc.domvalid⟩
      obtain ⟨d1, h2, h3⟩ := Twin.eval hs hL hl rc.expr (hP rc (by simp)) h h1 hc1
      rw [h2]
      simp only
      split at he
      · rename_i hm
        cases he; rw [if_pos (h3.rulemiss ▸ hm)]; exact ⟨d1, rfl, h3⟩
      · rename_i hm
        rw [if_neg (h3.rulemiss ▸ hm)]
        split at he
        · rename_i hb
          rw [if_pos hb]
          exact ih (fun x hx => hP x (by simp [hx])) h3 he hc
        · rename_i hb
          rw [if_neg hb]
          cases he
          exact ⟨_, rfl, h3.map (fun x => { x with withprops := x.withprops.merge rc.withs }) (fun _ => rfl) (fun _ => ⟨rfl, rfl, rfl⟩)⟩

/-- The blocklists in a rule are in `P`. -/
def RBlocks (P : Str → Prop) (r : Rule) : Prop := ∀ x ∈ r.clauses, Blocks P x.expr

theorem Twin.check {r : Rule} {c d c' : Ctx} {b : Bool} (hP : RBlocks P r) (h : Twin W0 c d)
    (he : r.check W tr c = .ok (b, c')) (hc : CacheOK W0 c') : ∃ d', r.check W0 tr d = .ok (b, d') ∧ Twin W0 c' d' :=
  Twin.checkClauses hs hL hl hP (h.map (fun x => { x with rulemiss := false }) (fun _ => rfl) (fun _ => ⟨rfl, rfl, rfl⟩)) he hc

theorem Twin.ruleForEachRcpt {r : Rule} (hP : RBlocks P r) : ∀ {as : List Str} {c d c' : Ctx} {b : Bool}, Twin W0 c d →
    ruleForEachRcpt W tr r as c = .ok (b, c') → CacheOK W0 c' → ∃ d', Sink.ruleForEachRcpt W0 tr r as d = .ok (b, d') ∧ Twin W0 c' d' := by
  intro as
  induction as with
  | nil => intro c d c' b h he _; cases he; exact ⟨d, rfl, h⟩
  | cons a as ih =>
    intro c d c' b h he hc
    rw [Sink.ruleForEachRcpt] at he ⊢
    cases h1 : r.check W tr { c with rcptto := a } with
    | error p => rw [h1] at he; cases he
    | ok x =>
      obtain ⟨b1, c1⟩ := x
      rw [h1] at he
      simp only [bind, Except.bind, pure, Except.pure] at he ⊢
      have hc1 : CacheOK W0 c1 := by
        split at he
        · cases he; exact hc
        · split at he
          · cases he; exact hc
          · exact (ruleForEachRcpt_steps he).grows.cache hc
      obtain ⟨d1, h2, h3⟩ := Twin.check hs hL hl hP (h.map (fun x => { x with rcptto := a }) (fun _ => rfl) (fun _ => ⟨rfl, rfl, rfl⟩)) h1 hc1
      rw [h2]
      simp only
      split at he
      · rename_i hb
        cases he; rw [if_pos hb]; exact ⟨d1, rfl, h3⟩
      · rename_i hb
        rw [if_neg hb, ← h3.rulemiss]
        split at he
        · rename_i hm
          cases he; rw [if_pos hm]; exact ⟨d1, rfl, h3⟩
        · rename_i hm
          rw [if_neg hm]
          exact ih h3 he hc

theorem Twin.runRule {ph : Phase} {r : Rule} {c d c' : Ctx} {b : Bool} (hP : RBlocks P r) (h : Twin W0 c d)
    (he : runRule W tr ph r c = .ok (b, c')) (hc : CacheOK W0 c') : ∃ d', Sink.runRule W0 tr ph r d = .ok (b, d') ∧ Twin W0 c' d' := by
  unfold Sink.runRule at he ⊢
  have h1 := h.map (fun x => { x with rulemiss := false }) (fun _ => rfl) (fun _ => ⟨rfl, rfl, rfl⟩)
  simp only at he ⊢ h1
  split at he
  · rename_i hq
    rw [if_pos hq]
    exact Twin.ruleForEachRcpt hs hL hl hP h1 he hc
  · rename_i hq
    rw [if_neg hq]
    exact Twin.check hs hL hl hP h1 he hc

theorem Twin.ruleLoop {ph : Phase} : ∀ {rs : List Rule} {c d c' : Ctx} {a : Action}, (∀ r ∈ rs, RBlocks P r) → Twin W0 c d →
    ruleLoop W tr ph rs c = .ok (a, c') → CacheOK W0 c' → ∃ d', Sink.ruleLoop W0 tr ph rs d = .ok (a, d') ∧ Twin W0 c' d' := by
  intro rs
  induction rs with
  | nil => intro c d c' b _ h he _; cases he; exact ⟨d, rfl, h⟩
  | cons r rs ih =>
    intro c d c' a hP h he hc
    rw [Sink.ruleLoop] at he ⊢
    by_cases hk : skipRule ph r = true
    · rw [if_pos hk] at he ⊢
      exact ih (fun x hx => hP x (by simp [hx])) h he hc
    · rw [if_neg hk] at he ⊢
      cases h1 : Sink.runRule W tr ph r c with
      | error p => rw [h1] at he; cases he
      | ok x =>
        obtain ⟨b1, c1⟩ := x
        rw [h1] at he
        simp only [bind, Except.bind, pure, Except.pure] at he ⊢
        have hc1 : CacheOK W0 c1 := by
          split at he
          · exact (ruleLoop_steps he).grows.cache hc
          · split at he
            · cases he; exact hc
            · exact (ruleLoop_steps he).grows.cache hc
        obtain ⟨d1, h2, h3⟩ := Twin.runRule hs hL hl (hP r (by simp)) h h1 hc1
        rw [h2]
        simp only
        rw [← h3.rulemiss]
        split at he
        · rename_i hm
          rw [if_pos hm]
          exact ih (fun x hx => hP x (by simp [hx])) h3 he hc
        · rename_i hm
          rw [if_neg hm]
          split at he
          · rename_i hq
            cases he; rw [if_pos hq]; exact ⟨d1, rfl, h3⟩
          · rename_i hq
            rw [if_neg hq]
            exact ih (fun x hx => hP x (by simp [hx])) h3 he hc

/-- A decision, seen in `W0`. -/
theorem Twin.Decide {ph : Phase} {e : Evt} {c d c' : Ctx} {a : Action} (hP : ∀ r ∈ c.ruleset, RBlocks P r) (h : Twin W0 c d)
    (he : Decide W tr ph e c = .ok (a, c')) (hc : CacheOK W0 c') : ∃ d', Sink.Decide W0 tr ph e d = .ok (a, d') ∧ Twin W0 c' d' := by
  have h1 : Twin W0 (begun ph e c) (begun ph e d) := h.map (begun ph e) (fun x => by cases ph <;> rfl) (fun x => by cases ph <;> exact ⟨rfl, rfl, rfl⟩)
  have hr : (begun ph e c).ruleset = c.ruleset := by cases ph <;> rfl
  have key : ∀ W x, Sink.Decide W tr ph e x = if (begun ph e x).defresult ≥ .accept then
      .ok ((begun ph e x).defresult, { begun ph e x with dnsblhit := (begun ph e x).defdnsblhit, withprops := (begun ph e x).defprops })
    else match Sink.ruleLoop W tr ph (begun ph e x).ruleset (begun ph e x) with
      | .error p => .error p
      | .ok (ret, c) => if ph = .mfrom ∧ c.from_ = [] ∧ ret > .accept then
          .ok (.accept, { c with defresult := ret, defprops := c.withprops, defdnsblhit := c.dnsblhit, withprops := {} })
        else .ok (ret, c) := by
    intro W x
    unfold Sink.Decide
    simp only [bind, Except.bind, pure, Except.pure]
    change (if (begun ph e x).defresult ≥ .accept then _ else _) = _
    split
    · rfl
    · unfold begun
      split
      · rename_i hx; rw [hx]
      · rename_i hx; rw [hx]
  rw [key] at he
  rw [key]
  split at he
  · rename_i hq
    cases he
    rw [if_pos (h1.defresult ▸ hq)]
    refine ⟨_, by rw [Except.ok.injEq, Prod.ext_iff]; exact ⟨h1.defresult.symm, rfl⟩, ?_⟩
    exact h1.map (fun x => { x with dnsblhit := x.defdnsblhit, withprops := x.defprops }) (fun _ => rfl) (fun _ => ⟨rfl, rfl, rfl⟩)
  · rename_i hq
    rw [if_neg (h1.defresult ▸ hq)]
    cases h2 : Sink.ruleLoop W tr ph (begun ph e c).ruleset (begun ph e c) with
    | error p => rw [h2] at he; cases he
    | ok x =>
      obtain ⟨a1, c1⟩ := x
      rw [h2] at he
      simp only at he
      have hc1 : CacheOK W0 c1 := by
        split at he
        · cases he; exact ⟨hc.files, hc.dnsbl, hc.domvalid⟩
        · cases he; exact hc
      obtain ⟨d1, h3, h4⟩ := Twin.ruleLoop hs hL hl (by rw [hr]; exact hP) h1 h2 hc1
      rw [h1.ruleset] at h3
      rw [h3]
      simp only
      split at he
      · rename_i hq
        cases he
        rw [if_pos (h4.from_ ▸ hq)]
        exact ⟨_, rfl, h4.map (fun x => { x with defresult := a1, defprops := x.withprops, defdnsblhit := x.dnsblhit, withprops := {} })
          (fun _ => rfl) (fun _ => ⟨rfl, rfl, rfl⟩)⟩
      · rename_i hq
        cases he; rw [if_neg (h4.from_ ▸ hq)]; exact ⟨d1, rfl, h4⟩

end Decide

end Sink
