import Verif.Spec.Lookups
import Verif.Lemmas.Trace
import Verif.Props.Eval

/-!
# What rule evaluation asks of the outside world
-/

namespace Sink
open Spec Relation

/-- Only calls of a certain kind were made between two states. -/
def Adds (P : Ev → Prop) (t t' : Trace) : Prop := ∃ evs, t' = evs ++ t ∧ ∀ ev ∈ evs, P ev

theorem Adds.refl {P : Ev → Prop} (t : Trace) : Adds P t t := ⟨[], rfl, by simp⟩
theorem Adds.one {P : Ev → Prop} {t : Trace} {ev : Ev} (h : P ev) : Adds P t (ev :: t) := ⟨[ev], rfl, by simpa using h⟩
theorem Adds.trans {P : Ev → Prop} {a b c : Trace} (h : Adds P a b) (h' : Adds P b c) : Adds P a c := by
  obtain ⟨x, rfl, hx⟩ := h
  obtain ⟨y, rfl, hy⟩ := h'
  exact ⟨y ++ x, by simp, fun ev he => (List.mem_append.1 he).elim (hy ev) (hx ev)⟩
theorem Adds.mono {P Q : Ev → Prop} {a b : Trace} (h : Adds P a b) (hq : ∀ ev, P ev → Q ev) : Adds Q a b := by
  obtain ⟨x, rfl, hx⟩ := h
  exact ⟨x, rfl, fun ev he => hq ev (hx ev he)⟩

theorem validDomain_adds (W : World) (d : Str) (c : Ctx) : Adds (MailQuery W d) c.trace (c.validDomain W d).2.trace := by
  unfold Ctx.validDomain
  split
  · exact .refl _
  · obtain ⟨evs, h1, h2⟩ := validDomain_trace W d c.trace
    refine ⟨evs, h1, fun ev he => ?_⟩
    rcases h2 ev he with rfl | rfl | ⟨mxs, hm, m, hmm, rfl⟩
    · exact .servers
    · exact .address
    · exact .server hm hmm

theorem getAddrOpts_adds (W : World) (a : Str) (c : Ctx) :
    Adds (fun ev => ∃ d, HasDomain a d ∧ MailQuery W d ev) c.trace (getAddrOpts W a c).2.trace := by
  obtain ⟨P, -, ⟨-, -, h⟩ | ⟨d, hd, -, h⟩⟩ := getAddrOpts_dyn W a c
  · rw [h]; exact .refl _
  · rw [h]
    exact (validDomain_adds W d c).mono fun ev he => ⟨d, hd, he⟩

theorem getMatchList_adds {W : World} {a : Str} {c c' : Ctx} {l : List Str} (h : getMatchList W a c = .ok (l, c')) :
    Adds (fun ev => ∃ f, argFile a = some f ∧ FileUse f ev) c.trace c'.trace := by
  unfold getMatchList at h
  cases hm : matchFile a with
  | error p => rw [hm] at h; cases h
  | ok r =>
    rw [hm] at h
    cases r with
    | none => cases h; exact .refl _
    | some f =>
      have ha := matchFile_argFile hm
      simp only at h
      cases hf : c.files f with
      | some l' => rw [hf] at h; cases h; exact .refl _
      | none =>
        rw [hf] at h
        cases h
        simp only
        unfold loadList
        split
        · exact .refl _
        · simp only
          split
          · exact .one ⟨f, ha, .read⟩
          · exact (Adds.one ⟨f, ha, .read⟩).trans (.one ⟨f, ha, .cannot⟩)
          · exact (Adds.one ⟨f, ha, .read⟩).trans (.one ⟨f, ha, .broken⟩)
          · exact .one ⟨f, ha, .read⟩

theorem evalMatch_adds {W : World} {tr : TransR} {k : MKind} {a : Str} {c c' : Ctx} {b : Bool}
    (h : evalMatch W tr k a c = .ok (b, c')) : Adds (fun ev => ∃ f, argFile a = some f ∧ FileUse f ev) c.trace c'.trace := by
  unfold evalMatch at h
  cases hl : getMatchList W a c with
  | error p => rw [hl] at h; cases h
  | ok x =>
    obtain ⟨l, c1⟩ := x
    rw [hl] at h
    simp only [bind, Except.bind, pure, Except.pure] at h
    have h1 := getMatchList_adds hl
    split at h
    · cases h; exact h1
    · cases hp : matchPats (k.matcher W.lib) (k.names tr c1) l with
      | error p => rw [hp] at h; cases h
      | ok r => rw [hp] at h; cases h; exact h1

theorem evalSource_adds {W : World} {tr : TransR} {a : Str} {c c' : Ctx} {b : Bool}
    (h : evalSource W tr a c = .ok (b, c')) : Adds (fun ev => ∃ f, argFile a = some f ∧ FileUse f ev) c.trace c'.trace := by
  unfold evalSource at h
  cases h1 : evalMatch W tr .host a c with
  | error p => rw [h1] at h; cases h
  | ok r1 =>
    obtain ⟨b1, c1⟩ := r1
    rw [h1] at h
    have s1 := evalMatch_adds h1
    cases b1 with
    | true => cases h; exact s1
    | false =>
      simp only [bind, Except.bind, Bool.false_eq_true, if_false] at h
      cases h2 : evalMatch W tr .helo a c1 with
      | error p => rw [h2] at h; cases h
      | ok r2 =>
        obtain ⟨b2, c2⟩ := r2
        rw [h2] at h
        have s2 := s1.trans (evalMatch_adds h2)
        cases b2 with
        | true => cases h; exact s2
        | false =>
          simp only [Bool.false_eq_true, if_false] at h
          exact s2.trans (evalMatch_adds h)

theorem getDnsblRes_adds {P : Ev → Prop} {W : World} {n : Str} {c : Ctx} (h : P (.lookupIP n)) :
    Adds P c.trace (getDnsblRes W n c).2.trace := by
  unfold getDnsblRes
  split
  · exact .refl _
  · simp only; split <;> exact .one h

theorem addDnsblHit_trace (d : Str) (c : Ctx) : (addDnsblHit d c).trace = c.trace := by unfold addDnsblHit; split <;> rfl

theorem evalDnsbl_adds (W : World) (tr : TransR) (m : Mail) (d : Str) (c : Ctx) :
    Adds (Asks W tr m (.dnsbl d)) c.trace (evalDnsbl W tr d c).2.trace := by
  unfold evalDnsbl
  split
  · exact .refl _
  · split
    · rename_i s0 s1 s2 s3 hsp
      obtain ⟨-, h2, h3⟩ := splitOn_spec c!"." tr.rip
      rw [hsp] at h2 h3
      have hr : Reversed tr.rip (s3 ++ b!"." ++ s2 ++ b!"." ++ s1 ++ b!"." ++ s0) :=
        ⟨s0, s1, s2, s3, by rw [h2]; simp [join], h3, rfl⟩
      have ha : Asks W tr m (.dnsbl d) (.lookupIP (s3 ++ b!"." ++ s2 ++ b!"." ++ s1 ++ b!"." ++ s0 ++ b!"." ++ d)) := .dnsbl hr
      simp only
      split
      · rw [addDnsblHit_trace]; exact getDnsblRes_adds ha
      · exact getDnsblRes_adds ha
    · exact .refl _

theorem dblFrom_adds {W : World} {tr : TransR} {src : Opts} {chk : List Str} {c : Ctx} (d : Str) (hc : ∀ x ∈ chk, SourceName tr c.mail src x) :
    Adds (Asks W tr c.mail (.dbl src d)) c.trace (dblFrom W src chk c).2.trace ∧ ∀ x ∈ (dblFrom W src chk c).1, SourceName tr c.mail src x := by
  unfold dblFrom
  split
  · rename_i hf
    simp only
    have ha : Adds (Asks W tr c.mail (.dbl src d)) c.trace (getAddrOpts W c.from_ c).2.trace :=
      (getAddrOpts_adds W c.from_ c).mono fun ev ⟨x, h1, h2⟩ => .dblFrom hf.1 h1 h2
    split
    · rename_i hmask
      have hdom : ∃ d, HasDomain c.from_ d := by
        obtain ⟨P, hP, ⟨-, hsh, -⟩ | ⟨d, hd, -⟩⟩ := getAddrOpts_dyn W c.from_ c
        · exfalso
          rw [BitVec.and_comm] at hmask
          obtain ⟨x, hx, ho⟩ := (hP _).mp hmask
          rw [hsh] at hx
          cases x <;> first | exact hx | exact ho (by decide +kernel)
        · exact ⟨d, hd⟩
      obtain ⟨dm, hdm⟩ := hdom
      obtain ⟨⟨l, he, hl⟩, -⟩ := id hdm
      have hi : indexByte c.from_ c!"@" = some l.length := indexByte_some.2 ⟨l, dm, he, hl, rfl⟩
      rw [hi]
      simp only
      refine ⟨ha, fun x hx => ?_⟩
      have hdr : c.from_.drop (l.length + 1) = dm := by rw [he]; simp
      rw [hdr] at hx
      rcases mem_addKey.mp hx with rfl | hx
      · exact .from_ hf.1 hdm
      · exact hc x hx
    · exact ⟨ha, hc⟩
  · exact ⟨.refl _, hc⟩

theorem dblLookups_adds {P : Ev → Prop} {W : World} {d : Str} : ∀ {l : List Str} {ret : Bool} {c : Ctx},
    (∀ n ∈ l, P (.lookupIP (n ++ b!"." ++ d))) → Adds P c.trace (dblLookups W d l ret c).2.trace := by
  intro l
  induction l with
  | nil => intro ret c _; exact .refl _
  | cons s ss ih =>
    intro ret c h
    rw [dblLookups]
    have h1 : Adds P c.trace (getDnsblRes W (s ++ b!"." ++ d) c).2.trace := getDnsblRes_adds (h s (by simp))
    have h2 : ∀ n ∈ ss, P (.lookupIP (n ++ b!"." ++ d)) := fun n hn => h n (List.mem_cons_of_mem _ hn)
    split
    · refine h1.trans ?_
      have := ih (ret := true) (c := addDnsblHit d (getDnsblRes W (s ++ b!"." ++ d) c).2) h2
      rwa [addDnsblHit_trace] at this
    · exact h1.trans (ih h2)

theorem evalDbl_adds {W : World} {tr : TransR} {src : Opts} {d : Str} {c c' : Ctx} {b : Bool}
    (h : evalDbl W tr src d c = .ok (b, c')) : Adds (Asks W tr c.mail (.dbl src d)) c.trace c'.trace := by
  unfold evalDbl at h
  cases hx : dblNames tr src c with
  | error p => rw [hx] at h; cases h
  | ok chk =>
    rw [hx] at h
    have m1 : ∀ x ∈ chk, SourceName tr c.mail src x := by
      intro x hxm
      unfold dblNames at hx
      simp only at hx
      have h0 : ∀ y, y ∈ (if src &&& (oEhlo ||| oHelo) ≠ 0 ∧ c.heloname ≠ [] then [c.heloname] else []) → SourceName tr c.mail src y := by
        intro y hy
        split at hy
        · rename_i hc
          rw [List.mem_singleton] at hy
          subst hy
          exact .helo (m := c.mail) hc.1 hc.2
        · cases hy
      split at hx
      · rename_i hh
        rcases (dblHosts_spec hx x).mp hxm with hm | ⟨s, hm, rfl⟩
        · exact h0 x hm
        · exact .host hh hm
      · cases hx; exact h0 x hxm
    obtain ⟨m2, m3⟩ := dblFrom_adds (W := W) d m1
    simp only [bind, Except.bind, pure, Except.pure] at h
    split at h
    · cases h; exact m2
    · simp only [Except.ok.injEq] at h
      have := dblLookups_adds (P := Asks W tr c.mail (.dbl src d)) (W := W) (d := d)
        (l := W.mapOrder (dblFrom W src chk c).2.trace.length (dblFrom W src chk c).1) (ret := false)
        (c := { (dblFrom W src chk c).2 with trace := .mapIter :: (dblFrom W src chk c).2.trace })
        (fun n hn => .dbl (m3 n ((W.mapOrder_perm _ _).mem_iff.mp hn)))
      rw [h] at this
      exact m2.trans ((Adds.one .dblOrder).trans this)

theorem evalOpt_adds (W : World) (tr : TransR) (k : OKind) (o : Opts) (c : Ctx) :
    Adds (Asks W tr c.mail (.optN k o)) c.trace (evalOpt W tr k o c).2.trace := by
  unfold evalOpt
  cases k with
  | dns => exact .refl _
  | heloHas => exact .refl _
  | fromHas => exact (getAddrOpts_adds W c.from_ c).mono fun ev ⟨d, h1, h2⟩ => .sender h1 h2
  | toHas => exact (getAddrOpts_adds W c.rcptto c).mono fun ev ⟨d, h1, h2⟩ => .recipient h1 h2

mutual
theorem eval_adds {W : World} {tr : TransR} : ∀ (e : Expr) {c c' : Ctx} {b : Bool}, eval W tr e c = .ok (b, c') →
    Adds (Asks W tr c.mail e) c.trace c'.trace
  | .andL ns, c, c', b, h => by
    rw [eval] at h
    exact (evalAnd_adds ns h).mono fun ev ⟨e, he, ha⟩ => .and he ha
  | .notN e, c, c', b, h => by
    rw [eval] at h
    cases he : eval W tr e c with
    | error p => rw [he] at h; cases h
    | ok r => rw [he] at h; cases h; exact (eval_adds e he).mono fun ev ha => .not ha
  | .orN l r, c, c', b, h => by
    rw [eval] at h
    cases he : eval W tr l c with
    | error p => rw [he] at h; cases h
    | ok x =>
      obtain ⟨b1, c1⟩ := x
      rw [he] at h
      have h1 := (eval_adds l he).mono fun ev ha => Asks.left (r := r) ha
      cases b1 with
      | true => cases h; exact h1
      | false =>
        simp only [bind, Except.bind, Bool.false_eq_true, if_false] at h
        have h2 := eval_adds r h
        rw [Ctx.core_mail (eval_steps l he).core] at h2
        exact h1.trans (h2.mono fun ev ha => .right ha)
  | .all, c, c', b, h => by rw [eval] at h; cases h; exact .refl _
  | .tls on, c, c', b, h => by rw [eval] at h; cases h; exact .refl _
  | .dnsbl d, c, c', b, h => by
    rw [eval] at h
    have := evalDnsbl_adds W tr c.mail d c
    simp only [Except.ok.injEq] at h
    rw [h] at this; exact this
  | .matchN k a, c, c', b, h => by rw [eval] at h; exact (evalMatch_adds h).mono fun ev ⟨f, h1, h2⟩ => .patterns h1 h2
  | .source a, c, c', b, h => by rw [eval] at h; exact (evalSource_adds h).mono fun ev ⟨f, h1, h2⟩ => .source h1 h2
  | .dbl s d, c, c', b, h => by rw [eval] at h; exact evalDbl_adds h
  | .optN k o, c, c', b, h => by
    rw [eval] at h
    have := evalOpt_adds W tr k o c
    simp only [Except.ok.injEq] at h
    rw [h] at this; exact this
theorem evalAnd_adds {W : World} {tr : TransR} : ∀ (es : List Expr) {c c' : Ctx} {b : Bool},
    evalAnd W tr es c = .ok (b, c') → Adds (fun ev => ∃ e ∈ es, Asks W tr c.mail e ev) c.trace c'.trace
  | [], c, c', b, h => by rw [evalAnd] at h; cases h; exact .refl _
  | e :: es, c, c', b, h => by
    rw [evalAnd] at h
    cases he : eval W tr e c with
    | error p => rw [he] at h; cases h
    | ok x =>
      obtain ⟨b1, c1⟩ := x
      rw [he] at h
      have h1 := (eval_adds e he).mono fun ev ha => (⟨e, by simp, ha⟩ : ∃ x ∈ e :: es, Asks W tr c.mail x ev)
      cases b1 with
      | false => cases h; exact h1
      | true =>
        simp only [bind, Except.bind, if_true] at h
        have h2 := evalAnd_adds es h
        rw [Ctx.core_mail (eval_steps e he).core] at h2
        exact h1.trans (h2.mono fun ev ⟨x, hx, ha⟩ => ⟨x, List.mem_cons_of_mem _ hx, ha⟩)
end

end Sink
