import Verif.Props.Server
import Verif.Props.Logs
import Verif.Props.Stats

/-!
# C81: without -dncount there are no do-nothing clients
-/

namespace Sink
open Spec

/-- Without `-dncount` the only thing ever done to a record is to set it to nothing. -/
theorem contribution_off {cf : Conf} (h0 : cf.yakCount = 0) (l : List Step) (st : Step) {op : IpOp} (h : contribution cf l st = some op) :
    op = .set 0 ∧ Ends st := by
  unfold contribution at h
  have hc : ¬ Counting cf l st.pre := fun hc => by have := hc.1; omega
  unfold Ends
  split at h
  · rw [if_neg fun hx => hc hx.1] at h; cases h
  · rename_i he
    split at h
    · rw [h0] at h; cases h; exact ⟨rfl, .inl he⟩
    · rw [if_neg fun hx => hc hx.2, if_neg (by omega)] at h; cases h
  · rename_i he
    split at h
    · rw [h0] at h; cases h; exact ⟨rfl, .inr he⟩
    · rw [if_neg fun hx => hc hx.2, if_neg (by omega)] at h; cases h
  · cases h

theorem yakHist_off {cf : Conf} (h0 : cf.yakCount = 0) (ip : Str) (h : List Hap) : ∀ x ∈ yakHist cf ip h, x.2 = .set 0 := by
  induction h with
  | nil => intro x hx; cases hx
  | cons e h ih =>
    obtain ⟨k, E, now, w⟩ := e
    cases w with
    | began => exact ih
    | stepped s sh i s' sh' o =>
      rw [yakHist]
      split
      · intro x hx
        rw [List.mem_append] at hx
        rcases hx with hx | hx
        · rw [Option.mem_toList, Option.map_eq_some_iff] at hx
          obtain ⟨op, h1, rfl⟩ := hx
          exact (contribution_off h0 _ _ h1).1
        · exact ih x hx
      · exact ih

theorem value_off {ttl now : Int} {h : List (Int × IpOp)} (hh : ∀ x ∈ h, x.2 = .set 0) : value ttl now h = none ∨ value ttl now h = some 0 := by
  cases h with
  | nil => exact .inl rfl
  | cons x h =>
    obtain ⟨t, op⟩ := x
    have := hh _ List.mem_cons_self
    cases this
    rw [value]
    split
    · exact .inr rfl
    · exact .inl rfl

/-- **C81.** Without `-dncount` no connection is stalled, whatever clients did before and whatever the rules say (`make-yakker`
included). -/
theorem C81_never_stalled {cf : Conf} (h0 : cf.yakCount = 0) {h : List Hap} {g : Server} {k : Nat} {E : Env} {now : Int} {sh sh' : Shared}
    {s : Sess} {o : List Out} (hr : Server.Runs cf (⟨k, E, now, .began sh s sh' o⟩ :: h) g) : s.stall = false := by
  rw [← Bool.not_eq_true, C38_stalled_iff hr]
  omega

/-- The record of every client says nothing, at any time from now on. -/
theorem C81_record {cf : Conf} (h0 : cf.yakCount = 0) {h : List Hap} {g : Server} (hr : Server.Runs cf h g) (ip : Str) {now : Int}
    (hn : ∀ e ∈ h, e.now ≤ now) : (g.sh.yak.lookup ip cf.yakTimeout now).1.2 = 0 := by
  rw [(hr.tables ip hn).1.lookup.1]
  rcases value_off (ttl := cf.yakTimeout) (now := now) (yakHist_off h0 ip h) with h | h <;> rw [h] <;> rfl

/-- A forced addition is an addition. -/
theorem Did.forces {cf : Conf} {E : Env} {s s' : Sess} {sh sh' : Shared} {i : Inp} {o : List Out} (h : Did cf E s sh i s' sh' o)
    (hf : Out.count .yakforces ∈ o) : Out.count .yakads ∈ o := by
  have mild : ∀ {o : List Out}, Mild o → Out.count .yakforces ∉ o := fun hm hx => absurd (hm _ hx) (by decide)
  have wl : ∀ {t x}, Out.count .yakforces ∉ writeLog t x := fun {t x} => mild (mild_writeLog t x)
  cases h with
  | tls _ _ _ hm | save _ _ _ _ hm => exact absurd hf (mild hm)
  | drop _ hd _ hm => exact absurd hf (mild (hd.mild.append hm))
  | connect _ hd | answerRef _ hd => exact absurd hf (mild hd.mild)
  | heloRef _ _ hd | mailRef _ _ hd | rcptRef _ _ hd | dataRef _ _ hd =>
    exact absurd hf (mild (.cons rfl hd.mild))
  | heloAcc _ _ hd _ hm => exact absurd hf (mild (.append (.cons rfl hd.mild) hm))
  | mailAcc _ _ hd _ ho | mailCount _ _ hd _ _ ho | rcptAcc _ _ hd ho | dataAcc _ _ hd ho =>
    rw [ho] at hf
    simp only [List.mem_append, List.mem_cons, List.not_mem_nil, reduceCtorEq, Out.count.injEq, false_or, or_false, mild hd.mild] at hf
  | answerAcc _ hd ho =>
    rw [ho] at hf
    simp only [List.mem_append, List.mem_cons, List.not_mem_nil, reduceCtorEq, or_false, mild hd.mild] at hf
  | mailDrop _ _ hd _ _ ho =>
    rw [ho] at hf
    simp only [List.mem_append, List.mem_cons, List.not_mem_nil, reduceCtorEq, Out.count.injEq, false_or, or_false, mild hd.mild, wl] at hf
  | gotKeep _ _ _ ho | gotSave _ _ _ _ ho =>
    rw [ho] at hf
    split at hf <;> simp at hf
  | tlserror | answerFail => simp at hf
  | other | closed => cases hf
  | @finish x _ hx =>
    have hne : x ≠ .yakforces := by rcases hx with ⟨-, rfl⟩ | ⟨-, rfl⟩ <;> decide
    rw [List.mem_cons, Out.count.injEq, or_iff_right (Ne.symm hne)] at hf
    refine List.mem_cons_of_mem _ ?_
    have yl : ∀ {x}, Out.count .yakforces ∉ yakLog cf E i s.trans x := by intro x; unfold yakLog; split <;> simp
    have ll : Out.count .yakforces ∉ (if s.rulesgood = true ∧ (s.sesscounts = true ∨ cf.yakCount = 0) then
        [Out.count (if s.trans.lastresgood then .abandons else .refuseds)] else [] : List Out) := by
      split
      · cases s.trans.lastresgood <;> simp
      · simp
    unfold endStep at hf ⊢
    simp only at hf ⊢
    by_cases hm : s.c.withprops.makeYakker.isSome
    · rw [if_pos hm] at hf ⊢
      simp only [List.mem_append, ll, or_false] at hf
      by_cases hc : (sh.yak.set s.trans.rip cf.yakTimeout cf.yakCount i.now).1 ≠ cf.yakCount
      · rw [if_pos hc]; simp
      · rw [if_neg hc] at hf; cases hf
    · rw [if_neg hm] at hf
      exfalso
      split at hf
      · simp only [List.mem_append, ll, or_false] at hf
        split at hf
        · simp [wl, yl] at hf
        · cases hf
      · split at hf <;> exact ll hf

/-- **C81.** Without `-dncount` no client is ever reported or cut off as a do-nothing client, in the statistics or in the log of
do-nothing clients. -/
theorem C81_never_reported {cf : Conf} (h0 : cf.yakCount = 0) {h : List Hap} {g : Server} {k : Nat} {E : Env} {now : Int} {s s' : Sess}
    {sh sh' : Shared} {i : Inp} {o : List Out} (hr : Server.Runs cf (⟨k, E, now, .stepped s sh i s' sh' o⟩ :: h) g) :
    .count .yakads ∉ o ∧ .count .yakforces ∉ o ∧ .count .rsetdrops ∉ o ∧ dnLines o = [] := by
  cases hr with
  | @step h g _ _ i _ _ _ _ hr hn hk hs =>
    have hl := hr.life.1 _ _ hk
    have hd := sstep_did hs
    have hq : .count .yakads ∉ o := by
      by_cases hip : E.rip = []
      · rcases hd.reports hl.ok with ⟨-, h2⟩ | ⟨h1, -⟩ | ⟨-, h2⟩
        · exact h2
        · cases (contribution_off h0 _ _ h1).1
        · split at h2
          · rename_i he; cases (contribution_off h0 _ _ he).1
          · intro hx
            refine h2.mp hx ?_
            rw [hip, h0]; rfl
          · exact h2
      · have := C40_reports_partial (.step hr hn hk hs) hip
        intro hx
        have := this.mp hx
        have hv : (value cf.yakTimeout i.now (yakHist cf E.rip h)).getD 0 = 0 := by
          rcases value_off (ttl := cf.yakTimeout) (now := i.now) (yakHist_off h0 E.rip h) with h | h <;> rw [h] <;> rfl
        rw [hv] at this
        generalize hc : contribution cf (stepsOf k h) ⟨s, i, g.sh, s', sh', o⟩ = c at this
        cases c with
        | none => exact this
        | some op =>
          cases (contribution_off h0 _ _ hc).1
          exact this h0.symm
    refine ⟨hq, fun hf => hq (hd.forces hf), ?_, ?_⟩
    · have hz := (C65_step hl hs (x := .rsetdrops) (by decide)).2 fun hx => by cases (contribution_off h0 _ _ hx.1.2).1
      intro hx
      rw [tally, List.countP_eq_zero] at hz
      exact hz _ hx (by simp)
    · rw [C66_dnlog hl hs, if_neg fun hx => hq hx.2.2]

/-- The same server without `-dncount`: the client is marked by the rules, ends five sessions at once, and is neither reported nor
stalled.  The record is there all the same. -/
example : served (fun h g => ((outs h).count (.count .yakads), stalls h, recorded g demoEnvY.rip)) { demoConfY with yakCount := 0 }
    ((List.range 5).map fun k => session k demoEnvY (k + 1) [.helo false b!"mail.example.com", .mailfrom b!"a@example.com", .done]).flatten =
    some (0, [false, false, false, false, false], some 0) := by decide +kernel

/-- With `-dncount` 2 it is reported the first time and then stalled. -/
example : served (fun h g => ((outs h).count (.count .yakads), stalls h, recorded g demoEnvY.rip)) demoConfY
    ((List.range 3).map fun k => session k demoEnvY (k + 1) [.helo false b!"mail.example.com", .mailfrom b!"a@example.com", .done]).flatten =
    some (1, [true, true, false], some 2) := by decide +kernel

/-- A negative `-dncount` is not refused at the start; it is not the same as none: clients the rules mark are reported, but not
stalled. -/
example : served (fun h g => ((outs h).count (.count .yakads), stalls h, recorded g demoEnvY.rip)) { demoConfY with yakCount := -1 }
    ((List.range 3).map fun k => session k demoEnvY (k + 1) [.helo false b!"mail.example.com", .mailfrom b!"a@example.com", .done]).flatten =
    some (1, [false, false, false], some (-1)) := by decide +kernel

end Sink
