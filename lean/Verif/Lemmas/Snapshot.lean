import Verif.Spec.Snapshot
import Verif.Lemmas.Views
import Verif.Lemmas.Answers
import Verif.Props.Answers
import Verif.Props.Cache

/-!
# What a connection knows comes from what it asked
-/

namespace Sink
open Spec Relation

/-- Everything known in a context has been asked since `t0`, and files and mail exchangers only once; names of addresses at most `k` times. -/
structure Backed (W : World) (t0 : Trace) (k : Nat) (c : Ctx) : Prop where
  suf : t0 <:+ c.trace
  files : ∀ f l, c.files f = some l → f = [] ∧ l = [] ∨ ∃ u, t0 <:+ u ∧ (.openFile f :: u) <:+ c.trace ∧ l = entriesAt W u.length f
  dnsbl : ∀ n v, c.dnsbl n = some v → ∃ t ips, W.lookupIP t n = .ok ips ∧ v = decide (ips ≠ [])
  dom : ∀ d r, c.domvalid d = some r → ∃ u, t0 <:+ u ∧ (.lookupMX (d ++ b!".") :: u) <:+ c.trace ∧ r = (validDomain W d u).1
  file1 : ∀ f, c.trace.count (.openFile f) ≤ t0.count (.openFile f) + if c.files f = none then 0 else 1
  mx1 : ∀ n, c.trace.count (.lookupMX n) ≤ t0.count (.lookupMX n) + if c.domvalid n.dropLast = none then 0 else 1
  addr1 : ∀ a, c.trace.count (.lookupAddr a) ≤ t0.count (.lookupAddr a) + k

section
variable {W : World} {t0 : Trace} {k : Nat} {c c' : Ctx}

theorem Backed.of_eq (h : Backed W t0 k c) (h1 : c'.trace = c.trace) (h2 : c'.files = c.files) (h3 : c'.dnsbl = c.dnsbl)
    (h4 : c'.domvalid = c.domvalid) : Backed W t0 k c' := by
  obtain ⟨a1, a2, a3, a4, a5, a6, a7⟩ := h
  exact ⟨h1 ▸ a1, h1 ▸ h2 ▸ a2, h3 ▸ a3, h1 ▸ h4 ▸ a4, h1 ▸ h2 ▸ a5, h1 ▸ h4 ▸ a6, h1 ▸ a7⟩

/-- Other questions do no harm. -/
theorem Backed.more (h : Backed W t0 k c) {evs : Trace} {j : Nat} (h1 : c'.trace = evs ++ c.trace) (h2 : c'.files = c.files) (h3 : c'.dnsbl = c.dnsbl)
    (h4 : c'.domvalid = c.domvalid) (n1 : ∀ f, Ev.openFile f ∉ evs) (n2 : ∀ n, Ev.lookupMX n ∉ evs)
    (n3 : ∀ a, evs.count (.lookupAddr a) ≤ j) : Backed W t0 (k + j) c' := by
  have hs : c.trace <:+ c'.trace := ⟨evs, h1.symm⟩
  refine ⟨h.suf.trans hs, ?_, h3 ▸ h.dnsbl, ?_, ?_, ?_, ?_⟩
  · rw [h2]
    intro f l hf
    rcases h.files f l hf with hx | ⟨u, k1, k2, k3⟩
    · exact .inl hx
    · exact .inr ⟨u, k1, k2.trans hs, k3⟩
  · rw [h4]
    intro d r hd
    obtain ⟨u, k1, k2, k3⟩ := h.dom d r hd
    exact ⟨u, k1, k2.trans hs, k3⟩
  · intro f
    rw [h1, h2, List.count_append, List.count_eq_zero.2 (n1 f), Nat.zero_add]
    exact h.file1 f
  · intro n
    rw [h1, h4, List.count_append, List.count_eq_zero.2 (n2 n), Nat.zero_add]
    exact h.mx1 n
  · intro a
    rw [h1, List.count_append]
    have := h.addr1 a
    have := n3 a
    omega

theorem EStep.backed (h : EStep W c c') (hb : Backed W t0 k c) : Backed W t0 k c' := by
  cases h with
  | lookup n =>
    unfold getDnsblRes
    split
    · exact hb
    · have key : Backed W t0 k { c with trace := .lookupIP n :: c.trace } :=
        hb.more (j := 0) (evs := [.lookupIP n]) rfl rfl rfl rfl (by simp) (by simp) (by simp)
      simp only
      split
      · exact key
      · rename_i ips hl
        refine ⟨key.suf, key.files, ?_, key.dom, key.file1, key.mx1, key.addr1⟩
        intro m v hm
        simp only [upd] at hm
        split at hm
        · rename_i he
          cases hm
          refine ⟨_, ips, he ▸ hl, ?_⟩
          cases ips <;> simp
        · exact hb.dnsbl m v hm
  | hit =>
    unfold addDnsblHit
    split
    · exact hb
    · exact hb.of_eq rfl rfl rfl rfl
  | valid d =>
    unfold Ctx.validDomain
    split
    · exact hb
    · rename_i hn
      obtain ⟨evs, h1, h2⟩ := validDomain_trace W d c.trace
      have hmx : ∃ e2, (validDomain W d c.trace).2 = e2 ++ .lookupMX (d ++ b!".") :: c.trace ∧ ∀ ev ∈ e2, ∃ n, ev = .lookupIP n := by
        unfold validDomain
        simp only
        split
        · split
          · exact ⟨[], rfl, by simp⟩
          · exact ⟨[.lookupIP (d ++ b!".")], by rw [checkIP_trace]; rfl, by simp⟩
        · rename_i mxs _
          obtain ⟨e2, k1, k2⟩ := mxLoop_trace W d mxs (.undef, none) (.lookupMX (d ++ b!".") :: c.trace)
          exact ⟨e2, k1, fun ev hev => by obtain ⟨m, -, rfl⟩ := k2 ev hev; exact ⟨_, rfl⟩⟩
      obtain ⟨e2, k1, k2⟩ := hmx
      have c0 : ∀ ev : Ev, (∀ n, ev ≠ .lookupIP n) → e2.count ev = 0 := fun ev hev => by
        rw [List.count_eq_zero]
        intro hm
        obtain ⟨n, rfl⟩ := k2 _ hm
        exact hev n rfl
      have hs : (.lookupMX (d ++ b!".") :: c.trace) <:+ (validDomain W d c.trace).2 := ⟨e2, k1.symm⟩
      have hs' := (List.suffix_cons (Ev.lookupMX (d ++ b!".")) c.trace).trans hs
      refine ⟨hb.suf.trans hs', ?_, hb.dnsbl, ?_, ?_, ?_, ?_⟩
      · intro f l hf
        rcases hb.files f l hf with hx | ⟨u, j1, j2, j3⟩
        · exact .inl hx
        · exact .inr ⟨u, j1, j2.trans hs', j3⟩
      · intro x r hx
        simp only [upd] at hx
        split at hx
        · rename_i he
          subst he
          cases hx
          exact ⟨c.trace, hb.suf, hs, rfl⟩
        · obtain ⟨u, j1, j2, j3⟩ := hb.dom x r hx
          exact ⟨u, j1, j2.trans hs', j3⟩
      · intro f
        simp only [k1, List.count_append, c0 (.openFile f) (by simp), Nat.zero_add]
        rw [List.count_cons_of_ne (by simp)]
        exact hb.file1 f
      · intro n
        simp only [k1, List.count_append, c0 (.lookupMX n) (by simp), Nat.zero_add, upd]
        have := hb.mx1 n
        by_cases hx : n = d ++ b!"."
        · subst hx
          simp only [List.dropLast_concat, hn, if_true] at this
          rw [List.count_cons_self]
          simp only [List.dropLast_concat, if_true, reduceCtorEq, if_false]
          omega
        · rw [List.count_cons_of_ne (fun hh => hx (by cases hh; rfl))]
          split
          · simp only [reduceCtorEq, if_false]
            split at this <;> omega
          · exact this
      · intro a
        simp only [k1, List.count_append, c0 (.lookupAddr a) (by simp), Nat.zero_add]
        rw [List.count_cons_of_ne (by simp)]
        exact hb.addr1 a
  | @load f c hn =>
    by_cases hf : f = []
    · subst hf
      have e1 : loadList W [] c.trace = ([], c.trace) := by simp [loadList]
      rw [e1]
      refine ⟨hb.suf, ?_, hb.dnsbl, hb.dom, ?_, hb.mx1, hb.addr1⟩
      · intro g l hg
        simp only [upd] at hg
        split at hg
        · cases hg; exact .inl ⟨by assumption, rfl⟩
        · exact hb.files g l hg
      · intro g
        have := hb.file1 g
        simp only [upd]
        split
        · simp only [reduceCtorEq, if_false]; split at this <;> omega
        · exact this
    · have e1 : ∃ e2, (loadList W f c.trace).2 = e2 ++ .openFile f :: c.trace ∧ ∀ ev ∈ e2, ∃ m, ev = .warn m := by
        unfold loadList
        rw [if_neg hf]
        simp only
        split
        all_goals first | exact ⟨[.warn _], rfl, by simp⟩ | exact ⟨[], rfl, by simp⟩
      obtain ⟨e2, k1, k2⟩ := e1
      have c0 : ∀ ev : Ev, (∀ n, ev ≠ .warn n) → e2.count ev = 0 := fun ev hev => by
        rw [List.count_eq_zero]
        intro hm
        obtain ⟨n, rfl⟩ := k2 _ hm
        exact hev n rfl
      have hs : (.openFile f :: c.trace) <:+ (loadList W f c.trace).2 := ⟨e2, k1.symm⟩
      have hs' := (List.suffix_cons (Ev.openFile f) c.trace).trans hs
      refine ⟨hb.suf.trans hs', ?_, hb.dnsbl, ?_, ?_, ?_, ?_⟩
      · intro g l hg
        simp only [upd] at hg
        split at hg
        · rename_i he
          subst he
          cases hg
          exact .inr ⟨c.trace, hb.suf, hs, loadList_entries W _ _⟩
        · rcases hb.files g l hg with hx | ⟨u, j1, j2, j3⟩
          · exact .inl hx
          · exact .inr ⟨u, j1, j2.trans hs', j3⟩
      · intro x r hx
        obtain ⟨u, j1, j2, j3⟩ := hb.dom x r hx
        exact ⟨u, j1, j2.trans hs', j3⟩
      · intro g
        simp only [k1, List.count_append, c0 (.openFile g) (by simp), Nat.zero_add, upd]
        have := hb.file1 g
        by_cases hx : g = f
        · subst hx
          simp only [hn, if_true] at this
          rw [List.count_cons_self]
          simp only [if_true, reduceCtorEq, if_false]
          omega
        · rw [List.count_cons_of_ne (fun hh => hx (by cases hh; rfl))]
          simp only [if_neg hx]
          exact this
      · intro n
        simp only [k1, List.count_append, c0 (.lookupMX n) (by simp), Nat.zero_add]
        rw [List.count_cons_of_ne (by simp)]
        exact hb.mx1 n
      · intro a
        simp only [k1, List.count_append, c0 (.lookupAddr a) (by simp), Nat.zero_add]
        rw [List.count_cons_of_ne (by simp)]
        exact hb.addr1 a
  | domerr | miss => exact hb.of_eq rfl rfl rfl rfl
  | mapIter => exact hb.more (j := 0) (evs := [.mapIter]) rfl rfl rfl rfl (by simp) (by simp) (by simp)

theorem RSteps.backed (h : RSteps W c c') (hb : Backed W t0 k c) : Backed W t0 k c' := by
  induction h with
  | refl => exact hb
  | tail _ h ih =>
    cases h with
    | eval h => exact h.backed ih
    | «with» | rcpt | reset => exact ih.of_eq rfl rfl rfl rfl

theorem begun_domvalid (ph : Phase) (e : Evt) (c : Ctx) : (begun ph e c).domvalid = c.domvalid := by cases ph <;> rfl

theorem Decide_backed {tr : TransR} {ph : Phase} {e : Evt} {a : Action} (h : Decide W tr ph e c = .ok (a, c')) (hb : Backed W t0 k c) :
    Backed W t0 k c' := by
  have h1 : Backed W t0 k (begun ph e c) := hb.of_eq (by cases ph <;> rfl) (by cases ph <;> rfl) (by cases ph <;> rfl) (by cases ph <;> rfl)
  cases decide_end h with
  | pending => exact h1.of_eq rfl rfl rfl rfl
  | plain _ hl => exact (ruleLoop_steps hl).backed h1
  | defer _ hl => exact ((ruleLoop_steps hl).backed h1).of_eq rfl rfl rfl rfl

theorem Decide_grows {tr : TransR} {ph : Phase} {e : Evt} {a : Action} (h : Decide W tr ph e c = .ok (a, c')) : Grows c c' := by
  have h1 : Grows c (begun ph e c) := by
    have e1 : (begun ph e c).files = c.files := by cases ph <;> rfl
    have e2 : (begun ph e c).dnsbl = c.dnsbl := by cases ph <;> rfl
    have e3 : (begun ph e c).domvalid = c.domvalid := by cases ph <;> rfl
    exact ⟨by rw [e1]; exact fun _ _ h => h, by rw [e2]; exact fun _ _ h => h, by rw [e3]; exact fun _ _ h => h⟩
  cases decide_end h with
  | pending => exact ⟨h1.files, h1.dnsbl, h1.domvalid⟩
  | plain _ hl => exact h1.trans (ruleLoop_steps hl).grows
  | defer _ hl =>
    have h2 := h1.trans (ruleLoop_steps hl).grows
    exact ⟨h2.files, h2.dnsbl, h2.domvalid⟩

end

/-! ## Over a connection -/

/-- Before the connection is set up. -/
def Early (s : Sess) : Prop := s.pc = .tls ∨ s.pc = .connect

/-- What a step does to the context, and what it asks. -/
inductive Move (E : Env) (s s' : Sess) : Prop
  | quiet : s'.c = s.c → s'.trans.rdns = s.trans.rdns → s.pc ≠ .connect → (Early s' ↔ Early s) → Move E s s'
  | connect {tr a c1 d evs} : s.pc = .connect → ¬ Early s' → s'.trans.rdns = (s.withRdns E).trans.rdns →
      Decide E.W tr .connect {} (s.withRdns E).c = .ok (a, c1) → s'.c = { c1 with dnsblhit := d, trace := evs ++ c1.trace } →
      (∀ ev ∈ evs, ∃ n, ev = Ev.lookupTXT n) → Move E s s'
  | asked {tr ph e a c1 d evs} : ¬ Early s → ¬ Early s' → s'.trans.rdns = s.trans.rdns →
      Decide E.W tr ph e s.c = .ok (a, c1) → s'.c = { c1 with dnsblhit := d, trace := evs ++ c1.trace } →
      (∀ ev ∈ evs, ∃ n, ev = Ev.lookupTXT n) → Move E s s'

theorem logSbls_trace {W : World} {rip : Str} : ∀ {hits : List Str} {t t' : Trace} {o : List Out}, logSbls W rip hits t = .ok (o, t') →
    ∃ evs, t' = evs ++ t ∧ ∀ ev ∈ evs, ∃ n, ev = Ev.lookupTXT n := by
  intro hits
  induction hits with
  | nil => intro t t' o h; cases h; exact ⟨[], rfl, by simp⟩
  | cons x xs ih =>
    intro t t' o h
    rw [logSbls] at h
    split at h
    · cases h1 : getSBLHits W rip t with
      | error p => rw [h1] at h; cases h
      | ok r =>
        obtain ⟨sb, t1⟩ := r
        have e1 : ∃ n, t1 = .lookupTXT n :: t := by
          unfold getSBLHits at h1
          split at h1
          · simp only at h1
            split at h1 <;> · cases h1; exact ⟨_, rfl⟩
          · cases h1
        obtain ⟨n, rfl⟩ := e1
        rw [h1] at h
        simp only [bind, Except.bind, pure, Except.pure] at h
        cases h2 : logSbls W rip xs (.lookupTXT n :: t) with
        | error p => rw [h2] at h; cases h
        | ok q =>
          obtain ⟨o2, t2⟩ := q
          obtain ⟨evs, k1, k2⟩ := ih h2
          rw [h2] at h
          simp only at h
          have e2 : t' = t2 := by split at h <;> · cases h; rfl
          refine ⟨evs ++ [.lookupTXT n], by rw [e2, k1]; simp, fun ev hev => ?_⟩
          rcases List.mem_append.1 hev with hev | hev
          · exact k2 ev hev
          · exact ⟨n, by simpa using hev⟩
    · exact ih h

theorem logDnsbls_trace {W : World} {t t' : Trans} {c c' : Ctx} {o : List Out} (h : logDnsbls W t c = .ok (t', c', o)) :
    ∃ d evs, c' = { c with dnsblhit := d, trace := evs ++ c.trace } ∧ ∀ ev ∈ evs, ∃ n, ev = Ev.lookupTXT n := by
  unfold logDnsbls at h
  split at h
  · cases h; exact ⟨c.dnsblhit, [], rfl, by simp⟩
  · simp only at h
    split at h
    · cases h; exact ⟨_, [], rfl, by simp⟩
    · split at h
      · cases h
      · rename_i o1 tr1 hs
        cases h
        obtain ⟨evs, k1, k2⟩ := logSbls_trace hs
        exact ⟨_, evs, by rw [k1], k2⟩

theorem DecR.traced {E : Env} {ph : Phase} {evt : Evt} {id : Str} {s s' : Sess} {ref : Bool} {o : List Out} {res : Action} {c1 : Ctx}
    (h : DecR E ph evt id s ref s' o res c1) :
    ∃ d evs, s'.c = { c1 with dnsblhit := d, trace := evs ++ c1.trace } ∧ ∀ ev ∈ evs, ∃ n, ev = Ev.lookupTXT n := by
  obtain ⟨t1, o1, o3, h1, -⟩ := h.said
  exact logDnsbls_trace h1

theorem Did.move {cf : Conf} {E : Env} {s s' : Sess} {sh sh' : Shared} {i : Inp} {o : List Out} (h : Did cf E s sh i s' sh' o) : Move E s s' := by
  have ne : ∀ {x : Sess}, x.pc = .ready → ¬ Early x := fun hx => by simp [Early, hx]
  cases h with
  | tls hp ht => unfold tlsStep at ht; cases ht; exact .quiet rfl rfl (by simp [hp]) (by simp [Early, hp])
  | drop hp hd | connect hp hd =>
    obtain ⟨d, evs, k1, k2⟩ := hd.traced
    exact .connect hp (by simp [Early]) hd.kept.2.2.2.1 hd.dec k1 k2
  | heloRef hp he hd | mailRef hp he hd | rcptRef hp he hd | dataRef hp he hd =>
    obtain ⟨d, evs, k1, k2⟩ := hd.traced
    exact .asked (ne hp) (ne (hd.kept.2.2.2.2.2.2.trans hp)) hd.kept.2.2.2.1 hd.dec k1 k2
  | heloAcc hp he hd | mailAcc hp he hd | mailCount hp he hd | rcptAcc hp he hd | dataAcc hp he hd =>
    obtain ⟨d, evs, k1, k2⟩ := hd.traced
    exact .asked (ne hp) (ne (hd.kept.2.2.2.2.2.2.trans hp)) hd.kept.2.2.2.1 hd.dec k1 k2
  | mailDrop hp he hd =>
    obtain ⟨d, evs, k1, k2⟩ := hd.traced
    exact .asked (ne hp) (by simp [Early]) hd.kept.2.2.2.1 hd.dec k1 k2
  | answerRef hp hd | answerAcc hp hd =>
    obtain ⟨d, evs, k1, k2⟩ := hd.traced
    exact .asked (by simp [Early, hp]) (by simp [Early]) hd.kept.2.2.2.1 hd.dec k1 k2
  | gotKeep hp he => exact .quiet rfl (gotTrans_kept E.H _ i s.trans).2.2.2.1 (by simp [hp]) (by simp [Early, hp])
  | gotSave hp he => exact .quiet rfl (gotTrans_kept E.H _ i s.trans).2.2.2.1 (by simp [hp]) (by simp [Early, hp, Sess.goto])
  | tlserror hp he | other hp he | closed hp => exact .quiet rfl rfl (by simp [hp]) (by simp [Early, hp])
  | finish hp he => exact .quiet rfl rfl (by simp [hp]) (by simp [Early, hp])
  | save hp _ _ hn => rcases hn with ⟨q, rfl⟩ | ⟨b, rfl⟩ <;> exact .quiet rfl rfl (by simp [hp]) (by simp [Early, hp])
  | answerFail hp => exact .quiet rfl rfl (by simp [hp]) (by simp [Early, hp])

theorem rdnsLoop_trace (W : World) (ip : Option IP) : ∀ (names : List Str) (r : RDNS) (t : Trace),
    ∃ evs, (rdnsLoop W ip names r t).2 = evs ++ t ∧ ∀ ev ∈ evs, ∃ n, ev = Ev.lookupIP n := by
  intro names
  induction names with
  | nil => intro r t; exact ⟨[], rfl, by simp⟩
  | cons n names ih =>
    intro r t
    have key : ∀ r', ∃ evs, (rdnsLoop W ip names r' (.lookupIP n :: t)).2 = evs ++ t ∧ ∀ ev ∈ evs, ∃ n, ev = Ev.lookupIP n := by
      intro r'
      obtain ⟨evs, k1, k2⟩ := ih r' (.lookupIP n :: t)
      refine ⟨evs ++ [.lookupIP n], by rw [k1]; simp, fun ev hev => ?_⟩
      rcases List.mem_append.1 hev with hev | hev
      · exact k2 ev hev
      · exact ⟨n, by simpa using hev⟩
    rw [rdnsLoop]
    split
    · exact key _
    · split <;> exact key _

theorem lookupAddrVerified_trace (W : World) (ip : Str) (t : Trace) : ip = [] ∧ (lookupAddrVerified W ip t).2 = t ∨
    ∃ evs, (lookupAddrVerified W ip t).2 = evs ++ .lookupAddr ip :: t ∧ ∀ ev ∈ evs, ∃ n, ev = Ev.lookupIP n := by
  unfold lookupAddrVerified
  split
  · exact .inl ⟨by assumption, rfl⟩
  · right
    simp only
    split
    · exact ⟨[], rfl, by simp⟩
    · exact rdnsLoop_trace ..

/-- The client's names have been looked up since `t0`. -/
def Looked (E : Env) (t0 : Trace) (s : Sess) : Prop :=
  ∃ u, t0 <:+ u ∧ (E.rip = [] ∨ (.lookupAddr E.rip :: u) <:+ s.c.trace) ∧ s.trans.rdns = (lookupAddrVerified E.W E.rip u).1

theorem txt_more {W : World} {t0 : Trace} {k : Nat} {c1 c2 : Ctx} {d : List Str} {evs : Trace} (h : Backed W t0 k c1)
    (h1 : c2 = { c1 with dnsblhit := d, trace := evs ++ c1.trace }) (h2 : ∀ ev ∈ evs, ∃ n, ev = Ev.lookupTXT n) : Backed W t0 k c2 := by
  subst h1
  refine h.more (j := 0) (evs := evs) rfl rfl rfl rfl ?_ ?_ ?_
  · intro f hf; obtain ⟨n, hn⟩ := h2 _ hf; cases hn
  · intro f hf; obtain ⟨n, hn⟩ := h2 _ hf; cases hn
  · intro a
    rw [Nat.le_zero, List.count_eq_zero]
    intro hf; obtain ⟨n, hn⟩ := h2 _ hf; cases hn

/-- In every state of a connection. -/
theorem run_backed {cf : Conf} {E : Env} {sh0 sh1 : Shared} {i0 : Inp} {s0 s : Sess} {o1 : List Out}
    {l : List Step} (hst : startSess cf E sh0 i0 = .ok (s0, sh1, o1)) (hr : Run cf E s0 l s) :
    (Early s → Backed E.W s0.c.trace 0 s.c) ∧ (¬ Early s → Backed E.W s0.c.trace 1 s.c ∧ Looked E s0.c.trace s) := by
  have hpc := (startSess_init hst).1
  refine Spec.Run.ind (P := fun l s => (Early s → Backed E.W s0.c.trace 0 s.c) ∧
    (¬ Early s → Backed E.W s0.c.trace 1 s.c ∧ Looked E s0.c.trace s)) hr ?_ ?_
  · refine ⟨fun _ => ?_, fun h => absurd (Or.inl hpc) h⟩
    obtain ⟨rules, good, w, t, h1, h2, -⟩ := startSess_ctx hst
    rw [h2]
    exact ⟨List.suffix_refl _, by simp [newContext], by simp [newContext], by simp [newContext], by simp [newContext], by simp [newContext],
      by simp [newContext]⟩
  · intro l s1 s2 sh sh' i o hr1 ih hd hstep
    have hk := life_known (⟨sh0, i0, s0, sh1, o1, hst, hr1⟩ : Life cf E l s1)
    cases hd.move with
    | quiet h1 h2 h3 h4 =>
      unfold Looked
      rw [h1, h2, h4]
      exact ih
    | asked h1 h2 h3 h4 h5 h6 =>
      obtain ⟨b, u, j1, j2, j3⟩ := ih.2 h1
      refine ⟨fun hh => absurd hh h2, fun _ => ⟨txt_more (Decide_backed h4 b) h5 h6, u, j1, ?_, h3.trans j3⟩⟩
      have hs : s1.c.trace <:+ s2.c.trace := by
        rw [h5]
        exact (DStep.trace ⟨_, _, _, _, h4⟩).trans (List.suffix_append _ _)
      exact j2.imp id fun j2 => j2.trans hs
    | connect h1 h2 h3 h4 h5 h6 =>
      have b := ih.1 (.inr h1)
      have hw : (s1.withRdns E).c.trace = (lookupAddrVerified E.W s1.trans.rip s1.c.trace).2 := rfl
      have hs : (s1.withRdns E).c.trace <:+ s2.c.trace := by
        rw [h5]
        exact (DStep.trace ⟨_, _, _, _, h4⟩).trans (List.suffix_append _ _)
      have hrd : s2.trans.rdns = (lookupAddrVerified E.W E.rip s1.c.trace).1 := by
        rw [h3]
        show (lookupAddrVerified E.W s1.trans.rip s1.c.trace).1 = _
        rw [hk.rip]
      rw [hk.rip] at hw
      refine ⟨fun hh => absurd hh h2, fun _ => ?_⟩
      rcases lookupAddrVerified_trace E.W E.rip s1.c.trace with ⟨hx, hy⟩ | ⟨evs, hy, hz⟩
      · rw [hy] at hw
        have b' : Backed E.W s0.c.trace 1 (s1.withRdns E).c := b.more (j := 1) (evs := []) hw rfl rfl rfl (by simp) (by simp) (by simp)
        exact ⟨txt_more (Decide_backed h4 b') h5 h6, s1.c.trace, b.suf, .inl hx, hrd⟩
      · rw [hy] at hw
        have b' : Backed E.W s0.c.trace 1 (s1.withRdns E).c := by
          refine b.more (j := 1) (evs := evs ++ [.lookupAddr E.rip]) (by rw [hw]; simp) rfl rfl rfl ?_ ?_ ?_
          · intro f hf
            rcases List.mem_append.1 hf with hf | hf
            · obtain ⟨n, hn⟩ := hz _ hf; cases hn
            · simp at hf
          · intro f hf
            rcases List.mem_append.1 hf with hf | hf
            · obtain ⟨n, hn⟩ := hz _ hf; cases hn
            · simp at hf
          · intro a
            rw [List.count_append, List.count_eq_zero.2 (fun hf => by obtain ⟨n, hn⟩ := hz _ hf; cases hn), Nat.zero_add]
            exact List.count_le_length
        refine ⟨txt_more (Decide_backed h4 b') h5 h6, s1.c.trace, b.suf, .inr ?_, hrd⟩
        rw [hw] at hs
        exact (List.suffix_append evs _).trans hs

/-! ## The snapshot -/

/-- A question asked at most once is asked at one time. -/
theorem once_time {ev : Ev} {t0 tr : Trace} (hn : tr.count ev ≤ t0.count ev + 1) {u u' : Trace} (h1 : (ev :: u) <:+ tr) (h2 : t0 <:+ u)
    (h1' : (ev :: u') <:+ tr) (h2' : t0 <:+ u') : u = u' := by
  have key : ∀ {u u' : Trace}, (ev :: u) <:+ tr → t0 <:+ u → (ev :: u') <:+ tr → u.length < u'.length → False := by
    intro u u' h1 h2 h1' hlt
    have hsub : (ev :: u) <:+ u' := List.suffix_of_suffix_length_le h1 ((List.suffix_cons _ _).trans h1') hlt
    have c1 := h2.sublist.count_le ev
    have c2 := hsub.sublist.count_le ev
    have c3 := h1'.sublist.count_le ev
    rw [List.count_cons_self] at c2 c3
    omega
  rcases Nat.lt_trichotomy u.length u'.length with hlt | he | hlt
  · exact (key h1 h2 h1' hlt).elim
  · have h3 := (List.suffix_cons _ _).trans h1
    have h3' := (List.suffix_cons _ _).trans h1'
    exact (List.suffix_of_suffix_length_le h3 h3' (Nat.le_of_eq he)).eq_of_length he
  · exact (key h1' h2' h1 hlt).elim

open Classical in
/-- When a question was asked. -/
noncomputable def timeOf (t0 tr : Trace) (ev : Ev) : Nat :=
  if h : ∃ u, t0 <:+ u ∧ (ev :: u) <:+ tr then h.choose.length else 0

theorem timeOf_eq {ev : Ev} {t0 tr : Trace} (hn : tr.count ev ≤ t0.count ev + 1) {u : Trace} (h2 : t0 <:+ u) (h1 : (ev :: u) <:+ tr) :
    timeOf t0 tr ev = u.length := by
  have h : ∃ u, t0 <:+ u ∧ (ev :: u) <:+ tr := ⟨u, h2, h1⟩
  unfold timeOf
  rw [dif_pos h, once_time hn h.choose_spec.2 h.choose_spec.1 h1 h2]

/-- The world as the connection found it. -/
noncomputable def World.found (W : World) (t0 tr : Trace) : World :=
  { W with
    files := fun _ f => W.files (timeOf t0 tr (.openFile f)) f
    lookupIP := fun _ => W.lookupIP 0
    lookupMX := fun _ n => W.lookupMX (timeOf t0 tr (.lookupMX n)) n
    lookupAddr := fun _ a => W.lookupAddr (timeOf t0 tr (.lookupAddr a)) a
    lookupTXT := fun _ => W.lookupTXT 0 }

theorem Backed.snapshot {W : World} {t0 : Trace} {k : Nat} {c : Ctx} (h : Backed W t0 k c) (hk : k ≤ 1) :
    Snapshot W t0 c.trace (W.found t0 c.trace) := by
  refine ⟨⟨fun _ _ => rfl, fun _ _ => rfl, fun _ _ => rfl, fun _ _ => rfl, fun _ _ => rfl⟩, rfl, rfl, fun _ => rfl, ?_, ?_, ?_⟩
  · intro f u h1 h2
    show W.files (timeOf t0 c.trace (.openFile f)) f = _
    rw [timeOf_eq (Nat.le_trans (h.file1 f) (by split <;> omega)) h1 h2]
  · intro n u h1 h2
    show W.lookupMX (timeOf t0 c.trace (.lookupMX n)) n = _
    rw [timeOf_eq (Nat.le_trans (h.mx1 n) (by split <;> omega)) h1 h2]
  · intro a u h1 h2
    show W.lookupAddr (timeOf t0 c.trace (.lookupAddr a)) a = _
    rw [timeOf_eq (Nat.le_trans (h.addr1 a) (by omega)) h1 h2]

section
variable {W W0 : World} (hip : ∀ t n, W.lookupIP t n = W.lookupIP 0 n) {t0 tr : Trace} (hS : Snapshot W t0 tr W0)
include hip hS

theorem Spec.Snapshot.ip (t : Nat) (n : Str) : W.lookupIP t n = W0.lookupIP t n := by
  rw [hip, hS.static.lookupIP, hS.lookupIP]

theorem Spec.Snapshot.checkIP (d : Str) (t : Trace) : checkIP W d t = checkIP W0 d t := by
  unfold Sink.checkIP
  have e : ∀ l, checkAddrs W d l = checkAddrs W0 d l := by
    intro l
    induction l with
    | nil => rfl
    | cons i is ih => simp only [checkAddrs, hS.ipStr, ih]
  simp only [hS.ip hip, e]

theorem Spec.Snapshot.mxLoop (d : Str) : ∀ (l : List MX) (b : DnsRes × Option Str) (t : Trace), mxLoop W d l b t = mxLoop W0 d l b t := by
  intro l
  induction l with
  | nil => intro b t; rfl
  | cons m ms ih =>
    intro b t
    simp only [Sink.mxLoop, hS.lib, hS.checkIP hip, ih]

theorem Spec.Snapshot.validDomain (d : Str) {u : Trace} (h1 : t0 <:+ u) (h2 : (.lookupMX (d ++ b!".") :: u) <:+ tr) :
    validDomain W d u = validDomain W0 d u := by
  unfold Sink.validDomain
  simp only
  rw [hS.static.lookupMX, hS.lookupMX _ u h1 h2]
  split
  · rw [hS.checkIP hip]
  · rw [hS.mxLoop hip]

theorem Spec.Snapshot.rdnsLoop (ip : Option IP) : ∀ (names : List Str) (r : RDNS) (t : Trace), rdnsLoop W ip names r t = rdnsLoop W0 ip names r t := by
  intro names
  induction names with
  | nil => intro r t; rfl
  | cons n names ih =>
    intro r t
    simp only [Sink.rdnsLoop, hS.ip hip, ih]

theorem Spec.Snapshot.rdns (ip : Str) {u : Trace} (h1 : t0 <:+ u) (h2 : ip = [] ∨ (.lookupAddr ip :: u) <:+ tr) :
    (lookupAddrVerified W ip u).1 = (lookupAddrVerified W0 ip []).1 := by
  rw [← lookupAddrVerified_static hS.static ip u]
  unfold lookupAddrVerified
  rcases h2 with rfl | h2
  · rfl
  · split
    · rfl
    · simp only
      rw [hS.static.lookupAddr, hS.lookupAddr _ u h1 h2]
      split
      · rfl
      · rw [hS.rdnsLoop hip, hS.lib]

theorem Backed.cacheOK {k : Nat} {c : Ctx} (h : Backed W t0 k c) (ht : c.trace = tr) : CacheOK W0 c := by
  subst ht
  refine ⟨fun f l hf => ?_, fun n b hb => ?_, fun d r hd => ?_⟩
  · rcases h.files f l hf with ⟨rfl, rfl⟩ | ⟨u, h1, h2, rfl⟩
    · rfl
    · unfold entriesAt fileEntries
      rw [hS.files f u h1 h2, hS.lib]
      split
      · rfl
      · cases W.files u.length f <;> rfl
  · obtain ⟨t, ips, h1, rfl⟩ := h.dnsbl n b hb
    rw [hip] at h1
    unfold Listed
    rw [hS.lookupIP, h1]
    simp
  · obtain ⟨u, h1, h2, rfl⟩ := h.dom d r hd
    rw [hS.validDomain hip d h1 h2]
    exact validDomain_verdict hS.static d u

end

/-! ## The answers as in the snapshot -/

/-- What the connection knows fits the world. -/
structure Fits (W0 : World) (E : Env) (s : Sess) : Prop where
  cache : CacheOK W0 s.c
  rdns : ¬ Early s → s.trans.rdns = (lookupAddrVerified W0 E.rip []).1

theorem Move.fits {W0 : World} {E : Env} {s s' : Sess} (h : Move E s s') (hf : Fits W0 E s') : Fits W0 E s := by
  cases h with
  | quiet h1 h2 h3 h4 => exact ⟨h1 ▸ hf.cache, fun hx => h2 ▸ hf.rdns (fun hh => hx (h4.1 hh))⟩
  | connect h1 h2 h3 h4 h5 h6 =>
    refine ⟨?_, fun hx => absurd (Or.inr h1) hx⟩
    have hc := hf.cache
    rw [h5] at hc
    have hc1 : CacheOK W0 (s.withRdns E).c := (Decide_grows h4).cache ⟨hc.files, hc.dnsbl, hc.domvalid⟩
    exact ⟨hc1.files, hc1.dnsbl, hc1.domvalid⟩
  | asked h1 h2 h3 h4 h5 h6 =>
    refine ⟨?_, fun _ => h3 ▸ hf.rdns h2⟩
    have hc := hf.cache
    rw [h5] at hc
    exact (Decide_grows h4).cache ⟨hc.files, hc.dnsbl, hc.domvalid⟩

theorem run_fits {cf : Conf} {W0 : World} {E : Env} {s s' : Sess} {l : List Step} (h : Run cf E s l s') (hf : Fits W0 E s') : Fits W0 E s := by
  induction h with
  | nil => exact hf
  | snoc _ hs ih => exact ih ((sstep_did hs).move.fits hf)

/-- Once the connection is set up the rules see the facts. -/
theorem fits_facts {cf : Conf} {E : Env} {W0 : World} {l : List Step} {s : Sess} (h : Life cf E l s) (h1 : s.trans.rdns = (lookupAddrVerified W0 E.rip []).1) :
    s.trans.r = facts { E with W := W0 } l := by
  have hk := life_known h
  obtain ⟨h3, h4⟩ := life_noticed h
  have h5 := (C33_rules_see h).1
  unfold facts Trans.r
  rw [hk.rip, h4, h1, h3]
  congr 1

theorem fits_facts_connect {cf : Conf} {E : Env} {W0 : World} {l : List Step} {s : Sess} (h : Life cf E l s)
    (h1 : (s.withRdns E).trans.rdns = (lookupAddrVerified W0 E.rip []).1) : (s.withRdns E).trans.r = facts { E with W := W0 } l := by
  have hk := life_known h
  obtain ⟨h3, h4⟩ := life_noticed h
  have h5 := (C33_rules_see h).1
  have h6 : (s.withRdns E).trans.r = { s.trans.r with rdns := (s.withRdns E).trans.rdns } := rfl
  rw [h6, h1]
  unfold facts
  simp only [Trans.r] at h5 ⊢
  rw [hk.rip, h4, h3, h5]

theorem Twin.same {W0 : World} {c d : Ctx} (h : Twin W0 c d) (x : List Str) (t : Trace) :
    Twin W0 { c with dnsblhit := x, trace := t } { d with dnsblhit := x, trace := t } :=
  h.map (fun y => { y with dnsblhit := x, trace := [] }) (fun _ => rfl) (fun _ => ⟨rfl, rfl, rfl⟩) |> fun h =>
    ⟨h.bare, ⟨h.cache.files, h.cache.dnsbl, h.cache.domvalid⟩⟩

section
variable {o : BaseOpts} {cf : Conf} (hb : Built o cf) {E : Env} {W0 : World} (hs : W0.Static) (hL : W0.lib = E.W.lib) {P : Str → Prop}
  (hl : Lists P E.W W0) {sh0 sh1 : Shared} {i0 : Inp} {s0 s : Sess} {o1 : List Out} (hst : startSess cf E sh0 i0 = .ok (s0, sh1, o1))
  (hP : ∀ r ∈ s0.c.ruleset, RBlocks P r)
include hb hs hL hl hst hP

/-- In every state of a connection the context has a twin that tells the history, seen in `W0`. -/
theorem run_twin {l : List Step} (hr : Run cf E s0 l s) (hf : Fits W0 E s) :
    ∃ d, Twin W0 s.c d ∧ Tells { E with W := W0 } s0.c.ruleset l d ∧ (Early s → d.defresult = .error) := by
  have hload := startSess_loaded hst
  have hpc := (startSess_init hst).1
  have hp := hload.parsed hb
  refine Spec.Run.ind (P := fun l s => Fits W0 E s → ∃ d, Twin W0 s.c d ∧ Tells { E with W := W0 } s0.c.ruleset l d ∧
    (Early s → d.defresult = .error)) hr ?_ ?_ hf
  · intro hf
    obtain ⟨rules, good, w, t, h1, h2, -⟩ := startSess_ctx hst
    have hc := hf.cache
    refine ⟨s0.c, ⟨rfl, hc⟩, ?_, fun _ => by rw [h2]; rfl⟩
    refine ⟨rfl, hc, by rw [h2]; rfl, by rw [h2]; rfl, by rw [h2]; rfl, .inl ⟨by rw [h2]; rfl, ?_⟩⟩
    rintro a w ⟨l1, st, l2, b, id, hx, -⟩
    simp at hx
  · intro l s1 s2 sh sh' i o hr ih hd hstep hf
    have hL1 : Life cf E l s1 := ⟨sh0, i0, s0, sh1, o1, hst, hr⟩
    have hf1 := hd.move.fits hf
    obtain ⟨d, t1, t2, t3⟩ := ih hf1
    have hrs : s1.c.ruleset = s0.c.ruleset := t1.ruleset.trans t2.ruleset
    cases hd.askStep with
    | quiet h1 h2 h3 =>
      have h2 : s1.pc ≠ .connect := h2
      have h3 : s2.c = s1.c := h3
      refine ⟨d, h3 ▸ t1, t2.none h1, fun he => ?_⟩
      rcases he with he | he
      · exact absurd he hd.pc_tls
      · exact t3 (.inl (hd.to_connect he).1)
    | connect h1 h2 h3 h4 =>
      have h4 : s2.c = _ := h4
      have h3 : Decide E.W (s1.withRdns E).trans.r .connect {} (s1.withRdns E).c = _ := h3
      have k1 : Twin W0 (s1.withRdns E).c { d with dnsblhit := s1.c.dnsblhit, trace := (s1.withRdns E).c.trace } := t1.same s1.c.dnsblhit _
      have k2 : Tells { E with W := W0 } s0.c.ruleset l { d with dnsblhit := s1.c.dnsblhit, trace := (s1.withRdns E).c.trace } := t2.same _ _
      have hc := hf.cache
      rw [h4] at hc
      obtain ⟨d1, j1, j2⟩ := Twin.Decide hs hL hl (c := (s1.withRdns E).c) (fun r hr => hP r (hrs ▸ hr)) k1 h3 ⟨hc.files, hc.dnsbl, hc.domvalid⟩
      have j3 := k2.connect hs (t3 (.inr h2)) j1
      rw [h4]
      refine ⟨_, j2.same _ _, (j3.none h1).same _ _, fun he => ?_⟩
      rcases he with he | he
      · exact absurd he hd.pc_tls
      · have h2 : s1.pc = .connect := h2
        have := (hd.to_connect he).1
        rw [h2] at this; cases this
    | asked h1 h2 h3 h4 h5 =>
      have h5 : s2.c = _ := h5
      have h4 : Decide E.W s1.trans.r _ _ s1.c = _ := h4
      have hne : ¬ Early s1 := fun he => by rcases he with he | he; exacts [h2 he, h3 he]
      rw [fits_facts hL1 (hf1.rdns hne)] at h4
      have hc := hf.cache
      rw [h5] at hc
      obtain ⟨d1, j1, j2⟩ := Twin.Decide hs hL hl (fun r hr => hP r (hrs ▸ hr)) t1 h4 ⟨hc.files, hc.dnsbl, hc.domvalid⟩
      rw [h5]
      refine ⟨_, j2.same _ _, (t2.asked hs hp (asked_phase h1) j1 h1).same _ _, fun he => ?_⟩
      rcases he with he | he
      · exact absurd he hd.pc_tls
      · exact absurd (hd.to_connect he).1 h2

/-- The answers are those of a world that fits and does not change. -/
theorem fits_answers {l : List Step} (hr : Run cf E s0 l s) (hf : Fits W0 E s) : ∀ l1 st l2 ph e id, l = l1 ++ st :: l2 → st.asked = some (ph, e, id) →
      ∃ a w, Ruling { E with W := W0 } s0.c.ruleset l1 ph e a w ∧ st.post.c.withprops = w ∧
        (sent st.out = answerTo ph a (w.message.getD []) id (envelope l1).rcpts ∧ st.post.pc = .ready ∨
         (a = .noresult ∨ a = .accept) ∧ st.rsetDrop) := by
  intro l1 st l2 ph e id hll ha
  obtain ⟨hr1, hok, hr2⟩ := hr.split hll
  have hf2 := run_fits hr2 hf
  have hd := sstep_did hok
  have hf1 := hd.move.fits hf2
  have hLf : Life cf E l1 st.pre := ⟨sh0, i0, s0, sh1, o1, hst, hr1⟩
  obtain ⟨d, t1, t2, -⟩ := run_twin hb hs hL hl hst hP hr1 hf1
  have hrs : st.pre.c.ruleset = s0.c.ruleset := t1.ruleset.trans t2.ruleset
  obtain ⟨res, c1, h1, -, h3⟩ := C64_decision hok ha
  have hrc : st.pre.trans.rcptto = (envelope l1).rcpts := (C33_rules_see hLf).1
  rw [hrc] at h3
  cases hd.askStep with
  | quiet h => rw [show st.asked = none from h] at ha; cases ha
  | connect h => rw [show st.asked = none from h] at ha; cases ha
  | asked k1 k2 k3 k4 k5 =>
    cases (show st.asked = _ from k1).symm.trans ha
    have k4 : Decide E.W st.pre.trans.r ph e st.pre.c = _ := k4
    rw [h1] at k4
    cases k4
    have hne : ¬ Early st.pre := fun he => by rcases he with he | he; exacts [k2 he, k3 he]
    rw [fits_facts hLf (hf1.rdns hne)] at h1
    have k5 : st.post.c = _ := k5
    have hc := hf2.cache
    rw [k5] at hc
    obtain ⟨d1, j1, j2⟩ := Twin.Decide hs hL hl (fun r hr => hP r (hrs ▸ hr)) t1 h1 ⟨hc.files, hc.dnsbl, hc.domvalid⟩
    have := t2.ruling hs ((startSess_loaded hst).parsed hb) (asked_phase ha) j1
    rw [← j2.withprops] at this
    exact ⟨res, _, this, by rw [k5], h3⟩

/-- On connecting too. -/
theorem fits_connect {l : List Step} (hr : Run cf E s0 l s) (hf : Fits W0 E s) : ∀ l1 st l2, l = l1 ++ st :: l2 → st.pre.pc = .connect →
      ∃ used a, FirstMatch W0 (facts { E with W := W0 } l1) (heard l1) .connect s0.c.ruleset used a ∧ sent st.out = [] ∧
        st.post.pc = if a = .reject then .closed else .ready := by
  intro l1 st l2 hll hp
  obtain ⟨hr1, hok, hr2⟩ := hr.split hll
  have hf2 := run_fits hr2 hf
  have hd := sstep_did hok
  have hf1 := hd.move.fits hf2
  have hLf : Life cf E l1 st.pre := ⟨sh0, i0, s0, sh1, o1, hst, hr1⟩
  obtain ⟨d, t1, t2, t3⟩ := run_twin hb hs hL hl hst hP hr1 hf1
  have hrs : st.pre.c.ruleset = s0.c.ruleset := t1.ruleset.trans t2.ruleset
  obtain ⟨res, c1, h1, h2, h3⟩ := C64_connect hok hp
  have hpar := (startSess_loaded hst).parsed hb
  cases hd.move with
  | quiet _ _ h => exact absurd hp h
  | asked h => exact absurd (Or.inr hp) h
  | @connect tr a c2 x evs q1 q2 q3 q4 q5 q6 =>
    rw [fits_facts_connect hLf (q3 ▸ hf2.rdns q2)] at h1
    cases hd.askStep with
    | quiet _ h => exact absurd hp h
    | asked _ _ h => exact absurd hp h
    | connect _ _ k4 k5 =>
      have k4 : Decide E.W (st.pre.withRdns E).trans.r .connect {} (st.pre.withRdns E).c = _ := k4
      rw [fits_facts_connect hLf (q3 ▸ hf2.rdns q2), h1] at k4
      cases k4
      have k5 : st.post.c = _ := k5
      have hc := hf2.cache
      rw [k5] at hc
      have k1 : Twin W0 (st.pre.withRdns E).c { d with dnsblhit := st.pre.c.dnsblhit, trace := (st.pre.withRdns E).c.trace } := t1.same st.pre.c.dnsblhit _
      have k2 : Tells { E with W := W0 } s0.c.ruleset l1 { d with dnsblhit := st.pre.c.dnsblhit, trace := (st.pre.withRdns E).c.trace } := t2.same _ _
      generalize ({ d with dnsblhit := st.pre.c.dnsblhit, trace := (st.pre.withRdns E).c.trace } : Ctx) = d' at k1 k2
      have k3 : d'.defresult = .error := k1.defresult.symm.trans (t1.defresult.trans (t3 (.inr hp)))
      obtain ⟨d1, j1, j2⟩ := Twin.Decide hs hL hl (c := (st.pre.withRdns E).c) (fun r hr => hP r (hrs ▸ hr)) k1 h1 ⟨hc.files, hc.dnsbl, hc.domvalid⟩
      obtain ⟨used, ret, wp, m1, -, m3⟩ := decide_ctx hs (fun r hx => hpar r (k2.ruleset ▸ hx)) k2.cache (by simp) (.inr (.inr k3)) j1
      rw [k2.ruleset] at m1
      have key : d'.mail.said .connect {} = { heard l1 with rcptto := d'.mail.rcptto } := by rw [k2.mail]; rfl
      rw [key] at m1
      refine ⟨used, ret, firstMatch_rcpt (by decide) (fun r hx => (hpar r hx).le) m1, h2, ?_⟩
      rcases m3 with ⟨-, rfl, -⟩ | ⟨k, -⟩
      · exact h3
      · cases k

end

end Sink
