import Verif.Spec.Isolation
import Verif.Lemmas.Server
import Verif.Lemmas.Store
import Verif.Spec.DemoServer
import Verif.Props.Server

/-!
# C71: clients do not notice clients at other addresses
-/

namespace Sink
open Spec

namespace IpMap

theorem live_congr {a b : IpMap} {ip : Str} (h : a.get ip = b.get ip) (ttl now : Int) : a.live ip ttl now = b.live ip ttl now := by
  unfold live; rw [h]

theorem lookup_sim {a b : IpMap} {ip : Str} (h : a.get ip = b.get ip) (ttl now : Int) :
    (a.lookup ip ttl now).1 = (b.lookup ip ttl now).1 ∧ (a.lookup ip ttl now).2.get ip = (b.lookup ip ttl now).2.get ip := by
  rw [(lookup_eq a ip ttl now).1, (lookup_eq b ip ttl now).1, (lookup_eq a ip ttl now).2, (lookup_eq b ip ttl now).2,
    live_congr h, h]
  exact ⟨rfl, rfl⟩

theorem add_sim {a b : IpMap} {ip : Str} (h : a.get ip = b.get ip) (ttl now : Int) :
    (a.add ip ttl now).1 = (b.add ip ttl now).1 ∧ (a.add ip ttl now).2.get ip = (b.add ip ttl now).2.get ip := by
  by_cases h0 : ip = []
  · subst h0; exact ⟨rfl, h⟩
  · rw [(add_eq a h0 ttl now).1, (add_eq b h0 ttl now).1, (add_eq a h0 ttl now).2, (add_eq b h0 ttl now).2, live_congr h, h]
    exact ⟨rfl, rfl⟩

theorem set_sim {a b : IpMap} {ip : Str} (h : a.get ip = b.get ip) (ttl n now : Int) :
    (a.set ip ttl n now).1 = (b.set ip ttl n now).1 ∧ (a.set ip ttl n now).2.get ip = (b.set ip ttl n now).2.get ip := by
  by_cases h0 : ip = []
  · subst h0; exact ⟨rfl, h⟩
  · rw [(set_eq a h0 ttl n now).1, (set_eq b h0 ttl n now).1, (set_eq a h0 ttl n now).2, (set_eq b h0 ttl n now).2, live_congr h, h]
    exact ⟨rfl, rfl⟩

theorem del_sim {a b : IpMap} {ip : Str} (h : a.get ip = b.get ip) : (a.del ip).get ip = (b.del ip).get ip := by
  by_cases h0 : ip = []
  · subst h0; exact h
  · rw [del_eq a h0, del_eq b h0, h]

end IpMap

/-- Two shared states look the same to clients at `ip`, the files `F` included. -/
structure AlikeAt (ip : Str) (F : Str → Prop) (a b : Shared) : Prop where
  yak : a.yak.get ip = b.yak.get ip
  notls : a.notls.get ip = b.notls.get ip
  fs : ∀ p, F p → a.fs p = b.fs p

/-- A result that is the same in the other shared state. -/
def SameIn (ip : Str) (F : Str → Prop) (x y : SRes) : Prop :=
  match x with
  | .error p => y = .error p
  | .ok (s, a, o) => ∃ b, y = .ok (s, b, o) ∧ AlikeAt ip F a b

variable {ip : Str} {F : Str → Prop} {a b : Shared}

theorem AlikeAt.setFs (h : AlikeAt ip F a b) (p : Str) (f : File) :
    AlikeAt ip F { a with fs := a.fs.set p f } { b with fs := b.fs.set p f } := by
  refine ⟨h.yak, h.notls, fun q hq => ?_⟩
  simp only [FS.set]
  split
  · rfl
  · exact h.fs q hq

theorem tlsStep_same (h : AlikeAt ip F a b) {s : Sess} (hr : s.trans.rip = ip) (i : Inp) :
    SameIn ip F (tlsStep s a i) (tlsStep s b i) := by
  subst hr
  obtain ⟨h1, h2⟩ := IpMap.lookup_sim h.notls tlsTimeout i.now
  unfold tlsStep
  simp only [SameIn, h1]
  exact ⟨_, rfl, h.yak, h2, h.fs⟩

theorem connectStep_same (h : AlikeAt ip F a b) (E : Env) (s : Sess) (i : Inp) :
    SameIn ip F (connectStep E s a i) (connectStep E s b i) := by
  rw [connectStep_eq, connectStep_eq]
  cases decider E .connect {} [] (s.withRdns E) with
  | error p => rfl
  | ok x =>
    obtain ⟨d, s', o⟩ := x
    simp only [bind, Except.bind]
    split
    · exact ⟨_, rfl, h⟩
    · exact ⟨_, rfl, h⟩

theorem heloStep_same (h : AlikeAt ip F a b) (cf : Conf) (E : Env) (is : Bool) (arg : Str) (s : Sess) (i : Inp) :
    SameIn ip F (heloStep cf E is arg s a i) (heloStep cf E is arg s b i) := by
  unfold heloStep
  cases decider E .helo ⟨is, arg⟩ [] s with
  | error p => rfl
  | ok x =>
    obtain ⟨d, s', o⟩ := x
    simp only [bind, Except.bind]
    split
    · exact ⟨_, rfl, h⟩
    · split <;> exact ⟨_, rfl, h⟩

theorem mailStep_same (h : AlikeAt ip F a b) (cf : Conf) (E : Env) (arg : Str) {s : Sess} (hr : s.trans.rip = ip) (i : Inp) :
    SameIn ip F (mailStep cf E arg s a i) (mailStep cf E arg s b i) := by
  unfold mailStep
  cases hd : decider E .mfrom ⟨false, arg⟩ [] s with
  | error p => rfl
  | ok x =>
    obtain ⟨d, s', o⟩ := x
    have hr' : s'.trans.rip = ip := by
      obtain ⟨res, c1, hd⟩ := decider_did hd
      rw [hd.rip, hr]
    clear hd
    subst hr'
    simp only [bind, Except.bind]
    split
    · exact ⟨_, rfl, h⟩
    · split
      · obtain ⟨h1, h2⟩ := IpMap.add_sim h.yak cf.yakTimeout i.now
        rw [h1]
        split
        · exact ⟨_, rfl, h2, h.notls, h.fs⟩
        · exact ⟨_, rfl, h2, h.notls, h.fs⟩
      · exact ⟨_, rfl, h⟩

theorem rcptStep_same (h : AlikeAt ip F a b) (cf : Conf) (E : Env) (arg : Str) (s : Sess) :
    SameIn ip F (rcptStep cf E arg s a) (rcptStep cf E arg s b) := by
  unfold rcptStep
  cases decider E .rto ⟨false, arg⟩ [] s with
  | error p => rfl
  | ok x =>
    obtain ⟨d, s', o⟩ := x
    simp only [bind, Except.bind]
    split <;> exact ⟨_, rfl, h⟩

theorem dataStep_same (h : AlikeAt ip F a b) (cf : Conf) (E : Env) (s : Sess) :
    SameIn ip F (dataStep cf E s a) (dataStep cf E s b) := by
  unfold dataStep
  cases decider E .data {} [] s with
  | error p => rfl
  | ok x =>
    obtain ⟨d, s', o⟩ := x
    simp only [bind, Except.bind]
    split <;> exact ⟨_, rfl, h⟩

theorem gotStep_same (h : AlikeAt ip F a b) (cf : Conf) (E : Env) (arg : Str) (s : Sess) (i : Inp) :
    SameIn ip F (gotStep cf E arg s a i) (gotStep cf E arg s b i) := by
  unfold gotStep
  simp only
  split
  · exact ⟨_, rfl, h⟩
  · split
    · rfl
    · exact ⟨_, rfl, h⟩

theorem endStep_same (h : AlikeAt ip F a b) (cf : Conf) (E : Env) {s : Sess} (hr : s.trans.rip = ip) (i : Inp) :
    (endStep cf E s a i).1 = (endStep cf E s b i).1 ∧ (endStep cf E s a i).2.2 = (endStep cf E s b i).2.2 ∧
    AlikeAt ip F (endStep cf E s a i).2.1 (endStep cf E s b i).2.1 := by
  subst hr
  unfold endStep
  obtain ⟨h1, h2⟩ := IpMap.add_sim h.yak cf.yakTimeout i.now
  obtain ⟨h3, h4⟩ := IpMap.set_sim h.yak cf.yakTimeout cf.yakCount i.now
  simp only
  split
  · exact ⟨rfl, by simp only [h3], h4, h.notls, h.fs⟩
  · split
    · exact ⟨rfl, by simp only [h1], h2, h.notls, h.fs⟩
    · split
      · exact ⟨rfl, rfl, IpMap.del_sim h.yak, h.notls, h.fs⟩
      · exact ⟨rfl, rfl, h⟩

theorem eventStep_same (h : AlikeAt ip F a b) (cf : Conf) (E : Env) {s : Sess} (hr : s.trans.rip = ip) (i : Inp) :
    SameIn ip F (eventStep cf E s a i) (eventStep cf E s b i) := by
  unfold eventStep
  obtain ⟨e1, e2, e3⟩ := endStep_same h cf E hr i
  split
  · exact heloStep_same h _ _ _ _ _ _
  · exact mailStep_same h _ _ _ hr _
  · exact rcptStep_same h _ _ _ _
  · exact dataStep_same h _ _ _
  · exact gotStep_same h _ _ _ _ _
  · subst hr
    obtain ⟨-, h2⟩ := IpMap.add_sim h.notls tlsTimeout i.now
    exact ⟨_, rfl, h.yak, h2, h.fs⟩
  · simp only [SameIn, e1, e2]
    exact ⟨_, rfl, e3⟩
  · simp only [SameIn, e1, e2]
    exact ⟨_, rfl, e3⟩
  · exact ⟨_, rfl, h⟩

theorem answerStep_same (h : AlikeAt ip F a b) (cf : Conf) (E : Env) (id : Str) (l : Bool) (s : Sess) :
    SameIn ip F (answerStep cf E id l s a) (answerStep cf E id l s b) := by
  unfold answerStep
  split
  · exact ⟨_, rfl, h⟩
  · cases decider E .message { arg := s.trans.data } id s with
    | error p => rfl
    | ok x =>
      obtain ⟨d, s', o⟩ := x
      simp only [bind, Except.bind]
      split <;> exact ⟨_, rfl, h⟩

/-- A step of a client at `ip` is the same whatever the rest of the shared state. -/
theorem sstep_same (h : AlikeAt ip F a b) (cf : Conf) (E : Env) {s : Sess} (hr : s.trans.rip = ip) (hf : ∀ p, fileOf s = some p → F p)
    (i : Inp) : SameIn ip F (sstep cf E s a i) (sstep cf E s b i) := by
  unfold sstep
  split
  · exact tlsStep_same h hr i
  · exact connectStep_same h E s i
  · exact eventStep_same h cf E hr i
  · rename_i tgt r id hp
    have e := h.fs tgt (hf tgt (by simp only [fileOf, hp]))
    unfold openStep
    rw [← e]
    cases a.fs tgt with
    | some f => cases i.sys with
      | ok => exact ⟨_, rfl, h⟩
      | failed n m => exact ⟨_, rfl, h⟩
    | none => cases i.sys with
      | ok => exact ⟨_, rfl, h.setFs _ _⟩
      | failed n m => exact ⟨_, rfl, h⟩
  · unfold writeStep
    cases i.sys with
    | ok => exact ⟨_, rfl, h.setFs _ _⟩
    | failed n m => exact ⟨_, rfl, h.setFs _ _⟩
  · rename_i tgt r id hp
    have e := h.fs tgt (hf tgt (by simp only [fileOf, hp]))
    unfold syncStep
    rw [← e]
    cases i.sys <;> cases a.fs tgt <;> first | exact ⟨_, rfl, h⟩ | exact ⟨_, rfl, h.setFs _ _⟩
  · rename_i tgt r id hp
    have e := h.fs tgt (hf tgt (by simp only [fileOf, hp]))
    unfold closeStep
    rw [← e]
    cases i.sys <;> cases a.fs tgt <;> first | exact ⟨_, rfl, h⟩ | exact ⟨_, rfl, h.setFs _ _⟩
  · exact answerStep_same h cf E _ _ s
  · exact ⟨_, rfl, h⟩

theorem startSess_same (h : AlikeAt ip F a b) (cf : Conf) {E : Env} (hr : E.rip = ip) (i : Inp) :
    SameIn ip F (startSess cf E a i) (startSess cf E b i) := by
  subst hr
  obtain ⟨h1, h2⟩ := IpMap.lookup_sim h.yak cf.yakTimeout i.now
  unfold startSess
  cases setupRules E.W.lib E.fs E.fds cf.stallall cf.base cf.rulefiles with
  | error p => rfl
  | ok x =>
    obtain ⟨rules, good, w⟩ := x
    simp only [bind, Except.bind, h1]
    cases serverName cf E [] with
    | error p => rfl
    | ok y => exact ⟨_, rfl, h2, h.notls, h.fs⟩

/-- A step of a client elsewhere changes nothing for `ip`. -/
theorem sstep_elsewhere {cf : Conf} {E : Env} {s s' : Sess} {sh sh' : Shared} {i : Inp} {o : List Out} {l : List Step}
    (hl : SessOK cf E l s) (hr : E.rip ≠ ip) (hs : sstep cf E s sh i = .ok (s', sh', o)) :
    AlikeAt ip (fun p => fileOf s ≠ some p) sh sh' := by
  have hop : ∀ ttl m op, (opYak ttl i.now E.rip m op).get ip = m.get ip := by
    intro ttl m op
    by_cases h0 : E.rip = []
    · rw [h0]
      cases op with
      | none => rfl
      | some o => cases o <;> rfl
    · cases op with
      | none => rfl
      | some o => cases o with
        | add => exact ((m.add_eq h0 ttl i.now).2 ip).trans (if_neg fun h => hr h.symm)
        | set n => exact ((m.set_eq h0 ttl n i.now).2 ip).trans (if_neg fun h => hr h.symm)
        | del => exact (m.del_eq h0 ip).trans (if_neg fun h => hr h.symm)
  have hd := sstep_did hs
  refine ⟨?_, ?_, fun p hp => ?_⟩
  · rw [hd.yak hl, hop]
  · rw [hd.notls hl]
    split
    · rw [(IpMap.lookup_eq _ _ _ _).2, if_neg fun h => hr h.1.symm]
    · rw [hop]
  · rcases sstep_fs hs p with e | ⟨q, r, n, e, -⟩ | ⟨-, -, r, n, e⟩
    · exact e.symm
    · exact absurd (by simp only [fileOf, e]) hp
    · exact absurd (by simp only [fileOf, e]) hp

theorem startSess_elsewhere {cf : Conf} {E : Env} {s' : Sess} {sh sh' : Shared} {i : Inp} {o : List Out}
    (hr : E.rip ≠ ip) (hs : startSess cf E sh i = .ok (s', sh', o)) : AlikeAt ip (fun _ => True) sh sh' := by
  have hf := startSess_fs hs
  have : sh'.yak = (sh.yak.lookup E.rip cf.yakTimeout i.now).2 ∧ sh'.notls = sh.notls := by
    unfold startSess at hs
    cases hx : setupRules E.W.lib E.fs E.fds cf.stallall cf.base cf.rulefiles with
    | error p => rw [hx] at hs; cases hs
    | ok x =>
      rw [hx] at hs
      simp only [bind, Except.bind] at hs
      cases hy : serverName cf E [] with
      | error p => rw [hy] at hs; cases hs
      | ok y => rw [hy] at hs; cases hs; exact ⟨rfl, rfl⟩
  refine ⟨?_, by rw [this.2], fun p _ => by rw [hf]⟩
  rw [this.1, (IpMap.lookup_eq _ _ _ _).2, if_neg fun h => hr h.1.symm]

theorem filesAtStart_cons {h : List Hap} {g g' : Server} {e : Hap}
    (he : (match e.what with | .began sh _ _ _ => sh.fs | .stepped _ sh _ _ _ _ => sh.fs) = g.sh.fs) :
    filesAtStart (e :: h) g' = filesAtStart h g := by
  cases h with
  | nil => exact he
  | cons x h =>
    induction h generalizing x with
    | nil => rfl
    | cons y h ih => exact ih y

/-- The simulation behind C71. -/
theorem isolate {cf : Conf} {h : List Hap} {g : Server} (hr : Server.Runs cf h g) (ip : Str) (ha : FilesApart ip h) :
    ∃ h' g', Server.Runs cf h' g' ∧ h'.map Hap.seen = seenBy ip h ∧ filesAtStart h' g' = filesAtStart h g ∧
      (∀ k, g'.conns k = (g.conns k).filter fun x => decide (x.1.rip = ip)) ∧
      AlikeAt ip (fun p => ∀ e ∈ h, e.E.rip ≠ ip → e.file ≠ some p) g.sh g'.sh := by
  induction hr with
  | init fs => exact ⟨[], _, .init fs, rfl, rfl, fun _ => rfl, rfl, rfl, fun _ _ => rfl⟩
  | @start h g k E i s sh' o hr hn hk hs ih =>
    obtain ⟨h', g', r1, r2, r3, r4, r5⟩ := ih fun e he h1 p hp e' he' => ha e (.tail _ he) h1 p hp e' (.tail _ he')
    have weak : ∀ {x y}, AlikeAt ip (fun p => ∀ e ∈ h, e.E.rip ≠ ip → e.file ≠ some p) x y →
        AlikeAt ip (fun p => ∀ e ∈ (⟨k, E, i.now, .began g.sh s sh' o⟩ : Hap) :: h, e.E.rip ≠ ip → e.file ≠ some p) x y :=
      fun q => ⟨q.yak, q.notls, fun p hp => q.fs p fun e he => hp e (.tail _ he)⟩
    by_cases hi : E.rip = ip
    · have hsame := startSess_same r5 cf hi i
      rw [hs] at hsame
      obtain ⟨b, hb, hsim⟩ := hsame
      refine ⟨⟨k, E, i.now, .began g'.sh s b o⟩ :: h', _, .start r1 ?_ ?_ hb, ?_, ?_, ?_, weak hsim⟩
      · intro e he
        have : e.seen ∈ h'.map Hap.seen := List.mem_map_of_mem he
        rw [r2] at this
        obtain ⟨e1, h1, h2⟩ := List.mem_map.mp this
        have h3 := hn e1 (List.mem_filter.mp h1).1
        have h4 : e1.now = e.now := by
          have : e1.seen.now = e.seen.now := by rw [h2]
          have w : ∀ x : Hap, x.seen.now = x.now := fun x => by unfold Hap.seen; split <;> rfl
          rwa [w, w] at this
        omega
      · rw [r4, hk]; rfl
      · rw [List.map_cons, r2]
        simp only [seenBy, List.filter_cons, hi, decide_true, if_true, List.map_cons]
        rfl
      · rw [filesAtStart_cons (g := g') rfl, r3, filesAtStart_cons (g := g) rfl]
      · intro j
        simp only
        split
        · simp [Option.filter, hi]
        · exact r4 j
    · refine ⟨h', g', r1, ?_, ?_, ?_, ?_⟩
      · rw [r2]
        simp only [seenBy, List.filter_cons, hi, decide_false, Bool.false_eq_true, if_false]
      · rw [r3, filesAtStart_cons (g := g) rfl]
      · intro j
        simp only
        split
        · rename_i hj
          rw [r4, hj, hk]
          simp [Option.filter, hi]
        · exact r4 j
      · have q := startSess_elsewhere (ip := ip) hi hs
        exact weak ⟨q.yak.symm.trans r5.yak, q.notls.symm.trans r5.notls, fun p hp => (q.fs p trivial).symm.trans (r5.fs p hp)⟩
  | @step h g k E i s s' sh' o hr hn hk hs ih =>
    obtain ⟨h', g', r1, r2, r3, r4, r5⟩ := ih fun e he h1 p hp e' he' => ha e (.tail _ he) h1 p hp e' (.tail _ he')
    have weak : ∀ {x y}, AlikeAt ip (fun p => ∀ e ∈ h, e.E.rip ≠ ip → e.file ≠ some p) x y →
        AlikeAt ip (fun p => ∀ e ∈ (⟨k, E, i.now, .stepped s g.sh i s' sh' o⟩ : Hap) :: h, e.E.rip ≠ ip → e.file ≠ some p) x y :=
      fun q => ⟨q.yak, q.notls, fun p hp => q.fs p fun e he => hp e (.tail _ he)⟩
    have hl : SessOK cf E (stepsOf k h) s := (hr.life.1 _ _ hk).ok
    by_cases hi : E.rip = ip
    · have hsame := sstep_same r5 cf E (hl.rip.trans hi) (fun p hp e he hne => by
        exact ha ⟨k, E, i.now, .stepped s g.sh i s' sh' o⟩ (.head _) hi p hp e (.tail _ he) hne) i
      rw [hs] at hsame
      obtain ⟨b, hb, hsim⟩ := hsame
      refine ⟨⟨k, E, i.now, .stepped s g'.sh i s' b o⟩ :: h', _, .step r1 ?_ ?_ hb, ?_, ?_, ?_, weak hsim⟩
      · intro e he
        have : e.seen ∈ h'.map Hap.seen := List.mem_map_of_mem he
        rw [r2] at this
        obtain ⟨e1, h1, h2⟩ := List.mem_map.mp this
        have h3 := hn e1 (List.mem_filter.mp h1).1
        have h4 : e1.now = e.now := by
          have : e1.seen.now = e.seen.now := by rw [h2]
          have w : ∀ x : Hap, x.seen.now = x.now := fun x => by unfold Hap.seen; split <;> rfl
          rwa [w, w] at this
        omega
      · rw [r4, hk]; simp [Option.filter, hi]
      · rw [List.map_cons, r2]
        simp only [seenBy, List.filter_cons, hi, decide_true, if_true, List.map_cons]
        rfl
      · rw [filesAtStart_cons (g := g') rfl, r3, filesAtStart_cons (g := g) rfl]
      · intro j
        simp only
        split
        · simp [Option.filter, hi]
        · exact r4 j
    · refine ⟨h', g', r1, ?_, ?_, ?_, ?_⟩
      · rw [r2]
        simp only [seenBy, List.filter_cons, hi, decide_false, Bool.false_eq_true, if_false]
      · rw [r3, filesAtStart_cons (g := g) rfl]
      · intro j
        simp only
        split
        · rename_i hj
          rw [r4, hj, hk]
          simp [Option.filter, hi]
        · exact r4 j
      · have q := sstep_elsewhere (ip := ip) hl hi hs
        refine ⟨q.yak.symm.trans r5.yak, q.notls.symm.trans r5.notls, fun p hp => ?_⟩
        exact (q.fs p (hp _ (.head _) hi)).symm.trans (r5.fs p fun e he => hp e (.tail _ he))

/-- C71: take away from a run of the server everything clients at other addresses did.  What remains is again a run of the
server, with the same files at the start, in which the clients at `ip` are told exactly the same and everything recorded for
them is the same. -/
theorem C71_isolated {cf : Conf} {h : List Hap} {g : Server} (hr : Server.Runs cf h g) (ip : Str) (ha : FilesApart ip h) :
    ∃ h' g', Server.Runs cf h' g' ∧ filesAtStart h' g' = filesAtStart h g ∧ h'.map Hap.seen = seenBy ip h := by
  obtain ⟨h', g', r1, r2, r3, -⟩ := isolate hr ip ha
  exact ⟨h', g', r1, r3, r2⟩

/-- What is known of a message being saved with `-save-hash all`. -/
def Named (E : Env) (s : Sess) : Prop :=
  ∀ q tgt r n, s.pc = .save q tgt r n → ∃ d rest, tgt = d ++ b!"/" ++ E.H.gen r ∧ r = b!"id " ++ E.prefix_ ++ b!" " ++ rest

theorem Did.named {cf : Conf} {E : Env} {s s' : Sess} {sh sh' : Shared} {i : Inp} {o : List Out} (h : Did cf E s sh i s' sh' o)
    (ht : cf.hashtype = b!"all") (hs : Named E s) : Named E s' := by
  intro q tgt r n hp'
  have keep : ∀ {ph evt id ref s1 o res c1}, DecR E ph evt id s ref s1 o res c1 → s.pc = .ready → s1.pc = .save q tgt r n → False := by
    intro ph evt id ref s1 o res c1 hd h1 h2
    rw [hd.pc, h1] at h2
    cases h2
  cases h with
  | tls hp ht' _ =>
    unfold tlsStep at ht'
    cases ht'
    cases hp'
  | heloRef hp _ hd => exact (keep hd hp hp').elim
  | heloAcc hp _ hd => exact (keep hd hp (by simpa [Sess.helod] using hp')).elim
  | mailRef hp _ hd => exact (keep hd hp hp').elim
  | mailAcc hp _ hd => exact (keep hd hp (by simpa [Sess.mailed] using hp')).elim
  | mailCount hp _ hd => exact (keep hd hp (by simpa [Sess.mailed] using hp')).elim
  | rcptRef hp _ hd => exact (keep hd hp hp').elim
  | rcptAcc hp _ hd => exact (keep hd hp (by simpa [Sess.rcpted] using hp')).elim
  | dataRef hp _ hd => exact (keep hd hp hp').elim
  | dataAcc hp _ hd => exact (keep hd hp hp').elim
  | @gotSave arg _ _ hp he hsd hn =>
    cases hp'
    rw [ht, saveName, if_neg (by decide), if_neg (by decide), if_pos rfl] at hn
    cases hn
    refine ⟨s.trans.savedir, (gotTrans E.H arg i s.trans).raddr ++ (b!" " ++ (gotTrans E.H arg i s.trans).when_ ++ b!"\n" ++
      metaText (gotTrans E.H arg i s.trans)), rfl, ?_⟩
    simp only [msgDetails, idLine, List.append_assoc]
  | tlserror hp => exact absurd hp' (by simp [hp])
  | other hp => rw [hp] at hp'; cases hp'
  | save hp _ _ hq =>
    rcases hq with ⟨q', rfl⟩ | ⟨x, rfl⟩
    · cases hp'; exact hs _ _ _ _ hp
    · cases hp'
  | closed hp => rw [hp] at hp'; cases hp'
  | _ => cases hp'

/-- A connection keeps its environment. -/
theorem Server.Runs.env {cf : Conf} {h : List Hap} {g : Server} (hr : Server.Runs cf h g) :
    ∀ e ∈ h, ∃ s, g.conns e.k = some (e.E, s) := by
  induction hr with
  | init => simp
  | @start h g k E i s sh' o hr hn hk hs ih =>
    intro e he
    rcases List.mem_cons.mp he with rfl | he
    · exact ⟨s, by simp⟩
    · obtain ⟨s1, h1⟩ := ih e he
      refine ⟨s1, ?_⟩
      simp only
      rw [if_neg]
      · exact h1
      · intro h2
        rw [h2, hk] at h1
        cases h1
  | @step h g k E i s s' sh' o hr hn hk hs ih =>
    intro e he
    rcases List.mem_cons.mp he with rfl | he
    · exact ⟨s', by simp⟩
    · obtain ⟨s1, h1⟩ := ih e he
      by_cases h2 : e.k = k
      · rw [h2, hk] at h1
        cases h1
        exact ⟨s', by simp [h2]⟩
      · exact ⟨s1, by simp only; rw [if_neg h2]; exact h1⟩

theorem Server.Runs.named {cf : Conf} {h : List Hap} {g : Server} (hr : Server.Runs cf h g) (ht : cf.hashtype = b!"all") :
    (∀ k E s, g.conns k = some (E, s) → Named E s) ∧
    ∀ e ∈ h, ∀ p, e.file = some p → ∃ d r rest, e.record = some r ∧ p = d ++ b!"/" ++ e.E.H.gen r ∧
      r = b!"id " ++ e.E.prefix_ ++ b!" " ++ rest := by
  induction hr with
  | init => exact ⟨fun _ _ _ h => (by cases h), by simp⟩
  | @start h g k E i s sh' o hr hn hk hs ih =>
    refine ⟨fun j E1 s1 h1 => ?_, fun e he p hp => ?_⟩
    · simp only at h1
      split at h1
      · cases h1
        intro q tgt r n hp
        rw [(startSess_init hs).1] at hp
        cases hp
      · exact ih.1 _ _ _ h1
    · rcases List.mem_cons.mp he with rfl | he
      · cases hp
      · exact ih.2 e he p hp
  | @step h g k E i s s' sh' o hr hn hk hs ih =>
    have hN := ih.1 _ _ _ hk
    refine ⟨fun j E1 s1 h1 => ?_, fun e he p hp => ?_⟩
    · simp only at h1
      split at h1
      · cases h1
        exact (sstep_did hs).named ht hN
      · exact ih.1 _ _ _ h1
    · rcases List.mem_cons.mp he with rfl | he
      · simp only [Hap.file, fileOf] at hp
        split at hp
        · rename_i q tgt r n hpc
          cases hp
          obtain ⟨d, rest, h1, h2⟩ := hN _ _ _ _ hpc
          exact ⟨d, r, rest, by simp only [Hap.record, recordOf, hpc], h1, h2⟩
        · cases hp
      · exact ih.2 e he p hp

theorem suffix_after {c : UInt8} : ∀ {a b x y : Str}, c ∉ x → c ∉ y → a ++ [c] ++ x = b ++ [c] ++ y → x = y := by
  have key : ∀ {a b x y : Str}, c ∉ x → x.length ≤ y.length → c ∉ y → a ++ [c] ++ x = b ++ [c] ++ y → x = y := by
    intro a b x y hx hl hy h
    rw [List.append_assoc, List.append_assoc] at h
    obtain ⟨t, ht⟩ : x <:+ y := List.suffix_of_suffix_length_le (l₃ := a ++ ([c] ++ x))
      ⟨a ++ [c], by simp⟩ (by rw [h]; exact ⟨b ++ [c], by simp⟩) hl
    rcases List.eq_nil_or_concat t with rfl | ⟨t', z, rfl⟩
    · exact ht
    · exfalso
      rw [← ht] at h
      have : (a ++ [c]) ++ x = (b ++ [c] ++ t' ++ [z]) ++ x := by simpa using h
      have := (List.append_cancel_right this)
      have hz := (List.append_inj_right' this rfl)
      cases hz
      exact hy (by rw [← ht]; simp)
  intro a b x y hx hy h
  rcases Nat.le_total x.length y.length with hl | hl
  · exact key hx hl hy h
  · exact (key hy hl hx h.symm).symm

theorem prefix_before {c : UInt8} : ∀ {a b x y : Str}, c ∉ a → c ∉ b → a ++ [c] ++ x = b ++ [c] ++ y → a = b := by
  intro a
  induction a with
  | nil =>
    intro b x y _ hb h
    cases b with
    | nil => rfl
    | cons z b => simp only [List.nil_append, List.cons_append, List.cons.injEq] at h; exact absurd h.1 fun e => hb (by simp [e])
  | cons z a ih =>
    intro b x y ha hb h
    cases b with
    | nil => simp only [List.nil_append, List.cons_append, List.cons.injEq] at h; exact absurd h.1 fun e => ha (by simp [e])
    | cons w b =>
      simp only [List.cons_append, List.cons.injEq] at h
      rw [h.1, ih (fun e => ha (.tail _ e)) (fun e => hb (.tail _ e)) h.2]

/-- C71 with the default file names: they contain the number of the connection, so different connections write different
files unless the hash collides. -/
theorem C71_all {cf : Conf} {h : List Hap} {g : Server} (hr : Server.Runs cf h g) (ip : Str) (ht : cf.hashtype = b!"all")
    {gen : Str → Str} (hg : ∀ e ∈ h, e.E.H.gen = gen) (hx : ∀ s, c!"/" ∉ gen s) (hp : ∀ e ∈ h, c!" " ∉ e.E.prefix_)
    (hk : ∀ e ∈ h, ∀ e' ∈ h, e.k ≠ e'.k → e.E.prefix_ ≠ e'.E.prefix_)
    (hc : ∀ e ∈ h, ∀ e' ∈ h, ∀ r r', e.record = some r → e'.record = some r' → gen r = gen r' → r = r') :
    ∃ h' g', Server.Runs cf h' g' ∧ filesAtStart h' g' = filesAtStart h g ∧ h'.map Hap.seen = seenBy ip h := by
  refine C71_isolated hr ip fun e he h1 p h2 e' he' h3 h4 => ?_
  obtain ⟨d, r, rest, a1, a2, a3⟩ := (hr.named ht).2 e he p h2
  obtain ⟨d', r', rest', b1, b2, b3⟩ := (hr.named ht).2 e' he' p h4
  rw [hg e he] at a2
  rw [hg e' he'] at b2
  have hrr := hc e he e' he' r r' a1 b1 (suffix_after (hx r) (hx r') (a2.symm.trans b2))
  by_cases hkk : e.k = e'.k
  · obtain ⟨s, c1⟩ := hr.env e he
    obtain ⟨s', c2⟩ := hr.env e' he'
    rw [hkk, c2] at c1
    rw [Option.some.injEq, Prod.mk.injEq] at c1
    exact h3 (by rw [c1.1]; exact h1)
  · refine hk e he e' he' hkk (prefix_before (c := c!" ") (hp e he) (hp e' he') (x := rest) (y := rest') ?_)
    have : b!"id " ++ (e.E.prefix_ ++ b!" " ++ rest) = b!"id " ++ (e'.E.prefix_ ++ b!" " ++ rest') := by
      simpa [List.append_assoc] using (a3.symm.trans hrr).trans b3
    exact List.append_cancel_left this

/-- A client at another address. -/
def demoEnv3 : Env := { demoEnv with rip := b!"192.0.2.3", raddr := b!"192.0.2.3:77", prefix_ := b!"7/2" }

/-- What clients at an address were told, and whether they are regarded as stalled, newest first. -/
def told (ip : Str) (h : List Hap) : List (Nat × List Verdict × Bool) := (seenBy ip h).map fun x => (x.k, replies x.out, x.state.stall)

/-- Useless sessions of the one. -/
def demoUseless : List Act := session 0 demoEnv 1 [.helo false b!"mail.example.com", .done] ++ session 1 demoEnv 2 [.done]

/-- The other begins and goes on. -/
def demoBegin : List Act := [.conn 9 demoEnv3 { now := 2 }, .inp 9 { now := 2 }, .inp 9 { now := 2 },
  .inp 9 { ev := .helo false b!"mail.example.com", now := 2 }]
def demoGoOn : List Act := [.inp 9 { ev := .mailfrom b!"x@example.com", now := 4 }, .inp 9 { ev := .rcptto b!"u@example.com", now := 4 }]

/-- The one comes back. -/
def demoBack : List Act := session 2 demoEnv 3 [.helo false b!"mail.example.com"]

/-- A client at 192.0.2.2 is stalled for its own two useless sessions; one at 192.0.2.3 meanwhile is heard. -/
example :
    served (fun h _ => (told b!"192.0.2.2" h).take 2) demoConfY (demoUseless ++ demoBegin ++ demoBack ++ demoGoOn) =
      some [(2, [.deferred], true), (2, [], true)] ∧
    served (fun h _ => (told b!"192.0.2.3" h)) demoConfY (demoUseless ++ demoBegin ++ demoBack ++ demoGoOn) =
      served (fun h _ => (told b!"192.0.2.3" h)) demoConfY (demoBegin ++ demoGoOn) ∧
    served (fun h _ => (told b!"192.0.2.3" h).take 2) demoConfY (demoBegin ++ demoGoOn) =
      some [(9, [.accepted], false), (9, [.accepted], false)] := by
  refine ⟨?_, ?_, ?_⟩ <;> decide +kernel

end Sink
