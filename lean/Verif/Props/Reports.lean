import Verif.Lemmas.ConnError
import Verif.Props.Conncfg
import Verif.Props.Stalled
import Verif.Props.ParsePlace

/-!
# C80: broken configuration files are reported
-/

namespace Sink
namespace Spec

/-- The warnings of which repetitions are left out, in order. -/
def warnedOnce (o : List Out) : List Str := o.filterMap fun x => match x with | .warnOnce m => some m | _ => none

/-- The other warnings, in order. -/
def warned (o : List Out) : List Str := o.filterMap fun x => match x with | .warn m => some m | _ => none

/-- Rules file number `k` of the command line can be used: there is none, or it was read and parsed. -/
def Usable (cf : Conf) (E : Env) (k : Nat) : Prop :=
  ∀ f, cf.rulefiles[k]? = some f → f = [] ∨ ∃ rules, loadRules E.W.lib E.fs E.fds [k] f = .ok rules

/-- The first rules file that cannot be used, and why. -/
def FirstBroken (cf : Conf) (E : Env) (f m : Str) : Prop :=
  ∃ k, cf.rulefiles[k]? = some f ∧ f ≠ [] ∧ loadRules E.W.lib E.fs E.fds [k] f = .error (.err m) ∧ ∀ j < k, Usable cf E j

/-- What is wrong with a connection parameter file. -/
inductive ConnTrouble (P : PairOracle) : FileRead → Str → Prop
  | missing {m} : ConnTrouble P (.notExist m) m
  | closed {m} : ConnTrouble P (.openErr m) m
  | unreadable {m} : ConnTrouble P (.readErr m) m
  | text {b lines rest e} : Text b lines rest → FileTrouble P lines e → ConnTrouble P (.data b) e

end Spec
open Spec

theorem accumAll_first {L : Lib} {fs : Files} {d : Nat} : ∀ {rf : List Str} {k : Nat} {base : List Rule},
    match accumAll L fs d k base rf with
    | .ok _ => ∀ j f, rf[j]? = some f → f = [] ∨ ∃ rules, loadRules L fs d [k + j] f = .ok rules
    | .error (f, e) => ∃ j, rf[j]? = some f ∧ f ≠ [] ∧ loadRules L fs d [k + j] f = .error e ∧
        ∀ i < j, ∀ g, rf[i]? = some g → g = [] ∨ ∃ rules, loadRules L fs d [k + i] g = .ok rules := by
  intro rf
  induction rf with
  | nil => intro k base; simp [accumAll]
  | cons g rf ih =>
    intro k base
    rw [accumAll]
    cases ha : accumRules L fs d k base g with
    | error e =>
      simp only
      unfold accumRules at ha
      split at ha
      · cases ha
      · rename_i hg
        split at ha
        · cases ha
        · rename_i e' he
          cases ha
          exact ⟨0, rfl, hg, he, fun i hi => absurd hi (by omega)⟩
    | ok rules =>
      have h0 : g = [] ∨ ∃ rules, loadRules L fs d [k + 0] g = .ok rules := by
        unfold accumRules at ha
        split at ha
        · exact .inl ‹_›
        · split at ha
          · exact .inr ⟨_, ‹_›⟩
          · cases ha
      simp only
      have hk : ∀ j, k + 1 + j = k + (j + 1) := fun j => by omega
      have := ih (k := k + 1) (base := rules)
      cases hx : accumAll L fs d (k + 1) rules rf with
      | ok r =>
        rw [hx] at this
        simp only at this ⊢
        intro j f hj
        cases j with
        | zero => cases hj; exact h0
        | succ j => rw [← hk]; exact this j f (by simpa using hj)
      | error x =>
        obtain ⟨f, e⟩ := x
        rw [hx] at this
        simp only at this ⊢
        obtain ⟨j, h1, h2, h3, h4⟩ := this
        refine ⟨j + 1, by simpa using h1, h2, by rw [← hk]; exact h3, fun i hi g' hg' => ?_⟩
        cases i with
        | zero => cases hg'; exact h0
        | succ i => rw [← hk]; exact h4 i (by omega) g' (by simpa using hg')

theorem startSess_out {cf : Conf} {E : Env} {sh sh' : Shared} {i : Inp} {s : Sess} {o : List Out} (h : startSess cf E sh i = .ok (s, sh', o)) :
    ∃ rules good w n t, setupRules E.W.lib E.fs E.fds cf.stallall cf.base cf.rulefiles = .ok (rules, good, w) ∧ s.rulesgood = good ∧
      serverName cf E [] = .ok (n, t) ∧ warnedOnce o = w.toList ∧ warned o = warned (connParams cf E n t).2.2.2 := by
  have hc : ∀ n t, warnedOnce (connParams cf E n t).2.2.2 = [] := by
    intro n t; unfold connParams; repeat' split
    all_goals rfl
  unfold startSess at h
  simp only [bind, Except.bind, pure, Except.pure] at h
  split at h
  · cases h
  · rename_i r hr
    obtain ⟨rules, good, w⟩ := r
    split at h
    · cases h
    · rename_i x hx
      obtain ⟨n, t⟩ := x
      cases h
      refine ⟨rules, good, w, n, t, hr, rfl, hx, ?_, ?_⟩
      · have := hc n t
        unfold warnedOnce at this ⊢
        rw [List.filterMap_append, List.filterMap_append, this]
        cases w <;> cases hst : decide (cf.yakCount > 0 ∧ (sh.yak.lookup E.rip cf.yakTimeout i.now).1.1 = true ∧
          (sh.yak.lookup E.rip cf.yakTimeout i.now).1.2 ≥ cf.yakCount ∧ cf.smtplog = true) <;> cases hd : cf.dnlog <;> simp [yakLog, hd]
      · unfold warned
        rw [List.filterMap_append, List.filterMap_append]
        cases w <;> cases hst : decide (cf.yakCount > 0 ∧ (sh.yak.lookup E.rip cf.yakTimeout i.now).1.1 = true ∧
          (sh.yak.lookup E.rip cf.yakTimeout i.now).1.2 ≥ cf.yakCount ∧ cf.smtplog = true) <;> cases hd : cf.dnlog <;> simp [yakLog, hd]

/-- **C80.** If the rules files of the command line can all be used, a new connection says nothing about them; otherwise it says which
file is the first that cannot be used, and why. -/
theorem C80_rules {cf : Conf} {E : Env} {sh sh' : Shared} {i : Inp} {s : Sess} {o : List Out} (h : startSess cf E sh i = .ok (s, sh', o)) :
    (s.rulesgood = true ∧ (∀ k, Usable cf E k) ∧ warnedOnce o = []) ∨
    (s.rulesgood = false ∧ ∃ f m, FirstBroken cf E f m ∧ warnedOnce o = [b!"problem loading rules " ++ f ++ b!": " ++ m ++ b!"\n"]) := by
  obtain ⟨rules, good, w, n, t, h1, h2, -, h4, -⟩ := startSess_out h
  rw [h2, h4]
  have ha := accumAll_first (L := E.W.lib) (fs := E.fs) (d := E.fds) (rf := cf.rulefiles) (k := 0) (base := cf.base)
  unfold setupRules at h1
  cases hx : accumAll E.W.lib E.fs E.fds 0 cf.base cf.rulefiles with
  | ok r =>
    rw [hx] at h1 ha
    cases h1
    simp only [Nat.zero_add] at ha
    exact .inl ⟨rfl, ha, rfl⟩
  | error x =>
    obtain ⟨f, e⟩ := x
    rw [hx] at h1 ha
    simp only [Nat.zero_add] at ha
    cases e with
    | panic p => cases h1
    | err m =>
      cases h1
      obtain ⟨k, a1, a2, a3, a4⟩ := ha
      exact .inr ⟨rfl, f, m, ⟨k, a1, a2, a3, a4⟩, rfl⟩

/-- **C80.** What is wrong with a connection parameter file, and that it is said about the first wrong line and no other. -/
theorem C80_conn_error {P : PairOracle} {f : FileRead} {e : Str} : loadConnFile P f = .error e ↔ ConnTrouble P f e := by
  cases f with
  | notExist m => exact ⟨fun h => by cases h; exact .missing, fun h => by cases h; rfl⟩
  | openErr m => exact ⟨fun h => by cases h; exact .closed, fun h => by cases h; rfl⟩
  | readErr m => exact ⟨fun h => by cases h; exact .unreadable, fun h => by cases h; rfl⟩
  | data b =>
    have key : ∀ {lines rest}, Text b lines rest → (loadConnFile P (.data b) = .error e ↔ FileTrouble P lines e) := by
      intro lines rest ht
      rw [loadConnFile, ht.readLines]
      simp only
      rw [connLines_err]
      unfold FileTrouble
      constructor
      · rintro ⟨good, l, more, ds, w, ws, h1, h2, h3, h4, h5⟩
        obtain ⟨good', r, rfl, rfl, h6⟩ := List.map_eq_append_iff.1 h1
        obtain ⟨l', more', rfl, rfl, rfl⟩ := List.map_eq_cons_iff.1 h6
        refine ⟨good', l', more', ds, w, ws, rfl, connFile_newline.1 h2, words_newline.1 h3, h4, ?_⟩
        simpa using h5
      · rintro ⟨good, l, more, ds, w, ws, rfl, h2, h3, h4, h5⟩
        refine ⟨good.map (· ++ b!"\n"), l ++ b!"\n", more.map (· ++ b!"\n"), ds, w, ws, by simp, connFile_newline.2 h2, words_newline.2 h3, h4, ?_⟩
        simpa using h5
    constructor
    · intro h
      obtain ⟨lines, rest, ht⟩ := text_exists b
      exact .text ht ((key ht).1 h)
    · intro h
      cases h with
      | text ht hf => exact (key ht).2 hf

/-- **C80.** A new connection warns about the connection parameter file exactly if there is one and something is wrong with it, saying
what. -/
theorem C80_conn {cf : Conf} {E : Env} {sh sh' : Shared} {i : Inp} {s : Sess} {o : List Out} (h : startSess cf E sh i = .ok (s, sh', o)) :
    ∃ n t, OwnName cf E n t ∧
      ((warned o = [] ∧ (cf.connfile = [] ∨ ∃ ds, GoodFile E.pairs (E.W.files t cf.connfile) ds)) ∨
       (cf.connfile ≠ [] ∧ ∃ e, ConnTrouble E.pairs (E.W.files t cf.connfile) e ∧
          warned o = [b!"error loading per-connection rules '" ++ cf.connfile ++ b!"': " ++ e ++ b!"\n"])) := by
  obtain ⟨-, -, -, n, t, -, -, hn, -, hw⟩ := startSess_out h
  refine ⟨n, t.length, serverName_own hn, ?_⟩
  rw [hw]
  unfold connParams
  split
  · rename_i hc
    exact .inl ⟨rfl, .inl hc⟩
  · rename_i hc
    simp only
    split
    · rename_i e he
      exact .inr ⟨hc, e, C80_conn_error.1 he, rfl⟩
    · rename_i dm hd
      refine .inl ⟨?_, .inr ⟨dm, goodFile_iff.2 hd⟩⟩
      split <;> rfl

/-- Nothing is said about the rules files later in a connection. -/
theorem C80_steps {cf : Conf} {E : Env} {s s' : Sess} {sh sh' : Shared} {i : Inp} {o : List Out} (hs : sstep cf E s sh i = .ok (s', sh', o)) :
    warnedOnce o = [] := by
  have mild : ∀ {o : List Out}, Mild o → warnedOnce o = [] := by
    intro o ho
    refine List.filterMap_eq_nil_iff.2 fun x hx => ?_
    have := ho x hx
    cases x <;> first | rfl | cases this
  have app : ∀ a b, warnedOnce (a ++ b) = warnedOnce a ++ warnedOnce b := fun a b => List.filterMap_append
  have cnt : ∀ y o, warnedOnce (.count y :: o) = warnedOnce o := fun y o => rfl
  have hdid := sstep_did hs
  cases hdid with
  | tls hp ht _ hm => exact mild hm
  | drop hp hd _ hm => exact mild (hd.mild.append hm)
  | connect hp hd => exact mild hd.mild
  | heloRef hp he hd | mailRef hp he hd | rcptRef hp he hd | dataRef hp he hd => rw [cnt]; exact mild hd.mild
  | heloAcc hp he hd _ hm => rw [app, cnt, mild hm, mild hd.mild]; rfl
  | mailAcc hp he hd _ ho | mailCount hp he hd _ _ ho | rcptAcc hp he hd ho | dataAcc hp he hd ho => rw [app, cnt, ho, mild hd.mild]; rfl
  | mailDrop hp he hd _ _ ho => rw [app, cnt, ho, mild hd.mild, app, app, mild (mild_writeLog _ _)]; rfl
  | gotKeep hp he _ ho | gotSave hp he _ _ ho => rw [ho, cnt]; split <;> rfl
  | tlserror hp he | other hp he => rfl
  | @finish x hp he =>
    rw [cnt]
    have hl : ∀ {p : Prop} [Decidable p] {y : Counter}, warnedOnce (if p then [Out.count y] else []) = [] := by intro p _ y; split <;> rfl
    have hy : ∀ w, warnedOnce (yakLog cf E i s.trans w) = [] := by intro w; unfold yakLog; split <;> rfl
    unfold endStep
    simp only
    split
    · simp only
      rw [app, hl]
      split
      · rw [app, app, hy, mild (mild_writeLog _ _)]; rfl
      · rfl
    · split
      · simp only
        rw [app, hl]
        split
        · rw [app, app, hy, mild (mild_writeLog _ _)]; rfl
        · rfl
      · split <;> exact hl
  | save hp _ _ _ hm => exact mild hm
  | answerFail hp | closed hp => rfl
  | answerRef hp hd => exact mild hd.mild
  | answerAcc hp hd ho => rw [app, ho, mild hd.mild]; rfl

/-- Two rules files, the second one wrong, and a connection parameter file with a key that is not there. -/
example : (startSess { demoConf with rulefiles := [b!"/rules", b!"/more"], connfile := b!"/conn" }
    { demoEnv with
      fs := fun _ => tbl (.notExist b!"no such file") [(b!"/rules", .data b!"accept all\n"), (b!"/more", .data b!"accept all\nreject\n")]
      W := { demoWorld with files := fun _ => tbl (.notExist b!"no such file") [(b!"/conn", .data b!"# mine\n\n10.0.0.1 cert=a,b key=c,d\n")] }
      pairs := fun c _ => if c = b!"b" then some b!"no such key" else none } {} {}).toOption.map (fun r => (warnedOnce r.2.2, warned r.2.2)) =
    some ([b!"problem loading rules /more: rules parsing error at line 2: rule needs at least one operation, perhaps 'all'\n"],
      [b!"error loading per-connection rules '/conn': error loading TLS cert(s) and key(s) from line 3: while loading b & d: no such key\n"]) := by
  decide +kernel

end Sink
