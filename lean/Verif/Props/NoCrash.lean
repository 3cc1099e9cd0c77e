import Verif.Props.Crash
import Verif.Props.Program

/-!
# C102: a program started with care goes on

From the command line to every step of every connection: nothing panics, every message is answered soon, and a connection whose client is gone
comes to its end soon.
-/

namespace Sink
open Spec Gram

/-! ## The start -/

theorem orDieF_panic {α : Type} {x : Except Fail α} {msg : Str → Str} {p : Panic} (hx : x ≠ .error (.panic p)) : orDieF x msg ≠ .error (.panic p) := by
  unfold orDieF
  split
  · nofun
  · nofun
  · rename_i q; intro h; cases h; exact hx rfl

theorem orDie_panic {α : Type} {x : Except Str α} {msg : Str → Str} {p : Panic} : orDie x msg ≠ .error (.panic p) := by
  unfold orDie
  split <;> nofun

theorem dieIf_panic {c : Prop} [Decidable c] {msg : Str} {p : Panic} : dieIf c msg ≠ .error (.panic p) := by
  unfold dieIf stopIf
  split <;> nofun

theorem tryAll_panic {f : Str → Option Str} {msg : Str → Str → Str} {p : Panic} : ∀ {l : List Str}, tryAll f msg l ≠ .error (.panic p)
  | [] => nofun
  | n :: ns => by
    rw [tryAll]
    split
    · nofun
    · exact tryAll_panic

theorem bind_panic {α β : Type} {x : Except Stop α} {f : α → Except Stop β} {p : Panic} (hx : x ≠ .error (.panic p)) (hf : ∀ a, f a ≠ .error (.panic p)) :
    (x >>= f) ≠ .error (.panic p) := by
  cases x with
  | error e => intro h; exact hx (by cases h; rfl)
  | ok a => exact hf a

theorem startRules_panic (V : StartEnv) (o : CmdOpts) (p : Panic) : startRules V o ≠ .error (.panic p) := by
  have hparse : ∀ text, parse V.lib V.fs V.fds [] text ≠ .error (.panic p) := fun text h => by
    rcases C05_parse_total V.lib V.fs V.fds [] text with ⟨r, hr⟩ | ⟨m, hm⟩
    · rw [hr] at h; cases h
    · rw [hm] at h; cases h
  unfold startRules
  refine bind_panic (orDieF_panic (hparse _)) fun base => bind_panic (orDieF_panic (hparse _)) fun stall => bind_panic dieIf_panic fun _ =>
    bind_panic tryAll_panic fun _ => bind_panic ?_ fun _ => nofun
  obtain ⟨⟨x, b, w⟩, hx⟩ := setupRules_total V.lib V.fs V.fds stall base (ruleNames o)
  unfold tryRules
  rw [hx]
  exact dieIf_panic

/-- **C102.** Whatever the options and the files are, the start of the program does not panic: it starts, or ends with a message. -/
theorem C102_start (V : StartEnv) (o : CmdOpts) : (∃ cf, start V o = .ok cf) ∨ start V o = .error .usage ∨ ∃ msg, start V o = .error (.die msg) := by
  have key : ∀ p, start V o ≠ .error (.panic p) := by
    intro p
    unfold start checkOpts
    refine bind_panic (bind_panic (by unfold stopIf; split <;> nofun) fun _ => bind_panic dieIf_panic fun _ => bind_panic dieIf_panic fun _ =>
      bind_panic dieIf_panic fun _ => bind_panic dieIf_panic fun _ => bind_panic dieIf_panic fun _ => dieIf_panic) fun _ => ?_
    refine bind_panic ?_ fun _ => bind_panic orDie_panic fun _ => bind_panic orDie_panic fun _ => bind_panic orDie_panic fun _ => bind_panic ?_ fun _ =>
      bind_panic ?_ fun _ => bind_panic (startRules_panic V o p) fun _ => bind_panic ?_ fun _ => bind_panic tryAll_panic fun _ => nofun
    · unfold startCerts
      repeat' split
      all_goals nofun
    · unfold startDir
      repeat' split
      all_goals nofun
    · unfold startConn
      repeat' split
      all_goals nofun
    · unfold startPhase
      repeat' split
      all_goals nofun
  cases h : start V o with
  | ok cf => exact .inl ⟨cf, rfl⟩
  | error e => cases e with
    | usage => exact .inr (.inl rfl)
    | die msg => exact .inr (.inr ⟨msg, rfl⟩)
    | panic p => exact absurd h (key p)

/-! ## The sessions -/

/-- In this state of the program a panic can come next: at the beginning of a `process`, or in one of the next steps of a `process`. -/
def Program.MayPanic (L : Launch) (p : Program) : Prop :=
  (∃ k a E i x, p.front.procs k = some a ∧ p.srv.conns k = none ∧ E.Of L.pid k a ∧ NoEmptyNames E.W ∧ startSess L.cf E p.srv.sh i = .error x) ∨
  ∃ k E s i x, p.srv.conns k = some (E, s) ∧ NoEmptyNames E.W ∧ sstep L.cf E s p.srv.sh i = .error x

/-- What the rules in the files must be like: no empty patterns, no notes without `-smtplog`, and `dbl` without `sbl.spamhaus.org.` for clients without an
IPv4 address. -/
def CarefulRules (cf : Conf) : Prop := ∀ E r, Loaded cf E r → RuleSafe (FourParts E.rip) (cf.smtplog = true) r

theorem launched {P : ArgLib} {V : StartEnv} {pid : Nat} {args : List Str} {L : Launch} (hl : launch P V pid args = some L) :
    ∃ c, cmdLine P args = .ok c ∧ start V c.o = .ok L.cf := by
  unfold launch at hl
  split at hl
  · cases hl
  · rename_i c hc
    split at hl
    · cases hl
    · rename_i cf hs
      cases hl
      exact ⟨c, hc, hs⟩

/-- **C102.** If the program was started with ordinary file names for the lists, with the standard rules or without any rule about the EHLO name, and with rules
as in `CarefulRules`, then it never comes to a state in which a panic can follow, whatever clients, DNS and files do. -/
theorem C102_rules {P : ArgLib} {V : StartEnv} {pid : Nat} {args : List Str} {L : Launch} (hl : launch P V pid args = some L)
    {os : List (Str × Str)} {rest : List Str} (ha : Reads P args os rest)
    (hn : ∀ n ∈ [b!"fromreject", b!"toaccept", b!"heloreject"], ∀ f, lastOf os n = some f → CleanName f)
    (hh : ¬ On os b!"nostdrules" ∨ ((lastOf os b!"heloreject").getD [] = [] ∧ ∀ E r, Loaded L.cf E r → ¬ RuleUsesHelo r))
    (hc : CarefulRules L.cf) {l : List Mark} {p : Program} (hr : Program.Runs L l p) : ¬ p.MayPanic L := by
  obtain ⟨c, h1, h2⟩ := launched hl
  obtain ⟨c', h1', -, -, -, -, hstd, -, -, -, -, -, -, -, -, -, -, -, -, -, hf, ht, hhr, -⟩ := C96_settings ha
  rw [h1] at h1'
  cases h1'
  have hset := C59_settings h2
  have clean : ∀ n ∈ [b!"fromreject", b!"toaccept", b!"heloreject"], CleanName ((lastOf os n).getD []) := fun n hm => by
    cases h : lastOf os n with
    | none => exact nofun
    | some f => exact hn n hm f h
  have hconf : Configured c.o.base L.cf := hset.2.2.2.2.2.2.2.2.2.2.2.2.2.2.2.2 (by rw [hf]; exact clean _ (by simp)) (by rw [ht]; exact clean _ (by simp))
    (by rw [hhr]; exact clean _ (by simp))
  have hash : L.cf.hashtype = b!"msg" ∨ L.cf.hashtype = b!"full" ∨ L.cf.hashtype = b!"all" := by
    rcases hset.2.2.2.2.2.2.1.2 with h | h | h
    · exact .inr (.inr h)
    · exact .inr (.inl h)
    · exact .inl h.1
  have prudent : ∀ E, NoEmptyNames E.W → Prudent c.o.base L.cf E := fun E hE =>
    ⟨hconf, hash, hE, hc E, by
      rcases hh with h | ⟨h, h'⟩
      · left
        show (!c.o.nostdrules) = true
        cases hb : c.o.nostdrules with
        | false => rfl
        | true => exact absurd (hstd.1 hb) h
      · right
        exact ⟨hhr.trans h, h' E⟩⟩
  rintro (⟨k, a, E, i, x, -, -, -, hE, hx⟩ | ⟨k, E, s, i, x, hk, hE, hx⟩)
  · obtain ⟨y, hy⟩ := (C47_partial (prudent E hE)).1 p.srv.sh i
    rw [hy] at hx; cases hx
  · have hs := hr.parts.2.1
    obtain ⟨y, hy⟩ := (C47_partial (prudent E hE)).2 _ s (hs.life.1 E s hk) p.srv.sh i
    rw [hy] at hx; cases hx

/-- **C102.** In particular without `-nostdrules` and without rules files. -/
theorem C102_plain {P : ArgLib} {V : StartEnv} {pid : Nat} {args : List Str} {L : Launch} (hl : launch P V pid args = some L)
    {os : List (Str × Str)} {rest : List Str} (ha : Reads P args os rest)
    (hn : ∀ n ∈ [b!"fromreject", b!"toaccept", b!"heloreject"], ∀ f, lastOf os n = some f → CleanName f)
    (hstd : ¬ On os b!"nostdrules") (hr : (lastOf os b!"r").getD [] = []) {l : List Mark} {p : Program} (hp : Program.Runs L l p) : ¬ p.MayPanic L := by
  refine C102_rules hl ha hn (.inl hstd) (fun E r hE => ?_) hp
  obtain ⟨c, h1, h2⟩ := launched hl
  obtain ⟨c', h1', -, -, -, -, -, -, -, -, -, -, -, -, -, -, -, hrf, -⟩ := C96_settings ha
  rw [h1] at h1'
  cases h1'
  have : L.cf.rulefiles = [] := (C59_settings h2).2.2.2.2.2.2.2.2.2.2.2.2.1 (hrf.trans hr)
  obtain ⟨f, hf, -⟩ := hE
  rw [this] at hf
  cases hf

/-! ## Coming to an end -/

/-- Steps to the end of the connection if the client is gone. -/
def stepsLeft : Pc → Nat
  | .tls => 3
  | .connect => 2
  | .ready => 1
  | .save .open_ _ _ _ => 6
  | .save .write _ _ _ => 5
  | .save .sync _ _ _ => 4
  | .save .close _ _ _ => 3
  | .decide _ _ => 2
  | .closed => 0

/-- Handling a message goes forward. -/
theorem save_forward {cf : Conf} {E : Env} {s s' : Sess} {sh sh' : Shared} {i : Inp} {o : List Out} (h : sstep cf E s sh i = .ok (s', sh', o)) {p : SavePc} {t r n : Str}
    (hp : s.pc = .save p t r n) : stepsLeft s'.pc < stepsLeft s.pc ∧ ((∃ q, s'.pc = .save q t r n) ∨ ∃ b, s'.pc = .decide n b) := by
  unfold sstep at h
  rw [hp] at h
  rw [hp]
  cases p with
  | open_ =>
    simp only [openStep] at h
    split at h <;> (cases h; exact ⟨by simp [stepsLeft], by first | exact .inl ⟨_, rfl⟩ | exact .inr ⟨_, rfl⟩⟩)
  | write =>
    simp only [writeStep] at h
    split at h <;> (cases h; exact ⟨by simp [stepsLeft], by exact .inl ⟨_, rfl⟩⟩)
  | sync =>
    simp only [syncStep] at h
    split at h <;> (cases h; exact ⟨by simp [stepsLeft], by exact .inl ⟨_, rfl⟩⟩)
  | close =>
    simp only [closeStep] at h
    split at h <;> (cases h; exact ⟨by simp [stepsLeft], by first | exact .inl ⟨_, rfl⟩ | exact .inr ⟨_, rfl⟩⟩)

theorem end_forward {cf : Conf} {E : Env} {s s' : Sess} {sh sh' : Shared} {i : Inp} {o : List Out} (h : sstep cf E s sh i = .ok (s', sh', o))
    (hi : i.ev = .done ∨ i.ev = .abort) : stepsLeft s'.pc ≤ stepsLeft s.pc - 1 := by
  have hd := sstep_did h
  cases hd with
  | tls h1 h2 =>
    unfold tlsStep at h2
    injection h2 with h2
    injection h2 with h2
    rw [← h2, h1]; simp [stepsLeft]
  | drop h1 => rw [h1]; simp [stepsLeft]
  | connect h1 => rw [h1]; simp [stepsLeft]
  | heloRef _ h2 | heloAcc _ h2 | mailRef _ h2 | mailAcc _ h2 | mailCount _ h2 | mailDrop _ h2 | rcptRef _ h2 | rcptAcc _ h2 | dataRef _ h2 | dataAcc _ h2
  | gotKeep _ h2 | gotSave _ h2 | tlserror _ h2 | other _ h2 => rw [h2] at hi; rcases hi with hi | hi <;> cases hi
  | finish h1 => rw [h1]; simp [stepsLeft]
  | save h1 => have := (save_forward h h1).1; omega
  | answerFail h1 => rw [h1]; simp [stepsLeft]
  | answerRef h1 => rw [h1]; simp [stepsLeft]
  | answerAcc h1 => rw [h1]; simp [stepsLeft]
  | closed h1 => rw [h1]; simp [stepsLeft]

/-- **C102.** A connection whose client has gone is at its end after at most six steps, wherever it was. -/
theorem C102_ends {cf : Conf} {E : Env} {l m : List Step} {s : Sess} (h : Life cf E (l ++ m) s) (hm : ∀ st ∈ m, st.i.ev = .done ∨ st.i.ev = .abort)
    (hl : m.length ≥ 6) : s.pc = .closed := by
  have most : ∀ p : Pc, stepsLeft p ≤ 6 := by
    intro p
    cases p with
    | save q => cases q <;> simp [stepsLeft]
    | _ => simp [stepsLeft]
  have key : ∀ {s0 : Sess} {L : List Step} {s : Sess}, Run cf E s0 L s → ∀ l m, L = l ++ m → (∀ st ∈ m, st.i.ev = .done ∨ st.i.ev = .abort) →
      stepsLeft s.pc ≤ 6 - m.length := by
    intro s0 L s hr
    induction hr with
    | nil => intro l m hL _; rw [show m = [] from (List.append_eq_nil_iff.1 hL.symm).2]; exact most _
    | @snoc L s1 s2 sh sh' i o hr hs ih =>
      intro l m hL hm
      rcases List.eq_nil_or_concat m with rfl | ⟨m', q, rfl⟩
      · exact most _
      · rw [List.concat_eq_append, ← List.append_assoc] at hL
        obtain ⟨rfl, hq⟩ := List.append_inj' hL rfl
        cases hq
        have h1 := ih l m' rfl fun st hst => hm st (by simp [hst])
        have h2 := end_forward hs (hm ⟨s1, i, sh, s2, sh', o⟩ (by simp))
        simp only [List.concat_eq_append, List.length_append, List.length_singleton]
        omega
  obtain ⟨sh, i, s0, sh0, o, hs, hr⟩ := h
  have := key hr l m rfl hm
  have h0 : stepsLeft s.pc = 0 := by omega
  revert h0
  cases s.pc with
  | save q => cases q <;> simp [stepsLeft]
  | closed => intro _; rfl
  | _ => simp [stepsLeft]

/-! ## Examples -/

/-- There is a rules file. -/
def carelessStart : StartEnv := { startDemo with fs := fun _ => tbl (.notExist b!"no such file") [(b!"/rules", .data b!"reject helo spam.example.com\n")],
                                                 openRules := fun _ => none }

/-- `sinksmtp -nostdrules -r /rules -M -helo here :25`. -/
def carelessArgs : List Str := [b!"-nostdrules", b!"-r", b!"/rules", b!"-M", b!"-helo", b!"here", b!":25"]

def carelessRun (L : Launch) : Option (List Mark × Program) :=
  Program.demo L (crashEnv b!"reject helo spam.example.com\n") 5 ([.front (.accept 0 b!"192.0.2.9:25")] ++ (mainServes 0 1).map .front ++
    [.began 1 b!"192.0.2.2:1234"] ++ records 1 1 ++ [.stepped 1 { now := 5 }, .stepped 1 { now := 5 }])

/-- The program started like that. -/
def carelessLaunch : Launch := (launch argDemo carelessStart 7 carelessArgs).getD demoLaunch

theorem careless_starts : launch argDemo carelessStart 7 carelessArgs = some carelessLaunch := by
  have h : (launch argDemo carelessStart 7 carelessArgs).isSome = true := by decide +kernel
  obtain ⟨L, hL⟩ := Option.isSome_iff_exists.1 h
  rw [carelessLaunch, hL]; rfl

/-- Nothing wrong with the DNS. -/
theorem crashEnv_names (rules : Str) : NoEmptyNames (crashEnv rules).W := by
  intro n ip l hl
  by_cases h : ip = b!"192.0.2.2"
  · subst h
    have : (crashEnv rules).W.lookupAddr n b!"192.0.2.2" = .ok [b!"www.example.com.", b!"mail.example.com.", b!"mx.example.com."] := rfl
    rw [this] at hl
    cases hl
    decide
  · have : (crashEnv rules).W.lookupAddr n ip = .error (demoErr false) := by
      show tbl _ _ ip = _
      simp only [tbl, if_neg h]
    rw [this] at hl
    cases hl

theorem careless_world : ((carelessRun carelessLaunch).bind fun x => x.2.srv.conns 1).map (fun x => x.1.W) =
    some (crashEnv b!"reject helo spam.example.com\n").W := by rfl

/-- **C102**: the conditions are needed.  A program that starts without complaint, and whose first client can end it by `EHLO` without a name. -/
theorem C102_careless : ∃ L l p, launch argDemo carelessStart 7 carelessArgs = some L ∧ Program.Runs L l p ∧ p.MayPanic L := by
  have h : (carelessRun carelessLaunch).map (fun x => match x.2.srv.conns 1 with
      | none => false
      | some (E, s) => match sstep carelessLaunch.cf E s x.2.srv.sh { ev := .helo false [] } with | .error _ => true | .ok _ => false) = some true := by
    decide +kernel
  have hw := careless_world
  cases hx : carelessRun carelessLaunch with
  | none => rw [hx] at h; cases h
  | some x =>
    rw [hx] at h hw
    simp only [Option.map_some, Option.some.injEq, Option.bind_some] at h hw
    refine ⟨_, x.1, x.2, careless_starts, Program.demo_runs hx, .inr ?_⟩
    split at h
    · cases h
    · rename_i E s hk
      rw [hk] at hw
      simp only [Option.map_some, Option.some.injEq] at hw
      split at h
      · rename_i e he
        exact ⟨1, E, s, _, e, hk, by rw [hw]; exact crashEnv_names _, he⟩
      · cases h

/-- `sinksmtp -M -helo here :25`: nothing can panic. -/
example : ∃ L, launch argDemo startDemo 7 [b!"-M", b!"-helo", b!"here", b!":25"] = some L ∧ ∀ l p, Program.Runs L l p → ¬ p.MayPanic L := by
  have h : (launch argDemo startDemo 7 [b!"-M", b!"-helo", b!"here", b!":25"]).isSome = true := by decide +kernel
  obtain ⟨L, hL⟩ := Option.isSome_iff_exists.1 h
  have hr : Reads argDemo [b!"-M", b!"-helo", b!"here", b!":25"] [(b!"M", b!"true"), (b!"helo", b!"here")] [b!":25"] :=
    .switch (d := b!"-") (n := b!"M") (.inl rfl) (by decide) <|
    .next (d := b!"-") (n := b!"helo") (.inl rfl) (by decide) (.inr (.inl (by decide))) <|
    .stop (.inl (by decide))
  refine ⟨L, hL, fun l p hp => C102_plain hL hr ?_ ?_ rfl hp⟩
  · intro n hn f hf
    simp only [List.mem_cons, List.not_mem_nil, or_false] at hn
    rcases hn with rfl | rfl | rfl <;> cases hf
  · rintro ⟨v, hv, h⟩; cases h

/-- The first session of `demoProgram` has come to its end. -/
example : demoProgram.map (fun x => (x.2.srv.conns 1).map fun y => y.2.pc) = some (some .closed) := by decide +kernel

end Sink
