import Verif.Model.Main
import Verif.Spec.Conncfg
import Verif.Props.Conncfg
import Verif.Props.Session
import Verif.Props.SessionRules

/-!
# C59: unsafe option combinations are refused at start
-/

namespace Sink
namespace Spec

/-- The values of `-minphase`. -/
def phases : List Str := [b!"helo", b!"ehlo", b!"from", b!"to", b!"data", b!"message", b!"accepted"]

/-- Options that are in order by themselves. -/
structure Sane (o : CmdOpts) : Prop where
  listens : o.args ≠ []
  safe : o.savedir ≠ [] ∨ o.failgotdata = true ∨ o.force = true
  hash : o.hashtype = b!"all" ∨ o.hashtype = b!"full" ∨ (o.hashtype = b!"msg" ∧ o.logfile ≠ [])
  dncount : o.dncount > 0 → o.smtplog ≠ [] ∧ o.dndur ≥ 1000000000
  dnlog : o.dnlog ≠ [] → o.dncount ≠ 0
  tls : o.certfile = [] ↔ o.keyfile = []
  minphase : o.minphase ∈ phases

/-- A log file there is none of, or that is the standard output, or that can be opened. -/
def LogFine (V : StartEnv) (f : Str) : Prop := f = [] ∨ f = b!"-" ∨ V.openLog f = none

/-- What the options name is there. -/
structure Present (V : StartEnv) (o : CmdOpts) : Prop where
  certs : ∃ c, Certs V.pairs o.certfile o.keyfile c
  logs : LogFine V o.smtplog ∧ LogFine V o.logfile ∧ LogFine V o.dnlog
  savedir : o.savedir ≠ [] → V.create (o.savedir ++ b!"/.wecanmake") = none
  conn : o.connfile ≠ [] → ∃ ds, GoodFile V.pairs V.conn ds
  base : ∃ rules, buildRules V.lib V.fs V.fds o.base = .ok rules
  rules : o.rfiles = [] ∨ ∃ names, Commas o.rfiles names ∧
    (∀ f ∈ names, V.openRules f = none) ∧
    ∀ i f, names[i]? = some f → f ≠ [] → ∃ rules, loadRules V.lib V.fs V.fds [i] f = .ok rules
  listen : ∀ a ∈ o.args, V.listen a = none

end Spec
open Spec

theorem except_bind {ε α β : Type} {x : Except ε α} {f : α → Except ε β} {b : β} :
    (x >>= f) = .ok b ↔ ∃ a, x = .ok a ∧ f a = .ok b := by
  cases x with
  | error e => simp [bind, Except.bind]
  | ok a => simp [bind, Except.bind]

theorem stopIf_ok {c : Prop} [Decidable c] {m : Stop} {u : Unit} : stopIf c m = .ok u ↔ ¬ c := by
  unfold stopIf; split <;> simp_all

theorem dieIf_ok {c : Prop} [Decidable c] {m : Str} {u : Unit} : dieIf c m = .ok u ↔ ¬ c := stopIf_ok

theorem checkOpts_ok {o : CmdOpts} {u : Unit} : checkOpts o = .ok u ↔ o.args ≠ [] ∧ (o.savedir ≠ [] ∨ o.failgotdata = true ∨ o.force = true) ∧
    (o.hashtype = b!"all" ∨ o.hashtype = b!"full" ∨ (o.hashtype = b!"msg" ∧ o.logfile ≠ [])) ∧
    (o.dncount > 0 → o.smtplog ≠ [] ∧ o.dndur ≥ 1000000000) ∧ (o.dnlog ≠ [] → o.dncount ≠ 0) := by
  unfold checkOpts
  simp only [except_bind, dieIf_ok, stopIf_ok]
  constructor
  · rintro ⟨_, h0, _, h1, _, h2, _, h3, _, h4, _, h5, h6⟩
    refine ⟨h0, ?_, ?_, fun hd => ⟨fun h => h4 ⟨hd, h⟩, ?_⟩, fun h h' => h6 ⟨h, h'⟩⟩
    · by_cases hs : o.savedir = []
      · right
        simp only [hs, true_and, not_not] at h1
        exact h1.symm
      · exact .inl hs
    · simp only [not_not] at h3
      rcases h3 with h | h | h
      · exact .inr (.inr ⟨h, fun hl => h2 ⟨h, hl⟩⟩)
      · exact .inr (.inl h)
      · exact .inl h
    · have : ¬ o.dndur < 1000000000 := fun h => h5 ⟨hd, h⟩
      omega
  · rintro ⟨h0, h1, h2, h3, h4⟩
    refine ⟨(), h0, (), ?_, (), ?_, (), ?_, (), ?_, (), ?_, ?_⟩
    · rintro ⟨h, h'⟩
      rcases h1 with h1 | h1 | h1
      · exact h1 h
      · exact h' (.inr h1)
      · exact h' (.inl h1)
    · rintro ⟨h, h'⟩
      rcases h2 with h2 | h2 | ⟨_, h2⟩
      · rw [h2] at h; cases h
      · rw [h2] at h; cases h
      · exact h2 h'
    · rcases h2 with h2 | h2 | ⟨h2, _⟩ <;> simp [h2]
    · exact fun ⟨h, h'⟩ => (h3 h).1 h'
    · rintro ⟨h, h'⟩
      have := (h3 h).2
      omega
    · exact fun ⟨h, h'⟩ => h4 h h'

theorem startCerts_ok {P : PairOracle} {o : CmdOpts} {c : List TlsCert} : startCerts P o = .ok c ↔ Certs P o.certfile o.keyfile c := by
  unfold startCerts
  split
  · rename_i h
    have := loadCerts_iff (P := P) (cert := o.certfile) (key := o.keyfile) (r := c)
    unfold Certs
    split
    · rename_i x hx
      rw [hx] at this
      simp [h, ← this]
    · rename_i x hx
      rw [hx] at this
      simp [h, ← this]
  · rename_i h
    split
    · rename_i h'
      have : o.keyfile = [] := Classical.not_not.1 fun hk => h ⟨h', hk⟩
      simp [Certs, h', this]
    · rename_i h'
      simp only [ne_eq, not_not] at h'
      split
      · rename_i hk
        simp [Certs, h', hk]
      · rename_i hk
        simp only [ne_eq, not_not] at hk
        simp [Certs, h', hk, eq_comm]

theorem openlog_ok {V : StartEnv} {f : Str} {b : Bool} {msg : Str → Str} :
    orDie (openlogfile V f) msg = .ok b ↔ LogFine V f ∧ b = decide (f ≠ []) := by
  unfold openlogfile LogFine
  by_cases h1 : f = []
  · simp [h1, orDie, eq_comm]
  · by_cases h2 : f = b!"-"
    · simp [h2, orDie, eq_comm]
    · cases h : V.openLog f with
      | none => simp [h1, h2, orDie, eq_comm]
      | some e => simp [h1, h2, orDie]

theorem orDieF_ok {α : Type} {x : Except Fail α} {msg : Str → Str} {a : α} : orDieF x msg = .ok a ↔ x = .ok a := by
  unfold orDieF
  split <;> simp

theorem tryAll_ok {f : Str → Option Str} {msg : Str → Str → Str} : ∀ {l : List Str} {u : Unit}, tryAll f msg l = .ok u ↔ ∀ a ∈ l, f a = none := by
  intro l
  induction l with
  | nil => simp [tryAll]
  | cons n ns ih =>
    rw [tryAll]
    cases h : f n with
    | none => simp [h, ih]
    | some e => simp [h]

theorem accumAll_ok {L : Lib} {fs : Files} {d : Nat} : ∀ {rf : List Str} {k : Nat} {base : List Rule},
    (∃ rules, accumAll L fs d k base rf = .ok rules) ↔
      ∀ i f, rf[i]? = some f → f ≠ [] → ∃ rules, loadRules L fs d [k + i] f = .ok rules := by
  intro rf
  induction rf with
  | nil => intro k base; simp [accumAll]
  | cons f rf ih =>
    intro k base
    rw [accumAll]
    constructor
    · rintro ⟨rules, h⟩ i g hg hne
      split at h
      · rename_i rs hrs
        cases i with
        | zero =>
          simp only [List.getElem?_cons_zero, Option.some.injEq] at hg
          subst hg
          rw [accumRules, if_neg hne] at hrs
          split at hrs
          · rename_i x hx; exact ⟨x, hx⟩
          · cases hrs
        | succ i =>
          have := (ih (k := k + 1) (base := rs)).1 ⟨_, h⟩ i g (by simpa using hg) hne
          rwa [show k + 1 + i = k + (i + 1) by omega] at this
      · cases h
    · intro h
      have h0 : ∃ rs, accumRules L fs d k base f = .ok rs := by
        rw [accumRules]
        split
        · exact ⟨_, rfl⟩
        · rename_i hne
          obtain ⟨x, hx⟩ := h 0 f rfl hne
          rw [Nat.add_zero] at hx
          rw [hx]
          exact ⟨_, rfl⟩
      obtain ⟨rs, hrs⟩ := h0
      rw [hrs]
      refine (ih (k := k + 1) (base := rs)).2 fun i g hg hne => ?_
      obtain ⟨x, hx⟩ := h (i + 1) g (by simpa using hg) hne
      exact ⟨x, by rwa [show k + 1 + i = k + (i + 1) by omega]⟩

theorem setupRules_good {L : Lib} {fs : Files} {d : Nat} {st base : List Rule} {rf : List Str} :
    (∃ r w, setupRules L fs d st base rf = .ok (r, true, w)) ↔ ∃ rules, accumAll L fs d 0 base rf = .ok rules := by
  unfold setupRules
  split
  · rename_i rules h; simp [h]
  · rename_i h; simp [h]
  · rename_i h; simp [h]

theorem startRules_ok {V : StartEnv} {o : CmdOpts} {b s : List Rule} {n : List Str} : startRules V o = .ok (b, s, n) ↔
    buildRules V.lib V.fs V.fds o.base = .ok b ∧ s = stallAll ∧ n = ruleNames o ∧ (∀ f ∈ n, V.openRules f = none) ∧
    ∀ i f, n[i]? = some f → f ≠ [] → ∃ rules, loadRules V.lib V.fs V.fds [i] f = .ok rules := by
  unfold startRules
  simp only [except_bind, orDieF_ok, C11_stall_rules, dieIf_ok, tryAll_ok]
  have acc := fun (b : List Rule) => (setupRules_good (L := V.lib) (fs := V.fs) (d := V.fds) (st := stallAll) (base := b) (rf := ruleNames o)).trans
    accumAll_ok
  simp only [Nat.zero_add] at acc
  have try_ : ∀ b u, tryRules V stallAll b (ruleNames o) = .ok u ↔ ∃ r w, setupRules V.lib V.fs V.fds stallAll b (ruleNames o) = .ok (r, true, w) := by
    intro b u
    unfold tryRules
    split
    · rename_i h; simp [h]
    · rename_i r good w h
      rw [dieIf_ok, h]
      cases good <;> simp
  constructor
  · rintro ⟨b', h1, s', h2, _, h3, _, h4, _, h5, h6⟩
    cases h2
    cases h6
    exact ⟨h1, rfl, rfl, h4, (acc b).1 ((try_ b _).1 h5)⟩
  · rintro ⟨h1, rfl, rfl, h4, h5⟩
    exact ⟨b, h1, _, rfl, (), by simp, (), h4, (), (try_ b _).2 ((acc b).2 h5), rfl⟩

theorem startPhase_ok {m m' : Str} : startPhase m = .ok m' ↔ m ∈ phases ∧ m' = if m = b!"ehlo" then b!"helo" else m := by
  unfold startPhase
  by_cases h : m = b!"ehlo"
  · subst h
    rw [if_pos rfl, if_pos rfl]
    exact ⟨fun h => by cases h; exact ⟨by decide, rfl⟩, fun h => by rw [h.2]⟩
  · rw [if_neg h, if_neg h]
    split
    · rename_i hm
      constructor
      · intro he; cases he
        refine ⟨?_, rfl⟩
        revert hm; simp only [phases, List.mem_cons]; tauto
      · rintro ⟨_, rfl⟩; rfl
    · rename_i hm
      constructor
      · intro he; cases he
      · rintro ⟨h1, _⟩
        exfalso
        revert hm h1; simp only [phases, List.mem_cons]; tauto

/-- The settings made from the options. -/
def settingsOf (o : CmdOpts) (base : List Rule) (certs : List TlsCert) : Conf :=
  { yakCount := o.dncount, yakTimeout := o.dndur, minphase := if o.minphase = b!"ehlo" then b!"helo" else o.minphase, savedir := o.savedir,
    hashtype := o.hashtype, smtplog := decide (o.smtplog ≠ []), dnlog := decide (o.dnlog ≠ []), logf := decide (o.logfile ≠ []),
    srvname := o.srvname, connfile := o.connfile, rulefiles := ruleNames o, base := base, stallall := stallAll, certs := certs }

theorem start_ok {V : StartEnv} {o : CmdOpts} {cf : Conf} : start V o = .ok cf ↔ Sane o ∧ Present V o ∧ ∃ b c,
    buildRules V.lib V.fs V.fds o.base = .ok b ∧ Certs V.pairs o.certfile o.keyfile c ∧ cf = settingsOf o b c := by
  have names : (o.rfiles = [] ∨ ∃ names, Commas o.rfiles names ∧ (∀ f ∈ names, V.openRules f = none) ∧
      ∀ i f, names[i]? = some f → f ≠ [] → ∃ rules, loadRules V.lib V.fs V.fds [i] f = .ok rules) ↔
      (∀ f ∈ ruleNames o, V.openRules f = none) ∧
      ∀ i f, (ruleNames o)[i]? = some f → f ≠ [] → ∃ rules, loadRules V.lib V.fs V.fds [i] f = .ok rules := by
    unfold ruleNames
    by_cases h : o.rfiles = []
    · simp [h]
    · simp [h, commas_iff]
  have sdir : ∀ u, startDir V o = .ok u ↔ (o.savedir ≠ [] → V.create (o.savedir ++ b!"/.wecanmake") = none) := by
    intro u
    unfold startDir
    by_cases h : o.savedir = []
    · simp [h]
    · rw [if_neg h]
      cases hv : V.create (o.savedir ++ b!"/.wecanmake") with
      | none => simp
      | some e => simp [h]
  have sconn : ∀ u, startConn V o = .ok u ↔ (o.connfile ≠ [] → ∃ ds, GoodFile V.pairs V.conn ds) := by
    intro u
    unfold startConn
    by_cases h : o.connfile = []
    · simp [h]
    · rw [if_neg h]
      cases hv : loadConnFile V.pairs V.conn with
      | ok ds => simp only [true_iff]; exact fun _ => ⟨ds, goodFile_iff.2 hv⟩
      | error e =>
        simp only [reduceCtorEq, false_iff]
        intro hx
        obtain ⟨ds, hd⟩ := hx h
        rw [goodFile_iff, hv] at hd
        cases hd
  have certs : (∃ c, Certs V.pairs o.certfile o.keyfile c) → (o.certfile = [] ↔ o.keyfile = []) := by
    rintro ⟨c, ⟨h1, h2, _⟩ | ⟨h1, h2, _⟩⟩
    · simp [h1, h2]
    · simp [h1, h2]
  unfold start
  simp only [except_bind, checkOpts_ok, startCerts_ok, openlog_ok, sdir, sconn, startPhase_ok, tryAll_ok, Prod.exists, startRules_ok]
  constructor
  · rintro ⟨_, ⟨h1, h2, h3, h4, h5⟩, c, hc, sl, ⟨hs1, rfl⟩, ll, ⟨hl1, rfl⟩, dl, ⟨hd1, rfl⟩, _, hdir, _, hconn, b, st, nm, ⟨hb, rfl, rfl, hn⟩,
      mp, ⟨hm, rfl⟩, _, hli, he⟩
    cases he
    exact ⟨⟨h1, h2, h3, h4, h5, certs ⟨c, hc⟩, hm⟩, ⟨⟨c, hc⟩, ⟨hs1, hl1, hd1⟩, hdir, hconn, ⟨b, hb⟩, names.2 hn, hli⟩, b, c, hb, hc, rfl⟩
  · rintro ⟨⟨h1, h2, h3, h4, h5, _, hm⟩, ⟨_, ⟨hs1, hl1, hd1⟩, hdir, hconn, _, hn, hli⟩, b, c, hb, hc, rfl⟩
    exact ⟨(), ⟨h1, h2, h3, h4, h5⟩, c, hc, _, ⟨hs1, rfl⟩, _, ⟨hl1, rfl⟩, _, ⟨hd1, rfl⟩, (), hdir, (), hconn, b, _, _, ⟨hb, rfl, rfl, names.1 hn⟩,
      _, ⟨hm, rfl⟩, (), hli, rfl⟩

/-- **C59.** The server starts exactly when the options are in order and what they name is there. -/
theorem C59_starts (V : StartEnv) (o : CmdOpts) : (∃ cf, start V o = .ok cf) ↔ Sane o ∧ Present V o := by
  constructor
  · rintro ⟨cf, h⟩
    rw [start_ok] at h
    exact ⟨h.1, h.2.1⟩
  · rintro ⟨h1, h2⟩
    obtain ⟨b, hb⟩ := h2.base
    obtain ⟨c, hc⟩ := h2.certs
    exact ⟨_, start_ok.2 ⟨h1, h2, b, c, hb, hc, rfl⟩⟩

/-- **C59.** If options are not in order the server does not start, whatever the files contain. -/
theorem C59_refused {o : CmdOpts} (h : ¬ Sane o) (V : StartEnv) : ∃ why, start V o = .error why := by
  cases hs : start V o with
  | error e => exact ⟨e, rfl⟩
  | ok cf => exact absurd (start_ok.1 hs).1 h

/-- **C59.** The settings all connections work with: valid values only; logging whenever do-nothing clients are counted, so that they
are also stalled (C38); the base rules of the options. -/
theorem C59_settings {V : StartEnv} {o : CmdOpts} {cf : Conf} (h : start V o = .ok cf) :
    cf.savedir = o.savedir ∧ cf.yakCount = o.dncount ∧ cf.yakTimeout = o.dndur ∧ cf.srvname = o.srvname ∧ cf.connfile = o.connfile ∧
    (cf.minphase ∈ phases ∧ cf.minphase ≠ b!"ehlo" ∧ (cf.minphase = o.minphase ∨ (o.minphase = b!"ehlo" ∧ cf.minphase = b!"helo"))) ∧
    (cf.hashtype = o.hashtype ∧ (cf.hashtype = b!"all" ∨ cf.hashtype = b!"full" ∨ (cf.hashtype = b!"msg" ∧ cf.logf = true))) ∧
    (cf.smtplog = true ↔ o.smtplog ≠ []) ∧ (cf.logf = true ↔ o.logfile ≠ []) ∧ (cf.dnlog = true ↔ o.dnlog ≠ []) ∧
    (cf.yakCount > 0 → cf.smtplog = true ∧ cf.yakTimeout ≥ 1000000000) ∧ (cf.dnlog = true → cf.yakCount ≠ 0) ∧
    (o.rfiles = [] → cf.rulefiles = []) ∧ (o.rfiles ≠ [] → Commas o.rfiles cf.rulefiles ∧ ∀ f ∈ cf.rulefiles, V.openRules f = none) ∧
    Certs V.pairs o.certfile o.keyfile cf.certs ∧
    Built o.base cf ∧ (CleanName o.fromreject → CleanName o.toaccept → CleanName o.heloreject → Configured o.base cf) := by
  obtain ⟨h1, h2, b, c, hb, hc, rfl⟩ := start_ok.1 h
  have hmp := h1.minphase
  refine ⟨rfl, rfl, rfl, rfl, rfl, ?_, ⟨rfl, ?_⟩, by simp [settingsOf], by simp [settingsOf], by simp [settingsOf], ?_, ?_, ?_, ?_, hc,
    ⟨⟨V.lib, V.fs, V.fds, hb⟩, ⟨V.lib, V.fs, V.fds, C11_stall_rules _ _ _⟩⟩, ?_⟩
  · simp only [settingsOf]
    split
    · rename_i he; exact ⟨by decide, by decide, .inr ⟨he, rfl⟩⟩
    · rename_i he; exact ⟨hmp, he, .inl rfl⟩
  · rcases h1.hash with h | h | h
    · exact .inl h
    · exact .inr (.inl h)
    · exact .inr (.inr ⟨h.1, by simp [settingsOf, h.2]⟩)
  · intro hy
    exact ⟨by simp [settingsOf, (h1.dncount hy).1], (h1.dncount hy).2⟩
  · intro hd
    exact h1.dnlog (by simpa [settingsOf] using hd)
  · intro hr; simp [settingsOf, ruleNames, hr]
  · intro hr
    rcases h2.rules with h | ⟨names, hn, ho, _⟩
    · exact absurd h hr
    · have : ruleNames o = names := by rw [ruleNames, if_neg hr]; exact commas_iff.1 hn
      exact ⟨by rw [settingsOf, this]; exact hn, by rw [settingsOf, this]; exact ho⟩
  · exact fun h1 h2 h3 => ⟨⟨h1, h2, h3⟩, ⟨V.lib, V.fs, V.fds, hb⟩, ⟨V.lib, V.fs, V.fds, C11_stall_rules _ _ _⟩⟩

/-- **C59.** Without `-force-receive` a message is only accepted after `handleMessage` was given a file to save it in: in the whole
life of every connection of a server that started, either no message is ever accepted, or every message that arrives is sent on to be
saved. -/
theorem C59_safe {V : StartEnv} {o : CmdOpts} {cf : Conf} (h : start V o = .ok cf) (hf : o.force = false) {E : Env} {l : List Step} {s : Sess} (hl : Life cf E l s) :
    (∀ st ∈ l, ∀ id lost, st.pre.pc = .decide id lost → .accepted ∉ replies st.out) ∨
    (∀ st ∈ l, ∀ d, st.event = some (.gotdata d) → ∃ tgt r n, st.post.pc = .save .open_ tgt r n) := by
  have hset := C59_settings h
  have hconf : Built o.base cf := hset.2.2.2.2.2.2.2.2.2.2.2.2.2.2.2.1
  by_cases hM : o.failgotdata = true
  · left
    intro st hst id lost hp hacc
    rcases (C35_M hconf hM hl hst).2 id lost hp with h | h <;> rw [h] at hacc <;> simp at hacc
  · right
    have hd : cf.savedir ≠ [] := by
      rw [hset.1]
      rcases (start_ok.1 h).1.safe with h | h | h
      · exact h
      · exact absurd h hM
      · rw [hf] at h; cases h
    intro st hst d hev
    obtain ⟨sh0, i0, s0, sh1, o1, hs0, hr⟩ := hl
    obtain ⟨l1, l2, rfl⟩ := List.append_of_mem hst
    obtain ⟨hr1, hst1, -⟩ := hr.split rfl
    have hp : st.pre.pc = .ready := by
      unfold Step.event at hev
      split at hev
      · assumption
      · cases hev
    have hev' : st.i.ev = .gotdata d := by
      rw [Step.event, if_pos hp] at hev
      injection hev
    have := C34_savedir ⟨sh0, i0, s0, sh1, o1, hs0, hr1⟩ hp hev' hst1
    rw [if_neg] at this
    · obtain ⟨n, r, h⟩ := this
      exact ⟨_, _, _, h⟩
    · rcases C34_last cf.savedir l1 with ⟨_, _, _, x, _, _, _, hx, he, _⟩ | ⟨he, _⟩
      · rw [he]; exact hx
      · rw [he]; exact hd

/-! Examples. -/

/-- A world in which the save directory can be used and nothing else is there. -/
def startDemo : StartEnv :=
  { lib := demoLib, fs := fun _ _ => .notExist b!"no such file", fds := 5, pairs := fun _ _ => some b!"no such file",
    openLog := fun _ => none, create := fun d => if d = b!"/mail/.wecanmake" then none else some b!"no such directory",
    conn := .notExist b!"no such file", openRules := fun _ => some b!"no such file", listen := fun _ => none }

example : Sane { args := [b!":25"], savedir := b!"/mail" } := ⟨by simp, by simp, by simp, by simp, by simp, by simp, by decide⟩
/-- Why it stops, if it does. -/
def stops (o : CmdOpts) : Option Stop := match start startDemo o with | .ok _ => none | .error e => some e

example : stops { args := [b!":25"], savedir := b!"/mail" } = none := by decide +kernel
example : stops { args := [b!":25"] } = some (.die b!"I refuse to accept email without either a -d savedir or --force-receive\n") := by
  decide +kernel
example : stops { args := [b!":25"], failgotdata := true, minphase := b!"ehlo", dncount := 5, smtplog := b!"-" } = none := by decide +kernel
example : stops { args := [b!":25"], force := true, dncount := 5 } = some (.die b!"-dncount requires -smtplog\n") := by decide +kernel
example : stops { args := [b!":25"], force := true, rfiles := b!"/rules" } =
    some (.die b!"cannot open rules file /rules: no such file\n") := by decide +kernel
example : stops { args := [b!":25"], force := true, minphase := b!"HELO" } =
    some (.die b!"invalid -minphase 'HELO': must be helo/ehlo, from, to, data, message, or accepted\n") := by decide +kernel
example : stops { args := [], force := true } = some .usage := by decide +kernel
/-- Not refused: a negative `-dncount`, even with `-dnlog`. -/
example : Sane { args := [b!":25"], savedir := b!"/mail", dncount := -1, dnlog := b!"log" } :=
  ⟨by simp, by simp, by simp, by simp, by simp, by simp, by decide⟩

end Sink
