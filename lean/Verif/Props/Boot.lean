import Verif.Model.Boot
import Verif.Props.Main

/-!
# C104: what starting the server does to files
-/

namespace Sink
namespace Spec

/-- The log files on the command line. -/
def logNames (o : CmdOpts) : List Str := [o.smtplog, o.logfile, o.dnlog].filter fun f => decide (f ≠ [] ∧ f ≠ b!"-")

/-- The name of the test file, with `-d`. -/
def testFile (o : CmdOpts) : Option Str := if o.savedir = [] then none else some (o.savedir ++ b!"/.wecanmake")

/-- The files after a start that succeeds: the log files are there, with what was in them before; the test file is not, unless it could not be
removed; all others are as they were. -/
def afterStart (o : CmdOpts) (rm : Bool) (d : Disk) : Disk := fun p =>
  if testFile o = some p then (if rm then none else some [])
  else if p ∈ logNames o then some ((d p).getD [])
  else d p

end Spec
open Spec

theorem boot_bind {α β : Type} {x : BootM α} {f : α → BootM β} {d : Disk} :
    ((x >>= f) d).2 = (x d).2 >>= fun a => (f a (x d).1).2 := by
  show (match x d with | (d', .ok a) => f a d' | (d', .error e) => (d', .error e)).2 = _
  rcases x d with ⟨d', e | a⟩ <;> rfl

/-- **C104.** Whether it starts, and how, does not depend on the files. -/
theorem C104_result (V : StartEnv) (rm : Bool) (o : CmdOpts) (d : Disk) : (boot V rm o d).2 = start V o := by
  unfold boot start
  simp only [boot_bind, BootM.of, bootLog, bootDir]
  rfl

/-- What may have happened to a file. -/
def Fine (o : CmdOpts) (d d' : Disk) : Prop :=
  (∀ p, testFile o ≠ some p → d' p = d p ∨ d p = none ∧ d' p = some [] ∧ p ∈ logNames o)

theorem Fine.trans {o : CmdOpts} {a b c : Disk} (h : Fine o a b) (h' : Fine o b c) : Fine o a c := by
  intro p hp
  rcases h p hp with h1 | h1 <;> rcases h' p hp with h2 | h2
  · exact .inl (h2.trans h1)
  · rw [h1] at h2; exact .inr h2
  · rw [h1.2.1] at h2; exact .inr ⟨h1.1, h2, h1.2.2⟩
  · rw [h1.2.1] at h2; cases h2.1

theorem boot_bind_fine {o : CmdOpts} {α β : Type} {x : BootM α} {f : α → BootM β} (h : ∀ d, Fine o d (x d).1) (h' : ∀ a d, Fine o d (f a d).1) (d : Disk) :
    Fine o d ((x >>= f) d).1 := by
  show Fine o d (match x d with | (d', .ok a) => f a d' | (d', .error e) => (d', .error e)).1
  have := h d
  rcases hx : x d with ⟨d', e | a⟩
  · rw [hx] at this; exact this
  · rw [hx] at this; exact this.trans (h' a d')

theorem fine_of {o : CmdOpts} {α : Type} (x : Except Stop α) (d : Disk) : Fine o d (BootM.of x d).1 := fun _ _ => .inl rfl

theorem fine_log {V : StartEnv} {o : CmdOpts} {f : Str} (hf : f = o.smtplog ∨ f = o.logfile ∨ f = o.dnlog) {msg : Str → Str} (d : Disk) :
    Fine o d (bootLog V f msg d).1 := by
  intro p _
  unfold bootLog
  dsimp only
  split
  · exact .inl rfl
  · rename_i h
    simp only [not_or, not_not] at h
    unfold Disk.put
    by_cases hp : p = f
    · subst hp
      refine .inr ⟨h.2.2.2, by simp, ?_⟩
      unfold logNames
      rw [List.mem_filter]
      refine ⟨by simp [hf], by simp [h.1, h.2.1]⟩
    · exact .inl (if_neg hp)

theorem fine_dir {V : StartEnv} {rm : Bool} {o : CmdOpts} (d : Disk) : Fine o d (bootDir V rm o d).1 := by
  intro p hp
  unfold bootDir
  dsimp only
  split
  · exact .inl rfl
  · rename_i h
    simp only [not_or] at h
    have : p ≠ o.savedir ++ b!"/.wecanmake" := by
      rintro rfl
      exact hp (if_neg h.1)
    split <;> simp [Disk.put, this]

/-- **C104.** Starting the server, successful or not, changes no file that was there and makes none, except that log files that were not there
are made, empty, and except for a file called `.wecanmake` in the `-d` directory. -/
theorem C104_kept (V : StartEnv) (rm : Bool) (o : CmdOpts) (d : Disk) {p : Str} (hp : testFile o ≠ some p) :
    (boot V rm o d).1 p = d p ∨ d p = none ∧ (boot V rm o d).1 p = some [] ∧ p ∈ logNames o := by
  refine (?_ : Fine o d (boot V rm o d).1) p hp
  unfold boot
  refine boot_bind_fine (fine_of _) (fun _ => boot_bind_fine (fine_of _) fun _ => boot_bind_fine (fine_log (.inl rfl)) fun _ =>
    boot_bind_fine (fine_log (.inr (.inl rfl))) fun _ => boot_bind_fine (fine_log (.inr (.inr rfl))) fun _ => boot_bind_fine fine_dir fun _ =>
    boot_bind_fine (fine_of _) fun _ => boot_bind_fine (fine_of _) fun x => ?_) d
  exact boot_bind_fine (fine_of _) fun _ => boot_bind_fine (fine_of _) fun _ => fine_of (.ok _)

theorem boot_ok {α β : Type} {x : BootM α} {f : α → BootM β} {d d' : Disk} {b : β} (h : (x >>= f) d = (d', .ok b)) :
    ∃ a, (x d).2 = .ok a ∧ f a (x d).1 = (d', .ok b) := by
  have h : (match x d with | (d', .ok a) => f a d' | (d', .error e) => (d', .error e)) = (d', .ok b) := h
  rcases hx : x d with ⟨d1, e | a⟩
  · rw [hx] at h; cases h
  · rw [hx] at h; exact ⟨a, rfl, h⟩

theorem bootLog_ok {V : StartEnv} {f : Str} {msg : Str → Str} {d : Disk} {a : Bool} (h : (bootLog V f msg d).2 = .ok a) (p : Str) :
    (bootLog V f msg d).1 p = if p = f ∧ f ≠ [] ∧ f ≠ b!"-" then some ((d p).getD []) else d p := by
  have hf := openlog_ok.1 h
  unfold bootLog
  dsimp only
  split
  · rename_i hc
    split
    · rename_i hp
      obtain ⟨rfl, h1, h2⟩ := hp
      rcases hc with hc | hc | hc | hc
      · exact absurd hc h1
      · exact absurd hc h2
      · rcases hf.1 with hf | hf | hf
        · exact absurd hf h1
        · exact absurd hf h2
        · exact absurd hf hc
      · cases hd : d p with
        | none => exact absurd hd hc
        | some x => rfl
    · rfl
  · rename_i hc
    simp only [not_or, not_not] at hc
    unfold Disk.put
    by_cases hp : p = f
    · subst hp; simp [hc]
    · simp [hp]

theorem mem_logNames {o : CmdOpts} {p : Str} : p ∈ logNames o ↔ (p = o.smtplog ∨ p = o.logfile ∨ p = o.dnlog) ∧ p ≠ [] ∧ p ≠ b!"-" := by
  unfold logNames
  rw [List.mem_filter, decide_eq_true_eq]
  simp only [List.mem_cons, List.not_mem_nil, or_false]

theorem log_once {f p : Str} {x : Option Str} (hg : p ≠ [] ∧ p ≠ b!"-") :
    (if p = f ∧ f ≠ [] ∧ f ≠ b!"-" then some (x.getD []) else x) = if p = f then some (x.getD []) else x := by
  by_cases h : p = f
  · subst h; rw [if_pos ⟨rfl, hg⟩, if_pos rfl]
  · rw [if_neg fun h' => h h'.1, if_neg h]

theorem log_other {f p : Str} {x : Option Str} (hg : ¬ (p ≠ [] ∧ p ≠ b!"-")) :
    (if p = f ∧ f ≠ [] ∧ f ≠ b!"-" then some (x.getD []) else x) = x := by
  rw [if_neg]
  rintro ⟨rfl, h⟩
  exact hg h

/-- **C104.** After a successful start the log files are there, with what was in them before, the test file is not, and all other files are as
they were. -/
theorem C104_started {V : StartEnv} {rm : Bool} {o : CmdOpts} {cf : Conf} (h : start V o = .ok cf) (d : Disk) :
    (boot V rm o d).1 = afterStart o rm d := by
  have hb : boot V rm o d = ((boot V rm o d).1, .ok cf) := Prod.ext rfl ((C104_result V rm o d).trans h)
  generalize (boot V rm o d).1 = d' at hb
  unfold boot at hb
  obtain ⟨_, -, hb⟩ := boot_ok hb
  obtain ⟨_, -, hb⟩ := boot_ok hb
  obtain ⟨_, h1, hb⟩ := boot_ok hb
  obtain ⟨_, h2, hb⟩ := boot_ok hb
  obtain ⟨_, h3, hb⟩ := boot_ok hb
  obtain ⟨_, h4, hb⟩ := boot_ok hb
  obtain ⟨_, -, hb⟩ := boot_ok hb
  obtain ⟨x, -, hb⟩ := boot_ok hb
  obtain ⟨_, -, hb⟩ := boot_ok hb
  obtain ⟨_, -, hb⟩ := boot_ok hb
  have hb := (Prod.mk.inj hb).1
  simp only [BootM.of] at hb h1 h2 h3 h4
  replace h1 := bootLog_ok h1
  replace h2 := bootLog_ok h2
  replace h3 := bootLog_ok h3
  generalize (bootLog V o.smtplog _ d).1 = d1 at *
  generalize (bootLog V o.logfile _ d1).1 = d2 at *
  generalize (bootLog V o.dnlog _ d2).1 = d3 at *
  have h5 : ∀ p, d3 p = if p ∈ logNames o then some ((d p).getD []) else d p := by
    intro p
    rw [h3, h2, h1]
    by_cases hg : p ≠ [] ∧ p ≠ b!"-"
    · rw [log_once hg, log_once hg, log_once hg]
      by_cases a1 : p = o.smtplog
      · rw [if_pos a1, if_pos (mem_logNames.2 ⟨.inl a1, hg⟩)]; simp
      · by_cases a2 : p = o.logfile
        · rw [if_neg a1, if_pos a2, if_pos (mem_logNames.2 ⟨.inr (.inl a2), hg⟩)]; simp
        · rw [if_neg a1, if_neg a2]
          by_cases a3 : p = o.dnlog
          · rw [if_pos a3, if_pos (mem_logNames.2 ⟨.inr (.inr a3), hg⟩)]
          · rw [if_neg a3, if_neg]
            intro h
            rcases (mem_logNames.1 h).1 with h | h | h
            · exact a1 h
            · exact a2 h
            · exact a3 h
    · rw [log_other hg, log_other hg, log_other hg, if_neg fun h => hg (mem_logNames.1 h).2]
  have h6 : testFile o ≠ none → V.create (o.savedir ++ b!"/.wecanmake") = none := by
    intro ht
    refine (C59_starts V o).1 ⟨cf, h⟩ |>.2.savedir fun h0 => ht (if_pos h0)
  rw [← hb]
  funext p
  unfold bootDir afterStart
  dsimp only
  rw [← h5 p]
  unfold testFile at *
  by_cases hs : o.savedir = []
  · simp [hs]
  · have h6 := h6 (by simp [hs])
    simp only [hs, h6, if_false, ne_eq, not_true_eq_false, or_false, Option.some.injEq]
    by_cases hp : p = o.savedir ++ b!"/.wecanmake"
    · subst hp; cases rm <;> simp [Disk.put]
    · have : ¬ (o.savedir ++ b!"/.wecanmake" = p) := fun h => hp h.symm
      cases rm <;> simp [Disk.put, hp, this]

/-- **C104.** Options that are not in order by themselves (`-minphase` apart, which is looked at last) and certificates that cannot be loaded are
noticed before any file is touched. -/
theorem C104_refused (V : StartEnv) (rm : Bool) (o : CmdOpts) (d : Disk)
    (h : ¬ Sane { o with minphase := b!"helo" } ∨ ¬ ∃ c, Certs V.pairs o.certfile o.keyfile c) : (boot V rm o d).1 = d := by
  have hs : ∀ {α β : Type} {x : Except Stop α} {f : α → BootM β}, (∀ a, x = .ok a → (f a d).1 = d) → ((BootM.of x >>= f) d).1 = d := by
    intro α β x f hx
    show (match (d, x) with | (d', .ok a) => f a d' | (d', .error e) => (d', .error e)).1 = d
    cases x with
    | error e => rfl
    | ok a => exact hx a rfl
  unfold boot
  refine hs fun _ h1 => hs fun c h2 => ?_
  obtain ⟨a1, a2, a3, a4, a5⟩ := checkOpts_ok.1 h1
  have hc := startCerts_ok.1 h2
  rcases h with h | h
  · refine absurd ⟨a1, a2, a3, a4, a5, ?_, by simp [phases]⟩ h
    show o.certfile = [] ↔ o.keyfile = []
    rcases hc with ⟨h1, h2, -⟩ | ⟨h1, h2, -⟩ <;> simp [h1, h2]
  · exact absurd ⟨c, hc⟩ h

/-! ## A case -/

/-- There are a log file, a message and a file that happens to be called like the test file. -/
def bootDisk : Disk := fun p =>
  if p = b!"/log" then some b!"old\n" else if p = b!"/mail/.wecanmake" then some b!"precious" else if p = b!"/mail/x" then some b!"mail" else none

/-- The files after a start, and whether it succeeded. -/
def booted (o : CmdOpts) : List (Option Str) × Bool :=
  let r := boot startDemo true o bootDisk
  ([b!"/log", b!"/smtplog", b!"/mail/x", b!"/mail/.wecanmake"].map r.1, match r.2 with | .ok _ => true | .error _ => false)

/-- The logs are there, nothing is lost but the file that is called like the test file. -/
example : booted { args := [b!":25"], savedir := b!"/mail", logfile := b!"/log", smtplog := b!"/smtplog" } =
    ([some b!"old\n", some [], some b!"mail", none], true) := by decide +kernel
/-- The rules file is missing: too late for the test file and the log. -/
example : booted { args := [b!":25"], savedir := b!"/mail", smtplog := b!"/smtplog", rfiles := b!"/none" } =
    ([some b!"old\n", some [], some b!"mail", none], false) := by decide +kernel
/-- Bad options: nothing happens. -/
example : booted { args := [b!":25"], savedir := b!"/mail", smtplog := b!"/smtplog", hashtype := b!"md5" } =
    ([some b!"old\n", none, some b!"mail", some b!"precious"], false) := by decide +kernel

/-- **C104**, the exceptions: a file called `.wecanmake` in the `-d` directory is lost, also if the server does not start then; and a log file of
this name is removed while it is in use. -/
theorem C104_testfile_lost : ∃ (V : StartEnv) (o : CmdOpts) (d : Disk) (p : Str), d p = some b!"precious" ∧ (boot V true o d).1 p = none ∧
    (∃ m, start V o = .error (.die m)) ∧ (∃ cf, start V { o with rfiles := [], logfile := p } = .ok cf ∧ cf.logf = true) ∧
    (boot V true { o with rfiles := [], logfile := p } d).1 p = none := by
  refine ⟨startDemo, { args := [b!":25"], savedir := b!"/mail", rfiles := b!"/none" }, bootDisk, b!"/mail/.wecanmake", by decide +kernel, by decide +kernel,
    ⟨b!"cannot open rules file /none: no such file\n", ?_⟩, ?_, by decide +kernel⟩
  · have h : (match start startDemo { args := [b!":25"], savedir := b!"/mail", rfiles := b!"/none" } with
      | .ok _ => none | .error e => some e) = some (.die b!"cannot open rules file /none: no such file\n") := by decide +kernel
    split at h
    · cases h
    · rename_i hx; rw [hx]; cases h; rfl
  · have h : (match start startDemo { args := [b!":25"], savedir := b!"/mail", logfile := b!"/mail/.wecanmake" } with
      | .ok cf => cf.logf | .error e => false) = true := by decide +kernel
    split at h
    · rename_i cf hx; exact ⟨cf, hx, h⟩
    · cases h

end Sink
