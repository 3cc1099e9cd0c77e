import Verif.Lemmas.Echo
import Verif.Spec.DemoSession
import Verif.Props.Crash

/-!
# C118: what a connection asks once and what it asks again
-/

namespace Sink
open Spec

theorem life_backed {cf : Conf} {E : Env} {l : List Step} {s : Sess} (hl : Life cf E l s) :
    ∃ t0, Backed E.W t0 1 s.c ∧ (∀ f, t0.count (.openFile f) ≤ if f = cf.connfile ∧ cf.connfile ≠ [] then 1 else 0) ∧
      (∀ n, t0.count (.lookupMX n) = 0) ∧ ∀ a, t0.count (.lookupAddr a) ≤ if a = E.lip ∧ cf.srvname = [] then 1 else 0 := by
  obtain ⟨sh, i, s0, sh0, o, hst, hr⟩ := hl
  have hB : Backed E.W s0.c.trace 1 s.c := by
    obtain ⟨h1, h2⟩ := run_backed hst hr
    by_cases h : Early s
    · have := h1 h
      exact ⟨this.suf, this.files, this.dnsbl, this.dom, this.file1, this.mx1, fun a => Nat.le_succ_of_le (this.addr1 a)⟩
    · exact (h2 h).1
  have hask := startSess_asks hst
  have hshape : ∃ t1 t2 : Trace, s0.c.trace = t2 ++ t1 ∧ (t1 = [] ∨ t1 = [.lookupAddr E.lip]) ∧ (t2 = [] ∨ t2 = [.openFile cf.connfile]) := by
    unfold Sink.startSess at hst
    cases h1 : setupRules E.W.lib E.fs E.fds cf.stallall cf.base cf.rulefiles with
    | error p => rw [h1] at hst; cases hst
    | ok x =>
      rw [h1] at hst
      cases h2 : Sink.serverName cf E [] with
      | error p => rw [h2] at hst; cases hst
      | ok y =>
        obtain ⟨n, t⟩ := y
        rw [h2] at hst
        have ht : s0.c.trace = (Sink.connParams cf E n t).2.2.1 := by cases hst; rfl
        have h3 : t = [] ∨ t = [.lookupAddr E.lip] := (serverName_asks h2).imp id (·.2)
        rcases connParams_asks cf E n t with ⟨_, hc⟩ | ⟨_, hc⟩
        · exact ⟨t, [], by rw [ht, hc]; rfl, h3, .inl rfl⟩
        · exact ⟨t, [.openFile cf.connfile], by rw [ht, hc]; rfl, h3, .inr rfl⟩
  obtain ⟨t1, t2, ht, h1, h2⟩ := hshape
  have hle : ∀ ev, s0.c.trace.count ev ≤ 1 := by
    intro ev
    rw [ht]
    rcases h1 with rfl | rfl <;> rcases h2 with rfl | rfl
    · simp
    · simpa using List.count_le_length (a := ev) (l := [Ev.openFile cf.connfile])
    · simpa using List.count_le_length (a := ev) (l := [Ev.lookupAddr E.lip])
    · cases ev <;> simp [List.count_cons] <;> split <;> omega
  have key : ∀ (ev : Ev) (P : Prop) [Decidable P], (ev ∈ s0.c.trace → P) → s0.c.trace.count ev ≤ if P then 1 else 0 := by
    intro ev P _ h
    by_cases hm : ev ∈ s0.c.trace
    · rw [if_pos (h hm)]; exact hle ev
    · rw [List.count_eq_zero.2 hm]; exact Nat.zero_le _
  refine ⟨_, hB, fun f => key _ _ fun hm => ?_, fun n => List.count_eq_zero.2 fun hm => ?_, fun a => key _ _ fun hm => ?_⟩
  · rcases hask _ hm with ⟨h, h'⟩ | ⟨h, _⟩
    · cases h; exact ⟨rfl, h'⟩
    · cases h
  · rcases hask _ hm with ⟨h, _⟩ | ⟨h, _⟩ <;> cases h
  · rcases hask _ hm with ⟨h, _⟩ | ⟨h, h'⟩
    · cases h
    · cases h; exact ⟨rfl, h'⟩

/-- **C118.** In a connection, however long and whatever the client sends, a file is opened at most once for the rules (and once more at the
beginning if it is the file of connection parameters). -/
theorem C118_files {cf : Conf} {E : Env} {l : List Step} {s : Sess} (hl : Life cf E l s) (f : Str) :
    s.c.trace.count (.openFile f) ≤ 1 + if f = cf.connfile ∧ cf.connfile ≠ [] then 1 else 0 := by
  obtain ⟨t0, hB, h1, -, -⟩ := life_backed hl
  have := hB.file1 f
  have := h1 f
  have : (if s.c.files f = none then 0 else 1) ≤ 1 := by split <;> omega
  omega

/-- **C118.** The mail exchangers of a domain are looked up at most once in a connection, whether the answer was a temporary failure or not. -/
theorem C118_mx {cf : Conf} {E : Env} {l : List Step} {s : Sess} (hl : Life cf E l s) (n : Str) : s.c.trace.count (.lookupMX n) ≤ 1 := by
  obtain ⟨t0, hB, -, h1, -⟩ := life_backed hl
  have := hB.mx1 n
  have := h1 n
  have : (if s.c.domvalid n.dropLast = none then 0 else 1) ≤ 1 := by split <;> omega
  omega

/-- **C118.** The names of an address are looked up at most once (and once more at the beginning if it is the address of the server, whose
name is not given). -/
theorem C118_names {cf : Conf} {E : Env} {l : List Step} {s : Sess} (hl : Life cf E l s) (a : Str) :
    s.c.trace.count (.lookupAddr a) ≤ 1 + if a = E.lip ∧ cf.srvname = [] then 1 else 0 := by
  obtain ⟨t0, hB, -, -, h1⟩ := life_backed hl
  have := hB.addr1 a
  have := h1 a
  omega

/-- Two senders of one domain, a file of addresses asked for with both: five commands, and each thing is asked once. -/
example : seen (fun _ s _ => [.openFile b!"/list", .lookupMX b!"example.com.", .lookupAddr b!"192.0.2.2"].map fun ev => s.c.trace.count ev)
    (driveAll { demoConf with base := [] } (crashEnv b!"reject from-has baddom\nreject from file:/list\n") {} {}
      (events [.helo false b!"x", .mailfrom b!"a@example.com", .mailfrom b!"b@example.com", .rcptto b!"c@example.com", .rcptto b!"d@example.com"])) =
    .ok [1, 1, 1] := by decide +kernel

/-! ## DNS blocklists are asked again -/

/-- No base rules, and a rules file with one blocklist; no name is listed anywhere. -/
def againConf : Conf := { demoConf with base := [] }
def againEnv : Env := crashEnv b!"reject dnsbl bl.example\n"
def againName : Str := b!"2.2.0.192.bl.example."

/-- The connection after a greeting. -/
def againSess : Sess := match driveAll againConf againEnv {} {} (events [.helo false b!"x"]) with
  | .ok x => x.2.1
  | .error _ => {}

/-- ... whatever it has asked before. -/
def againAt (t : Trace) : Sess := { againSess with c := { againSess.c with trace := t } }

theorem again_step (t : Trace) : ∃ sh' o, sstep againConf againEnv (againAt t) {} { ev := .helo false b!"x" } = .ok (againAt (.lookupIP againName :: t), sh', o) :=
  ⟨_, _, rfl⟩

/-- **C118.** This is not so for DNS blocklists: a name that is not listed is looked up again for every command.  (The answer of DNS is then
an error, and errors are not kept.)  A client that goes on greeting can have it looked up as often as it likes. -/
theorem C118_again : ∀ k, ∃ l s, Life againConf againEnv l s ∧ k ≤ s.c.trace.count (.lookupIP againName) ∧
    ∀ t ips, againEnv.W.lookupIP t againName ≠ .ok ips := by
  have hno : ∀ t ips, againEnv.W.lookupIP t againName ≠ .ok ips := by
    intro t ips h
    have : againEnv.W.lookupIP t againName = .error (demoErr false) := rfl
    rw [this] at h; cases h
  have key : ∀ k, ∃ l t, Life againConf againEnv l (againAt t) ∧ k ≤ t.count (.lookupIP againName) := by
    intro k
    induction k with
    | zero =>
      have h : ∃ l sh, driveAll againConf againEnv {} {} (events [.helo false b!"x"]) = .ok (l, againAt againSess.c.trace, sh) := ⟨_, _, rfl⟩
      obtain ⟨l, sh, h⟩ := h
      exact ⟨l, _, driveAll_life h, Nat.zero_le _⟩
    | succ k ih =>
      obtain ⟨l, t, ⟨sh, i, s0, sh0, o, hst, hr⟩, hk⟩ := ih
      obtain ⟨sh', o', hs⟩ := again_step t
      exact ⟨_, _, ⟨sh, i, s0, sh0, o, hst, .snoc hr hs⟩, by rw [List.count_cons_self]; omega⟩
  intro k
  obtain ⟨l, t, h1, h2⟩ := key k
  exact ⟨l, _, h1, h2, hno⟩

end Sink
