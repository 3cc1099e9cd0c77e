import Verif.Props.Stats
import Verif.Props.Server
import Verif.Props.Conncfg

/-!
# Connections counted as refused TLS: C91

`events/notls_conns` counts connections of clients with two TLS failures.  A comment (sinksmtp.go:1013-1016) says that this can only happen if
TLS is enabled and available, so the certificates need not be checked.  That is so without `-conncfg`, and not with it.
-/

namespace Sink
open Spec

/-- TLS fails only where it was offered.  This is what package smtpd does: a TLS error comes after STARTTLS, which it refuses unless the
connection has a TLS configuration. -/
def Spec.TlsHonest (h : List Hap) : Prop :=
  ∀ k E now s sh i s' sh' o, (⟨k, E, now, .stepped s sh i s' sh' o⟩ : Hap) ∈ h →
    (⟨s, i, sh, s', sh', o⟩ : Step).event = some .tlserror → s.tlsCfg ≠ none

/-- **C91.** A connection is counted in `notls_conns` exactly when it is set up and its client had two TLS failures lately, at most once. -/
theorem C91_counted {cf : Conf} {h : List Hap} {g : Server} {k : Nat} {E : Env} {now : Int} {s s' : Sess} {sh sh' : Shared}
    {i : Inp} {o : List Out} (hr : Server.Runs cf (⟨k, E, now, .stepped s sh i s' sh' o⟩ :: h) g) :
    (s.pc = .tls ∧ TwoRecent now (tlsFailures E.rip h) → tally .notlscnt o = 1) ∧
    (¬ (s.pc = .tls ∧ TwoRecent now (tlsFailures E.rip h)) → tally .notlscnt o = 0) := by
  cases hr with
  | @step h g _ _ i _ _ _ _ hr hn hk hs =>
    have hlook := (hr.tables E.rip hn).2.lookup.1
    have htwo := value_two (now := i.now) (ts := tlsFailures E.rip h)
    generalize hv : value tlsTimeout i.now (addsAt (tlsFailures E.rip h)) = v at hlook htwo
    obtain ⟨h1, h2⟩ := C65_step (hr.life.1 _ _ hk) hs (x := .notlscnt) (by decide)
    have e : Happened cf E (stepsOf k h) ⟨s, i, g.sh, s', sh', o⟩ .notlscnt ↔ s.pc = .tls ∧ TwoRecent i.now (tlsFailures E.rip h) := by
      unfold Happened
      simp only [hlook, ← htwo]
      cases v <;> simp
    rw [← e]
    exact ⟨h1, h2⟩

/-- Without a connection parameter file all connections have the certificates of the command line. -/
theorem life_certs {cf : Conf} {E : Env} {l : List Step} {s : Sess} (hc : cf.connfile = []) (h : Life cf E l s) : s.certs = cf.certs := by
  obtain ⟨sh, i, s0, sh0, o, hst, hr⟩ := h
  obtain ⟨-, h2, -⟩ := run_params hr
  obtain ⟨n, t, o', -, -, h1, -⟩ := startSess_params hst
  rw [h2, h1]
  simp [connParams, hc]

/-- Without certificates there are no TLS failures. -/
theorem no_failures {cf : Conf} {h : List Hap} {g : Server} (hr : Server.Runs cf h g) (hc : cf.connfile = []) (h0 : cf.certs = [])
    (hh : TlsHonest h) (ip : Str) : tlsFailures ip h = [] := by
  induction hr with
  | init => rfl
  | start hr hn hk hs ih => exact ih fun k E now s sh i s' sh' o hm => hh k E now s sh i s' sh' o (.tail _ hm)
  | step hr hn hk hs ih =>
    have hl := hr.life.1 _ _ hk
    have hnone := C48_no_certificates hl ((life_certs hc hl).trans h0)
    unfold tlsFailures
    rw [if_neg]
    · exact ih fun k E now s sh i s' sh' o hm => hh k E now s sh i s' sh' o (.tail _ hm)
    · rintro ⟨-, -, he⟩
      exact hh _ _ _ _ _ _ _ _ _ (.head _) he hnone

/-- **C91**, partial: without `-conncfg` only connections that have certificates, so that they could be offered TLS, are counted as refused
TLS.  Missing: with `-conncfg` this is false (`C91_not_always`). -/
theorem C91_partial {cf : Conf} (hc : cf.connfile = []) {h : List Hap} {g : Server} {k : Nat} {E : Env} {now : Int} {s s' : Sess} {sh sh' : Shared}
    {i : Inp} {o : List Out} (hr : Server.Runs cf (⟨k, E, now, .stepped s sh i s' sh' o⟩ :: h) g) (hh : TlsHonest h)
    (hm : .count .notlscnt ∈ o) : s.certs ≠ [] := by
  intro h0
  have hpos : tally .notlscnt o ≠ 0 := by
    have : 0 < tally .notlscnt o := List.countP_pos_iff.mpr ⟨_, hm, by simp⟩
    omega
  have hx := (C91_counted hr).2
  by_cases ht : s.pc = .tls ∧ TwoRecent now (tlsFailures E.rip h)
  · cases hr with
    | step hr hn hk hs =>
      have hl := hr.life.1 _ _ hk
      rw [no_failures hr hc ((life_certs hc hl).symm.trans h0) hh] at ht
      unfold TwoRecent at ht
      simp at ht
  · exact hpos (hx ht)

/-- The demonstration server is reached on 192.0.2.9, with a certificate, and on 192.0.2.8, without. -/
def demoEnvN (lip : Str) : Env :=
  { demoEnv with
    W := { demoWorld with files := fun _ => tbl (.notExist b!"no such file") [(b!"/conn", .data b!"192.0.2.8 hostname=other\n")] }
    laddr := lip ++ b!":25", lip := lip }

def demoConfN : Conf := { demoConf with connfile := b!"/conn", certs := [⟨b!"cert", b!"key"⟩] }

/-- Two TLS failures on one address, then a connection to the other. -/
def plainActs : List Act :=
  session 0 (demoEnvN b!"192.0.2.9") 1 [.tlserror, .done] ++ session 1 (demoEnvN b!"192.0.2.9") 2 [.tlserror, .done] ++
    [.conn 2 (demoEnvN b!"192.0.2.8") { now := 3 }, .inp 2 { now := 3 }]

/-- What `C91_not_always` needs of a history. -/
def plainBad : List Hap → Bool
  | ⟨_, _, _, .stepped s _ _ _ _ o⟩ :: h => decide (s.certs = []) && decide (Out.count .notlscnt ∈ o) && h.all fun e => match e.what with
    | .stepped s sh i s' sh' o => !decide ((⟨s, i, sh, s', sh', o⟩ : Step).event = some .tlserror) || s.tlsCfg.isSome
    | _ => true
  | _ => false

theorem plainBad_found {cf : Conf} {g : Server} : ∀ {h : List Hap}, Server.Runs cf h g → plainBad h = true →
    ∃ h g k E now s s' sh sh' i o, Server.Runs cf (⟨k, E, now, .stepped s sh i s' sh' o⟩ :: h) g ∧ TlsHonest h ∧
      .count .notlscnt ∈ o ∧ s.certs = []
  | [], _, key => by cases key
  | ⟨_, _, _, .began _ _ _ _⟩ :: _, _, key => by cases key
  | ⟨k, E, now, .stepped s sh i s' sh' o⟩ :: h, hr, key => by
    simp only [plainBad, Bool.and_eq_true, decide_eq_true_eq, List.all_eq_true] at key
    obtain ⟨⟨h1, h2⟩, h3⟩ := key
    refine ⟨h, g, k, E, now, s, s', sh, sh', i, o, hr, ?_, h2, h1⟩
    intro k E now s sh i s' sh' o hm he
    have := h3 _ hm
    simp only [he, decide_true, Bool.not_true, Bool.false_or] at this
    intro hn
    rw [hn] at this
    cases this

theorem plainActs_bad : (serveAll demoConfN plainActs).any (fun x => plainBad x.1) = true := by decide +kernel

/-- **C91**, why partial: with `-conncfg` a connection that has no certificates can be counted as refused TLS. -/
theorem C91_not_always : ∃ cf h g k E now s s' sh sh' i o, Server.Runs cf (⟨k, E, now, .stepped s sh i s' sh' o⟩ :: h) g ∧ TlsHonest h ∧
    .count .notlscnt ∈ o ∧ s.certs = [] := by
  obtain ⟨x, hx, hb⟩ := (Option.any_eq_true _ _).1 plainActs_bad
  exact ⟨demoConfN, plainBad_found (serveAll_runs hx) hb⟩

/-- Without the file the third connection is counted too, but there TLS could have been offered. -/
example : served (fun h _ => (tally .notlscnt (h.flatMap Hap.out), h.head?.map fun e => match e.what with | .stepped s .. => s.certs | _ => []))
    { demoConfN with connfile := [] } plainActs = some (1, some [⟨b!"cert", b!"key"⟩]) := by decide +kernel

end Sink
