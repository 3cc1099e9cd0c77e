import Verif.Model.Greet
import Verif.Props.Stats
import Verif.Props.Logs
import Verif.Props.NoTls
import Verif.Props.Stored

/-!
# How a client is received: C94, and which times are recorded: C95
-/

namespace Sink
open Spec

namespace Spec

/-- By what happened before, the client at `ip` is a do-nothing client at time `now`, and such clients are looked for. -/
def DoNothing (cf : Conf) (ip : Str) (now : Int) (h : List Hap) : Prop :=
  cf.yakCount > 0 ∧ cf.smtplog = true ∧ ∃ v, value cf.yakTimeout now (yakHist cf ip h) = some v ∧ v ≥ cf.yakCount

/-- The connection `k` from the address in `E` began at `now`, after `h0`; `h` is the history until later. -/
def BeganAt (h : List Hap) (k : Nat) (E : Env) (now : Int) (h0 : List Hap) : Prop :=
  ∃ h1 sh s sh' o, h = h1 ++ ⟨k, E, now, .began sh s sh' o⟩ :: h0

end Spec

/-- What is settled when a connection begins stays. -/
theorem Server.Runs.settled {cf : Conf} {k : Nat} {E : Env} {now : Int} {sh sh' : Shared} {s0 : Sess} {o : List Out} {h0 : List Hap} :
    ∀ {h1 : List Hap} {g : Server}, Server.Runs cf (h1 ++ ⟨k, E, now, .began sh s0 sh' o⟩ :: h0) g →
      ∃ s, g.conns k = some (E, s) ∧ s.stall = s0.stall ∧ s.sname = s0.sname ∧ s.certs = s0.certs := by
  intro h1
  induction h1 with
  | nil => intro g hr; cases hr; exact ⟨s0, by simp⟩
  | cons x h1 ih =>
    intro g hr
    cases hr with
    | @start _ g0 j E1 i s1 sh1 o1 hr hn hk hs =>
      obtain ⟨s, h2, h3⟩ := ih hr
      refine ⟨s, ?_, h3⟩
      have : k ≠ j := fun he => by rw [← he, h2] at hk; cases hk
      simp [this, h2]
    | @step _ g0 j E1 i s1 s2 sh1 o1 hr hn hk hs =>
      obtain ⟨s, h2, h3, h4, h5⟩ := ih hr
      by_cases hj : k = j
      · subst hj
        rw [h2] at hk; cases hk
        have hd := sstep_did hs
        exact ⟨s2, by simp, hd.flags.1.trans h3, hd.params.1.trans h4, hd.params.2.1.trans h5⟩
      · exact ⟨s, by simp [hj, h2], h3, h4, h5⟩

theorem stalled_then {cf : Conf} {h h0 : List Hap} {g : Server} {k : Nat} {E E' : Env} {now : Int} {s : Sess} (hr : Server.Runs cf h g)
    (hb : BeganAt h k E now h0) (hk : g.conns k = some (E', s)) : s.stall = true ↔ DoNothing cf E.rip now h0 := by
  obtain ⟨h1, sh, s0, sh', o, rfl⟩ := hb
  obtain ⟨s1, h2, h3, -⟩ := hr.settled
  obtain ⟨g1, hr1, -⟩ := hr.split
  rw [hk] at h2; cases h2
  rw [h3]
  exact C38_stalled_iff hr1

/-- **C94.** Output is sent slowly, at ten characters a second, with `-S` to everybody, and without it to do-nothing clients only. -/
theorem C94_slow {cf : Conf} {h h0 : List Hap} {g : Server} {k : Nat} {E E' : Env} {now : Int} {s : Sess} (hr : Server.Runs cf h g)
    (hb : BeganAt h k E now h0) (hk : g.conns k = some (E', s)) (slow : Bool) :
    ((slow = true ∨ DoNothing cf E.rip now h0) → (smtpdConf slow s).delay = 100000000) ∧
    (¬ (slow = true ∨ DoNothing cf E.rip now h0) → (smtpdConf slow s).delay = 0) := by
  rw [← stalled_then hr hb hk]
  constructor <;> intro h <;> cases slow <;> cases hs : s.stall <;> simp_all [smtpdConf]

/-- **C94.** The conversation is written to the SMTP log, if there is one, except with do-nothing clients. -/
theorem C94_logged {cf : Conf} {h h0 : List Hap} {g : Server} {k : Nat} {E E' : Env} {now : Int} {s : Sess} (hr : Server.Runs cf h g)
    (hb : BeganAt h k E now h0) (hk : g.conns k = some (E', s)) (slow : Bool) :
    (smtpdConf slow s).logged = true ↔ cf.smtplog = true ∧ ¬ DoNothing cf E.rip now h0 := by
  rw [← stalled_then hr hb hk]
  have := (life_logOK (hr.life.1 _ _ hk)).has
  simp [smtpdConf, this]

/-- **C94.** The server introduces itself, and names itself in TLS, with the name for the local address: the one `-conncfg` has for it, or `-helo`, or the
first name the DNS has, or the address. -/
theorem C94_name {cf : Conf} {h : List Hap} {g : Server} {k : Nat} {E : Env} {s : Sess} {ip : IP} (hr : Server.Runs cf h g)
    (hk : g.conns k = some (E, s)) (hip : E.W.lib.parseIP E.lip = some ip) (slow : Bool) :
    Settings cf E ip (smtpdConf slow s).localName s.certs ∧
    ∀ x, (smtpdConf slow s).tls = some x → x.serverName = (smtpdConf slow s).localName := by
  refine ⟨C48_life_partial hip (hr.life.1 _ _ hk), fun x hx => ?_⟩
  simp only [smtpdConf, Option.map_eq_some_iff] at hx
  obtain ⟨y, -, rfl⟩ := hx
  rfl

/-- **C94.** When the connection is handed to the SMTP library TLS is offered, without session tickets, exactly if there are certificates for the local
address and the client did not fail twice; its certificate is asked for exactly if it did not fail at all. -/
theorem C94_tls {cf : Conf} {h : List Hap} {g : Server} {k : Nat} {E : Env} {now : Int} {s s' : Sess} {sh sh' : Shared}
    {i : Inp} {o : List Out} (hr : Server.Runs cf (⟨k, E, now, .stepped s sh i s' sh' o⟩ :: h) g) (hp : s.pc = .tls) (slow : Bool) :
    ((smtpdConf slow s').tls.isSome = true ↔ s.certs ≠ [] ∧ ¬ TwoRecent now (tlsFailures E.rip h)) ∧
    ∀ x, (smtpdConf slow s').tls = some x → x.certificates = s.certs ∧ x.ticketsDisabled = true ∧
      (x.askClient = true ↔ ¬ OneRecent now (tlsFailures E.rip h)) := by
  obtain ⟨h1, h2⟩ := C41_offered hr hp
  refine ⟨by simpa [smtpdConf] using h1, fun x hx => ?_⟩
  simp only [smtpdConf, Option.map_eq_some_iff] at hx
  obtain ⟨y, hy, rfl⟩ := hx
  exact ⟨(h2 y hy).1, rfl, (h2 y hy).2⟩

/-! ## The times -/

namespace Spec

/-- The times recorded in the steps of a connection, oldest first. -/
def timesOf (cf : Conf) (l : List Step) : List Kind := l.flatMap fun st => stepTime cf st.pre st.i

/-- A message has come in and is not yet answered. -/
def Busy : Pc → Bool
  | .save _ _ _ _ | .decide _ _ => true
  | _ => false

/-- A message came in. -/
def Step.gotMessage (st : Step) : Bool :=
  match st.event with
  | some (.gotdata _) => true
  | _ => false

end Spec

theorem Did.busy {cf : Conf} {E : Env} {s s' : Sess} {sh sh' : Shared} {i : Inp} {o : List Out} (h : Did cf E s sh i s' sh' o) :
    (stepTime cf s i).count .message + (Busy s'.pc).toNat = (Busy s.pc).toNat + ((⟨s, i, sh, s', sh', o⟩ : Step).gotMessage).toNat := by
  cases h with
  | tls hp ht =>
    have : s'.pc = .connect := by unfold tlsStep at ht; cases ht; rfl
    simp [stepTime, hp, Busy, this, Step.gotMessage, Step.event]
  | drop hp | connect hp | closed hp => simp [stepTime, hp, Busy, Step.gotMessage, Step.event]
  | heloRef hp he hd | mailRef hp he hd | rcptRef hp he hd | dataRef hp he hd =>
    simp [stepTime, hp, he, Busy, Step.gotMessage, Step.event, hd.pc]
  | heloAcc hp he hd =>
    simp [stepTime, hp, he, Busy, Step.gotMessage, Step.event, hd.pc, Sess.helod]
  | mailAcc hp he hd | mailCount hp he hd | rcptAcc hp he hd | dataAcc hp he hd =>
    simp [stepTime, hp, he, Busy, Step.gotMessage, Step.event, hd.pc, Sess.mailed, Sess.rcpted]
  | mailDrop hp he hd => simp [stepTime, hp, he, Busy, Step.gotMessage, Step.event]
  | gotKeep hp he | gotSave hp he => simp [stepTime, hp, he, Busy, Step.gotMessage, Step.event, Sess.goto]
  | tlserror hp he | other hp he => simp [stepTime, hp, he, Busy, Step.gotMessage, Step.event]
  | finish hp he =>
    rcases he with ⟨he, -⟩ | ⟨he, -⟩ <;> simp only [stepTime, hp, he, Busy, Step.gotMessage, Step.event] <;> split <;> simp
  | save hp hs hq hx =>
    rcases hx with ⟨q, rfl⟩ | ⟨b, rfl⟩ <;> simp [stepTime, hp, Busy, Step.gotMessage, Step.event]
  | answerFail hp | answerRef hp | answerAcc hp => simp [stepTime, hp, Busy, Step.gotMessage, Step.event]

/-- **C95.** Every message that came in sets the time of the last message once, when it has been answered: at any moment that is all of them, but for the
one that is being dealt with. -/
theorem C95_messages {cf : Conf} {E : Env} {l : List Step} {s : Sess} (h : Life cf E l s) :
    (timesOf cf l).count .message + (Busy s.pc).toNat = l.countP Step.gotMessage := by
  obtain ⟨sh0, i0, s0, sh1, o1, hst, hr⟩ := h
  refine Spec.Run.ind (P := fun l s => (timesOf cf l).count .message + (Busy s.pc).toNat = l.countP Step.gotMessage) hr ?_ ?_
  · simp [timesOf, (startSess_init hst).1, Busy]
  · intro l s1 s2 sh sh' i o _ ih hd _
    have := hd.busy
    simp only [timesOf, List.flatMap_append, List.count_append, List.flatMap_cons, List.flatMap_nil, List.append_nil, List.countP_append,
      List.countP_cons, List.countP_nil] at ih ⊢
    cases hg : (⟨s1, i, sh, s2, sh', o⟩ : Step).gotMessage <;> simp [hg] at this ⊢ <;> omega

/-- **C95.** The time of reaching the phase of `-minphase` is set when the client ends a session in which it was reached, unless that phase is `message`;
a message that could not be stored counts as reaching it.  It is not set in any other case. -/
theorem C95_reached {cf : Conf} {E : Env} {l : List Step} {s : Sess} (h : Life cf E l s) {i : Inp} {s' : Sess} {sh sh' : Shared} {o : List Out} :
    .reachedMinphase ∈ stepTime cf s i ↔
      Step.ended ⟨s, i, sh, s', sh', o⟩ = true ∧ reached cf l = true ∧ cf.minphase ≠ b!"message" := by
  have hg : s.gotsomewhere = reached cf l := C60_minphase h
  unfold stepTime Step.ended Step.event
  cases hp : s.pc <;> simp
  cases he : i.ev <;> simp [hg]

/-- **C95.** It is set at most once for a connection. -/
theorem C95_reached_once {cf : Conf} {E : Env} {l : List Step} {s : Sess} (h : Life cf E l s) : (timesOf cf l).count .reachedMinphase ≤ 1 := by
  obtain ⟨sh0, i0, s0, sh1, o1, hst, hr⟩ := h
  have := Spec.Run.ind (P := fun l s => (timesOf cf l).count .reachedMinphase ≤ if s.pc = .closed then 1 else 0) hr (by simp [timesOf]) ?_
  · split at this <;> omega
  · intro l s1 s2 sh sh' i o _ ih hd _
    simp only [timesOf, List.flatMap_append, List.count_append, List.flatMap_cons, List.flatMap_nil, List.append_nil] at ih ⊢
    have none : s1.pc ≠ .ready → (stepTime cf s1 i).count .reachedMinphase = 0 := by
      intro hp; unfold stepTime; cases hq : s1.pc <;> simp_all
    by_cases hc : s1.pc = .closed
    · have : s2.pc = .closed := by cases hd <;> simp_all
      have h0 := none (by simp [hc])
      simp only [hc, this, if_true] at ih ⊢
      omega
    · simp only [hc, if_false, Nat.le_zero] at ih
      by_cases hr : s1.pc = .ready
      · rw [ih]
        unfold stepTime
        simp only [hr]
        split
        · rename_i he
          have : s2.pc = .closed := by cases hd <;> simp_all
          rw [if_pos this]; split <;> simp
        · rename_i he
          have : s2.pc = .closed := by cases hd <;> simp_all
          rw [if_pos this]; split <;> simp
        · simp
      · rw [ih, none hr]; simp

/-- **C95.** When a connection begins one time is set: `yakker` for a do-nothing client, and `regular` for the others. -/
theorem C95_start {cf : Conf} {h : List Hap} {g : Server} {k : Nat} {E : Env} {now : Int} {sh sh' : Shared} {s : Sess} {o : List Out}
    (hr : Server.Runs cf (⟨k, E, now, .began sh s sh' o⟩ :: h) g) :
    (startTime s = .yakker ↔ DoNothing cf E.rip now h) ∧ (startTime s = .regular ↔ ¬ DoNothing cf E.rip now h) := by
  have := C38_stalled_iff hr
  unfold DoNothing
  rw [← this]
  unfold startTime
  cases s.stall <;> simp

/-! ## Examples -/

/-- Two useless sessions, and then the client is received slowly and without a log. -/
example : served (fun _ g => [0, 1, 2].map fun k => (g.conns k).map fun x => ((smtpdConf false x.2).delay, (smtpdConf false x.2).logged,
      decide ((smtpdConf false x.2).localName = b!"here"))) demoConfY
    (session 0 demoEnv 1 [.done] ++ session 1 demoEnv 2 [.done] ++ session 2 demoEnv 3 [.done]) =
    some [some (0, true, true), some (0, true, true), some (100000000, false, true)] := by decide +kernel

/-- With `-S` everybody is. -/
example : served (fun _ g => (g.conns 0).map fun x => (smtpdConf true x.2).delay) demoConfY (session 0 demoEnv 1 [.done]) = some (some 100000000) := by
  decide +kernel

/-- The times recorded for a message and a session that got somewhere. -/
example : seen (fun l _ _ => timesOf { demoConf with minphase := b!"to", savedir := [] } l) (driveAll { demoConf with rulefiles := [], minphase := b!"to", savedir := [] } demoEnv {} {}
      (events [.helo false b!"me.example.com", .mailfrom b!"u@example.com", .rcptto b!"v@example.com", .data, .gotdata b!"x"] ++
        [({} : Inp), { ev := .done }])) = .ok [.message, .reachedMinphase] := by decide +kernel

end Sink
