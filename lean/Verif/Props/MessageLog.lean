import Verif.Props.LogLine
import Verif.Props.Kept
import Verif.Props.Stats

/-!
# C121: what the names of saved files do not tell is in the message log

The manual on `-save-hash msg`: metadata "must be recovered from the message log".
-/

namespace Sink

open Spec

/-- A message that was received: what was accepted before it, its data, and when and where it came in. -/
structure Spec.MailIn where
  env : Envelope
  data : Str
  E : Env
  i : Inp

/-- All messages a server has received, newest first. -/
def Spec.mailsIn : List Hap → List MailIn
  | [] => []
  | e :: h => (match (Hap.step e).bind fun st => st.event.map fun ev => (st, ev) with
    | some (st, .gotdata data) => [⟨envelope (stepsOf e.k h), data, e.E, st.i⟩]
    | _ => []) ++ mailsIn h

/-- The lines of the message log of a server, newest first. -/
def Spec.mailLog (h : List Hap) : List Str := h.flatMap fun e => msglogs (Hap.out e)

theorem startSess_msglogs {cf : Conf} {E : Env} {sh sh' : Shared} {i : Inp} {s : Sess} {o : List Out} (h : startSess cf E sh i = .ok (s, sh', o)) :
    msglogs o = [] := by
  have hy : ∀ cf E i t x, msglogs (yakLog cf E i t x) = [] := by intro cf E i t x; unfold yakLog; split <;> rfl
  have hc : ∀ cf E x t, msglogs (connParams cf E x t).2.2.2 = [] := by
    intro cf E x t
    unfold connParams
    split
    · rfl
    · simp only; split
      · rfl
      · split <;> rfl
  unfold startSess at h
  simp only [bind, Except.bind, pure, Except.pure] at h
  split at h
  · cases h
  · rename_i r hr
    obtain ⟨rules, good, w⟩ := r
    split at h
    · cases h
    · cases h
      rw [msglogs_append, msglogs_append, hc, List.append_nil]
      have h2 : ∀ (b : Bool) t, msglogs (if b = true then Out.count .yakkers :: yakLog cf E i t b!"connection" else []) = [] := by
        intro b t
        cases b
        · rfl
        · exact hy _ _ _ _ _
      rw [h2]
      cases w <;> rfl

/-- **C121.** With `-l`, the message log of a server has exactly one line for each message received, in the order in which they came in over all connections, and the
line tells the sender and the recipients that were accepted for it, the hash that names its file with `-save-hash msg`, and the rest. -/
theorem C121_log {cf : Conf} (hlog : cf.logf = true) {h : List Hap} {g : Server} (hr : Server.Runs cf h g)
    (hW : ∀ e ∈ h, WordEnv e.E ∧ c!"]" ∉ e.E.prefix_) (hm : ∀ x ∈ mailsIn h, c!"[" ∉ x.i.nowText ∧ c!">" ∉ x.env.from_ ∧ ∀ a ∈ x.env.rcpts, c!">" ∉ a) :
    (mailLog h).map readLog = (mailsIn h).map fun x => some {
      time := x.i.nowText, id := x.E.prefix_, client := x.E.raddr, sender := x.env.from_, rcpts := x.env.rcpts
      size := x.data.length, hash := x.E.H.gen x.data, bodyhash := (getHashes x.E.H x.data).2, here := x.E.laddr, helo := x.env.helo
      tls := if x.i.tls.on then some (x.i.tls.cipher.toNat, x.i.tls.version.toNat) else none } := by
  induction hr with
  | init fs => rfl
  | @start h g j E i s sh' o hr hn hk hs ih =>
    have e1 : mailLog (⟨j, E, i.now, .began g.sh s sh' o⟩ :: h) = mailLog h := by
      show msglogs o ++ mailLog h = _
      rw [startSess_msglogs hs]; rfl
    have e2 : mailsIn (⟨j, E, i.now, .began g.sh s sh' o⟩ :: h) = mailsIn h := rfl
    rw [e1, e2]
    exact ih (fun e he => hW e (List.mem_cons_of_mem _ he)) (by rw [e2] at hm; exact hm)
  | @step h g j E i s s' sh' o hr hn hk hs ih =>
    have hl := hr.life.1 _ _ hk
    have e1 : mailLog (⟨j, E, i.now, .stepped s g.sh i s' sh' o⟩ :: h) = msglogs o ++ mailLog h := rfl
    have ihW : ∀ e ∈ h, WordEnv e.E ∧ c!"]" ∉ e.E.prefix_ := fun e he => hW e (List.mem_cons_of_mem _ he)
    by_cases hg : ∃ data, (⟨s, i, g.sh, s', sh', o⟩ : Step).event = some (.gotdata data)
    · obtain ⟨data, hev⟩ := hg
      have e2 : mailsIn (⟨j, E, i.now, .stepped s g.sh i s' sh' o⟩ :: h) = ⟨envelope (stepsOf j h), data, E, i⟩ :: mailsIn h := by
        simp only [mailsIn, Hap.step, Option.bind_some, hev, Option.map_some]
        rfl
      rw [e2] at hm ⊢
      obtain ⟨m1, m2, m3⟩ := hm _ (List.mem_cons_self ..)
      obtain ⟨w1, w2⟩ := hW _ (List.mem_cons_self ..)
      obtain ⟨line, l1, l2⟩ := C78_read_log (st := ⟨s, i, g.sh, s', sh', o⟩) w1 w2 hlog hl hs hev m1 m2 m3
      have l1' : msglogs o = [line] := l1
      rw [e1, l1', List.singleton_append, List.map_cons, List.map_cons, l2, ih ihW fun x hx => hm x (List.mem_cons_of_mem _ hx)]
    · have h0 : msglogs o = [] := (sstep_did hs).msglogs fun data h => hg ⟨data, by unfold Step.event; rw [if_pos h.1, h.2]⟩
      have e2 : mailsIn (⟨j, E, i.now, .stepped s g.sh i s' sh' o⟩ :: h) = mailsIn h := by
        simp only [mailsIn, Hap.step, Option.bind_some]
        cases hev : (⟨s, i, g.sh, s', sh', o⟩ : Step).event with
        | none => rfl
        | some ev =>
          cases ev with
          | gotdata data => exact absurd ⟨data, hev⟩ hg
          | _ => rfl
      rw [e2] at hm ⊢
      rw [e1, h0]
      exact ih ihW hm

/-- A message that came in is one of them. -/
theorem came_mailsIn {cf : Conf} {h : List Hap} {g : Server} (hr : Server.Runs cf h g) {k : Nat} {E : Env} {s : Sess} (hk : g.conns k = some (E, s)) {l m : List Step}
    {a : Step} {data : Str} (hl : stepsOf k h = l ++ a :: m) (hev : a.event = some (.gotdata data)) : ⟨envelope l, data, E, a.i⟩ ∈ mailsIn h := by
  induction hr generalizing E s l m with
  | init fs => cases hk
  | @start h g j E0 i s0 sh' o hr hn hj hs ih =>
    have e2 : mailsIn (⟨j, E0, i.now, .began g.sh s0 sh' o⟩ :: h) = mailsIn h := rfl
    rw [e2]
    by_cases hjk : k = j
    · subst hjk
      rw [stepsOf, if_pos rfl] at hl
      simp at hl
    · simp only [if_neg hjk] at hk
      rw [stepsOf, if_neg (Ne.symm hjk)] at hl
      exact ih hk hl
  | @step h g j E0 i s0 s1 sh' o hr hn hj hs ih =>
    by_cases hjk : k = j
    · subst hjk
      simp only [if_pos] at hk
      cases hk
      rw [stepsOf, if_pos rfl] at hl
      rcases split_snoc hl with ⟨rfl, h2, h3⟩ | ⟨m', rfl, h2⟩
      · subst h2 h3
        simp only [mailsIn, Hap.step, Option.bind_some, hev, Option.map_some]
        exact List.mem_append_left _ (List.mem_singleton.2 rfl)
      · exact List.mem_append_right _ (ih hj h2)
    · simp only [if_neg hjk] at hk
      rw [stepsOf, if_neg (Ne.symm hjk)] at hl
      exact List.mem_append_right _ (ih hk hl)

/-- **C121.** With `-save-hash msg` (which needs `-l`): for every message that was to be saved the log has a line with the name of its file, its sender and its
recipients. -/
theorem C121_recover {cf : Conf} (hlog : cf.logf = true) (hmsg : cf.hashtype = b!"msg") {h : List Hap} {g : Server} (hr : Server.Runs cf h g)
    (hW : ∀ e ∈ h, WordEnv e.E ∧ c!"]" ∉ e.E.prefix_) (hm : ∀ x ∈ mailsIn h, c!"[" ∉ x.i.nowText ∧ c!">" ∉ x.env.from_ ∧ ∀ a ∈ x.env.rcpts, c!">" ∉ a)
    {k : Nat} {E : Env} {s : Sess} (hk : g.conns k = some (E, s)) {l : List Step} {a : Step} {data tgt r : Str} (hc : CameIn cf h k E l a data tgt r) :
    ∃ line ∈ mailLog h, ∃ x dir, readLog line = some x ∧ tgt = dir ++ b!"/" ++ x.hash ∧ x.sender = (envelope l).from_ ∧ x.rcpts = (envelope l).rcpts ∧
      x.size = data.length := by
  obtain ⟨⟨m, hm1⟩, h1, h2, n, h3⟩ := hc
  have hmem := came_mailsIn hr hk hm1 h2
  have := List.mem_map_of_mem (f := fun x : MailIn => some ({
      time := x.i.nowText, id := x.E.prefix_, client := x.E.raddr, sender := x.env.from_, rcpts := x.env.rcpts
      size := x.data.length, hash := x.E.H.gen x.data, bodyhash := (getHashes x.E.H x.data).2, here := x.E.laddr, helo := x.env.helo
      tls := if x.i.tls.on then some (x.i.tls.cipher.toNat, x.i.tls.version.toNat) else none } : Logged)) hmem
  rw [← C121_log hlog hr hW hm] at this
  obtain ⟨line, hline, hread⟩ := List.mem_map.1 this
  obtain ⟨hs, dir, hd⟩ := arrived_saves h1 h2 h3
  exact ⟨line, hline, _, dir, hread, by rw [hd, C44_msg hs hmsg], rfl, rfl, rfl⟩

/-- Two senders with the same message: one file, two lines with its name, from which both senders are recovered. -/
example : served (fun h _ => decide ((mailLog h).map (fun x => (readLog x).map fun y => (y.hash, y.sender)) =
        [some (b!"len3", b!"c@example.com"), some (b!"len3", b!"b@example.com")] ∧
      ([1, 2].map fun k => (messages (stepsOf k h)).map Prod.fst) = [[demoConf.savedir ++ b!"/len3"], [demoConf.savedir ++ b!"/len3"]]))
        { demoConf with hashtype := b!"msg", logf := true }
        (deliveryFrom 1 demoEnvP b!"b@example.com" [.ok, .ok, .ok, .ok] ++ deliveryFrom 2 { demoEnvP with prefix_ := b!"7/2" } b!"c@example.com" [.ok]) =
    some true := by
  decide +kernel

end Sink
