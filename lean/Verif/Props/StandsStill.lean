import Verif.Lemmas.Echo
import Verif.Props.Alone
import Verif.Props.Onlyreject
import Verif.Props.Order
import Verif.Props.Changing

/-!
# C115: a connection in a changing world is one in a world that stands still

Many properties suppose a world that does not change (`World.Static`): files that stay as they are, names that always have the same addresses.
Here most of it may change while the connection lives: pattern files, mail exchangers, the names of addresses.  The program asks for each of
these at most once and keeps the answer (rules.go:54-82, sinksmtp.go:109-131 and 1024), so the whole life of the connection, with all its
states, replies, files and log lines, is also one in a world that does not change and that has the answers the connection got.  What is proved
of connections in such a world is so proved of all.

The addresses of names have to stay (`C86_addresses_needed`).  So do SBL records, the file of connection parameters and the names of the local
address (if they are asked for), as these may be asked for twice.
-/

namespace Sink
open Spec

/-- What has to stay as it is. -/
structure Steadfast (cf : Conf) (E : Env) : Prop where
  addresses : ∀ t n, E.W.lookupIP t n = E.W.lookupIP 0 n
  texts : ∀ t n, E.W.lookupTXT t n = E.W.lookupTXT 0 n
  params : cf.connfile ≠ [] → ∀ t, E.W.files t cf.connfile = E.W.files 0 cf.connfile
  name : cf.srvname = [] → ∀ t, E.W.lookupAddr t E.lip = E.W.lookupAddr 0 E.lip

/-- **C115.** Every life of a connection is also a life in a world that does not change, in which every question that was asked has the answer
that was got. -/
theorem C115_still {cf : Conf} {E : Env} (hE : Steadfast cf E) {l : List Step} {s : Sess} (h : Life cf E l s) :
    ∃ W0, W0.Static ∧ Echo E.W W0 s.c.trace ∧ Life cf { E with W := W0 } l s :=
  life_echo h hE.addresses hE.texts hE.params hE.name

/-- **C115.** So whatever all connections in an unchanging world do, ... -/
theorem C115_transfer {cf : Conf} {P : List Step → Sess → Prop} {E : Env} (hE : Steadfast cf E)
    (hP : ∀ W0 : World, W0.Static → W0.lib = E.W.lib → ∀ l s, Life cf { E with W := W0 } l s → P l s) {l : List Step} {s : Sess}
    (h : Life cf E l s) : P l s := by
  obtain ⟨W0, h1, h2, h3⟩ := C115_still hE h
  exact hP W0 h1 h2.lib l s h3

theorem loaded_lib {cf : Conf} {E : Env} {W0 : World} (hl : W0.lib = E.W.lib) {b : Bool} {rules : List Rule}
    (h : Loaded cf { E with W := W0 } b rules) : Loaded cf E b rules := by
  unfold Loaded at h ⊢
  simp only [hl] at h
  exact h

/-- **C115.** ... e.g. C98, that with rules that only refuse a message is accepted once its sender and its recipients are, ... -/
theorem C115_message {o : BaseOpts} {cf : Conf} (hb : Built o cf) {E : Env} (hE : Steadfast cf E) {l : List Step} {s : Sess} (h : Life cf E l s) :
    ∃ rules, Loaded cf E s.stall rules ∧ (OnlyRefuses rules → ∀ l1 st l2 ph e id b m t x, l = l1 ++ st :: l2 →
      st.asked = some (ph, e, id) → ph = .data ∨ ph = .message → Mailed l1 b m t x → SteadyTls b t → (envelope l1).rcpts ≠ [] →
      replies st.out = [.accepted]) :=
  C115_transfer hE (P := fun l s => ∃ rules, Loaded cf E s.stall rules ∧ (OnlyRefuses rules → ∀ l1 st l2 ph e id b m t x, l = l1 ++ st :: l2 →
      st.asked = some (ph, e, id) → ph = .data ∨ ph = .message → Mailed l1 b m t x → SteadyTls b t → (envelope l1).rcpts ≠ [] →
      replies st.out = [.accepted])) (fun W0 hs hl l s h => by
    obtain ⟨rules, h1, h2⟩ := C98_message hb (E := { E with W := W0 }) hs h
    exact ⟨rules, loaded_lib hl h1, h2⟩) h

/-- **C115.** ... C109, what `-M` does without rules files, ... -/
theorem C115_options {o : BaseOpts} {cf : Conf} (hc : Configured o cf) (hf : cf.rulefiles = []) {E : Env} (hE : Steadfast cf E)
    {l : List Step} {s : Sess} (h : Life cf E l s) (hst : s.stall = false) {b t l2 : List Step} {m st : Step} {x : Str}
    (hl : l = b ++ m :: t ++ st :: l2) (hm : Mailed (b ++ m :: t) b m t x) (hne : (envelope (b ++ m :: t)).rcpts ≠ [])
    {ph : Phase} {e : Evt} {id : Str} (ha : st.asked = some (ph, e, id)) (hph : ph = .data ∨ ph = .message) :
    replies st.out = if ph = .message ∧ o.failgotdata = true then [.rejected] else [.accepted] := by
  obtain ⟨W0, h1, -, h3⟩ := C115_still hE h
  exact C109_message hc hf (E := { E with W := W0 }) h1 h3 hst hl hm hne ha hph

/-- **C115.** ... and C92, that a message that was handed over has passed the rules at every stage. -/
theorem C115_passed {o : BaseOpts} {cf : Conf} (hb : Built o cf) {E : Env} (hE : Steadfast cf E) {l : List Step} {s : Sess} (h : Life cf E l s)
    (ho : Orderly l) : ∃ W0, W0.Static ∧ Echo E.W W0 s.c.trace ∧ ∃ rules, Loaded cf E s.stall rules ∧ ∀ l1 st l2, l = l1 ++ st :: l2 → IsMsg st →
      ∃ a hs b ms c ds, Complete l1 a hs b ms c ds ∧
        (∃ i, Passed { E with W := W0 } rules a .helo ⟨i, (envelope l1).helo⟩) ∧
        Passed { E with W := W0 } rules (a ++ hs :: b) .mfrom ⟨false, (envelope l1).from_⟩ ∧
        (∀ r ∈ (envelope l1).rcpts, ∃ c1 q c2, c = c1 ++ q :: c2 ∧
          Passed { E with W := W0 } rules (a ++ hs :: (b ++ ms :: c1)) .rto ⟨false, r⟩) ∧
        Passed { E with W := W0 } rules (a ++ hs :: (b ++ ms :: c)) .data {} := by
  obtain ⟨W0, h1, h2, h3⟩ := C115_still hE h
  obtain ⟨rules, h4, h5⟩ := C92_passed hb (E := { E with W := W0 }) h1 h3 ho
  exact ⟨W0, h1, h2, rules, loaded_lib h2.lib h4, h5⟩

/-! ## An example -/

/-- In the restless world of C86 files and mail exchangers change during the connection. -/
example : Steadfast restlessConf restlessEnv ∧ ¬ restlessEnv.W.Static :=
  ⟨⟨fun _ _ => rfl, fun _ _ => rfl, fun h => absurd rfl h, fun _ _ => rfl⟩, fun h => absurd (h.lookupMX 6 []) (by simp [restlessEnv, restless])⟩

/-- The same world, standing still as the connection below finds it. -/
def rested : World := { demoWorld with
  files := fun _ f => if f = b!"/l" then .data b!"joe@example.com\n" else .notExist []
  lookupMX := fun _ n => if n = b!"example.com." then .error (demoErr true) else .ok [⟨b!"example.com.", 0⟩] }

example : rested.Static := ⟨fun _ _ => rfl, fun _ _ => rfl, fun _ _ => rfl, fun _ _ => rfl, fun _ _ => rfl⟩

/-- The same replies, log lines, files and questions in both. -/
example : seen (fun l s _ => (l.map fun st => st.out, s.c.trace)) (driveAll restlessConf restlessEnv {} {} (events
    [.helo false b!"me.example.com", .mailfrom b!"ann@example.com", .mailfrom b!"u@example.org", .mailfrom b!"joe@example.com",
     .mailfrom b!"ann@example.com"])) =
    seen (fun l s _ => (l.map fun st => st.out, s.c.trace)) (driveAll restlessConf { restlessEnv with W := rested } {} {} (events
    [.helo false b!"me.example.com", .mailfrom b!"ann@example.com", .mailfrom b!"u@example.org", .mailfrom b!"joe@example.com",
     .mailfrom b!"ann@example.com"])) := by
  decide +kernel

end Sink
