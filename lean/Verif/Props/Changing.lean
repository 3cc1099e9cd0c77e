import Verif.Lemmas.Snapshot

/-!
# C86: answers in a changing world

C76 says that in a world that does not change the answers of a connection follow from its rules and its commands.  Here pattern files, mail
exchangers and names of addresses may change all the time.  A connection asks each of these questions once and keeps the answer
(rules.go:54-82, sinksmtp.go:109-131, conncfg.go), so there is one fixed world in which all its answers follow from the rules and the commands.

The addresses of names must stay: two domains can have the same mail exchanger, whose addresses are then asked for twice.
-/

namespace Sink
open Spec

theorem blocks_true : ∀ e : Expr, Blocks (fun _ => True) e
  | .andL ns => by
    rw [Blocks]
    intro n hn
    exact blocks_true n
  | .notN e => by rw [Blocks]; exact blocks_true e
  | .orN l r => by rw [Blocks]; exact ⟨blocks_true l, blocks_true r⟩
  | .dnsbl d | .dbl _ d => by rw [Blocks]; trivial
  | .all | .tls _ | .matchN _ _ | .source _ | .optN _ _ => by simp [Blocks]

/-- **C86.** While the addresses of names stay, but pattern files, mail exchangers, names of addresses and texts may change at any time:
there is one unchanging world, with the answers the connection got, in which every reply of the connection is the one for the ruling of the
history. -/
theorem C86_answers {o : BaseOpts} {cf : Conf} (hb : Built o cf) {E : Env} (hip : ∀ t n, E.W.lookupIP t n = E.W.lookupIP 0 n)
    {sh0 sh1 : Shared} {i0 : Inp} {s0 s : Sess} {o1 : List Out} {l : List Step} (hst : startSess cf E sh0 i0 = .ok (s0, sh1, o1))
    (hr : Run cf E s0 l s) :
    ∃ W0, Snapshot E.W s0.c.trace s.c.trace W0 ∧ ∃ rules, Loaded cf E s.stall rules ∧
      (∀ l1 st l2 ph e id, l = l1 ++ st :: l2 → st.asked = some (ph, e, id) →
        ∃ a w, Ruling { E with W := W0 } rules l1 ph e a w ∧ st.post.c.withprops = w ∧
          (sent st.out = answerTo ph a (w.message.getD []) id (envelope l1).rcpts ∧ st.post.pc = .ready ∨
           (a = .noresult ∨ a = .accept) ∧ st.rsetDrop)) ∧
      ∀ l1 st l2, l = l1 ++ st :: l2 → st.pre.pc = .connect →
        ∃ used a, FirstMatch W0 (facts { E with W := W0 } l1) (heard l1) .connect rules used a ∧ sent st.out = [] ∧
          st.post.pc = if a = .reject then .closed else .ready := by
  obtain ⟨k, hk, hB, hLk⟩ : ∃ k ≤ 1, Backed E.W s0.c.trace k s.c ∧ (¬ Early s → Looked E s0.c.trace s) := by
    obtain ⟨h1, h2⟩ := run_backed hst hr
    by_cases h : Early s
    · exact ⟨0, by omega, h1 h, fun hh => absurd h hh⟩
    · exact ⟨1, by omega, (h2 h).1, fun _ => (h2 h).2⟩
  have hS := hB.snapshot hk
  generalize E.W.found s0.c.trace s.c.trace = W0 at hS
  have hf : Fits W0 E s := by
    refine ⟨hB.cacheOK hip hS rfl, fun h => ?_⟩
    obtain ⟨u, h1, h2, h3⟩ := hLk h
    rw [h3, hS.rdns hip E.rip h1 h2]
  have hl : Lists (fun _ => True) E.W W0 := fun t x d _ => by
    unfold ListedAt Listed
    rw [hip, hS.lookupIP]
  have hP : ∀ r ∈ s0.c.ruleset, RBlocks (fun _ => True) r := fun r _ x _ => blocks_true x.expr
  exact ⟨W0, hS, s0.c.ruleset, (run_flags hr).1 ▸ startSess_loaded hst, fits_answers hb hS.static hS.lib hl hst hP hr hf,
    fits_connect hb hS.static hS.lib hl hst hP hr hf⟩

/-- The list `/l` changes after six questions, and only then mail exchangers can be found. -/
def restless : World := { demoWorld with
  files := fun n f => if f = b!"/l" then .data (if n < 6 then b!"joe@example.com\n" else b!"ann@example.com\n") else .notExist []
  lookupMX := fun n _ => if n < 6 then .error (demoErr true) else .ok [⟨b!"example.com.", 0⟩] }

def restlessEnv : Env := { demoEnv with W := restless, fs := fun _ => tbl (.notExist b!"no such file") [
  (b!"/c", .data b!"@from reject from /l with message listed\n@from stall from-has unknown with message later\n")] }

def restlessConf : Conf := { demoConf with rulefiles := [b!"/c"] }

example : Built ⟨true, false, [], [], []⟩ restlessConf ∧ (∀ t n, restlessEnv.W.lookupIP t n = restlessEnv.W.lookupIP 0 n) ∧ ¬ restlessEnv.W.Static :=
  ⟨⟨⟨demoLib, fun _ _ => .notExist [], 5, by decide +kernel⟩, ⟨demoLib, fun _ _ => .notExist [], 5, by decide +kernel⟩⟩, fun _ _ => rfl,
    fun h => absurd (h.lookupMX 6 []) (by simp [restlessEnv, restless])⟩

/-- A connection keeps the list and the mail exchangers it found first. -/
example : seen (fun l s _ => ((l.drop 2).map fun st => sent st.out, s.c.trace.reverse.drop 4)) (driveAll restlessConf restlessEnv {} {} (events
    [.helo false b!"me.example.com", .mailfrom b!"ann@example.com", .mailfrom b!"u@example.org", .mailfrom b!"joe@example.com",
     .mailfrom b!"ann@example.com"])) =
    .ok ([[], [.tempfailMsg b!"later"], [.accept], [.rejectMsg b!"listed"], [.tempfailMsg b!"later"]],
      [.lookupMX b!"example.com.", .openFile b!"/l", .lookupMX b!"example.org.", .lookupIP b!"example.com."]) := by
  decide +kernel

end Sink
