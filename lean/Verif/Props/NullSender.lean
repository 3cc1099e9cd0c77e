import Verif.Props.Replies
import Verif.Props.Decide
import Verif.Props.Stats
import Verif.Spec.DemoSession

/-!
# C25 on the connection
-/

namespace Sink
open Spec

/-- **C25.** On the connection: MAIL FROM:<> is answered positively whatever the rules, in any world, unless the session is ended for its
resets. -/
theorem C25_reply {cf : Conf} {E : Env} {st : Step} (h : st.Ok cf E) (he : st.event = some (.mailfrom [])) :
    (sent st.out = [.accept] ∨ ∃ m, sent st.out = [.acceptMsg m]) ∧ st.post.pc = .ready ∨ st.rsetDrop := by
  have ha : st.asked = some (.mfrom, ⟨false, []⟩, []) := by
    unfold Step.event at he
    split at he
    · rename_i hp
      unfold Step.asked
      rw [hp]
      simp only [Option.some.injEq] at he
      rw [he]
    · cases he
  obtain ⟨res, c1, h1, h2, h3⟩ := C64_decision h ha
  obtain ⟨h4, h5⟩ := C25_null_sender h1
  rcases h3 with ⟨h3, h6⟩ | ⟨-, h3⟩
  · refine .inl ⟨?_, h6⟩
    rw [h3]
    generalize c1.withprops.message.getD [] = m
    have hr : res = .noresult ∨ res = .accept := by cases res <;> simp_all
    have key : answerTo .mfrom res m [] st.pre.trans.rcptto = [if m = [] then .accept else .acceptMsg (withId m b!"Accepted" [])] := by
      rcases hr with rfl | rfl <;> simp [answerTo]
    rw [key]
    by_cases hm : m = []
    · exact .inl (by rw [if_pos hm])
    · exact .inr ⟨_, by rw [if_neg hm]⟩
  · exact .inr h3

/-- C25: that exception needs -dncount (`st.pre.counts` is about a sender before, and nothing gained). -/
theorem C25_reset {cf : Conf} {E : Env} {st : Step} (h : st.Ok cf E) (hd : st.rsetDrop) : st.pre.counts := by
  obtain ⟨⟨a, h1⟩, h2, -⟩ := hd
  unfold Step.event at h1
  split at h1
  · rename_i hp
    simp only [Option.some.injEq] at h1
    exact ((sstep_did h).closes.2 ⟨a, hp, h1⟩ h2).1
  · cases h1

/-- It happens: with `-dncount 1 -minphase to` the null sender in the third transaction of a client is answered with a temporary failure. -/
example : seen (fun l _ _ => (l.drop 2).map fun st => sent st.out) (driveAll { demoConf with yakCount := 1, yakTimeout := 100, smtplog := true, minphase := b!"to" } demoEnv {} {} (events
    [.helo false b!"me.example.com", .mailfrom b!"a@example.com", .mailfrom b!"a@example.com", .mailfrom []])) =
    .ok [[], [.accept], [.accept], [.tempfailMsg b!"Too many unsuccessful delivery attempts"]] := by
  decide +kernel

end Sink
