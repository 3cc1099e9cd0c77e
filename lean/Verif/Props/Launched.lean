import Verif.Props.Alone
import Verif.Props.Changing
import Verif.Props.Program

/-!
# C109, continued: while files change, and from the command line on
-/

namespace Sink
open Spec

/-- **C109.** The files may change while a connection is open: there is one content of each, that of the moment when the connection read it,
from which all answers follow. -/
theorem C109_changing {o : BaseOpts} {cf : Conf} (hc : Configured o cf) (hf : cf.rulefiles = []) {E : Env}
    (hip : ∀ t n, E.W.lookupIP t n = E.W.lookupIP 0 n) {sh0 sh1 : Shared} {i0 : Inp} {s0 s : Sess} {o1 : List Out} {l : List Step}
    (h0 : startSess cf E sh0 i0 = .ok (s0, sh1, o1)) (hr : Run cf E s0 l s) (hst : s.stall = false) :
    ∃ W0, Snapshot E.W s0.c.trace s.c.trace W0 ∧ ∀ l1 st l2 ph e id, l = l1 ++ st :: l2 → st.asked = some (ph, e, id) →
      (Unwanted o W0 l1 ph e → sent st.out = answerTo ph .reject [] id (envelope l1).rcpts ∧ st.post.pc = .ready) ∧
      (¬ Unwanted o W0 l1 ph e → sent st.out = answerTo ph .accept [] id (envelope l1).rcpts ∧ st.post.pc = .ready ∨ st.rsetDrop) := by
  obtain ⟨W0, hW, rules, h1, h2, -⟩ := C86_answers hc.built hip h0 hr
  rw [hst] at h1
  cases alone_loaded hc hf h1
  refine ⟨W0, hW, fun l1 st l2 ph e id hl ha => ?_⟩
  obtain ⟨a, w, h3, -, h4⟩ := h2 l1 st l2 ph e id hl ha
  exact alone_answer (E := { E with W := W0 }) ha h3 h4

/-- The options for what to accept, as they are given on a command line. -/
structure Spec.GivenOn (os : List (Str × Str)) (o : BaseOpts) : Prop where
  std : o.stdrules = true ↔ ¬ On os b!"nostdrules"
  M : o.failgotdata = true ↔ On os b!"M"
  fromreject : o.fromreject = (lastOf os b!"fromreject").getD []
  toaccept : o.toaccept = (lastOf os b!"toaccept").getD []
  heloreject : o.heloreject = (lastOf os b!"heloreject").getD []

/-- **C109.** From the command line on: a program that is launched without `-r`, in whatever way its arguments are written, answers in each of
its concurrent sessions as the options say. -/
theorem C109_program {P : ArgLib} {V : StartEnv} {pid : Nat} {args : List Str} {L : Launch} (hl : launch P V pid args = some L)
    {os : List (Str × Str)} {rest : List Str} (ho : Reads P args os rest) (hr : (lastOf os b!"r").getD [] = [])
    (hn : ∀ n ∈ [b!"fromreject", b!"toaccept", b!"heloreject"], CleanName ((lastOf os n).getD [])) :
    ∃ o, GivenOn os o ∧ ∀ (l : List Mark) (p : Program), Program.Runs L l p → ∀ k E s, p.srv.conns k = some (E, s) → E.W.Static → s.stall = false →
      ∀ l1 st l2 ph e id, stepsOf k (hapsOf l) = l1 ++ st :: l2 → st.asked = some (ph, e, id) →
        (Unwanted o E.W l1 ph e → sent st.out = answerTo ph .reject [] id (envelope l1).rcpts ∧ st.post.pc = .ready) ∧
        (¬ Unwanted o E.W l1 ph e → sent st.out = answerTo ph .accept [] id (envelope l1).rcpts ∧ st.post.pc = .ready ∨ st.rsetDrop) := by
  obtain ⟨c, hc, -, hM, -, -, hstd, -, -, -, -, -, -, -, -, -, -, hrf, -, -, hfr, hto, hhe, -, -⟩ := C96_settings ho
  unfold launch at hl
  rw [hc] at hl
  dsimp only at hl
  split at hl
  · cases hl
  · rename_i cf hcf
    injection hl with hl
    subst hl
    have hset := C59_settings hcf
    have hconf : Configured c.o.base cf := hset.2.2.2.2.2.2.2.2.2.2.2.2.2.2.2.2 (by rw [hfr]; exact hn _ (by simp))
      (by rw [hto]; exact hn _ (by simp)) (by rw [hhe]; exact hn _ (by simp))
    have hrules : cf.rulefiles = [] := hset.2.2.2.2.2.2.2.2.2.2.2.2.1 (by rw [hrf, hr])
    refine ⟨c.o.base, ⟨?_, hM, hfr, hto, hhe⟩, ?_⟩
    · rw [← hstd]; simp [CmdOpts.base]
    · intro l p hp k E s hk hs hst l1 st l2 ph e id h1 h2
      exact C109_answers hconf hrules hs (hp.parts.2.1.life.1 _ _ hk) hst h1 h2

/-- Such a command line, with an option given twice. -/
def argsAlone : List Str := [b!"-M", b!"--toaccept=/x", b!"-toaccept", b!"/to", b!"-M=false", b!"-d", b!"/mail", b!":25"]

example : (launch argDemo startDemo 7 argsAlone).isSome = true ∧
    (launch argDemo startDemo 7 argsAlone).map (fun L => (L.cf.rulefiles, L.cf.base)) = some ([], optionRules ⟨true, false, [], b!"/to", []⟩) := by
  decide +kernel

example : ∃ os rest, Reads argDemo argsAlone os rest ∧ (lastOf os b!"r").getD [] = [] ∧ ¬ On os b!"M" ∧ lastOf os b!"toaccept" = some b!"/to" ∧ rest = [b!":25"] := by
  refine ⟨_, _, .switch (d := b!"-") (n := b!"M") (.inl rfl) (by decide) (.equals (d := b!"--") (n := b!"toaccept") (v := b!"/x") (.inr rfl) (.inr (.inl (by decide)))
    (.next (d := b!"-") (n := b!"toaccept") (.inl rfl) (by decide) (.inr (.inl (by decide))) (.equals (d := b!"-") (n := b!"M") (v := b!"false") (.inl rfl)
      (.inl (by decide)) (.next (d := b!"-") (n := b!"d") (.inl rfl) (by decide) (.inr (.inl (by decide))) (.stop (.inl (by decide))))))), rfl, ?_, rfl, rfl⟩
  rintro ⟨v, hv, h⟩
  cases h
  revert hv
  decide

end Sink
