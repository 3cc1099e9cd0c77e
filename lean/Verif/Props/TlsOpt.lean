import Verif.Props.Server

/-!
# C74: what rules say about TLS lasts for the rest of the connection
-/

namespace Sink
open Spec Relation

/-- The rules were asked in this step, and the answer came with `tls-opt w`. -/
def Spec.Step.tlsSays (w : Str) (st : Step) : Prop := st.decided = true ∧ st.post.c.withprops.tlsOpt = some w

/-- The place of a connection never returns to the TLS setup. -/
theorem Did.pc_tls {cf : Conf} {E : Env} {s s' : Sess} {sh sh' : Shared} {i : Inp} {o : List Out} (h : Did cf E s sh i s' sh' o) :
    s'.pc ≠ .tls := by
  have hpc : ∀ {ph evt id ref s0 s1 o res c1}, DecR E ph evt id s0 ref s1 o res c1 → s1.pc = s0.pc := fun hd => by rw [hd.sess]
  cases h with
  | tls hp ht =>
    unfold tlsStep at ht
    cases ht
    simp
  | drop hp hd | connect hp hd => simp
  | heloRef hp he hd | mailRef hp he hd | rcptRef hp he hd | dataRef hp he hd => rw [hpc hd, hp]; simp
  | heloAcc hp he hd => simp [Sess.helod, hpc hd, hp]
  | mailAcc hp he hd | mailCount hp he hd => simp [Sess.mailed, hpc hd, hp]
  | mailDrop hp he hd => simp
  | rcptAcc hp he hd => simp [Sess.rcpted, hpc hd, hp]
  | dataAcc hp he hd => simp [hpc hd, hp]
  | gotKeep hp he => simp
  | gotSave hp he => simp [Sess.goto]
  | tlserror hp he => simp [hp]
  | finish hp he hx => simp
  | other hp he => simp [hp]
  | save hp _ _ hn =>
    rcases hn with ⟨q, rfl⟩ | ⟨b, rfl⟩ <;> simp
  | answerFail hp => simp
  | answerRef hp hd | answerAcc hp hd => simp
  | closed hp => simp [hp]

theorem run_empty {cf : Conf} {E : Env} {s0 s : Sess} {l : List Step} (hr : Run cf E s0 l s) (h : l = []) : s = s0 := by
  cases hr with
  | nil => rfl
  | snoc _ _ => simp at h

theorem run_tls {cf : Conf} {E : Env} {s0 s : Sess} {l : List Step} (hr : Run cf E s0 l s) : (l ≠ [] → s.pc ≠ .tls) :=
  Spec.Run.ind (P := fun l s => l ≠ [] → s.pc ≠ .tls) hr (fun h => absurd rfl h) fun _ _ _ _ _ _ _ _ _ hd _ _ => hd.pc_tls

/-- **C74.** The first step of a connection sets up TLS, and this step is never repeated. -/
theorem C74_setup_once {cf : Conf} {E : Env} {st0 : Step} {l : List Step} {s : Sess} (h : Life cf E (st0 :: l) s) :
    st0.pre.pc = .tls ∧ ∀ st ∈ l, st.pre.pc ≠ .tls := by
  obtain ⟨sh, i, s0, sh0, o, hst, hr⟩ := h
  have h0 : s0.pc = .tls := (startSess_init hst).1
  have := Spec.Run.ind (P := fun l s => ∀ st0 l', l = st0 :: l' → st0.pre = s0 ∧ ∀ st ∈ l', st.pre.pc ≠ .tls) hr
    (fun _ _ h => by cases h) (by
      intro l s1 s2 sh sh' i o hr ih hd hs st0 l' he
      cases l with
      | nil =>
        cases he
        exact ⟨run_empty hr rfl, fun st h => by cases h⟩
      | cons a m =>
        simp only [List.cons_append, List.cons.injEq] at he
        obtain ⟨rfl, rfl⟩ := he
        obtain ⟨h1, h2⟩ := ih _ _ rfl
        refine ⟨h1, fun st hst => ?_⟩
        rcases List.mem_append.1 hst with h | h
        · exact h2 st h
        · rw [List.mem_singleton] at h
          subst h
          exact run_tls hr (by simp))
  obtain ⟨h1, h2⟩ := this _ _ rfl
  exact ⟨by rw [h1, h0], h2⟩

/-- **C74.** At any time TLS is offered iff it was offered at first and no answer of the rules since came with `tls-opt off`; client
certificates are asked for iff they were at first and no answer came with `tls-opt no-client`; the certificates stay the same. -/
theorem C74_lasting {cf : Conf} {E : Env} {st0 : Step} {l : List Step} {s : Sess} (h : Life cf E (st0 :: l) s) :
    (s.tlsCfg ≠ none ↔ st0.post.tlsCfg ≠ none ∧ ∀ st ∈ l, ¬ st.tlsSays b!"off") ∧
    ∀ x, s.tlsCfg = some x → ∃ y, st0.post.tlsCfg = some y ∧ x.certs = y.certs ∧
      (x.askClient = true ↔ y.askClient = true ∧ ∀ st ∈ l, ¬ st.tlsSays b!"no-client") := by
  obtain ⟨sh, i, s0, sh0, o, hst, hr⟩ := h
  have := Spec.Run.ind (P := fun l s => ∀ st0 l', l = st0 :: l' →
      (s.tlsCfg ≠ none ↔ st0.post.tlsCfg ≠ none ∧ ∀ st ∈ l', ¬ st.tlsSays b!"off") ∧
      ∀ x, s.tlsCfg = some x → ∃ y, st0.post.tlsCfg = some y ∧ x.certs = y.certs ∧
        (x.askClient = true ↔ y.askClient = true ∧ ∀ st ∈ l', ¬ st.tlsSays b!"no-client")) hr
    (fun _ _ h => by cases h) (by
      intro l s1 s2 sh sh' i o hr ih hd hs st0 l' he
      cases l with
      | nil =>
        cases he
        exact ⟨by simp, fun x hx => ⟨x, hx, rfl, by simp⟩⟩
      | cons a m =>
        simp only [List.cons_append, List.cons.injEq] at he
        obtain ⟨rfl, rfl⟩ := he
        obtain ⟨h1, h2⟩ := ih _ _ rfl
        have hp : s1.pc ≠ .tls := run_tls hr (by simp)
        have hstep := C41_rules hs hp
        generalize hst : (⟨s1, i, sh, s2, sh', o⟩ : Step) = st at hstep
        have hpost : s2 = st.post := by rw [← hst]
        have hall : ∀ w, (∀ x ∈ m ++ [st], ¬ x.tlsSays w) ↔ (∀ x ∈ m, ¬ x.tlsSays w) ∧ ¬ st.tlsSays w := by
          intro w
          simp [List.mem_append, or_imp, forall_and]
        rw [hall, hall]
        unfold Step.tlsSays at *
        rw [← hpost]
        split at hstep
        · rename_i hdec
          rw [hstep, hdec]
          simp only [Bool.false_eq_true, false_and, not_false_eq_true, and_true]
          exact ⟨h1, h2⟩
        · rename_i hdec
          have hdec : st.decided = true := by simpa using hdec
          simp only [hdec, true_and]
          split at hstep
          · rename_i hoff
            rw [hstep]
            exact ⟨by simp [hoff], by simp⟩
          · rename_i hoff
            split at hstep
            · rename_i hno
              rw [hstep]
              refine ⟨?_, ?_⟩
              · rw [Ne, Option.map_eq_none_iff, ← Ne, h1]; simp [hoff]
              · intro x hx
                rw [Option.map_eq_some_iff] at hx
                obtain ⟨z, hz, rfl⟩ := hx
                obtain ⟨y, hy, hc, -⟩ := h2 z hz
                exact ⟨y, hy, hc, by simp [hno]⟩
            · rename_i hno
              rw [hstep]
              refine ⟨?_, ?_⟩
              · rw [h1]; simp [hoff]
              · intro x hx
                obtain ⟨y, hy, hc, ha⟩ := h2 x hx
                exact ⟨y, hy, hc, by rw [ha]; simp [hno]⟩)
  exact this _ _ rfl

/-- Rules about TLS: none for one client, no client certificates after a certain EHLO. -/
def tlsRules : Env := { demoEnv with fs := fun _ => tbl (.notExist b!"no such file") [
  (b!"/rules", .data b!"@helo set-with ehlo nocert.example.com with tls-opt no-client\n@from set-with from a@ with tls-opt off\n")] }

/-- The offers after each step. -/
def offered (r : Except Panic (List Step × Sess × Shared)) : Option (List (Option Bool)) :=
  match r with
  | .ok (l, _) => some (l.map fun st => st.post.tlsCfg.map (·.askClient))
  | .error _ => none

/-- Set up, connect; one EHLO, another one with the rule about client certificates, the first again; a sender with the rule against TLS,
another one: what was said is not taken back. -/
example : offered (driveAll { demoConf with certs := [(⟨b!"cert", b!"key"⟩ : TlsCert)] } tlsRules {} {} [{}, {},
    { ev := .helo false b!"mail.example.com" }, { ev := .helo false b!"nocert.example.com" }, { ev := .helo false b!"mail.example.com" },
    { ev := .mailfrom b!"b@example.com" }, { ev := .mailfrom b!"a@example.com" }, { ev := .mailfrom b!"b@example.com" }]) =
    some [some true, some true, some true, some false, some false, some false, none, none] := by
  decide +kernel

end Sink
