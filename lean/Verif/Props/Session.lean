import Verif.Lemmas.SessionInv
import Verif.Spec.DemoSession
import Mathlib.Data.List.Induction

/-!
# Properties of a connection: the envelope (C33), the save directory (C34), reaching -minphase (C60)
-/

namespace Sink
open Spec

theorem run_env {cf : Conf} {E : Env} {l : List Step} {s0 s : Sess} (h : Run cf E s0 l s) (h0 : s0.trans.env = {}) :
    s.trans.env = envelope l := by
  refine Spec.Run.ind (P := fun l s => s.trans.env = envelope l) h h0 ?_
  intro l s1 s2 sh sh' i o _ ih hd _
  rw [envelope, List.foldl_append, hd.env, ih]
  rfl

/-- **C33.** When a message arrives, what goes into the message log and the stored file is the envelope made up of the
commands accepted before: EHLO name, sender and recipients; the message's data is what was received. -/
theorem C33_envelope {cf : Conf} {E : Env} {l : List Step} {s s' : Sess} (h : Life cf E l s) {sh sh' : Shared} {i : Inp} {o : List Out}
    {data : Str} (hp : s.pc = .ready) (hev : i.ev = .gotdata data) (hs : sstep cf E s sh i = .ok (s', sh', o)) :
    ∃ t : Trans, (t.heloname, t.from_, t.rcptto, t.data) = ((envelope l).helo, (envelope l).from_, (envelope l).rcpts, data) ∧
      (cf.logf = true → Out.msglog (logLine E.prefix_ t) ∈ o) ∧
      (s.trans.savedir ≠ [] → ∃ tgt id, s'.pc = .save .open_ tgt (msgDetails E.H E.prefix_ t).1 id) ∧ s'.trans = t := by
  obtain ⟨sh0, i0, s0, sh1, o1, hst, hr⟩ := h
  have he := run_env hr (startSess_init hst).2.1
  have hd := sstep_did hs
  have he2 := gotTrans_env E.H data i s.trans
  have h3 := gotTrans_data E.H data i s.trans
  rw [he] at he2
  have key : ((gotTrans E.H data i s.trans).heloname, (gotTrans E.H data i s.trans).from_, (gotTrans E.H data i s.trans).rcptto,
      (gotTrans E.H data i s.trans).data) = ((envelope l).helo, (envelope l).from_, (envelope l).rcpts, data) := by
    rw [← he2, h3]; rfl
  cases hd with
  | gotKeep _ he hsd ho =>
    rw [hev] at he; cases he
    refine ⟨_, key, ?_, fun h => absurd hsd h, rfl⟩
    intro hl
    rw [ho, hl]
    simp
  | gotSave _ he hsd hn ho =>
    rw [hev] at he; cases he
    refine ⟨_, key, ?_, fun _ => ⟨_, _, rfl⟩, rfl⟩
    intro hl
    rw [ho, hl]
    simp
  | finish _ he _ => rw [hev] at he; rcases he with ⟨he, _⟩ | ⟨he, _⟩ <;> cases he
  | tls hp' | drop hp' | connect hp' | save hp' | answerFail hp' | answerRef hp' | answerAcc hp' | closed hp' => rw [hp] at hp'; cases hp'
  | heloRef _ he | heloAcc _ he | mailRef _ he | mailAcc _ he | mailCount _ he | mailDrop _ he | rcptRef _ he | rcptAcc _ he
  | dataRef _ he | dataAcc _ he | tlserror _ he | other _ he => rw [hev] at he; cases he

/-- **C33.** The rules are asked about the same envelope: in a decision for a command the recipients are the accepted ones. -/
theorem C33_rules_see {cf : Conf} {E : Env} {l : List Step} {s : Sess} (h : Life cf E l s) :
    s.trans.r.rcptto = (envelope l).rcpts ∧ s.trans.heloname = (envelope l).helo ∧ s.trans.from_ = (envelope l).from_ := by
  obtain ⟨sh0, i0, s0, sh1, o1, hst, hr⟩ := h
  rw [← run_env hr (startSess_init hst).2.1]
  exact ⟨rfl, rfl, rfl⟩

/-- A refused recipient, a refused sender and an EHLO in between do not end up in the envelope. -/
example : seen (fun l s _ => (envelope l, s.trans.rcptto, s.pc == .ready)) (driveAll demoConf demoEnv {} {} (events
    [.helo false b!"me.example.com", .mailfrom b!"x@example.com", .rcptto b!"old@example.com", .helo true b!"me2",
     .mailfrom b!"a@example.com", .rcptto b!"bad@example.com", .rcptto b!"u@example.com", .rcptto b!"v@example.com", .mailfrom b!"x@"])) =
    .ok (⟨b!"me2", b!"a@example.com", [b!"u@example.com", b!"v@example.com"]⟩, [b!"u@example.com", b!"v@example.com"], true) := by
  decide +kernel

theorem run_savedir {cf : Conf} {E : Env} {l : List Step} {s0 s : Sess} (h : Run cf E s0 l s) :
    s.trans.savedir = savedirOf s0.trans.savedir l := by
  refine Spec.Run.ind (P := fun l s => s.trans.savedir = savedirOf s0.trans.savedir l) h rfl ?_
  intro l s1 s2 sh sh' i o _ ih hd _
  rw [savedirOf, List.foldl_append, hd.savedir, ih]
  rfl

/-- **C34.** A message is stored in the directory given by the most recent decision of the connection that gave one,
otherwise in the `-d` directory; if there is none it is not stored. -/
theorem C34_savedir {cf : Conf} {E : Env} {l : List Step} {s s' : Sess} (h : Life cf E l s) {sh sh' : Shared} {i : Inp} {o : List Out}
    {data : Str} (hp : s.pc = .ready) (hev : i.ev = .gotdata data) (hs : sstep cf E s sh i = .ok (s', sh', o)) :
    if savedirOf cf.savedir l = [] then ∃ id, s'.pc = .decide id false
    else ∃ n rec_, s'.pc = .save .open_ (savedirOf cf.savedir l ++ b!"/" ++ n) rec_ n := by
  obtain ⟨sh0, i0, s0, sh1, o1, hst, hr⟩ := h
  have he := run_savedir hr
  rw [(startSess_init hst).2.2.1] at he
  rw [← he]
  have hd := sstep_did hs
  cases hd with
  | gotKeep _ he hsd ho => rw [if_pos hsd]; exact ⟨_, rfl⟩
  | gotSave _ he hsd hn ho => rw [if_neg hsd]; exact ⟨_, _, rfl⟩
  | finish _ he _ => rw [hev] at he; rcases he with ⟨he, _⟩ | ⟨he, _⟩ <;> cases he
  | tls hp' | drop hp' | connect hp' | save hp' | answerFail hp' | answerRef hp' | answerAcc hp' | closed hp' => rw [hp] at hp'; cases hp'
  | heloRef _ he | heloAcc _ he | mailRef _ he | mailAcc _ he | mailCount _ he | mailDrop _ he | rcptRef _ he | rcptAcc _ he
  | dataRef _ he | dataAcc _ he | tlserror _ he | other _ he => rw [hev] at he; cases he

/-- **C34** put without a fold: the directory is the one given by a decision after which no other decision gave one. -/
theorem C34_last (d : Str) (l : List Step) :
    (∃ pre st post x, l = pre ++ st :: post ∧ st.decided = true ∧ st.post.c.withprops.savedir = some x ∧ x ≠ [] ∧
      savedirOf d l = x ∧ ∀ q ∈ post, q.decided = true → ∀ y, q.post.c.withprops.savedir = some y → y = []) ∨
    (savedirOf d l = d ∧ ∀ q ∈ l, q.decided = true → ∀ y, q.post.c.withprops.savedir = some y → y = []) := by
  induction l using List.reverseRecOn with
  | nil => exact .inr ⟨rfl, by simp⟩
  | append_singleton l st ih =>
    have hf : savedirOf d (l ++ [st]) = savedirStep (savedirOf d l) st := by rw [savedirOf, List.foldl_append]; rfl
    by_cases hst : st.decided = true ∧ ∃ x, st.post.c.withprops.savedir = some x ∧ x ≠ []
    · obtain ⟨h1, x, h2, h3⟩ := hst
      refine .inl ⟨l, st, [], x, rfl, h1, h2, h3, ?_, by simp⟩
      rw [hf, savedirStep, if_pos h1, h2]
      exact if_neg h3
    · have hno : st.decided = true → ∀ y, st.post.c.withprops.savedir = some y → y = [] := by
        intro h1 y hy
        by_contra hne
        exact hst ⟨h1, y, hy, hne⟩
      have hsame : savedirOf d (l ++ [st]) = savedirOf d l := by
        rw [hf, savedirStep]
        split
        · rename_i h1
          split
          · rename_i x hx; rw [hno h1 x hx]; rfl
          · rfl
        · rfl
      rcases ih with ⟨pre, q, post, x, h1, h2, h3, h4, h5, h6⟩ | ⟨h1, h2⟩
      · refine .inl ⟨pre, q, post ++ [st], x, by rw [h1]; simp, h2, h3, h4, by rw [hsame, h5], ?_⟩
        intro r hr
        rcases List.mem_append.mp hr with hr | hr
        · exact h6 r hr
        · rw [List.mem_singleton] at hr; subst hr; exact hno
      · refine .inr ⟨by rw [hsame, h1], ?_⟩
        intro r hr
        rcases List.mem_append.mp hr with hr | hr
        · exact h2 r hr
        · rw [List.mem_singleton] at hr; subst hr; exact hno

/-- A rule for one sender moves the later mail of the connection to its directory. -/
example : seen (fun l s _ => (savedirOf b!"/mail" l, match s.pc with | .save _ t _ _ => t.take 5 | _ => [])) (driveAll demoConf demoEnv {} {} (events
    [.helo false b!"me.example.com", .mailfrom b!"a@example.com", .mailfrom b!"x@example.com", .rcptto b!"u@example.com", .data, .gotdata b!"hi"])) =
    .ok (b!"/ab", b!"/ab/#") := by
  decide +kernel

/-- **C60.** A connection is regarded as having got somewhere iff one of its steps reached the `-minphase` phase, or was the
answer to a message that could not be stored. -/
theorem C60_minphase {cf : Conf} {E : Env} {l : List Step} {s : Sess} (h : Life cf E l s) :
    s.gotsomewhere = l.any (Step.reaches cf.minphase) := by
  obtain ⟨sh0, i0, s0, sh1, o1, hst, hr⟩ := h
  refine Spec.Run.ind (P := fun l s => s.gotsomewhere = l.any (Step.reaches cf.minphase)) hr (startSess_init hst).2.2.2.1 ?_
  intro l s1 s2 sh sh' i o _ ih hd _
  rw [List.any_append, hd.got, ih]
  simp

/-- With `-minphase to` an accepted MAIL FROM is not enough, a refused RCPT TO neither, an accepted one is. -/
example : seen (fun l s _ => (l.map (Step.reaches b!"to"), s.gotsomewhere)) (driveAll { demoConf with minphase := b!"to" } demoEnv {} {} (events
    [.helo false b!"me.example.com", .mailfrom b!"a@example.com", .rcptto b!"bad@example.com", .rcptto b!"u@example.com", .rcptto b!"bad@b"])) =
    .ok ([false, false, false, false, false, true, false], true) := by
  decide +kernel

end Sink
