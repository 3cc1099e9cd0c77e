import Verif.Spec.Order
import Verif.Props.Answers
import Verif.Props.Stalled
import Verif.Props.SessionRules
import Verif.Props.StdRules
import Verif.Props.Server
import Verif.Props.Steady
import Verif.Lemmas.Store

/-!
# Only mail that passed every phase is stored: C92

`process` stores a message as soon as it arrives, before the rules decide about it.  That the rules of the earlier phases had their say comes from the order in
which package smtpd hands over the commands.
-/

namespace Sink
open Spec

/-- What must have happened for the dialogue to get where it is. -/
def GotHere : Dialog → List Step → Prop
  | .start, _ => True
  | .greeted, l => ∃ a h b, l = a ++ h :: b ∧ AccHelo h ∧ ∀ q ∈ b, ¬ AccHelo q
  | .mail, l => ∃ a h b m c, l = a ++ h :: (b ++ m :: c) ∧ AccHelo h ∧ (∀ q ∈ b, ¬ AccHelo q) ∧ AccMail m ∧
      ∀ q ∈ c, ¬ IsHelo q ∧ ¬ IsMail q ∧ ¬ AccData q ∧ ¬ IsMsg q
  | .rcpt, l => ∃ a h b m c, l = a ++ h :: (b ++ m :: c) ∧ AccHelo h ∧ (∀ q ∈ b, ¬ AccHelo q) ∧ AccMail m ∧
      (∀ q ∈ c, ¬ IsHelo q ∧ ¬ IsMail q ∧ ¬ AccData q ∧ ¬ IsMsg q) ∧ c.filterMap Step.rcpt ≠ []
  | .data, l => ∃ a h b m c d e, l = a ++ h :: (b ++ m :: (c ++ d :: e)) ∧ AccHelo h ∧ (∀ q ∈ b, ¬ AccHelo q) ∧ AccMail m ∧
      (∀ q ∈ c, ¬ IsHelo q ∧ ¬ IsMail q ∧ ¬ AccData q ∧ ¬ IsMsg q) ∧ c.filterMap Step.rcpt ≠ [] ∧ AccData d ∧ ∀ q ∈ e, q.event = none

theorem Spec.AccMail.not_helo {q : Step} (h : AccMail q) : ¬ AccHelo q := by
  rintro ⟨⟨b, x, h1⟩, -⟩
  obtain ⟨⟨y, h2⟩, -⟩ := h
  rw [h1] at h2; cases h2

theorem Spec.AccData.not_helo {q : Step} (h : AccData q) : ¬ AccHelo q := by
  rintro ⟨⟨b, x, h1⟩, -⟩
  rw [h.1] at h1; cases h1

theorem quiet_none {q : Step} (h : q.event = none) : ¬ IsHelo q ∧ ¬ IsMail q ∧ ¬ AccData q ∧ ¬ IsMsg q := by
  refine ⟨?_, ?_, ?_, ?_⟩
  · rintro ⟨b, x, h1⟩; rw [h] at h1; cases h1
  · rintro ⟨x, h1⟩; rw [h] at h1; cases h1
  · rintro ⟨h1, -⟩; rw [h] at h1; cases h1
  · rintro ⟨x, h1⟩; rw [h] at h1; cases h1

theorem quiet_some {q : Step} {e : SEv} (h : q.event = some e) (h1 : ∀ b x, e ≠ .helo b x) (h2 : ∀ x, e ≠ .mailfrom x)
    (h3 : e = .data → q.accepted ≠ true) (h4 : ∀ x, e ≠ .gotdata x) : ¬ IsHelo q ∧ ¬ IsMail q ∧ ¬ AccData q ∧ ¬ IsMsg q := by
  refine ⟨?_, ?_, ?_, ?_⟩
  · rintro ⟨b, x, k⟩; rw [h] at k; cases k; exact h1 _ _ rfl
  · rintro ⟨x, k⟩; rw [h] at k; cases k; exact h2 _ rfl
  · rintro ⟨k, ka⟩; rw [h] at k; cases k; exact h3 rfl ka
  · rintro ⟨x, k⟩; rw [h] at k; cases k; exact h4 _ rfl

theorem GotHere.greeted {p : Dialog} {l : List Step} (h : GotHere p l) (hp : p ≠ .start) : GotHere .greeted l := by
  cases p with
  | start => exact absurd rfl hp
  | greeted => exact h
  | mail =>
    obtain ⟨a, h, b, m, c, rfl, h1, h2, h3, h4⟩ := h
    refine ⟨a, h, b ++ m :: c, rfl, h1, fun q hq => ?_⟩
    rcases List.mem_append.1 hq with hq | hq
    · exact h2 q hq
    · rcases List.mem_cons.1 hq with rfl | hq
      · exact h3.not_helo
      · exact fun h => (h4 q hq).1 h.1
  | rcpt =>
    obtain ⟨a, h, b, m, c, rfl, h1, h2, h3, h4, -⟩ := h
    refine ⟨a, h, b ++ m :: c, rfl, h1, fun q hq => ?_⟩
    rcases List.mem_append.1 hq with hq | hq
    · exact h2 q hq
    · rcases List.mem_cons.1 hq with rfl | hq
      · exact h3.not_helo
      · exact fun h => (h4 q hq).1 h.1
  | data =>
    obtain ⟨a, h, b, m, c, d, e, rfl, h1, h2, h3, h4, -, h6, h7⟩ := h
    refine ⟨a, h, b ++ m :: (c ++ d :: e), rfl, h1, fun q hq => ?_⟩
    rcases List.mem_append.1 hq with hq | hq
    · exact h2 q hq
    · rcases List.mem_cons.1 hq with rfl | hq
      · exact h3.not_helo
      · rcases List.mem_append.1 hq with hq | hq
        · exact fun h => (h4 q hq).1 h.1
        · rcases List.mem_cons.1 hq with rfl | hq
          · exact h6.not_helo
          · exact fun h => (quiet_none (h7 q hq)).1 h.1

theorem order_mem_snoc {l : List Step} {P : Step → Prop} {st : Step} (h : ∀ q ∈ l, P q) (hs : P st) : ∀ q ∈ l ++ [st], P q := by
  intro q hq
  rcases List.mem_append.1 hq with hq | hq
  · exact h q hq
  · rcases List.mem_singleton.1 hq with rfl
    exact hs

/-- A step that takes the dialogue nowhere. -/
theorem GotHere.stay {p : Dialog} {l : List Step} (h : GotHere p l) {st : Step} (hq : ¬ IsHelo st ∧ ¬ IsMail st ∧ ¬ AccData st ∧ ¬ IsMsg st)
    (hd : p = .data → st.event = none) : GotHere p (l ++ [st]) := by
  cases p with
  | start => trivial
  | greeted =>
    obtain ⟨a, h, b, rfl, h1, h2⟩ := h
    exact ⟨a, h, b ++ [st], by simp, h1, order_mem_snoc h2 fun h => hq.1 h.1⟩
  | mail =>
    obtain ⟨a, h, b, m, c, rfl, h1, h2, h3, h4⟩ := h
    exact ⟨a, h, b, m, c ++ [st], by simp, h1, h2, h3, order_mem_snoc h4 hq⟩
  | rcpt =>
    obtain ⟨a, h, b, m, c, rfl, h1, h2, h3, h4, h5⟩ := h
    refine ⟨a, h, b, m, c ++ [st], by simp, h1, h2, h3, order_mem_snoc h4 hq, ?_⟩
    rw [List.filterMap_append]
    exact fun h => h5 (List.append_eq_nil_iff.1 h).1
  | data =>
    obtain ⟨a, h, b, m, c, d, e, rfl, h1, h2, h3, h4, h5, h6, h7⟩ := h
    exact ⟨a, h, b, m, c, d, e ++ [st], by simp, h1, h2, h3, h4, h5, h6, order_mem_snoc h7 (hd rfl)⟩

/-- A step that ends the transaction, if any. -/
theorem GotHere.back {p : Dialog} {l : List Step} (h : GotHere p l) {st : Step} (hs : ¬ AccHelo st) : GotHere p.outside (l ++ [st]) := by
  unfold Dialog.outside
  split
  · trivial
  · rename_i hp
    obtain ⟨a, x, b, rfl, h1, h2⟩ := h.greeted hp
    exact ⟨a, x, b ++ [st], by simp, h1, order_mem_snoc h2 hs⟩

theorem dialog_snoc (l : List Step) (st : Step) : dialog (l ++ [st]) = (dialog l).step st := by simp [dialog]

theorem Orderly.init {l : List Step} {st : Step} (h : Orderly (l ++ [st])) : Orderly l := by
  intro l1 st' l2 e hl he
  exact h l1 st' (l2 ++ [st]) e (by rw [hl]; simp) he

theorem Spec.Orderly.made : ∀ (l : List Step), Orderly l → GotHere (dialog l) l := by
  intro l
  induction l using List.reverseRecOn with
  | nil => intro _; trivial
  | append_singleton l st ih =>
    intro ho
    have ih := ih (Orderly.init ho)
    have ht := fun e => ho l st [] e rfl
    rw [dialog_snoc]
    have ne : ∀ {e}, st.event = some e → (∀ h a, e ≠ .helo h a) → ¬ AccHelo st := by
      rintro e h1 h2 ⟨⟨b, x, h3⟩, -⟩
      rw [h1] at h3
      cases h3
      exact h2 _ _ rfl
    unfold Dialog.step
    cases he : st.event with
    | none => exact ih.stay (quiet_none he) fun _ => he
    | some e =>
      have ht := ht e he
      cases e with
      | helo b x =>
        simp only
        split
        · rename_i ha
          exact ⟨l, st, [], rfl, ⟨⟨b, x, he⟩, ha⟩, by simp⟩
        · rename_i ha
          exact ih.back fun h => ha h.2
      | mailfrom x =>
        simp only
        split
        · rename_i ha
          obtain ⟨a, h, b, rfl, h1, h2⟩ := ih.greeted ht.1
          exact ⟨a, h, b, st, [], by simp, h1, h2, ⟨⟨x, he⟩, ha⟩, by simp⟩
        · rename_i ha
          exact ih.back fun h => ha h.2
      | rcptto x =>
        simp only
        have hq := quiet_some he (by simp) (by simp) (by simp) (by simp)
        split
        · rename_i ha
          have : GotHere .mail l := by
            rcases ht with ht | ht
            · rwa [ht] at ih
            · rw [ht] at ih
              obtain ⟨a, h, b, m, c, h0, h1, h2, h3, h4, -⟩ := ih
              exact ⟨a, h, b, m, c, h0, h1, h2, h3, h4⟩
          obtain ⟨a, h, b, m, c, rfl, h1, h2, h3, h4⟩ := this
          refine ⟨a, h, b, m, c ++ [st], by simp, h1, h2, h3, order_mem_snoc h4 hq, ?_⟩
          simp [Step.rcpt, he, ha]
        · exact ih.stay hq fun h => by rcases ht with ht | ht <;> rw [h] at ht <;> cases ht
      | data =>
        simp only
        have ht : dialog l = .rcpt := ht
        rw [ht] at ih ⊢
        split
        · rename_i ha
          obtain ⟨a, h, b, m, c, rfl, h1, h2, h3, h4, h5⟩ := ih
          exact ⟨a, h, b, m, c, st, [], by simp, h1, h2, h3, h4, h5, ⟨he, ha⟩, by simp⟩
        · rename_i ha
          exact ih.stay (quiet_some he (by simp) (by simp) (fun _ => ha) (by simp)) fun h => by cases h
      | gotdata d =>
        have ht : dialog l = .data := ht
        rw [ht] at ih
        obtain ⟨a, h, b, rfl, h1, h2⟩ := ih.greeted (by decide)
        exact ⟨a, h, b ++ [st], by simp, h1, order_mem_snoc h2 (ne he (by intro _ _ h; cases h))⟩
      | tlserror | other =>
        exact ih.stay (quiet_some he (by simp) (by simp) (by simp) (by simp)) fun h => absurd h ht
      | done | abort => trivial

/-! ## The envelope of a complete transaction -/

theorem env_helo {q : Step} {h : Bool} {x : Str} (he : q.event = some (.helo h x)) (ha : q.accepted = true) (e : Envelope) : e.step q = ⟨x, [], []⟩ := by
  simp [Envelope.step, he, ha, Envelope.take]

theorem env_mail {q : Step} {y : Str} (he : q.event = some (.mailfrom y)) (ha : q.accepted = true) (e : Envelope) : e.step q = ⟨e.helo, y, []⟩ := by
  simp [Envelope.step, he, ha, Envelope.take]

theorem env_data {q : Step} (h : AccData q) (e : Envelope) : e.step q = e := by
  simp [Envelope.step, h.1, h.2, Envelope.take]

theorem env_keeps : ∀ {b : List Step}, (∀ q ∈ b, ¬ AccHelo q) → ∀ e : Envelope, (b.foldl Envelope.step e).helo = e.helo := by
  intro b
  induction b with
  | nil => intro _ e; rfl
  | cons q b ih =>
    intro h e
    rw [List.foldl_cons, ih (fun q hq => h q (.tail _ hq))]
    have hq := h q (.head _)
    unfold Envelope.step
    split
    · rename_i ev he
      split
      · rename_i ha
        cases ev with
        | helo b x => exact absurd ⟨⟨b, x, he⟩, ha⟩ hq
        | _ => rfl
      · rfl
    · rfl

theorem env_within : ∀ {c : List Step}, (∀ q ∈ c, ¬ IsHelo q ∧ ¬ IsMail q ∧ ¬ AccData q ∧ ¬ IsMsg q) →
    ∀ e : Envelope, c.foldl Envelope.step e = ⟨e.helo, e.from_, e.rcpts ++ c.filterMap Step.rcpt⟩ := by
  intro c
  induction c with
  | nil => intro _ e; simp
  | cons q c ih =>
    intro h e
    obtain ⟨h1, h2, h3, h4⟩ := h q (.head _)
    rw [List.foldl_cons, ih (fun q hq => h q (.tail _ hq)), List.filterMap_cons]
    unfold Envelope.step Step.rcpt
    cases he : q.event with
    | none => rfl
    | some ev =>
      cases ev with
      | helo b x => exact absurd ⟨b, x, he⟩ h1
      | mailfrom x => exact absurd ⟨x, he⟩ h2
      | gotdata x => exact absurd ⟨x, he⟩ h4
      | rcptto x =>
        by_cases ha : q.accepted = true
        · simp [ha, Envelope.take]
        · simp [ha]
      | data | tlserror | done | abort | other => simp [Envelope.take]

theorem data_ready {cf : Conf} {E : Env} {st : Step} (h : st.Ok cf E) (he : st.event = some .data) : st.post.pc = .ready := by
  have hd := sstep_did h
  have hp : st.pre.pc = .ready := by
    unfold Step.event at he
    split at he
    · assumption
    · cases he
  have hi : st.i.ev = .data := by
    unfold Step.event at he
    rw [if_pos hp] at he
    exact Option.some.inj he
  generalize st.post = s2, st.sh' = sh2, st.out = o2 at hd
  cases hd with
  | dataRef _ _ hd => rw [hd.pc]; exact hp
  | dataAcc _ _ hd => exact hd.pc.trans hp
  | tls hp' | drop hp' | connect hp' | save hp' | answerFail hp' | answerRef hp' | answerAcc hp' | closed hp' => exact absurd (hp.symm.trans hp') (by simp)
  | heloRef _ hi' | heloAcc _ hi' | mailRef _ hi' | mailAcc _ hi' | mailCount _ hi' | mailDrop _ hi' => exact absurd (hi.symm.trans hi') (by simp)
  | rcptRef _ hi' | rcptAcc _ hi' | gotKeep _ hi' | gotSave _ hi' | tlserror _ hi' | other _ hi' => exact absurd (hi.symm.trans hi') (by simp)
  | finish _ hi' => rcases hi' with ⟨hi', -⟩ | ⟨hi', -⟩ <;> exact absurd (hi.symm.trans hi') (by simp)

theorem run_nil {cf : Conf} {E : Env} {s s' : Sess} (h : Run cf E s [] s') : s' = s := by
  generalize hl : ([] : List Step) = l at h
  cases h with
  | nil => rfl
  | snoc => simp at hl

/-- **C92.** If commands come in order, before every message came an accepted greeting, an accepted sender, an accepted recipient and an accepted DATA,
and its envelope is made up of these. -/
theorem C92_complete {cf : Conf} {E : Env} {l : List Step} {s : Sess} (h : Life cf E l s) (ho : Orderly l) {l1 : List Step} {st : Step} {l2 : List Step}
    {d : Str} (hl : l = l1 ++ st :: l2) (he : st.event = some (.gotdata d)) : ∃ a hs b ms c ds, Complete l1 a hs b ms c ds := by
  have ho1 : Orderly l1 := fun k1 q k2 e hk => ho k1 q (k2 ++ st :: l2) e (by rw [hl, hk]; simp)
  have hm := ho1.made
  rw [show dialog l1 = .data from ho l1 st l2 _ hl he] at hm
  obtain ⟨a, hs, b, ms, c, ds, e, h0, h1, h2, h3, h4, h5, h6, h7⟩ := hm
  have hnil : e = [] := by
    cases e with
    | nil => rfl
    | cons q e =>
      obtain ⟨sh, i, s0, sh0, o, hst, hr⟩ := h
      have e1 : l = (a ++ hs :: (b ++ ms :: c)) ++ ds :: (q :: (e ++ st :: l2)) := by rw [hl, h0]; simp
      obtain ⟨-, hok, hr2⟩ := hr.split e1
      have hq : q.pre = ds.post := by
        exact run_nil (hr2.split (l1 := []) (l2 := e ++ st :: l2) rfl).1
      have := h7 q (.head _)
      unfold Step.event at this
      rw [hq, if_pos (data_ready hok h6.1)] at this
      cases this
  subst hnil
  refine ⟨a, hs, b, ms, c, ds, h0, h1, h3, h6, h2, h4, h5, fun hb x y hx hy => ?_⟩
  rw [h0]
  unfold envelope
  simp only [List.foldl_append, List.foldl_cons, List.foldl_nil]
  rw [env_data h6, env_within h4, env_mail hy h3.2, env_keeps h2, env_helo hx h1.2]
  simp

/-- A connection is dealing with a message only after one arrived. -/
theorem life_msg {cf : Conf} {E : Env} {l : List Step} {s : Sess} (h : Life cf E l s)
    (hp : (∃ q p r n, s.pc = .save q p r n) ∨ ∃ n b, s.pc = .decide n b) :
    ∃ l1 st l2, l = l1 ++ st :: l2 ∧ IsMsg st ∧ ∀ q ∈ l2, q.event = none := by
  obtain ⟨sh, i, s0, sh0, o, hst, hr⟩ := h
  revert hp
  refine Spec.Run.ind (P := fun l s => ((∃ q p r n, s.pc = .save q p r n) ∨ ∃ n b, s.pc = .decide n b) →
    ∃ l1 st l2, l = l1 ++ st :: l2 ∧ IsMsg st ∧ ∀ q ∈ l2, q.event = none) hr ?_ ?_
  · rw [(startSess_init hst).1]
    rintro (⟨q, p, r, n, h⟩ | ⟨n, b, h⟩) <;> cases h
  · intro l s1 s2 sh sh' i o _ ih hd _ hx
    have ready : s2.pc = .ready ∨ s2.pc = .closed ∨ s2.pc = .connect → False := by
      rintro (h | h | h) <;> rw [h] at hx <;> rcases hx with ⟨q, p, r, n, h⟩ | ⟨n, b, h⟩ <;> cases h
    have dec : ∀ {ph evt id ref s3 o res c1}, DecR E ph evt id s1 ref s3 o res c1 → s1.pc = .ready → s3.pc = .ready := fun hd hp => hd.pc.trans hp
    cases hd with
    | tls hp ht =>
      unfold tlsStep at ht
      cases ht
      exact (ready (.inr (.inr rfl))).elim
    | drop => exact (ready (.inr (.inl rfl))).elim
    | connect => exact (ready (.inl rfl)).elim
    | heloRef hp _ hd | mailRef hp _ hd | rcptRef hp _ hd | dataRef hp _ hd => exact (ready (.inl (dec hd hp))).elim
    | heloAcc hp _ hd | mailAcc hp _ hd | mailCount hp _ hd | rcptAcc hp _ hd | dataAcc hp _ hd => exact (ready (.inl (hd.pc.trans hp))).elim
    | mailDrop => exact (ready (.inr (.inl rfl))).elim
    | gotKeep hq he | gotSave hq he => exact ⟨l, _, [], rfl, ⟨_, by simp [Step.event, hq, he]; rfl⟩, by simp⟩
    | tlserror hp | other hp => exact (ready (.inl hp)).elim
    | finish => exact (ready (.inr (.inl rfl))).elim
    | save hq =>
      obtain ⟨l1, st, l2, rfl, h1, h2⟩ := ih (.inl ⟨_, _, _, _, hq⟩)
      exact ⟨l1, st, l2 ++ [_], by simp; rfl, h1, order_mem_snoc h2 (by simp [Step.event, hq])⟩
    | answerFail | answerRef | answerAcc => exact (ready (.inl rfl)).elim
    | closed hp => exact (ready (.inr (.inl hp))).elim

/-- The step changes files or the message log. -/
def Spec.Records (st : Step) : Prop := st.sh'.fs ≠ st.sh.fs ∨ msglogs st.out ≠ []

/-- **C92.** If commands come in order, files and the message log change only for messages that come after accepted greeting, sender, recipient and
DATA. -/
theorem C92_kept {cf : Conf} {E : Env} {l : List Step} {s : Sess} (h : Life cf E l s) (ho : Orderly l) {l1 : List Step} {st : Step} {l2 : List Step}
    (hl : l = l1 ++ st :: l2) (hk : Records st) :
    ∃ k1 q k2 a hs b ms c ds, l1 ++ [st] = k1 ++ q :: k2 ∧ IsMsg q ∧ (∀ x ∈ k2, x.event = none) ∧ Complete k1 a hs b ms c ds := by
  have hL : Life cf E l1 st.pre ∧ st.Ok cf E := by
    obtain ⟨sh, i, s0, sh0, o, hst, hr⟩ := h
    exact ⟨⟨sh, i, s0, sh0, o, hst, (hr.split hl).1⟩, (hr.split hl).2.1⟩
  have key : ∃ k1 q k2, l1 ++ [st] = k1 ++ q :: k2 ∧ IsMsg q ∧ ∀ x ∈ k2, x.event = none := by
    by_cases hm : IsMsg st
    · exact ⟨l1, st, [], rfl, hm, by simp⟩
    · have hlog : msglogs st.out = [] := by
        refine (sstep_did hL.2).msglogs fun data hd => hm ⟨data, ?_⟩
        unfold Step.event
        rw [if_pos hd.1, hd.2]
      have hfs := hk.resolve_right fun h => h hlog
      have hsave : ∃ q p r n, st.pre.pc = .save q p r n := by
        by_contra hn
        exact hfs (sstep_nosave hL.2 fun q p r n hp => hn ⟨q, p, r, n, hp⟩).1
      obtain ⟨k1, q, k2, rfl, h1, h2⟩ := life_msg hL.1 (.inl hsave)
      refine ⟨k1, q, k2 ++ [st], by simp, h1, order_mem_snoc h2 ?_⟩
      obtain ⟨q', p, r, n, hp⟩ := hsave
      simp [Step.event, hp]
  obtain ⟨k1, q, k2, h1, ⟨d, h2⟩, h3⟩ := key
  obtain ⟨a, hs, b, ms, c, ds, hc⟩ := C92_complete h ho (l1 := k1) (st := q) (l2 := k2 ++ l2) (d := d) (by have := congrArg (· ++ l2) h1; simpa [hl] using this) h2
  exact ⟨k1, q, k2, a, hs, b, ms, c, ds, h1, ⟨d, h2⟩, h3, hc⟩

/-! ## What the rules said -/

/-- The rules let a command pass. -/
def Spec.Passed (E : Env) (rules : List Rule) (l : List Step) (ph : Phase) (e : Evt) : Prop := ∃ a w, Ruling E rules l ph e a w ∧ ¬ Refuses a

theorem accepted_passed {st : Step} {ph : Phase} {id : Str} (hacc : st.accepted = true) {a : Action} {m : Str}
    {rcpts : List Str} (hs : sent st.out = answerTo ph a m id rcpts ∧ st.post.pc = .ready ∨ (a = .noresult ∨ a = .accept) ∧ st.rsetDrop) : ¬ Refuses a := by
  rcases hs with ⟨hs, -⟩ | ⟨h, -⟩
  · unfold Step.accepted at hacc
    rw [replies_answers, hs] at hacc
    rintro (rfl | rfl)
    · simp only [answerTo] at hacc
      split at hacc
      · simp at hacc
      · simp only [List.map_cons, List.map_nil, decide_eq_true_eq, List.cons.injEq, and_true] at hacc
        split at hacc
        · cases hacc
        · split at hacc
          · cases hacc
          · split at hacc <;> cases hacc
    · simp only [answerTo] at hacc
      split at hacc
      · simp at hacc
      · simp only [List.map_cons, List.map_nil, decide_eq_true_eq, List.cons.injEq, and_true] at hacc
        split at hacc <;> cases hacc
  · rcases h with rfl | rfl <;> rintro (h | h) <;> cases h

/-- What the rules are asked because of an event. -/
def askOf : SEv → Option (Phase × Evt × Str)
  | .helo h a => some (.helo, ⟨h, a⟩, [])
  | .mailfrom a => some (.mfrom, ⟨false, a⟩, [])
  | .rcptto a => some (.rto, ⟨false, a⟩, [])
  | .data => some (.data, {}, [])
  | _ => none

theorem asked_of {st : Step} {e : SEv} (h : st.event = some e) : st.asked = askOf e := by
  unfold Step.event at h
  split at h
  · rename_i hp
    cases h
    unfold Step.asked
    rw [hp]
    simp only
    cases st.i.ev <;> rfl
  · cases h

theorem rcpt_eq {q : Step} {r : Str} (h : q.rcpt = some r) : q.event = some (.rcptto r) ∧ q.accepted = true := by
  unfold Step.rcpt at h
  split at h
  · rename_i a he
    split at h
    · rename_i ha
      cases h
      exact ⟨he, ha⟩
    · cases h
  · cases h

/-- **C92.** In a world that does not change and with commands in order: the rules let the greeting, the sender, every recipient and the DATA of every message
that arrives pass, each at its time. -/
theorem C92_passed {o : BaseOpts} {cf : Conf} (hb : Built o cf) {E : Env} (hs : E.W.Static) {l : List Step} {s : Sess} (h : Life cf E l s) (ho : Orderly l) :
    ∃ rules, Loaded cf E s.stall rules ∧ ∀ l1 st l2, l = l1 ++ st :: l2 → IsMsg st →
      ∃ a hs b ms c ds, Complete l1 a hs b ms c ds ∧
        (∃ i, Passed E rules a .helo ⟨i, (envelope l1).helo⟩) ∧
        Passed E rules (a ++ hs :: b) .mfrom ⟨false, (envelope l1).from_⟩ ∧
        (∀ r ∈ (envelope l1).rcpts, ∃ c1 q c2, c = c1 ++ q :: c2 ∧ Passed E rules (a ++ hs :: (b ++ ms :: c1)) .rto ⟨false, r⟩) ∧
        Passed E rules (a ++ hs :: (b ++ ms :: c)) .data {} := by
  obtain ⟨rules, hload, hx⟩ := C76_answers hb hs h
  refine ⟨rules, hload, ?_⟩
  rintro l1 st l2 hl ⟨d, he⟩
  obtain ⟨a, hh, b, ms, c, ds, hc⟩ := C92_complete h ho hl he
  have pass : ∀ k1 q k2 ph e id, l1 = k1 ++ q :: k2 → q.asked = some (ph, e, id) → q.accepted = true → Passed E rules k1 ph e := by
    intro k1 q k2 ph e id hk ha hacc
    obtain ⟨act, w, h1, -, h3⟩ := hx k1 q (k2 ++ st :: l2) ph e id (by rw [hl, hk]; simp) ha
    exact ⟨act, w, h1, accepted_passed hacc h3⟩
  obtain ⟨⟨i, x, hx1⟩, hx2⟩ := hc.helo
  obtain ⟨⟨y, hy1⟩, hy2⟩ := hc.mail
  have henv := hc.env i x y hx1 hy1
  refine ⟨a, hh, b, ms, c, ds, hc, ⟨i, ?_⟩, ?_, ?_, ?_⟩
  · rw [henv]
    exact pass a hh _ _ _ _ hc.eq (asked_of hx1) hx2
  · rw [henv]
    exact pass _ ms (c ++ [ds]) _ _ _ (by rw [hc.eq]; simp) (asked_of hy1) hy2
  · rw [henv]
    intro r hr
    obtain ⟨q, hq, hqr⟩ := List.mem_filterMap.1 hr
    obtain ⟨c1, c2, rfl⟩ := List.append_of_mem hq
    obtain ⟨hq1, hq2⟩ := rcpt_eq hqr
    exact ⟨c1, q, c2, rfl, pass _ q (c2 ++ [ds]) _ _ _ (by rw [hc.eq]; simp) (asked_of hq1) hq2⟩
  · exact pass _ ds [] _ _ _ (by rw [hc.eq]; simp) (asked_of hc.data.1) hc.data.2

/-- The command of this phase. -/
def Spec.Step.askedPhase (st : Step) : Option Phase := st.asked.map (·.1)

/-- **C92.** If commands come in order and all commands of one kind are refused, nothing is stored and nothing gets into the message log. -/
theorem C92_refused {cf : Conf} {E : Env} {l : List Step} {s : Sess} (h : Life cf E l s) (ho : Orderly l) {ph : Phase}
    (hp : ph = .helo ∨ ph = .mfrom ∨ ph = .rto ∨ ph = .data) (hr : ∀ st ∈ l, st.askedPhase = some ph → st.accepted = false) :
    ∀ st ∈ l, ¬ IsMsg st ∧ ¬ Records st := by
  have key : ∀ l1 q l2, l = l1 ++ q :: l2 → ¬ IsMsg q := by
    rintro l1 q l2 hl ⟨d, he⟩
    obtain ⟨a, hh, b, ms, c, ds, hc⟩ := C92_complete h ho hl he
    have no : ∀ x ∈ l1, x.askedPhase = some ph → x.accepted ≠ true := fun x hx hph ha => by
      rw [hr x (by rw [hl]; simp [hx]) hph] at ha; cases ha
    rcases hp with rfl | rfl | rfl | rfl
    · obtain ⟨⟨i, x, hx1⟩, hx2⟩ := hc.helo
      exact no hh (by rw [hc.eq]; simp) (by simp [Step.askedPhase, askOf, asked_of hx1]) hx2
    · obtain ⟨⟨y, hy1⟩, hy2⟩ := hc.mail
      exact no ms (by rw [hc.eq]; simp) (by simp [Step.askedPhase, askOf, asked_of hy1]) hy2
    · obtain ⟨r, hr⟩ := List.exists_mem_of_ne_nil _ hc.some_rcpt
      obtain ⟨q', hq, hqr⟩ := List.mem_filterMap.1 hr
      obtain ⟨hq1, hq2⟩ := rcpt_eq hqr
      exact no q' (by rw [hc.eq]; simp [hq]) (by simp [Step.askedPhase, askOf, asked_of hq1]) hq2
    · exact no ds (by rw [hc.eq]; simp) (by simp [Step.askedPhase, askOf, asked_of hc.data.1]) hc.data.2
  intro st hst
  obtain ⟨l1, l2, hl⟩ := List.append_of_mem hst
  refine ⟨key l1 st l2 hl, fun hk => ?_⟩
  obtain ⟨k1, q, k2, -, -, -, -, -, -, h1, h2, -⟩ := C92_kept h ho hl hk
  exact key k1 q (k2 ++ l2) (by have := congrArg (· ++ l2) h1; simpa [hl] using this) h2

/-- **C92.** A stalled client, or any client when a rules file is broken, gets nothing stored. -/
theorem C92_putoff {cf : Conf} {E : Env} {l : List Step} {s : Sess} (h : Life cf E l s) (ho : Orderly l) (hp : ∀ st ∈ l, PutOff st) :
    ∀ st ∈ l, ¬ IsMsg st ∧ ¬ Records st := by
  refine C92_refused h ho (ph := .helo) (.inl rfl) fun st hst hph => ?_
  have := hp st hst
  unfold Step.askedPhase Step.asked at hph
  unfold PutOff at this
  unfold Step.accepted
  split at hph
  · rename_i hpc
    rw [hpc] at this
    split at hph
    · rename_i hev
      rw [hev] at this ⊢
      simp only at this ⊢
      rw [this]
      rfl
    all_goals cases hph
  · cases hph
  · cases hph

/-- **C92.** A stalled client gets nothing stored, if commands come in order. -/
theorem C92_stalled {o : BaseOpts} {cf : Conf} (hc : Built o cf) {E : Env} {l : List Step} {s : Sess} (h : Life cf E l s) (ho : Orderly l)
    (hst : s.stall = true) : ∀ st ∈ l, ¬ IsMsg st ∧ ¬ Records st := by
  refine C92_putoff h ho ?_
  obtain ⟨sh, i, s0, sh0, o0, hs, hrun⟩ := h
  obtain ⟨f1, -⟩ := run_flags hrun
  obtain ⟨rules, good, w, t, -, h2, -, h4, -⟩ := startSess_ctx hs
  rw [← f1, hst] at h2 h4
  simp only [if_true, Bool.not_true, Bool.false_and] at h2 h4
  rw [hc.stall_eq] at h2
  exact fun st hm => ((run_stalling hrun ⟨by rw [h2]; exact ⟨rfl, .inl rfl, rfl, rfl⟩, h4⟩).2 st hm).1

/-- **C92.** While a rules file is broken nothing is stored, if commands come in order. -/
theorem C92_broken {o : BaseOpts} {cf : Conf} (hc : Built o cf) {E : Env} (hb : Broken cf E) {l : List Step} {s : Sess} (h : Life cf E l s)
    (ho : Orderly l) : ∀ st ∈ l, ¬ IsMsg st ∧ ¬ Records st :=
  C92_putoff h ho fun st hm => (C37_broken_rules hc hb h st hm).1

/-- **C92.** If the rules let no command of some phase pass, nothing is stored. -/
theorem C92_closed {o : BaseOpts} {cf : Conf} (hb : Built o cf) {E : Env} (hs : E.W.Static) {l : List Step} {s : Sess} (h : Life cf E l s) (ho : Orderly l)
    {ph : Phase} (hp : ph = .helo ∨ ph = .mfrom ∨ ph = .rto ∨ ph = .data)
    (hn : ∀ rules, Loaded cf E s.stall rules → ∀ l1 e, ¬ Passed E rules l1 ph e) : ∀ st ∈ l, ¬ IsMsg st ∧ ¬ Records st := by
  refine C92_refused h ho hp fun st hst hph => ?_
  by_contra hacc
  obtain ⟨rules, hload, hx⟩ := C76_answers hb hs h
  obtain ⟨l1, l2, hl⟩ := List.append_of_mem hst
  unfold Step.askedPhase at hph
  cases ha : st.asked with
  | none => rw [ha] at hph; cases hph
  | some x =>
    obtain ⟨ph', e, id⟩ := x
    rw [ha] at hph
    cases hph
    obtain ⟨a, w, h1, -, h3⟩ := hx l1 st l2 _ _ _ hl ha
    exact hn rules hload l1 e ⟨a, w, h1, accepted_passed (by simpa using hacc) h3⟩

theorem lastHelo_append {a b : List Step} (hb : ∀ q ∈ b, ¬ IsHelo q) : lastHelo (a ++ b) = lastHelo a := by
  unfold lastHelo
  rw [List.filterMap_append, List.filterMap_eq_nil_iff (l := b) |>.2 ?_, List.append_nil]
  intro q hq
  cases he : q.event with
  | none => rfl
  | some e =>
    cases e with
    | helo i x => exact absurd ⟨i, x, he⟩ (hb q hq)
    | _ => rfl

theorem not_both {st : Step} {e : SEv} (he : st.event = some e) (hn : ∀ h a, e ≠ .helo h a) (ha : st.accepted = true)
    (hr : replies st.out = [.rejected] ∨ replies st.out = [.deferred]) : False := by
  have hi : st.i.ev = e := by
    unfold Step.event at he
    split at he
    · exact Option.some.inj he
    · cases he
  unfold Step.accepted at ha
  rw [hi] at ha
  cases e with
  | helo h a => exact hn _ _ rfl
  | _ => rcases hr with hr | hr <;> rw [hr] at ha <;> cases ha

/-- **C92.** With commands in order and whatever the rule files say, no message is taken whose sender is in the file of `-fromreject`, whose last EHLO name is
in that of `-heloreject`, or that has no recipient or one that is not in that of `-toaccept` (if this has any patterns). -/
theorem C92_options {o : BaseOpts} {cf : Conf} (hc : Configured o cf) {E : Env} {l : List Step} {s : Sess} (h : Life cf E l s) (ho : Orderly l) :
    ∃ n1 n2 n3, ∀ l1 st l2, l = l1 ++ st :: l2 → IsMsg st →
      (o.fromreject ≠ [] → ¬ ∃ p ∈ entriesAt E.W n1 o.fromreject, AddrMatch (E.W.lib.lower (envelope l1).from_) p) ∧
      (o.heloreject ≠ [] → ¬ ∃ p ∈ entriesAt E.W n2 o.heloreject, HostMatch (E.W.lib.lower (lastHelo l1)) p) ∧
      (envelope l1).rcpts ≠ [] ∧ (o.toaccept ≠ [] → ∀ r ∈ (envelope l1).rcpts,
        entriesAt E.W n3 o.toaccept = [] ∨ ∃ p ∈ entriesAt E.W n3 o.toaccept, AddrMatch (E.W.lib.lower r) p) := by
  have w1 : ∃ n, o.fromreject ≠ [] → ∀ l1 st l2 a, l = l1 ++ st :: l2 → st.event = some (.mailfrom a) →
      (∃ p ∈ entriesAt E.W n o.fromreject, AddrMatch (E.W.lib.lower a) p) →
      if a ≠ [] then replies st.out = [.rejected] ∨ replies st.out = [.deferred]
      else ∀ l3 st' l4 r, l2 = l3 ++ st' :: l4 → (∀ q ∈ l3, q.within) → st'.event = some (.rcptto r) →
        replies st'.out = [.rejected] ∨ replies st'.out = [.deferred] := by
    by_cases hF : o.fromreject = []
    · exact ⟨0, fun h => absurd hF h⟩
    · obtain ⟨n, hn⟩ := C36_fromreject hc hF h
      exact ⟨n, fun _ => hn⟩
  have w2 : ∃ n, o.heloreject ≠ [] → ∀ l1 st l2 a, l = l1 ++ st :: l2 → st.event = some (.mailfrom a) →
      (∃ p ∈ entriesAt E.W n o.heloreject, HostMatch (E.W.lib.lower (lastHelo l1)) p) →
      if a ≠ [] then replies st.out = [.rejected] ∨ replies st.out = [.deferred]
      else ∀ l3 st' l4 r, l2 = l3 ++ st' :: l4 → (∀ q ∈ l3, q.within) → st'.event = some (.rcptto r) →
        replies st'.out = [.rejected] ∨ replies st'.out = [.deferred] := by
    by_cases hF : o.heloreject = []
    · exact ⟨0, fun h => absurd hF h⟩
    · obtain ⟨n, hn⟩ := C67_heloreject hc hF h
      exact ⟨n, fun _ => hn⟩
  have w3 : ∃ n, o.toaccept ≠ [] → ∀ st ∈ l, ∀ a, st.event = some (.rcptto a) → replies st.out = [.accepted] →
      entriesAt E.W n o.toaccept = [] ∨ ∃ p ∈ entriesAt E.W n o.toaccept, AddrMatch (E.W.lib.lower a) p := by
    by_cases hF : o.toaccept = []
    · exact ⟨0, fun h => absurd hF h⟩
    · obtain ⟨n, hn⟩ := C36_toaccept hc hF h
      exact ⟨n, fun _ => hn⟩
  obtain ⟨n1, w1⟩ := w1
  obtain ⟨n2, w2⟩ := w2
  obtain ⟨n3, w3⟩ := w3
  refine ⟨n1, n2, n3, ?_⟩
  rintro l1 st l2 hl ⟨d, he⟩
  obtain ⟨a, hh, b, ms, c, ds, hC⟩ := C92_complete h ho hl he
  obtain ⟨⟨i, x, hx1⟩, hx2⟩ := hC.helo
  obtain ⟨⟨y, hy1⟩, hy2⟩ := hC.mail
  have henv := hC.env i x y hx1 hy1
  have el : l = (a ++ hh :: b) ++ ms :: (c ++ ds :: st :: l2) := by rw [hl, hC.eq]; simp
  obtain ⟨r, hr⟩ := List.exists_mem_of_ne_nil _ hC.some_rcpt
  obtain ⟨q, hq, hqr⟩ := List.mem_filterMap.1 hr
  obtain ⟨hq1, hq2⟩ := rcpt_eq hqr
  obtain ⟨c1, c2, hcc⟩ := List.append_of_mem hq
  have hwith : ∀ z ∈ c1, z.within := by
    intro z hz ev hev
    obtain ⟨k1, k2, -, -⟩ := hC.within z (by rw [hcc]; simp [hz])
    exact ⟨fun h' x' e => k1 ⟨h', x', by rw [hev, e]⟩, fun x' e => k2 ⟨x', by rw [hev, e]⟩⟩
  have bad : ¬ (if y ≠ [] then replies ms.out = [.rejected] ∨ replies ms.out = [.deferred]
      else ∀ l3 st' l4 r, c ++ ds :: st :: l2 = l3 ++ st' :: l4 → (∀ q ∈ l3, q.within) → st'.event = some (.rcptto r) →
        replies st'.out = [.rejected] ∨ replies st'.out = [.deferred]) := by
    intro hb
    split at hb
    · exact not_both hy1 (by simp) hy2 hb
    · exact not_both hq1 (by simp) hq2 (hb c1 q (c2 ++ ds :: st :: l2) r (by rw [hcc]; simp) hwith hq1)
  have hlast : lastHelo l1 = lastHelo (a ++ hh :: b) := by
    rw [hC.eq, show a ++ hh :: (b ++ ms :: (c ++ [ds])) = (a ++ hh :: b) ++ (ms :: (c ++ [ds])) by simp]
    refine lastHelo_append fun z hz => ?_
    rintro ⟨i', x', e⟩
    rcases List.mem_cons.1 hz with rfl | hz
    · rw [hy1] at e; cases e
    · rcases List.mem_append.1 hz with hz | hz
      · exact (hC.within z hz).1 ⟨i', x', e⟩
      · rw [List.mem_singleton.1 hz, hC.data.1] at e; cases e
  rw [henv]
  refine ⟨fun hF hm => ?_, fun hF hm => ?_, hC.some_rcpt, fun hF r hr => ?_⟩
  · exact bad (w1 hF _ ms _ y el hy1 hm)
  · rw [hlast] at hm
    exact bad (w2 hF _ ms _ y el hy1 hm)
  · obtain ⟨q, hq, hqr⟩ := List.mem_filterMap.1 hr
    obtain ⟨hq1, hq2⟩ := rcpt_eq hqr
    refine w3 hF q (by rw [el]; simp [hq]) r hq1 ?_
    have hi : q.i.ev = .rcptto r := by
      unfold Step.event at hq1
      split at hq1
      · exact Option.some.inj hq1
      · cases hq1
    unfold Step.accepted at hq2
    rw [hi] at hq2
    exact of_decide_eq_true hq2

/-- **C92.** With the standard rules and commands in order, no message is taken with a malformed sender or recipient, or without an EHLO name. -/
theorem C92_std {o : BaseOpts} {cf : Conf} (hc : Built o cf) (hstd : o.stdrules = true) {E : Env} {l : List Step} {s : Sess}
    (h : Life cf E l s) (ho : Orderly l) {l1 : List Step} {st : Step} {l2 : List Step} (hl : l = l1 ++ st :: l2) (hm : IsMsg st) :
    ¬ Malformed (envelope l1).from_ ∧ (∀ r ∈ (envelope l1).rcpts, ¬ Malformed r) ∧ (envelope l1).helo ≠ [] := by
  obtain ⟨d, he⟩ := hm
  obtain ⟨a, hh, b, ms, c, ds, hC⟩ := C92_complete h ho hl he
  obtain ⟨⟨i, x, hx1⟩, hx2⟩ := hC.helo
  obtain ⟨⟨y, hy1⟩, hy2⟩ := hC.mail
  rw [hC.env i x y hx1 hy1]
  have mem : ∀ q, q ∈ l1 → q ∈ l := fun q hq => by rw [hl]; simp [hq]
  refine ⟨fun hb => ?_, fun r hr hb => ?_, ?_⟩
  · exact not_both hy1 (by simp) hy2 (C68_std hc hstd h (mem ms (by rw [hC.eq]; simp)) (.inl ⟨y, hy1, hb⟩))
  · obtain ⟨q, hq, hqr⟩ := List.mem_filterMap.1 hr
    obtain ⟨hq1, hq2⟩ := rcpt_eq hqr
    exact not_both hq1 (by simp) hq2 (C68_std hc hstd h (mem q (by rw [hC.eq]; simp [hq])) (.inr (.inl ⟨r, hq1, hb⟩)))
  · rintro rfl
    have := C68_std hc hstd h (mem hh (by rw [hC.eq]; simp)) (.inr (.inr ⟨i, hx1⟩))
    have hi : hh.i.ev = .helo i [] := by
      unfold Step.event at hx1
      split at hx1
      · exact Option.some.inj hx1
      · cases hx1
    unfold Step.accepted at hx2
    rw [hi] at hx2
    rcases this with h | h <;> rw [h] at hx2 <;> cases hx2

/-! ## Examples -/

/-- Whether all events of a history come in order. -/
def orderly : Dialog → List Step → Bool
  | _, [] => true
  | p, st :: l => (match st.event with | some e => decide (p.Takes e) | none => true) && orderly (p.step st) l

theorem orderly_iff : ∀ (l k : List Step), orderly (dialog k) l = true → ∀ l1 st l2 e, l = l1 ++ st :: l2 → st.event = some e → (dialog (k ++ l1)).Takes e := by
  intro l
  induction l with
  | nil => intro k _ l1 st l2 e h; simp at h
  | cons q l ih =>
    intro k hk l1 st l2 e hl he
    rw [orderly, Bool.and_eq_true] at hk
    cases l1 with
    | nil =>
      simp only [List.nil_append, List.cons.injEq] at hl
      obtain ⟨rfl, -⟩ := hl
      rw [he] at hk
      simpa using hk.1
    | cons x l1 =>
      simp only [List.cons_append, List.cons.injEq] at hl
      obtain ⟨rfl, hl⟩ := hl
      have := ih (k ++ [q]) (by rw [dialog_snoc]; exact hk.2) l1 st l2 e hl he
      simpa using this

theorem orderly_ok {l : List Step} (h : orderly .start l = true) : Orderly l := fun l1 st l2 e hl he => by
  simpa using orderly_iff l [] h l1 st l2 e hl he

/-- A message in order, with a refused recipient on the way. -/
def orderlyEvents : List SEv := [.helo false b!"example.com", .mailfrom b!"a@example.com", .rcptto b!"bad@example.com", .rcptto b!"b@example.com", .data,
  .gotdata b!"Subject: x\n\nhello\n"]

example : seen (fun l _ _ => (orderly .start l, l.countP fun st => decide (msglogs st.out ≠ []))) (driveAll demoConf demoEnv {} {} (events orderlyEvents ++ List.replicate 5 ({} : Inp))) =
    .ok (true, 1) := by decide +kernel

/-- Without the order the theorems are false: `process` itself would store what a refused client sends. -/
example : seen (fun l _ _ => (orderly .start l, l.countP fun st => decide (msglogs st.out ≠ []), l.any fun st => decide (replies st.out = [.accepted])))
    (driveAll { demoConf with rulefiles := [b!"/broken"] } demoEnv {} {} (events [.gotdata b!"Subject: x\n\nhello\n"] ++ List.replicate 5 ({} : Inp))) =
    .ok (false, 1, false) := by decide +kernel

/-- A greeting that is taken, one that is refused, then a message. -/
def regreetEvents : List SEv := [.helo false b!"example.com", .helo false b!"bad.example.com", .mailfrom b!"a@example.com", .rcptto b!"b@example.com", .data,
  .gotdata b!"Subject: x\n\nhello\n"]

/-- The demo environment with another rules file. -/
def regreetEnv (r : Str) : Env := { demoEnv with fs := fun _ => tbl (.notExist b!"no such file") [(b!"/rules", .data r)] }

/-- What is seen of that session: whether it is in order, how many messages are logged, the name in the record, the last name sent, whether MAIL FROM is accepted. -/
def regreet (r : Str) : Except Panic (Bool × Nat × Str × Str × Option Bool) :=
  seen (fun l _ _ => (orderly .start l, l.countP (fun st => decide (msglogs st.out ≠ [])), (envelope (l.take 7)).helo, lastHelo (l.take 7), l[4]?.map Step.accepted))
    (driveAll demoConf (regreetEnv r) {} {} (events regreetEvents ++ List.replicate 5 ({} : Inp)))

/-- A refused second greeting under a rule for the EHLO phase alone: the mail is taken, and recorded with the first name. -/
theorem C92_other_name : regreet b!"@helo reject helo bad.example.com\n" = .ok (true, 1, b!"example.com", b!"bad.example.com", some true) := by decide +kernel

/-- Under the same rule without a phase MAIL FROM is refused too. -/
example : (regreet b!"reject helo bad.example.com\n").toOption.map (·.2.2.2.2) = some (some false) := by decide +kernel

end Sink
