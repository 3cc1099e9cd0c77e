import Verif.Props.Store

/-!
# C42: a message is accepted only after it was stored

The claim is false as it stands (`C42_not_always`, `C42_retry`): a failed write is only reported, and a file of that name that
is already there counts as a stored message.  The `_partial` theorems say what does hold.
-/

namespace Sink
open Spec

/-- The steps from `decide`. -/
theorem Did.from_decide {cf : Conf} {E : Env} {s s' : Sess} {sh sh' : Shared} {i : Inp} {o : List Out} (h : Did cf E s sh i s' sh' o)
    {id : Str} {b : Bool} (hp : s.pc = .decide id b) : s'.pc = .ready ∧ (b = true → o = [.reply .tempfail]) ∧ sh' = sh := by
  cases h with
  | tls h1 | drop h1 | connect h1 | heloRef h1 | heloAcc h1 | mailRef h1 | mailAcc h1 | mailCount h1 | mailDrop h1 | rcptRef h1 | rcptAcc h1
  | dataRef h1 | dataAcc h1 | gotKeep h1 | gotSave h1 | tlserror h1 | finish h1 | other h1 | save h1 | closed h1 => rw [hp] at h1; cases h1
  | answerFail h1 => exact ⟨rfl, fun _ => rfl, rfl⟩
  | answerRef h1 => rw [hp] at h1; cases h1; exact ⟨rfl, (nomatch ·), rfl⟩
  | answerAcc h1 => rw [hp] at h1; cases h1; exact ⟨rfl, (nomatch ·), rfl⟩

/-- The record is in the file, on disk unless syncing failed, and no connection has the file open. -/
def Kept (tgt r : Str) (m : List Step) (g : Server) : Prop :=
  (∃ b, g.sh.fs tgt = some ⟨r, b⟩ ∧ (b = true ∨ ∃ q ∈ m, SyncFailed q)) ∧ ∀ k E s, g.conns k = some (E, s) → ¬ Writing s tgt

/-- How far the handling of a message has got, `m` being the steps since it arrived. -/
def Stage (tgt r n : Str) (m : List Step) (s : Sess) (g : Server) : Prop := match s.pc with
  | .save q t r' n' => t = tgt ∧ r' = r ∧ n' = n ∧ (∀ x ∈ m, ¬ OpenFailed x ∧ ¬ CloseFailed x) ∧
      (q = .open_ → m = []) ∧ (q = .sync → (∃ x ∈ m, WriteFailed x) ∨ g.sh.fs tgt = some ⟨r, false⟩) ∧
      (q = .close → (∃ x ∈ m, WriteFailed x) ∨ ∃ b, g.sh.fs tgt = some ⟨r, b⟩ ∧ (b = true ∨ ∃ x ∈ m, SyncFailed x))
  | .decide n' false => n' = n ∧ (∀ x ∈ m, ¬ OpenFailed x ∧ ¬ CloseFailed x) ∧ (g.sh.fs tgt).isSome = true ∧
      ((∃ x ∈ m, Found tgt x) ∨ (∃ x ∈ m, WriteFailed x) ∨ Kept tgt r m g)
  | .decide n' true => n' = n ∧ ∃ x ∈ m, OpenFailed x ∨ CloseFailed x
  | p => p = .ready

theorem Kept.other {cf : Conf} {tgt r : Str} {m : List Step} {g : Server} (hk : Kept tgt r m g) {j : Nat} {E : Env} {s s' : Sess} {i : Inp}
    {sh' : Shared} {o : List Out} (hj : g.conns j = some (E, s)) (hs : sstep cf E s g.sh i = .ok (s', sh', o)) :
    Kept tgt r m ⟨sh', fun x => if x = j then some (E, s') else g.conns x⟩ := by
  obtain ⟨⟨b, h1, h2⟩, h3⟩ := hk
  refine ⟨⟨b, ?_, h2⟩, fun k E1 s1 hk => ?_⟩
  · simp only
    rcases sstep_fs hs tgt with e | e | ⟨e, -⟩
    · rw [e]; exact h1
    · exact absurd e (h3 _ _ _ hj)
    · rw [e] at h1; cases h1
  · simp only at hk
    split at hk
    · cases hk
      intro hw
      rcases sstep_writing hs hw with hw | ⟨hn, -⟩
      · exact h3 _ _ _ hj hw
      · rw [hn] at h1; cases h1
    · exact h3 _ _ _ hk

theorem Kept.start {cf : Conf} {tgt r : Str} {m : List Step} {g : Server} (hk : Kept tgt r m g) {j : Nat} {E : Env} {s : Sess} {i : Inp}
    {sh' : Shared} {o : List Out} (hs : startSess cf E g.sh i = .ok (s, sh', o)) :
    Kept tgt r m ⟨sh', fun x => if x = j then some (E, s) else g.conns x⟩ := by
  obtain ⟨⟨b, h1, h2⟩, h3⟩ := hk
  refine ⟨⟨b, by simp only; rw [startSess_fs hs]; exact h1, h2⟩, fun k E1 s1 hk => ?_⟩
  simp only at hk
  split at hk
  · cases hk; exact not_writing_tls (startSess_init hs).1 tgt
  · exact h3 _ _ _ hk

theorem Stage.other {cf : Conf} {tgt r n : Str} {m : List Step} {k j : Nat} {E : Env} {s : Sess} {h : List Hap} {g : Server} (hr : Server.Runs cf h g)
    (hk : g.conns k = some (E, s)) (hst : Stage tgt r n m s g) (hne : j ≠ k) {E' : Env} {s1 s2 : Sess} {i : Inp} {sh' : Shared} {o : List Out}
    (hj : g.conns j = some (E', s1)) (hs : sstep cf E' s1 g.sh i = .ok (s2, sh', o)) :
    Stage tgt r n m s ⟨sh', fun x => if x = j then some (E', s2) else g.conns x⟩ := by
  have mine : ∀ {q r' n'}, s.pc = .save q tgt r' n' → q ≠ .open_ → sh'.fs tgt = g.sh.fs tgt := by
    intro q r' n' hp hq
    obtain ⟨h1, h2⟩ := hr.own k E s tgt hk ⟨q, r', n', hp, hq⟩
    rcases sstep_fs hs tgt with e | e | ⟨e, -⟩
    · exact e
    · exact absurd e (h2 _ _ _ hne hj)
    · rw [e] at h1; cases h1
  unfold Stage at hst ⊢
  split at hst
  · rename_i q t r' n' hp
    obtain ⟨rfl, rfl, rfl, h1, h2, h3, h4⟩ := hst
    refine ⟨rfl, rfl, rfl, h1, h2, fun hq => ?_, fun hq => ?_⟩
    · simp only [mine hp (by simp [hq])]; exact h3 hq
    · simp only [mine hp (by simp [hq])]; exact h4 hq
  · obtain ⟨h1, h2, h3, h4⟩ := hst
    exact ⟨h1, h2, sstep_keeps hs h3, h4.imp id (Or.imp id fun hk => hk.other hj hs)⟩
  · exact hst
  · exact hst

theorem Stage.start {cf : Conf} {tgt r n : Str} {m : List Step} {j : Nat} {s : Sess} {g : Server} (hst : Stage tgt r n m s g)
    {E' : Env} {s1 : Sess} {i : Inp} {sh' : Shared} {o : List Out} (hs : startSess cf E' g.sh i = .ok (s1, sh', o)) :
    Stage tgt r n m s ⟨sh', fun x => if x = j then some (E', s1) else g.conns x⟩ := by
  have he := startSess_fs hs
  unfold Stage at hst ⊢
  simp only [he]
  split at hst
  · exact hst
  · obtain ⟨h1, h2, h3, h4⟩ := hst
    exact ⟨h1, h2, h3, h4.imp id (Or.imp id fun hk => hk.start hs)⟩
  · exact hst
  · exact hst

/-- Where a step of the handling leads. -/
theorem Stage.mine {cf : Conf} {tgt r n : Str} {m : List Step} {k : Nat} {E : Env} {s s' : Sess} {h : List Hap} {g : Server} (hr : Server.Runs cf h g)
    (hk : g.conns k = some (E, s)) (hst : Stage tgt r n m s g) {i : Inp} {sh' : Shared} {o : List Out} (hnr : s.pc ≠ .ready)
    (hs : sstep cf E s g.sh i = .ok (s', sh', o)) :
    Stage tgt r n (m ++ [⟨s, i, g.sh, s', sh', o⟩]) s' ⟨sh', fun x => if x = k then some (E, s') else g.conns x⟩ := by
  have mono : ∀ {Q : Step → Prop} {e : Step}, (∃ x ∈ m, Q x) → ∃ x ∈ m ++ [e], Q x :=
    fun ⟨x, hx, hq⟩ => ⟨x, List.mem_append_left _ hx, hq⟩
  have last : ∀ {Q : Step → Prop} {e : Step}, Q e → ∃ x ∈ m ++ [e], Q x := fun {Q e} hq => ⟨e, by simp, hq⟩
  have both : ∀ {Q : Step → Prop} {e : Step}, (∀ x ∈ m, Q x) → Q e → ∀ x ∈ m ++ [e], Q x := by
    intro Q e h1 h2 x hx
    rcases List.mem_append.1 hx with hx | hx
    · exact h1 x hx
    · rw [List.mem_singleton] at hx; subst hx; exact h2
  rcases hp : s.pc with _ | _ | _ | ⟨q, t, r', n'⟩ | ⟨n', b⟩ | _
  · rw [Stage, hp] at hst; cases hst
  · rw [Stage, hp] at hst; cases hst
  · exact absurd hp hnr
  · rw [Stage, hp] at hst
    obtain ⟨rfl, rfl, rfl, h1, h2, h3, h4⟩ := hst
    have hsv := sstep_saved hs hp
    have nof : q ≠ .open_ → q ≠ .close → ∀ x ∈ m ++ [⟨s, i, g.sh, s', sh', o⟩], ¬ OpenFailed x ∧ ¬ CloseFailed x := by
      intro hq hq'
      refine both h1 ⟨?_, ?_⟩
      · rintro ⟨_, _, _, h, -⟩
        rw [show (⟨s, i, g.sh, s', sh', o⟩ : Step).pre.pc = _ from hp] at h
        cases h; exact hq rfl
      · rintro ⟨_, _, _, h, -⟩
        rw [show (⟨s, i, g.sh, s', sh', o⟩ : Step).pre.pc = _ from hp] at h
        cases h; exact hq' rfl
    cases hsv with
    | @exists_ f hf hok =>
      refine ⟨rfl, both h1 ⟨?_, ?_⟩, by simp only; rw [hf]; rfl, .inl (last ⟨_, _, _, hp, hf, hok⟩)⟩
      · rintro ⟨_, _, _, -, h⟩; exact h hok
      · rintro ⟨_, _, _, h, -⟩
        rw [show (⟨s, i, g.sh, _, _, _⟩ : Step).pre.pc = _ from hp] at h
        cases h
    | created hf hok =>
      refine ⟨rfl, rfl, rfl, both h1 ⟨?_, ?_⟩, (nomatch ·), (nomatch ·), (nomatch ·)⟩
      · rintro ⟨_, _, _, -, h⟩; exact h hok
      · rintro ⟨_, _, _, -, h⟩; exact h hok
    | openFailed hko =>
      exact ⟨rfl, last (.inl ⟨_, _, _, hp, by simp [hko]⟩)⟩
    | written =>
      refine ⟨rfl, rfl, rfl, nof (by simp) (by simp), (nomatch ·), fun _ => .inr (fs_set_self _ _ _), (nomatch ·)⟩
    | writeFailed hko =>
      exact ⟨rfl, rfl, rfl, nof (by simp) (by simp), (nomatch ·), fun _ => .inl (last ⟨_, _, _, hp, by simp [hko]⟩), (nomatch ·)⟩
    | @synced f hok hf =>
      refine ⟨rfl, rfl, rfl, nof (by simp) (by simp), (nomatch ·), (nomatch ·), fun _ => ?_⟩
      rcases h3 rfl with h | h
      · exact .inl (mono h)
      · rw [hf] at h
        cases h
        exact .inr ⟨true, fs_set_self _ _ _, .inl rfl⟩
    | notSynced hko =>
      refine ⟨rfl, rfl, rfl, nof (by simp) (by simp), (nomatch ·), (nomatch ·), fun _ => ?_⟩
      rcases h3 rfl with h | h
      · exact .inl (mono h)
      · rcases hko with hko | hko
        · exact .inr ⟨false, h, .inr (last ⟨_, _, _, hp, hko⟩)⟩
        · rw [hko] at h; cases h
    | closed hok =>
      obtain ⟨h5, h6⟩ := hr.own k E s t hk ⟨_, _, _, hp, by simp⟩
      refine ⟨rfl, both h1 ⟨?_, ?_⟩, h5, .inr ?_⟩
      · rintro ⟨_, _, _, -, h⟩; exact h hok
      · rintro ⟨_, _, _, -, h⟩; exact h hok
      · rcases h4 rfl with h | ⟨b, hb, hb'⟩
        · exact .inl (mono h)
        · refine .inr ⟨⟨b, hb, hb'.imp id mono⟩, fun k' E' s1 h' => ?_⟩
          simp only at h'
          split at h'
          · cases h'
            rintro ⟨_, _, _, h, -⟩
            cases h
          · rename_i hne
            exact h6 _ _ _ hne h'
    | closeFailed hko => exact ⟨rfl, last (.inr ⟨_, _, _, hp, by simp [hko]⟩)⟩
    | closeLost hko => exact ⟨rfl, last (.inr ⟨_, _, _, hp, by simp [hko]⟩)⟩
  · have := ((sstep_did hs).from_decide hp).1
    rw [Stage, this]
  · rw [Stage, hp] at hst; cases hst

/-- At every time after a message has arrived, until the next event of that connection. -/
theorem Server.Runs.stage {cf : Conf} {h : List Hap} {g : Server} (hr : Server.Runs cf h g) {k : Nat} {E : Env} {s : Sess}
    (hk : g.conns k = some (E, s)) {l m : List Step} {a : Step} (hl : stepsOf k h = l ++ a :: m) {tgt r n : Str}
    (ha : a.post.pc = .save .open_ tgt r n) (hm : Handling m) : Stage tgt r n m s g := by
  refine Server.Runs.since (k := k) (Q := fun a _ => a.post.pc = .save .open_ tgt r n) (P := fun _ m _ s g => Handling m → Stage tgt r n m s g)
    ?_ ?_ ?_ ?_ hr hk hl ha hm
  · intro h g E s s' i sh' o hr hk hs ha _
    rw [Stage, ha]
    exact ⟨rfl, rfl, rfl, fun x hx => (nomatch hx), fun _ => rfl, (nomatch ·), (nomatch ·)⟩
  · intro h g E s s' i sh' o a m hr hk _ ih hs hm
    exact (ih fun q hq => hm q (List.mem_append_left _ hq)).mine hr hk (hm _ (List.mem_append_right _ List.mem_cons_self)) hs
  · intro h g E s j E' s1 s2 i sh' o a m hr hk ih hne hj hs hm
    exact (ih hm).other hr hk hne hj hs
  · intro h g E s j E' s1 i sh' o a m hr hk ih hne hj hs hm
    exact (ih hm).start hs

theorem Server.Runs.conns_eq {cf : Conf} {h : List Hap} {g : Server} (hr : Server.Runs cf h g) :
    ∀ {g' : Server}, Server.Runs cf h g' → g.conns = g'.conns := by
  induction hr with
  | init fs => intro g' hr'; cases hr'; rfl
  | start hr hn hk hs ih =>
    intro g' hr'
    generalize he : (_ :: _ : List Hap) = hh at hr'
    cases hr' with
    | init => cases he
    | start hr2 hn2 hk2 hs2 =>
      simp only [List.cons.injEq, Hap.mk.injEq, What.began.injEq] at he
      obtain ⟨⟨rfl, rfl, -, -, rfl, -, -⟩, rfl⟩ := he
      simp only [ih hr2]
    | step hr2 hn2 hk2 hs2 => simp at he
  | step hr hn hk hs ih =>
    intro g' hr'
    generalize he : (_ :: _ : List Hap) = hh at hr'
    cases hr' with
    | init => cases he
    | start hr2 hn2 hk2 hs2 => simp at he
    | step hr2 hn2 hk2 hs2 =>
      simp only [List.cons.injEq, Hap.mk.injEq, What.stepped.injEq] at he
      obtain ⟨⟨rfl, rfl, -, -, -, -, rfl, -, -⟩, rfl⟩ := he
      simp only [ih hr2]

theorem Server.Runs.sh_eq {cf : Conf} {h : List Hap} {k : Nat} {E : Env} {now : Int} {s s' : Sess} {sh sh' : Shared} {i : Inp} {o : List Out}
    {g : Server} (hr : Server.Runs cf (⟨k, E, now, .stepped s sh i s' sh' o⟩ :: h) g) : g.sh = sh' := by
  cases hr; rfl

/-- The history tells the state. -/
theorem Server.Runs.functional {cf : Conf} {h : List Hap} {k : Nat} {E : Env} {now : Int} {s s' : Sess} {sh sh' : Shared} {i : Inp} {o : List Out}
    {g g' : Server} (hr : Server.Runs cf (⟨k, E, now, .stepped s sh i s' sh' o⟩ :: h) g)
    (hr' : Server.Runs cf (⟨k, E, now, .stepped s sh i s' sh' o⟩ :: h) g') : g = g' := by
  have h1 := hr.conns_eq hr'
  have h2 := hr.sh_eq.trans hr'.sh_eq.symm
  cases g; cases g'
  simp only at h1 h2
  rw [h1, h2]

/-- An earlier state of a run; files do not vanish. -/
theorem Server.Runs.split {cf : Conf} : ∀ {h2 h1 : List Hap} {g : Server}, Server.Runs cf (h2 ++ h1) g →
    ∃ g1, Server.Runs cf h1 g1 ∧ ∀ p, (g1.sh.fs p).isSome = true → (g.sh.fs p).isSome = true := by
  intro h2
  induction h2 with
  | nil => intro h1 g hr; exact ⟨g, hr, fun _ h => h⟩
  | cons x h2 ih =>
    intro h1 g hr
    cases hr with
    | @start _ g0 j E i s0 sh' o hr hn hk hs =>
      obtain ⟨g1, h3, h4⟩ := ih hr
      exact ⟨g1, h3, fun p hp => by simp only; rw [startSess_fs hs]; exact h4 p hp⟩
    | @step _ g0 j E i s0 s1 sh' o hr hn hk hs =>
      obtain ⟨g1, h3, h4⟩ := ih hr
      exact ⟨g1, h3, fun p hp => sstep_keeps hs (h4 p hp)⟩

/-- **C42**, the part that holds.  When a message that was to be saved is accepted, a file of its name exists, from then on.  It
contains exactly the record (and is safely on disk if syncing it did not fail), unless there was a file of that name before the
message, or writing the record failed.

The statement of C42 says that the file always contains the record: see `C42_not_always` and `C42_retry`. -/
theorem C42_stored_partial {cf : Conf} {h2 h1 : List Hap} {g : Server} {k : Nat} {E : Env} {now : Int} {s s' : Sess} {sh sh' : Shared}
    {i : Inp} {o : List Out} (hr : Server.Runs cf (h2 ++ ⟨k, E, now, .stepped s sh i s' sh' o⟩ :: h1) g) {l m : List Step} {a : Step}
    {data tgt r : Str} (hl : stepsOf k h1 = l ++ a :: m) (ha : SavesTo cf E a data tgt r) (hm : Handling m) (hp : s.pc ≠ .ready)
    (hacc : .accepted ∈ replies o) :
    (g.sh.fs tgt).isSome = true ∧ ((∃ q ∈ m, Found tgt q) ∨ (∃ q ∈ m, WriteFailed q) ∨
      ∃ b, g.sh.fs tgt = some ⟨r, b⟩ ∧ (b = true ∨ ∃ q ∈ m, SyncFailed q)) := by
  obtain ⟨g1, hr1, hm1⟩ := hr.split
  obtain ⟨-, -, n, hn⟩ := ha
  have key : (g1.sh.fs tgt).isSome = true ∧ ((∃ q ∈ m, Found tgt q) ∨ (∃ q ∈ m, WriteFailed q) ∨ ∃ f, (f.content = r ∧
      (f.synced = true ∨ ∃ q ∈ m, SyncFailed q)) ∧ g1.sh.fs tgt = some f ∧ ∀ k E s, g1.conns k = some (E, s) → ¬ Writing s tgt) := by
    cases hr1 with
    | @step _ g0 _ _ i _ _ _ _ hr0 hn' hk hs =>
      have hst := hr0.stage hk hl hn hm
      have hd := sstep_did hs
      rw [Stage] at hst
      split at hst
      · rename_i hpc
        exfalso
        cases hd with
        | save _ _ hq => rw [hq] at hacc; cases hacc
        | tls h1 | drop h1 | connect h1 | heloRef h1 | heloAcc h1 | mailRef h1 | mailAcc h1 | mailCount h1 | mailDrop h1 | rcptRef h1 | rcptAcc h1
        | dataRef h1 | dataAcc h1 | gotKeep h1 | gotSave h1 | tlserror h1 | finish h1 | other h1 | answerFail h1 | answerRef h1
        | answerAcc h1 | closed h1 => rw [hpc] at h1; cases h1
      · rename_i hpc
        obtain ⟨-, -, h3, h4⟩ := hst
        have he := (hd.from_decide hpc).2.2
        refine ⟨sstep_keeps hs h3, h4.imp id (Or.imp id fun hk' => ?_)⟩
        obtain ⟨⟨b, hb, hb'⟩, hw⟩ := hk'.other hk hs
        exact ⟨⟨r, b⟩, ⟨rfl, hb'⟩, hb, hw⟩
      · rename_i hpc
        have := (hd.from_decide hpc).2.1 rfl
        rw [this] at hacc
        exact absurd hacc (by decide)
      · exact absurd hst hp
  refine ⟨hm1 _ key.1, key.2.imp id (Or.imp id ?_)⟩
  rintro ⟨f, ⟨rfl, hf'⟩, hf, hw⟩
  have := hr.untouched (p := tgt) (f := f) fun g' hg' => ?_
  · exact ⟨f.synced, this.1, hf'⟩
  · obtain rfl := hg'.functional hr1
    exact ⟨hf, hw⟩

/-- **C42.** If the file could not be created, or closing it failed, the answer is a temporary failure. -/
theorem C42_failure {cf : Conf} {h : List Hap} {g : Server} {k : Nat} {E : Env} {now : Int} {s s' : Sess} {sh sh' : Shared}
    {i : Inp} {o : List Out} (hr : Server.Runs cf (⟨k, E, now, .stepped s sh i s' sh' o⟩ :: h) g) {l m : List Step} {a : Step}
    {data tgt r : Str} (hl : stepsOf k h = l ++ a :: m) (ha : SavesTo cf E a data tgt r) (hm : Handling m) (hp : s.pc ≠ .ready)
    (hf : ∃ q ∈ m, OpenFailed q ∨ CloseFailed q) : o = [.reply .tempfail] := by
  obtain ⟨-, -, n, hn⟩ := ha
  obtain ⟨q, hq, hf⟩ := hf
  cases hr with
  | @step _ g0 _ _ i _ _ _ _ hr0 hn' hk hs =>
    have hst := hr0.stage hk hl hn hm
    rw [Stage] at hst
    split at hst
    · obtain ⟨-, -, -, h1, -⟩ := hst
      exact absurd hf (fun h => h.elim (h1 q hq).1 (h1 q hq).2)
    · obtain ⟨-, h1, -⟩ := hst
      exact absurd hf (fun h => h.elim (h1 q hq).1 (h1 q hq).2)
    · rename_i hpc
      exact ((sstep_did hs).from_decide hpc).2.1 rfl
    · exact absurd hst hp

/-- A connection gets to saving by a message. -/
theorem Did.to_save {cf : Conf} {E : Env} {s s' : Sess} {sh sh' : Shared} {i : Inp} {o : List Out} (h : Did cf E s sh i s' sh' o)
    {q : SavePc} {t r n : Str} (hp : s'.pc = .save q t r n) :
    (∃ q', s.pc = .save q' t r n) ∨ (q = .open_ ∧ ∃ data, (⟨s, i, sh, s', sh', o⟩ : Step).event = some (.gotdata data)) := by
  have ready : ∀ {x : Sess}, s.pc = .ready → x.pc = s.pc → x.pc ≠ .save q t r n := by
    intro x h1 h2 h3
    rw [h2, h1] at h3; cases h3
  cases h with
  | tls _ ht => unfold tlsStep at ht; cases ht; cases hp
  | drop | connect | gotKeep | finish | mailDrop | answerFail | answerRef | answerAcc => cases hp
  | heloRef h1 _ hd | mailRef h1 _ hd | rcptRef h1 _ hd | dataRef h1 _ hd => exact absurd hp (ready h1 hd.pc)
  | heloAcc h1 _ hd => exact absurd (show _ from hp) (ready (x := _) h1 hd.pc)
  | mailAcc h1 _ hd | mailCount h1 _ hd => exact absurd (show _ from hp) (ready (x := _) h1 hd.pc)
  | rcptAcc h1 _ hd | dataAcc h1 _ hd => exact absurd (show _ from hp) (ready (x := _) h1 hd.pc)
  | gotSave h1 he =>
    cases hp
    exact .inr ⟨rfl, _, by unfold Step.event; simp only [h1]; rw [he]; exact if_pos trivial⟩
  | tlserror h1 | other h1 => rw [show s.pc = _ from hp] at h1; cases h1
  | closed h1 => rw [hp] at h1; cases h1
  | save h1 _ _ h2 =>
    rcases h2 with ⟨q', rfl⟩ | ⟨b, rfl⟩
    · cases hp; exact .inl ⟨_, h1⟩
    · cases hp

theorem Spec.Arrived.mono {cf : Conf} {h : List Hap} {E : Env} {tgt r n : Str} (ha : Arrived cf h E tgt r n) (e : Hap) : Arrived cf (e :: h) E tgt r n := by
  obtain ⟨x, hx, ha⟩ := ha
  exact ⟨x, List.mem_cons_of_mem _ hx, ha⟩

theorem Spec.Trouble.mono {h : List Hap} {tgt : Str} (ha : Trouble h tgt) (e : Hap) : Trouble (e :: h) tgt := by
  obtain ⟨x, hx, ha⟩ := ha
  exact ⟨x, List.mem_cons_of_mem _ hx, ha⟩

/-- What connections save has arrived. -/
theorem Server.Runs.arrived {cf : Conf} {h : List Hap} {g : Server} (hr : Server.Runs cf h g) :
    ∀ {k E s q t r n}, g.conns k = some (E, s) → s.pc = .save q t r n → Arrived cf h E t r n := by
  induction hr with
  | init fs => intro k E s q t r n h; cases h
  | @start h g j E0 i s0 sh' o hr hn hk hs ih =>
    intro k E s q t r n h1 hp
    simp only at h1
    split at h1
    · cases h1
      rw [(startSess_init hs).1] at hp; cases hp
    · exact (ih h1 hp).mono _
  | @step h g j E0 i s0 s1 sh' o hr hn hk hs ih =>
    intro k E s q t r n h1 hp
    simp only at h1
    split at h1
    · cases h1
      rcases (sstep_did hs).to_save hp with ⟨q', h2⟩ | ⟨rfl, data, hd⟩
      · exact (ih hk h2).mono _
      · exact ⟨_, List.mem_cons_self, _, data, rfl, rfl, hs, hd, hp⟩
    · exact (ih h1 hp).mono _

/-- What is in a file that was not there at the beginning. -/
theorem Server.Runs.contents {cf : Conf} {tgt : Str} {e0 : Hap} (h0 : Hap.before e0 tgt = none) : ∀ {h : List Hap} {g : Server}, Server.Runs cf (h ++ [e0]) g →
    g.sh.fs tgt = none ∨ Trouble (h ++ [e0]) tgt ∨ ∃ E r n, Arrived cf (h ++ [e0]) E tgt r n ∧
      ((∃ f, g.sh.fs tgt = some f ∧ f.content = r) ∨ ∃ k E s, g.conns k = some (E, s) ∧ s.pc = .save .write tgt r n) := by
  intro h
  induction h with
  | nil =>
    intro g hr
    left
    cases hr with
    | @start _ g0 j E i s0 sh' o hr hn hk hs => cases hr; simp only; rw [startSess_fs hs]; exact h0
    | @step _ g0 j E i s0 s1 sh' o hr hn hk hs => cases hr; cases hk
  | cons x h ih =>
    intro g hr
    cases hr with
    | @start _ g0 j E i s0 sh' o hr hn hk hs =>
      simp only [startSess_fs hs]
      refine (ih hr).imp id (Or.imp (fun h => h.mono _) ?_)
      rintro ⟨E1, r, n, h1, h2⟩
      refine ⟨E1, r, n, h1.mono _, h2.imp id ?_⟩
      rintro ⟨k, E', s, h3, h4⟩
      refine ⟨k, E', s, ?_, h4⟩
      rw [if_neg]
      · exact h3
      · rintro rfl; rw [hk] at h3; cases h3
    | @step _ g0 j E i s0 s1 sh' o hr hn hk hs =>
      -- a step that does not touch the file and is not about to write it
      have same : sh'.fs tgt = g0.sh.fs tgt → (∀ r n, s0.pc ≠ .save .write tgt r n) → sh'.fs tgt = none ∨
          Trouble (⟨j, E, i.now, .stepped s0 g0.sh i s1 sh' o⟩ :: (h ++ [e0])) tgt ∨ ∃ E1 r n,
            Arrived cf (⟨j, E, i.now, .stepped s0 g0.sh i s1 sh' o⟩ :: (h ++ [e0])) E1 tgt r n ∧
            ((∃ f, sh'.fs tgt = some f ∧ f.content = r) ∨
              ∃ k E' s, (if k = j then some (E, s1) else g0.conns k) = some (E', s) ∧ s.pc = .save .write tgt r n) := by
        intro h1 h2
        rw [h1]
        refine (ih hr).imp id (Or.imp (fun h => h.mono _) ?_)
        rintro ⟨E1, r, n, h3, h4⟩
        refine ⟨E1, r, n, h3.mono _, h4.imp id ?_⟩
        rintro ⟨k, E', s, h5, h6⟩
        refine ⟨k, E', s, ?_, h6⟩
        rw [if_neg]
        · exact h5
        · rintro rfl; rw [hk] at h5; cases h5; exact h2 _ _ h6
      by_cases hp : ∃ q r n, s0.pc = .save q tgt r n
      · obtain ⟨q, r, n, hp⟩ := hp
        have harr := (hr.arrived hk hp).mono ⟨j, E, i.now, .stepped s0 g0.sh i s1 sh' o⟩
        have hsv := sstep_saved hs hp
        have nw : q ≠ .write → ∀ r n, s0.pc ≠ .save .write tgt r n := by
          intro hq r' n' h; rw [hp] at h; cases h; exact hq rfl
        cases hsv with
        | exists_ => exact same rfl (nw (by simp))
        | created => exact .inr (.inr ⟨E, r, n, harr, .inr ⟨j, E, _, if_pos rfl, rfl⟩⟩)
        | openFailed => exact same rfl (nw (by simp))
        | written => exact .inr (.inr ⟨E, r, n, harr, .inl ⟨_, fs_set_self _ _ _, rfl⟩⟩)
        | writeFailed hko => exact .inr (.inl ⟨_, List.mem_cons_self, _, _, _, _, rfl, hp, .inl rfl, by simp [hko]⟩)
        | @synced f hok hf =>
          have := ih hr
          rw [hf] at this
          rcases this with h | h | ⟨E1, r', n', h3, h4⟩
          · cases h
          · exact .inr (.inl (h.mono _))
          · refine .inr (.inr ⟨E1, r', n', h3.mono _, h4.imp ?_ ?_⟩)
            · rintro ⟨f', h5, h6⟩
              cases h5
              exact ⟨_, fs_set_self _ _ _, h6⟩
            · rintro ⟨k, E', s, h5, h6⟩
              refine ⟨k, E', s, ?_, h6⟩
              simp only
              rw [if_neg]
              · exact h5
              · rintro rfl; rw [hk] at h5; cases h5; exact nw (by simp) _ _ h6
        | notSynced => exact same rfl (nw (by simp))
        | closed => exact same rfl (nw (by simp))
        | closeFailed hko => exact .inr (.inl ⟨_, List.mem_cons_self, _, _, _, _, rfl, hp, .inr rfl, by simp [hko]⟩)
        | closeLost hko => exact .inr (.inl ⟨_, List.mem_cons_self, _, _, _, _, rfl, hp, .inr rfl, by simp [hko]⟩)
      · simp only [not_exists] at hp
        refine same ?_ (hp _)
        rcases sstep_fs hs tgt with e | ⟨q, r, n, e, -⟩ | ⟨-, -, r, n, e⟩
        · exact e
        · exact absurd e (hp _ _ _)
        · exact absurd e (hp _ _ _)

/-- The last part of a path. -/
theorem basename_eq {d d' n n' : Str} (hn : c!"/" ∉ n) (hn' : c!"/" ∉ n') (h : d ++ b!"/" ++ n = d' ++ b!"/" ++ n') : n = n' := by
  have aux : ∀ (d d' : Str), d ++ c!"/" :: n = d' ++ c!"/" :: n' → n = n' := by
    intro d
    induction d with
    | nil =>
      intro d' h
      cases d' with
      | nil => exact (List.cons.inj h).2
      | cons c d' =>
        have := (List.cons.inj h).2
        exact absurd (by rw [this]; simp) hn
    | cons c d ih =>
      intro d' h
      cases d' with
      | nil =>
        have := (List.cons.inj h).2
        exact absurd (by rw [← this]; simp) hn'
      | cons c' d' => exact ih d' (List.cons.inj h).2
  refine aux d d' ?_
  simpa using h

/-- **C42**, with `-save-hash all`.  When a message that was to be saved is accepted, the file of its name contains exactly its
record from then on, or some other connection is just about to write the very same record into it, provided that file was not there
when the server started, nothing went wrong with writing or closing it, the hash gives no `/` and differs for
different records of this run.

Missing from the statement of C42: the conditions, in particular the one on failed writes. -/
theorem C42_all_partial {cf : Conf} {h2 h1 : List Hap} {e0 : Hap} {g : Server} {k : Nat} {E : Env} {now : Int} {s s' : Sess} {sh sh' : Shared}
    {i : Inp} {o : List Out} (hr : Server.Runs cf (h2 ++ ⟨k, E, now, .stepped s sh i s' sh' o⟩ :: h1 ++ [e0]) g) {l m : List Step} {a : Step}
    {data tgt r : Str} (hl : stepsOf k (h1 ++ [e0]) = l ++ a :: m) (ha : SavesTo cf E a data tgt r) (hm : Handling m) (hp : s.pc ≠ .ready)
    (hacc : .accepted ∈ replies o) (hall : cf.hashtype = b!"all") (h0 : Hap.before e0 tgt = none)
    (hok : ¬ Trouble (h2 ++ ⟨k, E, now, .stepped s sh i s' sh' o⟩ :: h1 ++ [e0]) tgt)
    (hslash : ∀ e ∈ h2 ++ ⟨k, E, now, .stepped s sh i s' sh' o⟩ :: h1 ++ [e0], ∀ x, c!"/" ∉ e.E.H.gen x)
    (hcol : ∀ E' t' r' n', Arrived cf (h2 ++ ⟨k, E, now, .stepped s sh i s' sh' o⟩ :: h1 ++ [e0]) E' t' r' n' → E'.H.gen r' = E.H.gen r → r' = r) :
    (∃ f, g.sh.fs tgt = some f ∧ f.content = r) ∨
      ∃ k' E' s'' n, g.conns k' = some (E', s'') ∧ s''.pc = .save .write tgt r n := by
  have hr' : Server.Runs cf (h2 ++ ⟨k, E, now, .stepped s sh i s' sh' o⟩ :: (h1 ++ [e0])) g := by simpa using hr
  have hst := (C42_stored_partial hr' hl ha hm hp hacc).1
  obtain ⟨aok, aev, n, an⟩ := ha
  have name : ∀ {E : Env} {st : Step} {data r n : Str}, st.Ok cf E → st.event = some (.gotdata data) → st.post.pc = .save .open_ tgt r n →
      n = E.H.gen r ∧ ∃ dir, tgt = dir ++ b!"/" ++ n := by
    intro E st data r n h1 h2 h3
    obtain ⟨-, -, h4⟩ := got_step h1 h2
    rcases h4 with ⟨-, h4⟩ | ⟨-, n', h5, h4⟩
    · rw [h3] at h4; cases h4
    · have hdir : st.post.pc = .save .open_ (st.pre.trans.savedir ++ b!"/" ++ n') r n' := by
        rw [h3] at h4 ⊢
        injection h4 with _ e1 e2 e3
        rw [e1, e3]
      have hn : n = n' := by
        rw [h3] at hdir
        injection hdir
      have ht : tgt = st.pre.trans.savedir ++ b!"/" ++ n' := by
        rw [h3] at hdir
        injection hdir
      exact ⟨by rw [hn]; exact C44_all ⟨h1, h2, _, hdir⟩ hall, _, by rw [ht, hn]⟩
  obtain ⟨hn, dir, ht⟩ := name aok aev an
  have mE : (⟨k, E, now, .stepped s sh i s' sh' o⟩ : Hap) ∈ h2 ++ ⟨k, E, now, .stepped s sh i s' sh' o⟩ :: h1 ++ [e0] := by simp
  rcases Server.Runs.contents h0 hr with h | h | ⟨E1, r', n', harr, h⟩
  · rw [h] at hst; cases hst
  · exact absurd h hok
  · have hrr : r' = r := by
      have harr' := harr
      obtain ⟨e, he, st, d, rfl, -, b1, b2, b3⟩ := harr
      obtain ⟨hn', dir', ht'⟩ := name b1 b2 b3
      refine hcol _ _ _ _ harr' ?_
      rw [← hn, ← hn']
      refine basename_eq (d := dir') (d' := dir) ?_ ?_ (ht'.symm.trans ht)
      · rw [hn']; exact hslash e he _
      · rw [hn]; exact hslash _ mE _
    subst hrr
    rcases h with h | ⟨k', E', s'', h3, h4⟩
    · exact .inl h
    · exact .inr ⟨k', E', s'', n', h3, h4⟩

/-- A message from connection `k`, with these results of opening, writing, syncing and closing the file. -/
def delivery (k : Nat) (E : Env) (sys : List SysRes) : List Act :=
  session k E 0 [.helo false b!"mail.example.com", .mailfrom b!"b@example.com", .rcptto b!"x@example.com", .data, .gotdata b!"hi\n"] ++
    sys.map (fun r => .inp k { sys := r }) ++ [.inp k {}]

/-- A stored and accepted message; a failed creation. -/
example : served (fun h g => ((messages (stepsOf 1 h)).map fun x => decide (g.sh.fs x.1 = some ⟨x.2, true⟩), answers (stepsOf 1 h)))
      demoConf (delivery 1 demoEnvP [.ok, .ok, .ok, .ok]) = some ([true], [[.accepted]]) ∧
    served (fun h g => ((messages (stepsOf 1 h)).map fun x => decide (g.sh.fs x.1 = none), answers (stepsOf 1 h)))
      demoConf (delivery 1 demoEnvP [.failed 0 b!"disk full"]) = some ([true], [[.deferred]]) := by
  decide +kernel

/-- **C42** is false: a message is accepted although only the first bytes of its record could be written. -/
theorem C42_not_always : ∃ h g tgt r, Server.Runs demoConf h g ∧ messages (stepsOf 1 h) = [(tgt, r)] ∧ answers (stepsOf 1 h) = [[.accepted]] ∧
    (g.sh.fs tgt).map File.content = some (r.take 5) ∧ r.take 5 ≠ r := by
  have key : served (fun h g => match messages (stepsOf 1 h) with
      | [(tgt, r)] => decide (answers (stepsOf 1 h) = [[.accepted]] ∧ (g.sh.fs tgt).map File.content = some (r.take 5) ∧ r.take 5 ≠ r)
      | _ => false) demoConf (delivery 1 demoEnvP [.ok, .failed 5 b!"disk full", .ok, .ok]) = some true := by
    decide +kernel
  unfold served at key
  generalize hd : serveAll _ _ = d at key
  cases d with
  | none => cases key
  | some x =>
    obtain ⟨h, g⟩ := x
    simp only [Option.map_some, Option.some.injEq] at key
    split at key
    · rename_i tgt r hm
      exact ⟨h, g, tgt, r, serveAll_runs hd, hm, of_decide_eq_true key⟩
    · cases key

/-- **C42** is false in another way, with `-save-hash full`: closing the file fails and the message is put off, but when the client
tries again, the incomplete file makes the server accept it. -/
theorem C42_retry : ∃ h g tgt r r', Server.Runs { demoConf with hashtype := b!"full" } h g ∧ messages (stepsOf 1 h) = [(tgt, r)] ∧
    answers (stepsOf 1 h) = [[.deferred]] ∧ messages (stepsOf 2 h) = [(tgt, r')] ∧ answers (stepsOf 2 h) = [[.accepted]] ∧
    (g.sh.fs tgt).map File.content = some (r.take 5) ∧ r.take 5 ≠ r ∧ r.take 5 ≠ r' := by
  have key : served (fun h g => match messages (stepsOf 1 h), messages (stepsOf 2 h) with
      | [(tgt, r)], [(tgt', r')] => decide (tgt' = tgt ∧ answers (stepsOf 1 h) = [[.deferred]] ∧ answers (stepsOf 2 h) = [[.accepted]] ∧
          (g.sh.fs tgt).map File.content = some (r.take 5) ∧ r.take 5 ≠ r ∧ r.take 5 ≠ r')
      | _, _ => false) { demoConf with hashtype := b!"full" } (delivery 1 demoEnvP [.ok, .ok, .ok, .failed 5 b!"quota"] ++
        delivery 2 { demoEnvP with prefix_ := b!"7/2" } [.ok]) = some true := by
    decide +kernel
  unfold served at key
  generalize hd : serveAll _ _ = d at key
  cases d with
  | none => cases key
  | some x =>
    obtain ⟨h, g⟩ := x
    simp only [Option.map_some, Option.some.injEq] at key
    split at key
    · rename_i tgt r tgt' r' hm hm'
      obtain ⟨rfl, h1, h2, h3⟩ := of_decide_eq_true key
      exact ⟨h, g, _, r, r', serveAll_runs hd, hm, h1, hm', h2, h3⟩
    · cases key

/-- **C43**: a file left by an earlier message of the same name is not touched by the next one. -/
example : served (fun _ g => (g.sh.fs b!"/mail/len3").map fun f => f.synced) { demoConf with hashtype := b!"msg" }
      (delivery 1 demoEnvP [.ok, .ok, .failed 0 [], .ok] ++ delivery 2 { demoEnvP with prefix_ := b!"7/2" } [.ok]) = some (some false) := by
  decide +kernel

end Sink
