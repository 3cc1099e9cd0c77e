import Verif.Lemmas.Server
import Verif.Lemmas.Record

/-!
# Lemmas about files
-/

namespace Sink
open Spec

/-- The connection has the file open. -/
def Writing (s : Sess) (p : Str) : Prop := ∃ q r n, s.pc = .save q p r n ∧ q ≠ .open_

theorem endStep_fs (cf : Conf) (E : Env) (s : Sess) (sh : Shared) (i : Inp) : (endStep cf E s sh i).2.1.fs = sh.fs := by
  unfold endStep
  simp only
  split
  · rfl
  · split
    · rfl
    · split <;> rfl

/-- Steps outside `handleMessage` leave files alone, and only a message leads to it. -/
theorem sstep_nosave {cf : Conf} {E : Env} {s s' : Sess} {sh sh' : Shared} {i : Inp} {o : List Out} (h : sstep cf E s sh i = .ok (s', sh', o))
    (hp : ∀ q p r n, s.pc ≠ .save q p r n) : sh'.fs = sh.fs ∧ ∀ q p r n, s'.pc = .save q p r n → q = .open_ := by
  have hd := sstep_did h
  have dec : ∀ {ph evt id ref s1 o1 res c1}, DecR E ph evt id s ref s1 o1 res c1 → ∀ q p r n, s1.pc ≠ .save q p r n := by
    intro ph evt id ref s1 o1 res c1 hd q p r n he
    rw [hd.pc] at he
    exact hp _ _ _ _ he
  cases hd with
  | tls _ ht =>
    unfold tlsStep at ht
    cases ht
    exact ⟨rfl, fun q p r n h => by cases h⟩
  | drop | connect => exact ⟨rfl, fun q p r n h => by cases h⟩
  | heloRef _ _ hd => exact ⟨rfl, fun q p r n h => absurd h (dec hd q p r n)⟩
  | heloAcc _ _ hd => exact ⟨rfl, fun q p r n h => absurd h (dec hd q p r n)⟩
  | mailRef _ _ hd => exact ⟨rfl, fun q p r n h => absurd h (dec hd q p r n)⟩
  | mailAcc _ _ hd => exact ⟨rfl, fun q p r n h => absurd h (dec hd q p r n)⟩
  | mailCount _ _ hd => exact ⟨rfl, fun q p r n h => absurd h (dec hd q p r n)⟩
  | mailDrop => exact ⟨rfl, fun q p r n h => by cases h⟩
  | rcptRef _ _ hd => exact ⟨rfl, fun q p r n h => absurd h (dec hd q p r n)⟩
  | rcptAcc _ _ hd => exact ⟨rfl, fun q p r n h => absurd h (dec hd q p r n)⟩
  | dataRef _ _ hd => exact ⟨rfl, fun q p r n h => absurd h (dec hd q p r n)⟩
  | dataAcc _ _ hd => exact ⟨rfl, fun q p r n h => absurd h (dec hd q p r n)⟩
  | gotKeep => exact ⟨rfl, fun q p r n h => by cases h⟩
  | gotSave => exact ⟨rfl, fun q p r n h => by cases h; rfl⟩
  | tlserror => exact ⟨rfl, fun q p r n h => absurd h (hp q p r n)⟩
  | finish => exact ⟨endStep_fs _ _ _ _ _, fun q p r n h => by cases h⟩
  | other => exact ⟨rfl, fun q p r n h => absurd h (hp q p r n)⟩
  | save hs => exact absurd hs (hp _ _ _ _)
  | answerFail | answerRef | answerAcc => exact ⟨rfl, fun q p r n h => by cases h⟩
  | closed => exact ⟨rfl, fun q p r n h => absurd h (hp q p r n)⟩

/-- The ways of a step of `handleMessage`. -/
inductive Saved (s : Sess) (sh : Shared) (i : Inp) (tgt r n : Str) : SavePc → Sess → Shared → List Out → Prop
  | exists_ {f} : sh.fs tgt = some f → i.sys = .ok → Saved s sh i tgt r n .open_ { s with pc := .decide n false } sh []
  | created : sh.fs tgt = none → i.sys = .ok →
      Saved s sh i tgt r n .open_ { s with pc := .save .write tgt r n } { sh with fs := sh.fs.set tgt ⟨[], false⟩ } []
  | openFailed {k m o} : i.sys = .failed k m → Saved s sh i tgt r n .open_ { s with pc := .decide n true } sh o
  | written : i.sys = .ok → Saved s sh i tgt r n .write { s with pc := .save .sync tgt r n } { sh with fs := sh.fs.set tgt ⟨r, false⟩ } []
  | writeFailed {k m o} : i.sys = .failed k m →
      Saved s sh i tgt r n .write { s with pc := .save .sync tgt r n } { sh with fs := sh.fs.set tgt ⟨r.take k, false⟩ } o
  | synced {f} : i.sys = .ok → sh.fs tgt = some f →
      Saved s sh i tgt r n .sync { s with pc := .save .close tgt r n } { sh with fs := sh.fs.set tgt { f with synced := true } } []
  | notSynced : i.sys ≠ .ok ∨ sh.fs tgt = none → Saved s sh i tgt r n .sync { s with pc := .save .close tgt r n } sh []
  | closed : i.sys = .ok → Saved s sh i tgt r n .close { s with pc := .decide n false } sh []
  | closeFailed {k m f o} : i.sys = .failed k m → sh.fs tgt = some f →
      Saved s sh i tgt r n .close { s with pc := .decide n true } { sh with fs := sh.fs.set tgt { f with content := f.content.take k } } o
  | closeLost {k m o} : i.sys = .failed k m → sh.fs tgt = none → Saved s sh i tgt r n .close { s with pc := .decide n true } sh o

theorem sstep_saved {cf : Conf} {E : Env} {s s' : Sess} {sh sh' : Shared} {i : Inp} {o : List Out} {q : SavePc} {tgt r n : Str}
    (h : sstep cf E s sh i = .ok (s', sh', o)) (hp : s.pc = .save q tgt r n) : Saved s sh i tgt r n q s' sh' o := by
  cases q with
  | open_ =>
    simp only [sstep, hp, openStep] at h
    split at h
    · rename_i hf hr; cases h; exact .exists_ hf hr
    · rename_i hf hr; cases h; exact .created hf hr
    · rename_i hr; cases h; exact .openFailed hr
  | write =>
    simp only [sstep, hp, writeStep] at h
    split at h
    · rename_i hr; cases h; exact .written hr
    · rename_i hr; cases h; exact .writeFailed hr
  | sync =>
    simp only [sstep, hp, syncStep] at h
    split at h
    · rename_i hr hf; cases h; exact .synced hr hf
    · rename_i hx
      cases h
      refine .notSynced ?_
      by_cases hr : i.sys = .ok
      · right
        cases hf : sh.fs tgt with
        | none => rfl
        | some f => exact absurd hf (fun hf => hx f hr hf)
      · exact .inl hr
  | close =>
    simp only [sstep, hp, closeStep] at h
    split at h
    · rename_i hr; cases h; exact .closed hr
    · rename_i hr hf; cases h; exact .closeFailed hr hf
    · rename_i hr hf; cases h; exact .closeLost hr hf

theorem fs_set_self (fs : FS) (p : Str) (f : File) : fs.set p f p = some f := by simp [FS.set]
theorem fs_set_ne (fs : FS) {p q : Str} (f : File) (h : q ≠ p) : fs.set p f q = fs q := by simp [FS.set, h]

/-- A step changes only a file the connection has open or opens. -/
theorem sstep_fs {cf : Conf} {E : Env} {s s' : Sess} {sh sh' : Shared} {i : Inp} {o : List Out} (h : sstep cf E s sh i = .ok (s', sh', o))
    (p : Str) : sh'.fs p = sh.fs p ∨ Writing s p ∨ (sh.fs p = none ∧ Writing s' p ∧ ∃ r n, s.pc = .save .open_ p r n) := by
  by_cases hp : ∀ q p r n, s.pc ≠ .save q p r n
  · exact .inl (by rw [(sstep_nosave h hp).1])
  · simp only [not_forall, ne_eq, not_not] at hp
    obtain ⟨q, tgt, r, n, hp⟩ := hp
    have hs := sstep_saved h hp
    by_cases ht : p = tgt
    · subst ht
      by_cases hq : q = .open_
      · subst hq
        cases hs with
        | exists_ | openFailed => exact .inl rfl
        | created hf => exact .inr (.inr ⟨hf, ⟨_, _, _, rfl, by simp⟩, r, n, hp⟩)
      · exact .inr (.inl ⟨q, r, n, hp, hq⟩)
    · left
      cases hs <;> first | rfl | exact fs_set_ne _ _ ht

theorem sstep_writing {cf : Conf} {E : Env} {s s' : Sess} {sh sh' : Shared} {i : Inp} {o : List Out} (h : sstep cf E s sh i = .ok (s', sh', o))
    {p : Str} (hw : Writing s' p) : Writing s p ∨ (sh.fs p = none ∧ (sh'.fs p).isSome = true ∧ ∃ r n, s.pc = .save .open_ p r n) := by
  by_cases hp : ∀ q p r n, s.pc ≠ .save q p r n
  · obtain ⟨q, r, n, h1, h2⟩ := hw
    exact absurd ((sstep_nosave h hp).2 _ _ _ _ h1) h2
  · simp only [not_forall, ne_eq, not_not] at hp
    obtain ⟨q, tgt, r, n, hp⟩ := hp
    have hs := sstep_saved h hp
    obtain ⟨q', r', n', h1, h2⟩ := hw
    cases hs with
    | exists_ | openFailed | closed | closeFailed | closeLost => cases h1
    | created hf =>
      cases h1
      exact .inr ⟨hf, by simp only [fs_set_self]; rfl, r, n, hp⟩
    | written | writeFailed | synced | notSynced => cases h1; exact .inl ⟨_, _, _, hp, by simp⟩

theorem sstep_keeps {cf : Conf} {E : Env} {s s' : Sess} {sh sh' : Shared} {i : Inp} {o : List Out} (h : sstep cf E s sh i = .ok (s', sh', o))
    {p : Str} (hf : (sh.fs p).isSome = true) : (sh'.fs p).isSome = true := by
  by_cases hp : ∀ q p r n, s.pc ≠ .save q p r n
  · rw [(sstep_nosave h hp).1]; exact hf
  · simp only [not_forall, ne_eq, not_not] at hp
    obtain ⟨q, tgt, r, n, hp⟩ := hp
    have hs := sstep_saved h hp
    by_cases ht : p = tgt
    · subst ht
      cases hs <;> first | exact hf | (simp only [fs_set_self]; rfl)
    · cases hs <;> first | exact hf | (simp only [fs_set_ne _ _ ht]; exact hf)

theorem startSess_fs {cf : Conf} {E : Env} {sh sh' : Shared} {i : Inp} {s : Sess} {o : List Out}
    (h : startSess cf E sh i = .ok (s, sh', o)) : sh'.fs = sh.fs := by
  unfold startSess at h
  simp only [bind, Except.bind, pure, Except.pure] at h
  split at h
  · cases h
  · split at h
    · cases h
    · cases h; rfl

theorem not_writing_tls {s : Sess} (h : s.pc = .tls) (p : Str) : ¬ Writing s p := by
  rintro ⟨q, r, n, h1, -⟩
  rw [h] at h1; cases h1

/-- A file is open in at most one connection, and exists while it is open. -/
theorem Server.Runs.own {cf : Conf} {h : List Hap} {g : Server} (hr : Server.Runs cf h g) :
    ∀ k E s p, g.conns k = some (E, s) → Writing s p → (g.sh.fs p).isSome = true ∧
      ∀ k' E' s', k' ≠ k → g.conns k' = some (E', s') → ¬ Writing s' p := by
  induction hr with
  | init fs => intro k E s p h; cases h
  | @start h g j E0 i s0 sh' o hr hn hk hs ih =>
    intro k E s p h1 hw
    simp only at h1 ⊢
    have h0 := not_writing_tls (startSess_init hs).1
    split at h1
    · cases h1; exact absurd hw (h0 p)
    · rw [startSess_fs hs]
      obtain ⟨a, b⟩ := ih k E s p h1 hw
      refine ⟨a, fun k' E' s' hne h2 => ?_⟩
      split at h2
      · cases h2; exact h0 p
      · exact b _ _ _ hne h2
  | @step h g j E0 i s0 s1 sh' o hr hn hk hs ih =>
    intro k E s p h1 hw
    simp only at h1 ⊢
    split at h1
    · rename_i hkj
      cases h1
      rcases sstep_writing hs hw with hw0 | ⟨hf, hf', r, n, hp⟩
      · obtain ⟨a, b⟩ := ih j _ _ p hk hw0
        refine ⟨sstep_keeps hs a, fun k' E' s' hne h2 => ?_⟩
        rw [if_neg (by rw [← hkj]; exact hne)] at h2
        exact b k' E' s' (by rw [← hkj]; exact hne) h2
      · refine ⟨hf', fun k' E' s' hne h2 hw' => ?_⟩
        rw [if_neg (by rw [← hkj]; exact hne)] at h2
        have := (ih k' E' s' p h2 hw').1
        rw [hf] at this; cases this
    · rename_i hkj
      obtain ⟨a, b⟩ := ih k E s p h1 hw
      refine ⟨sstep_keeps hs a, fun k' E' s' hne h2 => ?_⟩
      split at h2
      · cases h2
        intro hw'
        rcases sstep_writing hs hw' with hw0 | ⟨hf, -, -⟩
        · exact b j _ _ (fun h => hkj h.symm) hk hw0
        · rw [hf] at a; cases a
      · exact b _ _ _ hne h2

end Sink
