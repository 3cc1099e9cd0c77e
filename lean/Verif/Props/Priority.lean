import Verif.Props.Decide
import Verif.Props.Parse
import Verif.Props.SessionRules
import Verif.Lemmas.Server
import Verif.Spec.DemoSession

/-!
# C72: which rules a connection obeys, and in which order
-/

namespace Sink
open Spec

/-- What each of the files given with `-r` contributes, in order; an empty name contributes nothing.  The `i`th file given is
read as the `i`th read of the connection. -/
inductive FilesGive (L : Lib) (fs : Files) (d : Nat) : Nat → List Str → List (List Rule) → Prop
  | nil {i} : FilesGive L fs d i [] []
  | none {i fns rss} : FilesGive L fs d (i + 1) fns rss → FilesGive L fs d i ([] :: fns) ([] :: rss)
  | file {i f fns rs rss} : f ≠ [] → Gram.Contributes L (readable fs) d [i] f rs → FilesGive L fs d (i + 1) fns rss →
      FilesGive L fs d i (f :: fns) (rs :: rss)

theorem accumAll_iff {L : Lib} {fs : Files} {d : Nat} : ∀ {fns : List Str} {i : Nat} {base rules : List Rule},
    accumAll L fs d i base fns = .ok rules ↔ ∃ rss, FilesGive L fs d i fns rss ∧ rules = base ++ rss.flatten := by
  intro fns
  induction fns with
  | nil =>
    intro i base rules
    constructor
    · intro h; cases h; exact ⟨[], .nil, by simp⟩
    · rintro ⟨rss, h, rfl⟩; cases h; simp [accumAll]
  | cons f fns ih =>
    intro i base rules
    rw [accumAll]
    by_cases hf : f = []
    · subst hf
      have : accumRules L fs d i base [] = .ok base := rfl
      simp only [this]
      rw [ih]
      constructor
      · rintro ⟨rss, h1, h2⟩; exact ⟨[] :: rss, .none h1, by simpa using h2⟩
      · rintro ⟨rss, h1, h2⟩
        cases h1 with
        | none h => exact ⟨_, h, by simpa using h2⟩
        | file h => exact absurd rfl h
    · unfold accumRules
      rw [if_neg hf]
      cases hl : loadRules L fs d [i] f with
      | error e =>
        simp only
        constructor
        · intro h; cases h
        · rintro ⟨rss, h1, h2⟩
          cases h1 with
          | none h => exact absurd rfl hf
          | file _ hc _ => rw [← C10_load_iff, hl] at hc; cases hc
      | ok rs =>
        simp only
        rw [ih]
        constructor
        · rintro ⟨rss, h1, h2⟩
          exact ⟨rs :: rss, .file hf ((C10_load_iff _ _ _ _ _ _).mp hl) h1, by simpa using h2⟩
        · rintro ⟨rss, h1, h2⟩
          cases h1 with
          | none h => exact absurd rfl hf
          | file _ hc h =>
            rw [← C10_load_iff, hl] at hc
            cases hc
            exact ⟨_, h, by simpa using h2⟩

/-- **C72.** Throughout its life a connection that is not stalled obeys the rules made from the options, followed by those of
the files given with `-r` in the order given, as they could be read when it began; if one could not be used, only the rule
that stalls everything. -/
theorem C72_rules {cf : Conf} {E : Env} {l : List Step} {s : Sess} (hl : Life cf E l s) (hst : s.stall = false) :
    (∃ rss, FilesGive E.W.lib E.fs E.fds 0 cf.rulefiles rss ∧ s.c.ruleset = cf.base ++ rss.flatten ∧ s.rulesgood = true) ∨
    ((∀ rss, ¬ FilesGive E.W.lib E.fs E.fds 0 cf.rulefiles rss) ∧ s.c.ruleset = cf.stallall ∧ s.rulesgood = false) := by
  obtain ⟨sh, i, s0, sh0, o, hs, hr⟩ := hl
  obtain ⟨f1, f2, -⟩ := run_flags hr
  rw [(run_frame hr).1, f2]
  rw [f1] at hst
  obtain ⟨rules, good, w, t, h1, h2, h3, -⟩ := startSess_ctx hs
  rw [hst] at h2
  rw [h2, h3]
  unfold setupRules at h1
  split at h1
  · rename_i rs ha
    cases h1
    obtain ⟨rss, a1, a2⟩ := accumAll_iff.mp ha
    exact .inl ⟨rss, a1, a2, rfl⟩
  · cases h1
  · rename_i ha
    cases h1
    refine .inr ⟨fun rss hg => ?_, rfl, rfl⟩
    rw [accumAll_iff.mpr ⟨rss, hg, rfl⟩] at ha
    cases ha

theorem ruleLoop_first {W : World} {tr : TransR} {ph : Phase} : ∀ {A B : List Rule} {c c' : Ctx} {a : Action},
    ruleLoop W tr ph A c = .ok (a, c') → ruleLoop W tr ph (A ++ B) c = if a = .noresult then ruleLoop W tr ph B c' else .ok (a, c') := by
  intro A
  induction A with
  | nil => intro B c c' a h; cases h; rw [if_pos rfl, List.nil_append]
  | cons r A ih =>
    intro B c c' a h
    rw [List.cons_append, ruleLoop]
    rw [ruleLoop] at h
    split at h
    · rename_i hs; rw [if_pos hs]; exact ih h
    · rename_i hs
      rw [if_neg hs]
      cases hx : runRule W tr ph r c with
      | error p => rw [hx] at h; cases h
      | ok x =>
        obtain ⟨b, c1⟩ := x
        rw [hx] at h
        simp only [bind, Except.bind] at h ⊢
        split at h
        · rename_i hm; rw [if_pos hm]; exact ih h
        · rename_i hm
          rw [if_neg hm]
          split at h
          · rename_i hb
            cases h
            rw [if_pos hb, if_neg]
            · rfl
            · rintro e; rw [e] at hb; exact absurd hb.2 (by decide)
          · rename_i hb; rw [if_neg hb]; exact ih h

/-- What rules that come first have decided stands, whatever rules follow: same result, same with options, and the later rules
are not even looked at (the external calls are the same). -/
theorem C72_priority (W : World) (tr : TransR) (ph : Phase) (e : Evt) (c : Ctx) (A B : List Rule) {a : Action} {c' : Ctx}
    (h : Decide W tr ph e { c with ruleset := A } = .ok (a, c')) (ha : a ≠ .noresult) :
    Decide W tr ph e { c with ruleset := A ++ B } = .ok (a, { c' with ruleset := A ++ B }) := by
  let u : Upd := { ruleset := some (A ++ B) }
  have hu : u.Inert := ⟨rfl, rfl, rfl, rfl⟩
  have hloop := upd_ruleLoop hu W (tr := tr) (ph := ph) (A ++ B) (begun ph e { c with ruleset := A })
  have e1 : u.app (begun ph e { c with ruleset := A }) = begun ph e { c with ruleset := A ++ B } := by
    cases ph <;> rfl
  rw [e1] at hloop
  have hd : (shadow ph e { c with ruleset := A ++ B }).defresult = (shadow ph e { c with ruleset := A }).defresult := by
    cases ph <;> rfl
  rw [Decide_eq] at h ⊢
  rw [hd]
  by_cases hpend : (shadow ph e { c with ruleset := A }).defresult ≥ .accept
  · rw [if_pos hpend] at h ⊢
    cases h
    cases ph <;> rfl
  · rw [if_neg hpend, shadow_ruleset] at h ⊢
    refine (congrArg (· >>= _) hloop).trans ?_
    cases hx : ruleLoop W tr ph A (begun ph e { c with ruleset := A }) with
    | error p => rw [hx] at h; cases h
    | ok x =>
      obtain ⟨ret, c3⟩ := x
      rw [hx] at h
      have hr : ret ≠ .noresult := by
        rintro rfl
        simp only [bind, Except.bind] at h
        split at h
        · rename_i hh; exact absurd hh.2.2 (by decide)
        · cases h; exact ha rfl
      rw [ruleLoop_first hx, if_neg hr]
      have e3 : (u.app c3).from_ = c3.from_ := rfl
      simp only [Upd.map, bind, Except.bind, e3] at h ⊢
      split at h
      · rename_i hh; rw [if_pos hh]; cases h; rfl
      · rename_i hh; rw [if_neg hh]; cases h; rfl

/-- If the rules that come first decide nothing, the later ones do, starting from the with options the first ones set. -/
theorem C72_otherwise (W : World) (tr : TransR) (ph : Phase) (e : Evt) (c : Ctx) (A B : List Rule) {c' : Ctx}
    (hp : ¬ (shadow ph e c).defresult ≥ .accept)
    (h : Decide W tr ph e { c with ruleset := A } = .ok (.noresult, c')) {b : Action} {c2 : Ctx}
    (hB : ruleLoop W tr ph B c' = .ok (b, c2)) (hn : ¬ (ph = .mfrom ∧ e.arg = [] ∧ b > .accept)) :
    Decide W tr ph e { c with ruleset := A ++ B } = .ok (b, { c2 with ruleset := A ++ B }) := by
  let u : Upd := { ruleset := some (A ++ B) }
  have hu : u.Inert := ⟨rfl, rfl, rfl, rfl⟩
  have hloop := upd_ruleLoop hu W (tr := tr) (ph := ph) (A ++ B) (begun ph e { c with ruleset := A })
  have e1 : u.app (begun ph e { c with ruleset := A }) = begun ph e { c with ruleset := A ++ B } := by
    cases ph <;> rfl
  rw [e1] at hloop
  have hd : ∀ R, (shadow ph e { c with ruleset := R }).defresult = (shadow ph e c).defresult := by
    intro R; cases ph <;> rfl
  rw [Decide_eq, hd, if_neg hp, shadow_ruleset] at h ⊢
  refine (congrArg (· >>= _) hloop).trans ?_
  cases hx : ruleLoop W tr ph A (begun ph e { c with ruleset := A }) with
  | error p => rw [hx] at h; cases h
  | ok x =>
    obtain ⟨ret, c3⟩ := x
    rw [hx] at h
    simp only [bind, Except.bind] at h
    split at h
    · cases h
    · cases h
      rw [ruleLoop_first hx, if_pos rfl, hB]
      have hf := (ruleLoop_steps hB).frame.trans (ruleLoop_steps hx).frame
      simp only [Upd.map, bind, Except.bind]
      rw [if_neg]
      · rfl
      · rintro ⟨h1, h2, h3⟩
        subst h1
        refine hn ⟨rfl, ?_, h3⟩
        exact (Ctx.from_of_frame hf).symm.trans h2

/-- The rules of two files and the options. -/
def demoEnvR : Env := { demoEnv with fs := fun _ => tbl (.notExist b!"no such file") [
  (b!"/one", .data b!"accept from a@\nset-with all with message one\n"), (b!"/two", .data b!"reject from @\n")] }

/-- The first file wins over the second, the options over both; in the other order it is the other way round. -/
example :
    (seen (fun l _ _ => (l.map fun st => replies st.out).getLast?) (driveAll { demoConf with rulefiles := [b!"/one", b!"/two"] } demoEnvR {} {}
      (events [.helo false b!"mail.example.com", .mailfrom b!"a@example.com"])) = .ok (some [.accepted])) ∧
    (seen (fun l _ _ => (l.map fun st => replies st.out).getLast?) (driveAll { demoConf with rulefiles := [b!"/two", [], b!"/one"] } demoEnvR {} {}
      (events [.helo false b!"mail.example.com", .mailfrom b!"a@example.com"])) = .ok (some [.rejected])) ∧
    (seen (fun l _ _ => (l.map fun st => replies st.out).getLast?) (driveAll { demoConf with rulefiles := [b!"/one", b!"/two"] } demoEnvR {} {}
      (events [.helo false b!"mail.example.com", .mailfrom b!"a@unqualified"])) = .ok (some [.rejected])) ∧
    (seen (fun l _ _ => (l.map fun st => replies st.out).getLast?) (driveAll { demoConf with rulefiles := [b!"/one", b!"/no"] } demoEnvR {} {}
      (events [.helo false b!"mail.example.com", .mailfrom b!"a@unqualified"])) = .ok (some [.deferred])) := by
  refine ⟨?_, ?_, ?_, ?_⟩ <;> decide +kernel

end Sink
