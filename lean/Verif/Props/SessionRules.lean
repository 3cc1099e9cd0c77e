import Verif.Lemmas.BaseRules
import Verif.Spec.DemoSession

/-!
# What command line options guarantee whatever the rule files say: C35, C36, C37
-/

namespace Sink
open Spec Relation

theorem Spec.Run.split {cf : Conf} {E : Env} {s0 s : Sess} {l : List Step} (h : Run cf E s0 l s) :
    ∀ {l1 st l2}, l = l1 ++ st :: l2 → Run cf E s0 l1 st.pre ∧ st.Ok cf E ∧ Run cf E st.post l2 s := by
  induction h with
  | nil => intro l1 st l2 h; cases l1 <;> cases h
  | snoc hr hs ih =>
    intro l1 st l2 h
    rcases List.eq_nil_or_concat l2 with rfl | ⟨l2', x, rfl⟩
    · have h' := List.append_inj' h rfl
      obtain ⟨rfl, h2⟩ := h'
      cases h2
      exact ⟨hr, hs, .nil _⟩
    · rw [List.concat_eq_append, ← List.cons_append, ← List.append_assoc] at h
      have h' := List.append_inj' h rfl
      obtain ⟨h1, h2⟩ := h'
      cases h2
      obtain ⟨a, b, c⟩ := ih h1
      refine ⟨a, b, ?_⟩
      rw [List.concat_eq_append]
      exact .snoc c hs

theorem Spec.Run.mem {cf : Conf} {E : Env} {s0 s : Sess} {l : List Step} (h : Run cf E s0 l s) {st : Step} (hst : st ∈ l) :
    ∃ l1, Run cf E s0 l1 st.pre ∧ Did cf E st.pre st.sh st.i st.post st.sh' st.out := by
  obtain ⟨l1, l2, rfl⟩ := List.append_of_mem hst
  obtain ⟨a, b, -⟩ := h.split rfl
  exact ⟨l1, a, sstep_did b⟩

/-- A decision that is not a refusal. -/
theorem DecR.passed {E : Env} {ph : Phase} {evt : Evt} {id : Str} {s s' : Sess} {o : List Out} {res : Action} {c1 : Ctx}
    (h : DecR E ph evt id s false s' o res c1) (hp : ph ≠ .connect) : res = .noresult ∨ res = .accept := by
  have := h.ref_iff
  rw [if_neg hp] at this
  by_contra hx
  rw [decide_eq_true (by exact hx)] at this
  cases this

/-! ## C35 -/

theorem documented_split {std m : Bool} {f t h : Option Str} {r : Rule} (hr : r ∈ documentedRules std m f t h) :
    ∃ pre post, (∀ q ∈ pre, q.result = .reject) ∧ documentedRules std m f t h = pre ++ r :: post := by
  obtain ⟨pre, post, he⟩ := List.append_of_mem hr
  exact ⟨pre, post, fun q hq => documented_reject (std := std) (m := m) (f := f) (t := t) (h := h) q (by rw [he]; simp [hq]), he⟩

theorem decide_stallAll {W : World} {tr : TransR} {ph : Phase} {e : Evt} {c c' : Ctx} {a : Action} (hd : DefOK c)
    (hr : c.ruleset = stallAll) (h : Decide W tr ph e c = .ok (a, c')) :
    (a = .reject ∨ a = .stall) ∨ (ph = .mfrom ∧ e.arg = []) := by
  rcases decide_reach (pre := []) hd hr (by simp) h with h1 | ⟨h1, h2, -⟩ | ⟨c1, -, -, h1⟩
  · exact .inl h1
  · exact .inr ⟨h1, h2⟩
  · exact .inl (.inr (ruleLoop_all rfl rfl (by decide) (.inl rfl) h1).1)

/-- **C35.** With `-M` every message is refused, whatever the rule files contain and whatever the client does: the answer to
a message is a rejection or a temporary failure, and nothing else answers it. -/
theorem C35_M {o : BaseOpts} {cf : Conf} (hc : Built o cf) (hM : o.failgotdata = true) {E : Env} {l : List Step} {s : Sess}
    (h : Life cf E l s) {st : Step} (hst : st ∈ l) :
    (∀ d, st.event = some (.gotdata d) → replies st.out = []) ∧
    (∀ id lost, st.pre.pc = .decide id lost → replies st.out = [.rejected] ∨ replies st.out = [.deferred]) := by
  obtain ⟨sh0, i0, s0, sh1, o1, hs0, hr⟩ := h
  obtain ⟨l1, hr1, hd⟩ := hr.mem hst
  have hok := life_ok hs0 hr1
  have hnot : ∀ {e : Evt} {a : Action} {c' : Ctx} {tr : TransR}, Decide E.W tr .message e st.pre.c = .ok (a, c') → a = .reject ∨ a = .stall := by
    intro e a c' tr h
    rcases hok.rules with h1 | ⟨more, h1⟩
    · rw [hc.stall_eq] at h1
      rcases decide_stallAll hok.defOK h1 h with h2 | ⟨h2, -⟩
      · exact h2
      · cases h2
    · obtain ⟨pre, post, hp, hb⟩ := documented_split (std := o.stdrules) (m := o.failgotdata) (f := none) (t := none)
        (h := none) (r := ⟨[⟨.all, {}⟩], .reject, .any, .message⟩) (by simp [documentedRules, hM])
      obtain ⟨rest, hb2⟩ := hc.base_first
      rw [hb2, hb, List.append_assoc, List.append_assoc] at h1
      rcases decide_reach hok.defOK h1 hp h with h2 | ⟨h2, -⟩ | ⟨c1, -, -, h2⟩
      · exact h2
      · cases h2
      · exact .inl (ruleLoop_all rfl rfl (by decide) (.inr rfl) h2).1
  obtain ⟨pre, i, sh, post, sh', out⟩ := st
  simp only at hd hnot ⊢
  constructor
  · intro d hev
    unfold Step.event at hev
    simp only at hev
    split at hev
    · rename_i hp
      injection hev with hev
      cases hd with
      | gotKeep _ _ _ ho => rw [ho]; split <;> rfl
      | gotSave _ _ _ _ ho => rw [ho]; split <;> rfl
      | finish _ he _ => rw [hev] at he; rcases he with ⟨he, _⟩ | ⟨he, _⟩ <;> cases he
      | tls hp' | drop hp' | connect hp' | save hp' | answerFail hp' | answerRef hp' | answerAcc hp' | closed hp' => rw [hp] at hp'; cases hp'
      | heloRef _ he | heloAcc _ he | mailRef _ he | mailAcc _ he | mailCount _ he | mailDrop _ he | rcptRef _ he | rcptAcc _ he
      | dataRef _ he | dataAcc _ he | tlserror _ he | other _ he => rw [hev] at he; cases he
    · cases hev
  · intro id lost hp
    cases hd with
    | answerFail _ => exact .inr rfl
    | answerRef _ hd => exact hd.refused (by decide)
    | answerAcc _ hd _ =>
      have h1 := hd.passed (by decide)
      rcases hnot hd.dec with h2 | h2 <;> rcases h1 with h1 | h1 <;> rw [h1] at h2 <;> cases h2
    | tls hp' | drop hp' | connect hp' | save hp' | closed hp' | heloRef hp' | heloAcc hp' | mailRef hp' | mailAcc hp' | mailCount hp'
    | mailDrop hp' | rcptRef hp' | rcptAcc hp' | dataRef hp' | dataAcc hp' | gotKeep hp' | gotSave hp' | tlserror hp' | finish hp'
    | other hp' => rw [hp] at hp'; cases hp'

/-- Options with `-M`, and settings made from them. -/
def demoOptsM : BaseOpts := ⟨true, true, [], [], []⟩
def demoConfM : Conf := { demoConf with base := documentedRules true true none none none }

theorem cleanNil : CleanName [] := by intro c hc; cases hc

example : Configured demoOptsM demoConfM :=
  ⟨⟨cleanNil, cleanNil, cleanNil⟩, ⟨demoLib, fun _ _ => .notExist [], 5, C11_base_rules _ _ _ _ cleanNil cleanNil cleanNil⟩,
   ⟨demoLib, fun _ _ => .notExist [], 5, C11_stall_rules _ _ _⟩⟩

/-- The message is received and stored, then rejected. -/
example : seen (fun l s sh => (l.map fun st => replies st.out, (sh.fs b!"/mail/#id 7/1 1").isSome, s.trans.data)) (driveAll demoConfM demoEnv {} {} (events
    [.helo false b!"me.example.com", .mailfrom b!"x@example.com", .rcptto b!"u@example.com", .data, .gotdata b!"hi"] ++
    List.replicate 5 ({} : Inp))) =
    .ok ([[], [], [], [.accepted], [.accepted], [.accepted], [], [], [], [], [], [.rejected]], true, b!"hi") := by
  decide +kernel

/-! ## C36 -/

/-- One copy of a pattern file is used for the whole life of a connection. -/
theorem snapshot {cf : Conf} {E : Env} {s0 s : Sess} {l : List Step} (hr : Run cf E s0 l s) (hf : FilesOK E.W s0.c) {F : Str}
    {T G : Step → Prop} {R : List Str → Step → Prop}
    (h : ∀ st ∈ l, T st → G st ∨ ∃ pats, st.post.c.files F = some pats ∧ R pats st) :
    ∃ n, ∀ st ∈ l, T st → G st ∨ R (entriesAt E.W n F) st := by
  have stick : ∀ st ∈ l, ∀ pats, st.post.c.files F = some pats → s.c.files F = some pats := by
    intro st hst pats hp
    obtain ⟨l1, l2, rfl⟩ := List.append_of_mem hst
    obtain ⟨-, -, hr2⟩ := hr.split rfl
    exact Spec.Run.ind (P := fun _ s => s.c.files F = some pats) hr2 hp fun _ _ _ _ _ _ _ _ ih hd _ => hd.ctxStep.frame.2.1 _ _ ih
  cases hs : s.c.files F with
  | none =>
    refine ⟨0, fun st hst ht => ?_⟩
    rcases h st hst ht with h1 | ⟨pats, h1, -⟩
    · exact .inl h1
    · rw [stick st hst pats h1] at hs; cases hs
  | some pats =>
    obtain ⟨n, hn⟩ := (run_frame hr).2 hf F pats hs
    refine ⟨n, fun st hst ht => ?_⟩
    rcases h st hst ht with h1 | ⟨p, h1, h2⟩
    · exact .inl h1
    · have := stick st hst p h1
      rw [hs] at this
      cases this
      rw [← hn]
      exact .inr h2

theorem begun_from {e : Evt} {c : Ctx} : (begun .mfrom e c).from_ = e.arg := rfl
theorem begun_rcptto {e : Evt} {c : Ctx} : (begun .rto e c).rcptto = e.arg := rfl

/-- **C36.** With `-toaccept F`, on any connection and whatever the rule files say: an accepted recipient matches a pattern
of `F` as the connection read it, unless `F` had no patterns then. -/
theorem C36_toaccept {o : BaseOpts} {cf : Conf} (hc : Configured o cf) (hF : o.toaccept ≠ []) {E : Env} {l : List Step} {s : Sess}
    (h : Life cf E l s) :
    ∃ n, ∀ st ∈ l, ∀ a, st.event = some (.rcptto a) → replies st.out = [.accepted] →
      entriesAt E.W n o.toaccept = [] ∨ ∃ p ∈ entriesAt E.W n o.toaccept, AddrMatch (E.W.lib.lower a) p := by
  obtain ⟨sh0, i0, s0, sh1, o1, hs0, hr⟩ := h
  obtain ⟨n, hn⟩ := snapshot hr (life_ok hs0 (.nil s0)).files (F := o.toaccept)
    (T := fun st => ∃ a, st.event = some (.rcptto a) ∧ replies st.out = [.accepted]) (G := fun _ => False)
    (R := fun pats st => ∀ a, st.event = some (.rcptto a) → pats = [] ∨ ∃ p ∈ pats, AddrMatch (E.W.lib.lower a) p) (by
      rintro st hst ⟨a, hev, hacc⟩
      right
      obtain ⟨l1, hr1, hd⟩ := hr.mem hst
      have hok := life_ok hs0 hr1
      obtain ⟨pre, i, sh, post, sh', out⟩ := st
      unfold Step.event at hev ⊢
      simp only at hd hev hacc hok ⊢
      split at hev
      · rename_i hp
        injection hev with hev
        cases hd with
        | @rcptAcc arg s1 oo o' res c1 _ he hdec ho =>
          have ha : arg = a := by rw [hev] at he; cases he; rfl
          subst ha
          have hres := hdec.passed (by decide)
          have hnr : ¬ (res = .reject ∨ res = .stall) := by
            rintro (h | h) <;> rcases hres with h' | h' <;> rw [h] at h' <;> cases h'
          obtain ⟨d, tr', hctx⟩ := hdec.ctx
          have hfin : ∃ pats, c1.files o.toaccept = some pats ∧ (pats = [] ∨ ∃ p ∈ pats, AddrMatch (E.W.lib.lower arg) p) := by
            rcases hok.rules with h1 | ⟨more, h1⟩
            · rw [hc.stall_eq] at h1
              rcases decide_stallAll hok.defOK h1 hdec.dec with h2 | ⟨h2, -⟩
              · exact absurd h2 hnr
              · cases h2
            · obtain ⟨pr, po, hpr, hb⟩ := documented_split (std := o.stdrules) (m := o.failgotdata) (f := given o.fromreject) (t := given o.toaccept)
                (h := given o.heloreject) (r := ⟨[⟨.notN (.matchN .to (b!"file:" ++ o.toaccept)), {}⟩], .reject, .rto, .any⟩)
                (by simp [documentedRules, given, hF])
              rw [hc.base_eq, hb, List.append_assoc] at h1
              rcases decide_reach hok.defOK h1 hpr hdec.dec with h2 | ⟨h2, -⟩ | ⟨c2, -, hq, h2⟩
              · exact absurd h2 hnr
              · cases h2
              · rcases ruleLoop_file (k := .to) (neg := true) (F := o.toaccept) rfl rfl rfl (by decide) h2 with h3 | ⟨pats, h3, h4⟩
                · exact absurd (.inl h3) hnr
                · refine ⟨pats, h3, ?_⟩
                  rcases h4 with h4 | h4
                  · exact .inl h4
                  · obtain ⟨p, hp1, n, hn1, hp2⟩ := h4.mpr rfl
                    simp only [MKind.names, List.mem_singleton, hq (by decide), begun_rcptto] at hn1
                    subst hn1
                    exact .inr ⟨p, hp1, hp2⟩
          obtain ⟨pats, h1, h2⟩ := hfin
          refine ⟨pats, ?_, ?_⟩
          · show s1.c.files _ = _
            rw [hctx]; exact h1
          · intro a' ha'
            rw [if_pos hp, hev] at ha'
            cases ha'
            exact h2
        | rcptRef _ he hd =>
          rcases hd.refused (by decide) with h1 | h1 <;> simp [replies, h1] at hacc
        | finish _ he _ => rw [hev] at he; rcases he with ⟨he, _⟩ | ⟨he, _⟩ <;> cases he
        | tls hp' | drop hp' | connect hp' | save hp' | answerFail hp' | answerRef hp' | answerAcc hp' | closed hp' => rw [hp] at hp'; cases hp'
        | heloRef _ he | heloAcc _ he | mailRef _ he | mailAcc _ he | mailCount _ he | mailDrop _ he | gotKeep _ he | gotSave _ he
        | dataRef _ he | dataAcc _ he | tlserror _ he | other _ he => rw [hev] at he; cases he
      · cases hev)
  refine ⟨n, fun st hst a hev hacc => ?_⟩
  rcases hn st hst ⟨a, hev, hacc⟩ with h | h
  · exact h.elim
  · exact h a hev

/-- A refusal is pending for the rest of the transaction. -/
def Pending (c : Ctx) : Prop := c.defresult = .reject ∨ c.defresult = .stall

theorem Pending.ge {c : Ctx} (h : Pending c) : c.defresult ≥ .accept := by
  rcases h with h | h <;> rw [h] <;> decide

/-- The step neither greets nor begins a transaction. -/
def Spec.Step.within (st : Step) : Prop := ∀ ev, st.event = some ev → (∀ h a, ev ≠ .helo h a) ∧ ∀ a, ev ≠ .mailfrom a

theorem decide_pending {W : World} {tr : TransR} {ph : Phase} {e : Evt} {c c' : Ctx} {a : Action} (hp : Pending c)
    (hph : ph ≠ .helo ∧ ph ≠ .mfrom) (h : Decide W tr ph e c = .ok (a, c')) : a = c.defresult ∧ c'.defresult = c.defresult := by
  have hsh : (shadow ph e c).defresult = c.defresult := by
    cases ph <;> first | rfl | exact absurd rfl hph.1 | exact absurd rfl hph.2
  cases decide_end h with
  | pending _ => exact ⟨hsh, hsh⟩
  | plain hn _ _ => rw [hsh] at hn; exact absurd hp.ge hn
  | defer hn _ _ _ _ => rw [hsh] at hn; exact absurd hp.ge hn

theorem DecR.pending {E : Env} {ph : Phase} {evt : Evt} {id : Str} {s s' : Sess} {ref : Bool} {o : List Out} {res : Action} {c1 : Ctx}
    (h : DecR E ph evt id s ref s' o res c1) (hp : Pending s.c) (hph : ph ≠ .helo ∧ ph ≠ .mfrom) :
    s'.c.defresult = s.c.defresult ∧ (res = .reject ∨ res = .stall) := by
  obtain ⟨h1, h2⟩ := decide_pending hp hph h.dec
  obtain ⟨d, tr, hc⟩ := h.ctx
  rw [hc]
  refine ⟨h2, ?_⟩
  rw [h1]
  exact hp

theorem Did.pending {cf : Conf} {E : Env} {s s' : Sess} {sh sh' : Shared} {i : Inp} {o : List Out} (h : Did cf E s sh i s' sh' o)
    (hp : Pending s.c) (hw : (⟨s, i, sh, s', sh', o⟩ : Step).within) : Pending s'.c := by
  unfold Step.within Step.event at hw
  have key : ∀ {s1 : Sess}, s1.c.defresult = s.c.defresult → Pending s1.c := by
    intro s1 h1
    unfold Pending
    rw [h1]
    exact hp
  cases h with
  | tls hp' ht _ => unfold tlsStep at ht; cases ht; exact hp
  | drop hp' hd _ => exact key (hd.pending hp (by decide)).1
  | connect hp' hd => exact key (hd.pending hp (by decide)).1
  | heloRef hr he hd | heloAcc hr he hd => exact absurd he ((hw _ (if_pos hr)).1 _ _)
  | mailRef hr he hd | mailAcc hr he hd | mailCount hr he hd | mailDrop hr he hd => exact absurd he ((hw _ (if_pos hr)).2 _)
  | rcptRef _ _ hd | rcptAcc _ _ hd | dataRef _ _ hd | dataAcc _ _ hd => exact key (hd.pending hp (by decide)).1
  | answerRef _ hd | answerAcc _ hd => exact key (hd.pending hp (by decide)).1
  | gotKeep | gotSave | tlserror | finish | other | save | answerFail | closed => exact hp

theorem run_pending {cf : Conf} {E : Env} {s0 s : Sess} {l : List Step} (hr : Run cf E s0 l s) (hp : Pending s0.c)
    (hw : ∀ st ∈ l, st.within) : Pending s.c := by
  have : (∀ st ∈ l, st.within) → Pending s.c :=
    Spec.Run.ind (P := fun l s => (∀ st ∈ l, st.within) → Pending s.c) hr (fun _ => hp)
      fun l s1 s2 sh sh' i o _ ih hd _ hw => hd.pending (ih fun st hst => hw st (by simp [hst])) (hw _ (by simp))
  exact this hw

/-- A documented rule that rejects at MAIL FROM when a name is in a pattern file. -/
theorem mail_file {o : BaseOpts} {cf : Conf} (hc : Configured o cf) {r : Rule} {k : MKind} {F : Str}
    (hrd : r ∈ documentedRules o.stdrules o.failgotdata (given o.fromreject) (given o.toaccept) (given o.heloreject))
    (hcl : r.clauses = [⟨.matchN k (b!"file:" ++ F), {}⟩]) (hskip : skipRule .mfrom r = false) {E : Env} {l : List Step} {s : Sess}
    (h : Life cf E l s) (nm : Step → Str)
    (hnm : ∀ st ∈ l, ∀ a, st.event = some (.mailfrom a) → ∀ tr c2, RSteps E.W (begun .mfrom ⟨false, a⟩ st.pre.c) c2 → k.names tr c2 = [nm st]) :
    ∃ n, ∀ l1 st l2 a, l = l1 ++ st :: l2 → st.event = some (.mailfrom a) →
      (∃ p ∈ entriesAt E.W n F, PatMatch E.W.lib k (nm st) p) →
      if a ≠ [] then replies st.out = [.rejected] ∨ replies st.out = [.deferred]
      else ∀ l3 st' l4 r, l2 = l3 ++ st' :: l4 → (∀ q ∈ l3, q.within) → st'.event = some (.rcptto r) →
        replies st'.out = [.rejected] ∨ replies st'.out = [.deferred] := by
  obtain ⟨sh0, i0, s0, sh1, o1, hs0, hr⟩ := h
  obtain ⟨n, hn⟩ := snapshot hr (life_ok hs0 (.nil s0)).files (F := F)
    (T := fun st => ∃ a, st.event = some (.mailfrom a))
    (G := fun st => ∀ a, st.event = some (.mailfrom a) → if a ≠ [] then replies st.out = [.rejected] ∨ replies st.out = [.deferred]
      else Pending st.post.c)
    (R := fun pats st => ∀ a, st.event = some (.mailfrom a) → ¬ ∃ p ∈ pats, PatMatch E.W.lib k (nm st) p) (by
      rintro st hst ⟨a, hev⟩
      obtain ⟨l1, hr1, hd⟩ := hr.mem hst
      have hok := life_ok hs0 hr1
      have hnm := fun {tr c2} => hnm st hst a hev tr c2
      generalize nm st = name at hnm ⊢
      obtain ⟨pre, i, sh, post, sh', out⟩ := st
      unfold Step.event at hev ⊢
      simp only at hd hev hok hnm ⊢
      split at hev
      · rename_i hp
        injection hev with hev
        have hev2 : ∀ a', (if pre.pc = .ready then some i.ev else none) = some (.mailfrom a') → a' = a := by
          intro a' h
          rw [if_pos hp, hev] at h
          cases h; rfl
        have key : ∀ {ref : Bool} {s1 : Sess} {oo : List Out} {res : Action} {c1 : Ctx}, DecR E .mfrom ⟨false, a⟩ [] pre ref s1 oo res c1 →
            (res = .reject ∨ res = .stall) ∨ (a = [] ∧ Pending s1.c) ∨
            ∃ pats, s1.c.files F = some pats ∧ ¬ ∃ p ∈ pats, PatMatch E.W.lib k name p := by
          intro ref s1 oo res c1 hdec
          obtain ⟨d, tr', hctx⟩ := hdec.ctx
          rw [hctx]
          rcases hok.rules with h1 | ⟨more, h1⟩
          · rw [hc.stall_eq] at h1
            rcases decide_reach (pre := []) hok.defOK h1 (by simp) hdec.dec with h2 | ⟨-, h2, h3⟩ | ⟨c2, -, -, h2⟩
            · exact .inl h2
            · exact .inr (.inl ⟨h2, h3⟩)
            · exact .inl (.inr (ruleLoop_all rfl rfl (by decide) (.inl rfl) h2).1)
          · obtain ⟨pr, po, hpr, hb⟩ := documented_split (std := o.stdrules) (m := o.failgotdata) (f := given o.fromreject) (t := given o.toaccept)
              (h := given o.heloreject) (r := r) hrd
            rw [hc.base_eq, hb, List.append_assoc] at h1
            rcases decide_reach hok.defOK h1 hpr hdec.dec with h2 | ⟨-, h2, h3⟩ | ⟨c2, hs, hq, h2⟩
            · exact .inl h2
            · exact .inr (.inl ⟨h2, h3⟩)
            · rcases ruleLoop_file (k := k) (neg := false) (F := F) hcl (documented_reject r hrd) hskip (by decide) h2 with h3 | ⟨pats, h3, h4⟩
              · exact .inl (.inl h3)
              · refine .inr (.inr ⟨pats, h3, ?_⟩)
                rintro ⟨p, hp1, hp2⟩
                rcases h4 with h4 | h4
                · rw [h4] at hp1; cases hp1
                · refine absurd (h4.mp ⟨p, hp1, _, ?_, hp2⟩) (by decide)
                  rw [hnm hs]
                  exact List.mem_singleton_self _
        have passed : ∀ {s1 : Sess} {oo : List Out} {res : Action} {c1 : Ctx}, DecR E .mfrom ⟨false, a⟩ [] pre false s1 oo res c1 →
            (a = [] ∧ Pending s1.c) ∨
            ∃ pats, s1.c.files F = some pats ∧ ¬ ∃ p ∈ pats, PatMatch E.W.lib k name p := by
          intro s1 oo res c1 hdec
          have hres := hdec.passed (by decide)
          rcases key hdec with h | h
          · rcases h with h | h <;> rcases hres with h' | h' <;> rw [h] at h' <;> cases h'
          · exact h
        have fin : ∀ {s1 : Sess}, post.c = s1.c → ((a = [] ∧ Pending s1.c) ∨
            ∃ pats, s1.c.files F = some pats ∧ ¬ ∃ p ∈ pats, PatMatch E.W.lib k name p) →
            ((∀ a', (if pre.pc = .ready then some i.ev else none) = some (.mailfrom a') →
              if a' ≠ [] then replies out = [.rejected] ∨ replies out = [.deferred] else Pending post.c) ∨
            ∃ pats, post.c.files F = some pats ∧ ∀ a', (if pre.pc = .ready then some i.ev else none) = some (.mailfrom a') →
              ¬ ∃ p ∈ pats, PatMatch E.W.lib k name p) := by
          intro s1 hpc h
          rw [hpc]
          rcases h with ⟨h1, h2⟩ | ⟨pats, h1, h2⟩
          · left
            intro a' ha'
            rw [hev2 a' ha', h1]
            simpa using h2
          · right
            exact ⟨pats, h1, fun _ _ => h2⟩
        cases hd with
        | @mailRef arg s1 oo res c1 _ he hdec =>
          have ha : arg = a := by rw [hev] at he; cases he; rfl
          subst ha
          rcases key hdec with h | h
          · left
            intro a' ha'
            rw [hev2 a' ha']
            by_cases h0 : arg = []
            · subst h0
              exact absurd h (by
                obtain ⟨h1, h2⟩ := C25_null_sender hdec.dec
                rintro (h | h)
                · exact h1 h
                · exact h2 h)
            · rw [if_pos h0]
              exact hdec.refused (by decide)
          · exact fin rfl h
        | @mailAcc arg s1 oo o' res c1 _ he hdec _ _ =>
          have ha : arg = a := by rw [hev] at he; cases he; rfl
          subst ha
          exact fin (s1 := s1) rfl (passed hdec)
        | @mailCount arg s1 oo o' res c1 _ he hdec _ _ _ =>
          have ha : arg = a := by rw [hev] at he; cases he; rfl
          subst ha
          exact fin (s1 := s1) rfl (passed hdec)
        | @mailDrop arg s1 oo o' res c1 _ he hdec _ _ _ =>
          have ha : arg = a := by rw [hev] at he; cases he; rfl
          subst ha
          exact fin (s1 := s1) rfl (passed hdec)
        | finish _ he _ => rw [hev] at he; rcases he with ⟨he, _⟩ | ⟨he, _⟩ <;> cases he
        | tls hp' | drop hp' | connect hp' | save hp' | answerFail hp' | answerRef hp' | answerAcc hp' | closed hp' => rw [hp] at hp'; cases hp'
        | heloRef _ he | heloAcc _ he | rcptRef _ he | rcptAcc _ he | gotKeep _ he | gotSave _ he
        | dataRef _ he | dataAcc _ he | tlserror _ he | other _ he => rw [hev] at he; cases he
      · cases hev)
  refine ⟨n, fun l1 st l2 a hl hev hm => ?_⟩
  rcases hn st (by rw [hl]; simp) ⟨a, hev⟩ with hg | hg
  · have hg := hg a hev
    by_cases h0 : a = []
    · rw [if_neg (by simpa using h0)] at hg ⊢
      intro l3 st' l4 r hl2 hw hev'
      obtain ⟨-, -, hr2⟩ := hr.split hl
      obtain ⟨hr3, hst', -⟩ := hr2.split hl2
      have hpend := run_pending hr3 hg hw
      have hd := sstep_did hst'
      obtain ⟨pre, i, sh, post, sh', out⟩ := st'
      unfold Step.event at hev'
      simp only at hd hev' hpend ⊢
      split at hev'
      · rename_i hp
        injection hev' with hev'
        cases hd with
        | rcptRef _ _ hd => exact hd.refused (by decide)
        | rcptAcc _ _ hd _ =>
          have h1 := (hd.pending hpend (by decide)).2
          have h2 := hd.passed (by decide)
          rcases h1 with h | h <;> rcases h2 with h' | h' <;> rw [h] at h' <;> cases h'
        | finish _ he _ => rw [hev'] at he; rcases he with ⟨he, _⟩ | ⟨he, _⟩ <;> cases he
        | tls hp' | drop hp' | connect hp' | save hp' | answerFail hp' | answerRef hp' | answerAcc hp' | closed hp' => rw [hp] at hp'; cases hp'
        | heloRef _ he | heloAcc _ he | mailRef _ he | mailAcc _ he | mailCount _ he | mailDrop _ he | gotKeep _ he | gotSave _ he
        | dataRef _ he | dataAcc _ he | tlserror _ he | other _ he => rw [hev'] at he; cases he
      · cases hev'
    · rw [if_pos h0] at hg ⊢
      exact hg
  · exact absurd hm (hg a hev)

/-- **C36.** With `-fromreject F`, on any connection and whatever the rule files say: a MAIL FROM matching a pattern of `F`
as the connection read it is refused; if it is the null sender, every recipient until the next EHLO, HELO or MAIL FROM is
refused. -/
theorem C36_fromreject {o : BaseOpts} {cf : Conf} (hc : Configured o cf) (hF : o.fromreject ≠ []) {E : Env} {l : List Step} {s : Sess}
    (h : Life cf E l s) :
    ∃ n, ∀ l1 st l2 a, l = l1 ++ st :: l2 → st.event = some (.mailfrom a) →
      (∃ p ∈ entriesAt E.W n o.fromreject, AddrMatch (E.W.lib.lower a) p) →
      if a ≠ [] then replies st.out = [.rejected] ∨ replies st.out = [.deferred]
      else ∀ l3 st' l4 r, l2 = l3 ++ st' :: l4 → (∀ q ∈ l3, q.within) → st'.event = some (.rcptto r) →
        replies st'.out = [.rejected] ∨ replies st'.out = [.deferred] := by
  obtain ⟨n, hn⟩ := mail_file hc (r := ⟨[⟨.matchN .from_ (b!"file:" ++ o.fromreject), {}⟩], .reject, .mfrom, .any⟩) (k := .from_)
    (F := o.fromreject) (by simp [documentedRules, given, hF]) rfl rfl h
    (fun st => match st.event with | some (.mailfrom a) => a | _ => []) (by
      intro st _ a hev tr c2 hs
      rw [hev]
      simp only [MKind.names, Ctx.from_of_frame hs.frame, begun_from])
  refine ⟨n, fun l1 st l2 a hl hev hm => hn l1 st l2 a hl hev ?_⟩
  rw [hev]
  exact hm

/-! ## C67 -/

namespace Spec
/-- The name in the last EHLO or HELO of the client, if any. -/
def lastHelo (l : List Step) : Str :=
  ((l.filterMap fun st => match st.event with | some (.helo _ a) => some a | _ => none).getLast?).getD []
end Spec

theorem begun_heloname {ph : Phase} {e : Evt} {c : Ctx} : (begun ph e c).heloname = if ph = .helo then e.arg else c.heloname := by
  cases ph <;> rfl

theorem DecR.heloname {E : Env} {ph : Phase} {evt : Evt} {id : Str} {s s' : Sess} {ref : Bool} {o : List Out} {res : Action} {c1 : Ctx}
    (h : DecR E ph evt id s ref s' o res c1) : s'.c.heloname = if ph = .helo then evt.arg else s.c.heloname := by
  obtain ⟨d, tr, hc⟩ := h.ctx
  have : c1.heloname = (begun ph evt s.c).heloname := by
    cases decide_end h.dec with
    | pending _ => rfl
    | plain _ hl _ => exact Ctx.heloname_of_frame (ruleLoop_steps hl).frame
    | @defer _ c' _ hl _ _ _ => exact (show c'.heloname = _ from Ctx.heloname_of_frame (ruleLoop_steps hl).frame)
  rw [hc, ← begun_heloname]
  exact this

theorem Did.heloname {cf : Conf} {E : Env} {s s' : Sess} {sh sh' : Shared} {i : Inp} {o : List Out} (h : Did cf E s sh i s' sh' o) :
    s'.c.heloname = match (⟨s, i, sh, s', sh', o⟩ : Step).event with | some (.helo _ a) => a | _ => s.c.heloname := by
  have same : ∀ {st : Step}, (∀ h a, st.event ≠ some (.helo h a)) → (match st.event with | some (.helo _ a) => a | _ => s.c.heloname) = s.c.heloname := by
    intro st hst
    split
    · rename_i hh; exact absurd hh (hst _ _)
    · rfl
  cases h with
  | heloRef hp he hd =>
    simp only [Step.event, hp, he, if_true]
    exact hd.heloname
  | heloAcc hp he hd =>
    simp only [Step.event, hp, he, if_true]
    exact hd.heloname
  | drop hp hd | connect hp hd =>
    rw [same (by simp [Step.event, hp])]
    exact hd.heloname
  | mailRef hp he hd | rcptRef hp he hd | dataRef hp he hd | mailAcc hp he hd | mailCount hp he hd | mailDrop hp he hd | rcptAcc hp he hd
  | dataAcc hp he hd =>
    rw [same (by simp [Step.event, hp, he])]
    exact hd.heloname
  | answerRef hp hd | answerAcc hp hd =>
    rw [same (by simp [Step.event, hp])]
    exact hd.heloname
  | tls hp ht =>
    rw [same (by simp [Step.event, hp])]
    unfold tlsStep at ht
    cases ht
    rfl
  | gotKeep hp he | gotSave hp he => rw [same (by simp [Step.event, hp, he])]; rfl
  | tlserror hp he | other hp he => rw [same (by simp [Step.event, hp, he])]
  | finish hp he => rw [same (by rcases he with ⟨he, _⟩ | ⟨he, _⟩ <;> simp [Step.event, hp, he])]
  | save hp | answerFail hp | closed hp => rw [same (by simp [Step.event, hp])]

theorem run_heloname {cf : Conf} {E : Env} {s0 s : Sess} {l : List Step} (hr : Run cf E s0 l s) (h0 : s0.c.heloname = []) :
    s.c.heloname = lastHelo l := by
  refine Spec.Run.ind (P := fun l s => s.c.heloname = lastHelo l) hr h0 ?_
  intro l s1 s2 sh sh' i o _ ih hd _
  rw [hd.heloname, ih]
  unfold lastHelo
  rw [List.filterMap_append]
  simp only [List.filterMap_cons, List.filterMap_nil]
  split <;> simp

/-- **C67.** With `-heloreject F`, on any connection and whatever the rule files say: if the name in the client's last EHLO or HELO
matches a pattern of `F` as the connection read it, MAIL FROM is refused; if it is the null sender, every recipient until the next
EHLO, HELO or MAIL FROM is refused. -/
theorem C67_heloreject {o : BaseOpts} {cf : Conf} (hc : Configured o cf) (hF : o.heloreject ≠ []) {E : Env} {l : List Step} {s : Sess}
    (h : Life cf E l s) :
    ∃ n, ∀ l1 st l2 a, l = l1 ++ st :: l2 → st.event = some (.mailfrom a) →
      (∃ p ∈ entriesAt E.W n o.heloreject, HostMatch (E.W.lib.lower (lastHelo l1)) p) →
      if a ≠ [] then replies st.out = [.rejected] ∨ replies st.out = [.deferred]
      else ∀ l3 st' l4 r, l2 = l3 ++ st' :: l4 → (∀ q ∈ l3, q.within) → st'.event = some (.rcptto r) →
        replies st'.out = [.rejected] ∨ replies st'.out = [.deferred] := by
  obtain ⟨n, hn⟩ := mail_file hc (r := ⟨[⟨.matchN .helo (b!"file:" ++ o.heloreject), {}⟩], .reject, .helo, .mfrom⟩) (k := .helo)
    (F := o.heloreject) (by simp [documentedRules, given, hF]) rfl rfl h (fun st => st.pre.c.heloname) (by
      intro st _ a hev tr c2 hs
      simp only [MKind.names, Ctx.heloname_of_frame hs.frame, begun_heloname]
      rfl)
  refine ⟨n, fun l1 st l2 a hl hev hm => hn l1 st l2 a hl hev ?_⟩
  obtain ⟨sh0, i0, s0, sh1, o1, hs0, hr⟩ := h
  obtain ⟨hr1, -, -⟩ := hr.split hl
  rw [run_heloname hr1 (by obtain ⟨rules, good, w, t, h1, h2, -⟩ := startSess_ctx hs0; rw [h2]; rfl)]
  exact hm

/-- Settings of `-fromreject /bad -toaccept /bad` (a silly choice, but it shows both). -/
def demoOptsF : BaseOpts := ⟨false, false, b!"/bad", b!"/bad", []⟩
def demoConfF : Conf := { demoConf with base := documentedRules false false (some b!"/bad") (some b!"/bad") none, rulefiles := [] }

theorem cleanBad : CleanName b!"/bad" := by unfold CleanName; decide +kernel

theorem demoOptsF_configured : Configured demoOptsF demoConfF :=
  ⟨⟨cleanBad, cleanBad, cleanNil⟩,
   ⟨demoLib, fun _ _ => .notExist [], 5, C11_base_rules _ _ _ _ cleanBad cleanBad cleanNil⟩,
   ⟨demoLib, fun _ _ => .notExist [], 5, C11_stall_rules _ _ _⟩⟩

/-- Only recipients listed in the file are accepted, and no senders listed in it. -/
example : seen (fun l _ _ => (l.drop 2).map fun st => replies st.out) (driveAll demoConfF demoEnv {} {} (events
    [.mailfrom b!"spam@x.com", .mailfrom b!"a@sub.evil.com", .mailfrom b!"ok@x.com", .rcptto b!"u@example.com", .rcptto b!"spam@example.com"])) =
    .ok [[.rejected], [.rejected], [.accepted], [.rejected], [.accepted]] := by
  decide +kernel

/-- Settings of `-heloreject /bad`. -/
def demoOptsH : BaseOpts := ⟨false, false, [], [], b!"/bad"⟩
def demoConfH : Conf := { demoConf with base := documentedRules false false none none (some b!"/bad"), rulefiles := [] }

example : Configured demoOptsH demoConfH :=
  ⟨⟨cleanNil, cleanNil, cleanBad⟩,
   ⟨demoLib, fun _ _ => .notExist [], 5, C11_base_rules _ _ _ _ cleanNil cleanNil cleanBad⟩,
   ⟨demoLib, fun _ _ => .notExist [], 5, C11_stall_rules _ _ _⟩⟩

/-- The greeting itself is not refused; a second greeting with another name helps. -/
example : seen (fun l _ _ => (l.drop 2).map fun st => replies st.out) (driveAll demoConfH demoEnv {} {} (events
    [.helo false b!"evil.com", .mailfrom b!"a@example.com", .mailfrom [], .rcptto b!"u@example.com", .rcptto b!"v@example.com",
     .helo true b!"me.example.com", .mailfrom [], .rcptto b!"u@example.com"])) =
    .ok [[], [.rejected], [.accepted], [.rejected], [.rejected], [], [.accepted], [.accepted]] := by
  decide +kernel

end Sink
