import Verif.Spec.Adding
import Verif.Props.Rewrite

/-!
# C87: what adding rules can change
-/

namespace Sink
open Spec

theorem clausesTo_gives {W : World} {tr : TransR} {m : Mail} {cs : List RClause} {o : Outcome} (h : ClausesTo W tr m cs o) :
    ∀ x, o = .hit x → ∃ c ∈ cs, c.withs = x := by
  induction h with
  | nil => intro x hx; cases hx
  | miss => intro x hx; cases hx
  | @hit c cs _ _ => intro x hx; cases hx; exact ⟨c, by simp, rfl⟩
  | next _ _ _ ih => intro x hx; obtain ⟨c, h1, h2⟩ := ih x hx; exact ⟨c, by simp [h1], h2⟩

theorem rcptsTo_gives {W : World} {tr : TransR} {m : Mail} {r : Rule} {as : List Str} {o : Outcome} (h : RcptsTo W tr m r as o) :
    ∀ x, o = .hit x → GivesOpt r x := by
  induction h with
  | nil => intro x hx; cases hx
  | stop h _ => exact clausesTo_gives h
  | next _ _ ih => exact ih

theorem hits_gives {W : World} {tr : TransR} {m : Mail} {ph : Phase} {r : Rule} {x : Withs} (h : Hits W tr m ph r x) : GivesOpt r x := by
  have h := h.2
  unfold RuleTo at h
  split at h
  · exact rcptsTo_gives h x rfl
  · exact clausesTo_gives h x rfl

/-! ## Going through the rules -/

/-- Rules added that all decide: a result that none of them gives was there before. -/
theorem goes_added {H : Rule → Withs → Prop} {new rs rs' : List Rule} (h : Added new rs rs') {w w' : Withs} {a : Action}
    (hd : ∀ r ∈ new, Decides r ∧ r.result ≠ a) (hg : Goes H rs' w a w') : Goes H rs w a w' := by
  induction h generalizing w with
  | nil => exact hg
  | old r _ ih =>
    cases hg with
    | skip h1 h2 => exact .skip h1 (ih hd h2)
    | set h1 h2 h3 => exact .set h1 h2 (ih hd h3)
    | stop h1 h2 => exact .stop h1 h2
  | new r _ ih =>
    have hr := hd r (by simp)
    have hd := fun q hq => hd q (List.mem_cons_of_mem _ hq)
    cases hg with
    | skip h1 h2 => exact ih hd h2
    | set h1 h2 h3 => exact absurd hr.1 h2
    | stop h1 h2 => exact absurd rfl hr.2

/-- Every option is as before or one of the new rules gives it. -/
def OnlyNew (new : List Rule) (w w' : Withs) : Prop := ∀ k : WKey, k.of w' = k.of w ∨ ∃ r ∈ new, ∃ x, GivesOpt r x ∧ k.of w' = k.of x

theorem OnlyNew.refl (new : List Rule) (w : Withs) : OnlyNew new w w := fun _ => .inl rfl

theorem OnlyNew.more {new new' : List Rule} (hn : ∀ r ∈ new, r ∈ new') {w w' : Withs} (h : OnlyNew new w w') : OnlyNew new' w w' := fun k =>
  (h k).imp id fun ⟨r, h1, h2⟩ => ⟨r, hn r h1, h2⟩

theorem OnlyNew.over {new : List Rule} {w w' : Withs} (x : Withs) (h : OnlyNew new w w') : OnlyNew new (x.over w) (x.over w') := by
  intro k
  rw [Withs.of_over, Withs.of_over]
  cases hx : k.of x with
  | some v => exact .inl rfl
  | none => simpa using h k

theorem OnlyNew.add {new : List Rule} {w w' x : Withs} {r : Rule} (hr : r ∈ new) (hx : GivesOpt r x) (h : OnlyNew new w w') : OnlyNew new w (x.over w') := by
  intro k
  rw [Withs.of_over]
  cases hk : k.of x with
  | some v => exact .inr ⟨r, hr, x, hx, by rw [hk]; rfl⟩
  | none => simpa using h k

/-- Rules added that do not decide. -/
theorem goes_added_set {H : Rule → Withs → Prop} (hH : ∀ r x y, H r x → H r y → x = y) (hG : ∀ r x, H r x → GivesOpt r x) {new all rs rs' : List Rule}
    (h : Added new rs rs') (ha : ∀ r ∈ new, r ∈ all) (hd : ∀ r ∈ new, ¬ Decides r) {w w0 w1 : Withs} {a : Action} (hw : OnlyNew all w w0)
    (hg : Goes H rs w a w1) : ∃ w2, Goes H rs' w0 a w2 ∧ OnlyNew all w1 w2 := by
  induction h generalizing w w0 with
  | nil => cases hg; exact ⟨w0, .nil, hw⟩
  | old r _ ih =>
    cases hg with
    | skip h1 h2 => obtain ⟨w2, j1, j2⟩ := ih ha hd hw h2; exact ⟨w2, .skip h1 j1, j2⟩
    | set h1 h2 h3 => obtain ⟨w2, j1, j2⟩ := ih ha hd (hw.over _) h3; exact ⟨w2, .set h1 h2 j1, j2⟩
    | stop h1 h2 => exact ⟨_, .stop h1 h2, hw.over _⟩
  | new r _ ih =>
    have ha' := fun q hq => ha q (List.mem_cons_of_mem _ hq)
    have hd' := fun q hq => hd q (List.mem_cons_of_mem _ hq)
    by_cases hx : ∃ x, H r x
    · obtain ⟨x, hx⟩ := hx
      obtain ⟨w2, j1, j2⟩ := ih ha' hd' (hw.add (ha r (by simp)) (hG r x hx)) hg
      exact ⟨w2, .set hx (hd r (by simp)) j1, j2⟩
    · obtain ⟨w2, j1, j2⟩ := ih ha' hd' hw hg
      exact ⟨w2, .skip (fun x h => hx ⟨x, h⟩) j1, j2⟩

/-! ## Rulings -/

theorem says1_total (E : Env) (rules : List Rule) (l : List Step) (ph : Phase) (e : Evt) : ∃ a w, Says1 E rules l ph e a w := by
  obtain ⟨a, w, h⟩ := goes_total (Hits E.W (facts E l) ((heard l).said ph e) ph) rules {}
  exact ⟨a, w, says1_goes.2 h⟩

/-- C87: there is a ruling on every command (and by C76 only one). -/
theorem C87_ruling (E : Env) (rules : List Rule) (l : List Step) (ph : Phase) (e : Evt) : ∃ a w, Ruling E rules l ph e a w := by
  obtain ⟨a, w, h⟩ := says1_total E rules l ph e
  by_cases h1 : ph = .helo ∨ ph = .mfrom ∨ ∀ a w, ¬ Waiting E rules l a w
  · by_cases h2 : ph = .mfrom ∧ e.arg = [] ∧ Refuses a
    · exact ⟨_, _, .null h2.1 h2.2.1 h h2.2.2⟩
    · exact ⟨_, _, .plain h1 h h2⟩
  · simp only [not_or] at h1
    obtain ⟨h1, h2, h3⟩ := h1
    by_contra hn
    exact h3 fun a w hw => hn ⟨a, w, .late h1 h2 hw⟩

theorem says1_added {E : Env} {new rs rs' : List Rule} (h : Added new rs rs') {l : List Step} {ph : Phase} {e : Evt} {a : Action} {w : Withs}
    (hd : ∀ r ∈ new, Decides r ∧ r.result ≠ a) (hs : Says1 E rs' l ph e a w) : Says1 E rs l ph e a w :=
  says1_goes.2 (goes_added h hd (says1_goes.1 hs))

theorem refuses_decides {r : Rule} (h : Refuses r.result) : Decides r := by
  rcases h with h | h <;> simp [Decides, h]

theorem waiting_or {E : Env} {rules : List Rule} {l : List Step} {ph : Phase} (h : ¬ (ph = .helo ∨ ph = .mfrom ∨ ∀ a w, ¬ Waiting E rules l a w)) :
    ph ≠ .helo ∧ ph ≠ .mfrom ∧ ∃ a w, Waiting E rules l a w := by
  simp only [not_or, not_forall, not_not] at h
  exact h

/-- **C87.** `accept` rules, added in any places, only let more through: a command that is refused was refused before they were added, and in
the same way unless a refusal of the null sender was due, which they may have lifted. -/
theorem C87_accept {new rs rs' : List Rule} (h : Added new rs rs') (hn : ∀ r ∈ new, r.result = .accept) {E : Env} {l : List Step} {ph : Phase}
    {e : Evt} {a : Action} {w : Withs} (hr : Ruling E rs' l ph e a w) (ha : Refuses a) :
    ∃ a1 w1, Ruling E rs l ph e a1 w1 ∧ Refuses a1 ∧ (a1 = a ∧ w1 = w ∨ Waiting E rs l a1 w1) := by
  have hd : ∀ {b : Action}, Refuses b → ∀ r ∈ new, Decides r ∧ r.result ≠ b := fun hb r hr =>
    ⟨by simp [Decides, hn r hr], fun he => by rw [← he, hn r hr] at hb; rcases hb with hb | hb <;> cases hb⟩
  cases hr with
  | late h1 h2 h3 =>
    obtain ⟨l1, st, l2, b, id, k1, k2, k3, k4, k5⟩ := h3
    exact ⟨a, w, .late h1 h2 ⟨l1, st, l2, b, id, k1, k2, says1_added h (hd k4) k3, k4, k5⟩, ha, .inl ⟨rfl, rfl⟩⟩
  | null => rcases ha with ha | ha <;> cases ha
  | plain h1 h2 h3 =>
    by_cases hw : ph = .helo ∨ ph = .mfrom ∨ ∀ a w, ¬ Waiting E rs l a w
    · exact ⟨a, w, .plain hw (says1_added h (hd ha) h2) h3, ha, .inl ⟨rfl, rfl⟩⟩
    · obtain ⟨j1, j2, a1, w1, j3⟩ := waiting_or hw
      refine ⟨a1, w1, .late j1 j2 j3, ?_, .inr j3⟩
      obtain ⟨_, _, _, _, _, _, _, _, k4, _⟩ := j3
      exact k4

/-- **C87.** `reject` and `stall` rules, added in any places, only let less through: what is accepted was accepted before they were added,
with the same options.  (The null sender is accepted always.) -/
theorem C87_refuse {new rs rs' : List Rule} (h : Added new rs rs') (hn : ∀ r ∈ new, Refuses r.result) {E : Env} {l : List Step} {ph : Phase}
    {e : Evt} {a : Action} {w : Withs} (hr : Ruling E rs' l ph e a w) (ha : ¬ Refuses a) (hne : ¬ (ph = .mfrom ∧ e.arg = [])) :
    Ruling E rs l ph e a w := by
  have hd : ∀ {b : Action}, ¬ Refuses b → ∀ r ∈ new, Decides r ∧ r.result ≠ b := fun hb r hr =>
    ⟨refuses_decides (hn r hr), fun he => hb (he ▸ hn r hr)⟩
  cases hr with
  | late h1 h2 h3 =>
    obtain ⟨_, _, _, _, _, _, _, _, k4, _⟩ := h3
    exact absurd k4 ha
  | null h1 h2 => exact absurd ⟨h1, h2⟩ hne
  | plain h1 h2 h3 =>
    refine .plain (h1.imp id (Or.imp id fun hw => ?_)) (says1_added h (hd ha) h2) h3
    rintro a1 w1 ⟨l1, st, l2, b, id, k1, k2, k3, k4, k5⟩
    obtain ⟨a2, w2, k6⟩ := says1_total E rs' l1 .mfrom ⟨b, []⟩
    by_cases hx : Refuses a2
    · exact hw a2 w2 ⟨l1, st, l2, b, id, k1, k2, k6, hx, k5⟩
    · exact hx (((says1_added h (hd hx) k6).unique k3).1 ▸ k4)

/-- C87: so what is refused stays refused. -/
theorem C87_refused {new rs rs' : List Rule} (h : Added new rs rs') (hn : ∀ r ∈ new, Refuses r.result) {E : Env} {l : List Step} {ph : Phase}
    {e : Evt} {a a' : Action} {w w' : Withs} (hr : Ruling E rs l ph e a w) (ha : Refuses a) (hr' : Ruling E rs' l ph e a' w') : Refuses a' := by
  by_contra hx
  by_cases hne : ph = .mfrom ∧ e.arg = []
  · cases hr with
    | late _ h2 => exact h2 hne.1
    | null => rcases ha with ha | ha <;> cases ha
    | plain _ _ h3 => exact h3 ⟨hne.1, hne.2, ha⟩
  · exact hx (((C87_refuse h hn hr' hx hne).unique hr).1 ▸ ha)

/-- **C87.** `set-with` rules, added in any places, change no action; they change options only to what they give. -/
theorem C87_set {new rs rs' : List Rule} (h : Added new rs rs') (hn : ∀ r ∈ new, ¬ Decides r) {E : Env} {l : List Step} {ph : Phase}
    {e : Evt} {a : Action} {w : Withs} (hr : Ruling E rs l ph e a w) : ∃ w', Ruling E rs' l ph e a w' ∧ OnlyNew new w w' := by
  have key : ∀ {l : List Step} {ph : Phase} {e : Evt} {a : Action} {w : Withs}, Says1 E rs l ph e a w → ∃ w', Says1 E rs' l ph e a w' ∧ OnlyNew new w w' := by
    intro l ph e a w hs
    obtain ⟨w2, h1, h2⟩ := goes_added_set (H := Hits E.W (facts E l) ((heard l).said ph e) ph) (fun r x y hx hy => hits_unique hx hy) (fun r x hx => hits_gives hx) h (fun _ h => h) hn
      (OnlyNew.refl new {}) (says1_goes.1 hs)
    exact ⟨w2, says1_goes.2 h1, h2⟩
  have wait : ∀ {a w}, Waiting E rs l a w → ∃ w', Waiting E rs' l a w' ∧ OnlyNew new w w' := by
    rintro a w ⟨l1, st, l2, b, id, k1, k2, k3, k4, k5⟩
    obtain ⟨w', j1, j2⟩ := key k3
    exact ⟨w', ⟨l1, st, l2, b, id, k1, k2, j1, k4, k5⟩, j2⟩
  cases hr with
  | late h1 h2 h3 =>
    obtain ⟨w', j1, j2⟩ := wait h3
    exact ⟨w', .late h1 h2 j1, j2⟩
  | null h1 h2 h3 h4 =>
    obtain ⟨w', j1, -⟩ := key h3
    exact ⟨{}, .null h1 h2 j1 h4, .refl _ _⟩
  | plain h1 h2 h3 =>
    obtain ⟨w', j1, j2⟩ := key h2
    refine ⟨w', .plain (h1.imp id (Or.imp id fun hw => ?_)) j1 h3, j2⟩
    rintro a1 w1 ⟨l1, st, l2, b, id, k1, k2, k3, k4, k5⟩
    obtain ⟨a2, w2, k6⟩ := says1_total E rs l1 .mfrom ⟨b, []⟩
    obtain ⟨w3, k7, -⟩ := key k6
    obtain ⟨rfl, -⟩ := k7.unique k3
    exact hw a2 w2 ⟨l1, st, l2, b, id, k1, k2, k6, k4, k5⟩

/-- On connecting: of all rules added, a result that none of them gives was there before. -/
theorem C87_connect {new rs rs' : List Rule} (h : Added new rs rs') {W : World} {tr : TransR} {m : Mail} {ph : Phase} {u : List Rule} {a : Action}
    (hn : ∀ r ∈ new, Decides r → r.result ≠ a) (hr : FirstMatch W tr m ph rs' u a) : ∃ u', FirstMatch W tr m ph rs u' a := by
  rcases hr with ⟨rfl, rfl, hr⟩ | ⟨pre, r, post, w, rfl, rfl, h1, h2, rfl, h4⟩
  · refine ⟨rs, .inl ⟨rfl, rfl, fun q hq => hr q ?_⟩⟩
    induction h with
    | nil => exact hq
    | old r _ ih =>
      rcases List.mem_cons.1 hq with rfl | hq
      · simp
      · exact List.mem_cons_of_mem _ (ih (fun r hr => hn r hr) (fun q hq => hr q (List.mem_cons_of_mem _ hq)) hq)
    | new r _ ih => exact List.mem_cons_of_mem _ (ih (fun q hq => hn q (List.mem_cons_of_mem _ hq)) (fun q hq => hr q (List.mem_cons_of_mem _ hq)) hq)
  · generalize hx : pre ++ r :: post = rs' at h
    suffices hs : ∃ pre' post', rs = pre' ++ r :: post' ∧ ∀ q ∈ pre', q ∈ pre by
      obtain ⟨pre', post', rfl, hs⟩ := hs
      exact ⟨_, .inr ⟨pre', r, post', w, rfl, rfl, h1, h2, rfl, fun q hq => h4 q (hs q hq)⟩⟩
    clear h4
    induction h generalizing pre with
    | nil => simp at hx
    | old q _ ih =>
      cases pre with
      | nil => cases hx; exact ⟨[], _, rfl, by simp⟩
      | cons p pre =>
        cases hx
        obtain ⟨pre', post', rfl, hs⟩ := ih pre hn rfl
        exact ⟨q :: pre', post', rfl, fun x hx => by
          rcases List.mem_cons.1 hx with rfl | hx
          · simp
          · exact List.mem_cons_of_mem _ (hs x hx)⟩
    | new q _ ih =>
      cases pre with
      | nil => cases hx; exact absurd rfl (hn r (by simp) h1)
      | cons p pre =>
        cases hx
        obtain ⟨pre', post', rfl, hs⟩ := ih pre (fun q hq => hn q (List.mem_cons_of_mem _ hq)) rfl
        exact ⟨pre', post', rfl, fun x hx => List.mem_cons_of_mem _ (hs x hx)⟩

/-! ## Examples -/

/-- `reject from joe@example.com`. -/
def joeRule : Rule := ⟨[⟨.matchN .from_ b!"joe@example.com", {}⟩], .reject, .any, .mfrom⟩

/-- A rule for everything. -/
def allRule (a : Action) (w : Withs) : Rule := ⟨[⟨.all, w⟩], a, .any, .any⟩

example : Added [allRule .accept {}] [joeRule, allRule .stall {}] [joeRule, allRule .accept {}, allRule .stall {}] :=
  .old _ (.new _ (.old _ .nil))

/-- What rules say to a sender. -/
def toSender (rules : List Rule) (a : Str) : Option (Action × Option Str) :=
  match Decide demoWorld demoTrans .mfrom ⟨false, a⟩ (newContext rules []) with
  | .ok (a, c) => some (a, c.withprops.message)
  | .error _ => none

/-- `accept all` lifts what comes after it, not what comes before. -/
example : toSender [joeRule, allRule .stall {}] b!"joe@example.com" = some (.reject, none) ∧
    toSender [joeRule, allRule .accept {}, allRule .stall {}] b!"joe@example.com" = some (.reject, none) ∧
    toSender [joeRule, allRule .stall {}] b!"ann@example.com" = some (.stall, none) ∧
    toSender [joeRule, allRule .accept {}, allRule .stall {}] b!"ann@example.com" = some (.accept, none) := by decide +kernel

/-- `set-with all with message x` leaves the actions. -/
example : toSender [allRule .noresult { message := some b!"x" }, joeRule, allRule .stall {}] b!"joe@example.com" = some (.reject, some b!"x") ∧
    toSender [joeRule, allRule .noresult { message := some b!"x" }, allRule .stall {}] b!"joe@example.com" = some (.reject, none) ∧
    toSender [joeRule, allRule .noresult { message := some b!"x" }, allRule .stall {}] b!"ann@example.com" = some (.stall, some b!"x") := by
  decide +kernel

/-- On connecting a `stall` rule before a `reject` rule keeps the client from being dropped at once, since only `reject` drops; its commands
are refused then. -/
example : ((Decide demoWorld demoTrans .connect {} (newContext [allRule .reject {}] [])).toOption.map (·.1)) = some .reject ∧
    ((Decide demoWorld demoTrans .connect {} (newContext [allRule .stall {}, allRule .reject {}] [])).toOption.map (·.1)) = some .stall := by
  decide +kernel

end Sink
