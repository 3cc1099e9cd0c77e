import Verif.Props.Transaction
import Verif.Props.Order
import Verif.Props.Meta
import Verif.Props.Pairs

/-!
# C98: with reject and stall rules only, what was let pass is not refused later (doc.go, "When rules are checked")
-/

namespace Sink
open Spec Gram

/-- All rules that decide refuse, and none is tied to a phase. -/
def Spec.OnlyRefuses (rules : List Rule) : Prop := ∀ r ∈ rules, Decides r → Refuses r.result ∧ r.deferto = .any

/-- The last greeting came after the history `before`, and was accepted. -/
def Spec.Greeted (l before : List Step) : Prop :=
  ∃ g t b a id, l = before ++ g :: t ∧ g.asked = some (.helo, ⟨b, a⟩, id) ∧ g.accepted = true ∧
    ∀ q ∈ t, ∀ ph e id, q.asked = some (ph, e, id) → ph ≠ .helo

/-- In the middle of a transaction that began with the accepted MAIL FROM `m` for `a` after the history `before`; since then came `t`. -/
def Spec.Mailed (l before : List Step) (m : Step) (t : List Step) (a : Str) : Prop :=
  l = before ++ m :: t ∧ (∃ b id, m.asked = some (.mfrom, ⟨b, a⟩, id)) ∧ m.accepted = true ∧
    ∀ q ∈ t, ∀ ph e id, q.asked = some (ph, e, id) → ph ≠ .helo ∧ ph ≠ .mfrom

/-- TLS is not turned on or off during the transaction: every message since finds it as it was noticed before. -/
def Spec.SteadyTls (before t : List Step) : Prop := ∀ q ∈ t, ∀ d, q.event = some (.gotdata d) → q.i.tls.on = before.foldl tlsNoticed false

/-- The command is refused because of a rule that needs to know something from this phase. -/
def Spec.RefusedFor (E : Env) (rules : List Rule) (l : List Step) (ph : Phase) (e : Evt) (a : Action) : Prop :=
  ∃ r ∈ rules, Decides r ∧ r.result = a ∧ needsC r.clauses = ph ∧ ∃ w, Hits E.W (facts E l) ((heard l).said ph e) ph r w

/-! ## Rules in several phases -/

/-- A rule without a phase matches in another phase too, if what it needs is known and the same there. -/
theorem hits_move {W : World} {tr tr' : TransR} {m m' : Mail} {ph ph' : Phase} {r : Rule} (hs : SameUpTo r.requires tr tr' m m')
    (hd : r.deferto = .any) (hn : needsC r.clauses ≤ r.requires) (hp : r.requires ≤ ph') (h1 : ¬ (ph > .rto ∧ r.requires ≥ .rto))
    (h2 : ¬ (ph' > .rto ∧ r.requires ≥ .rto)) {w : Withs} (h : Hits W tr m ph r w) : Hits W tr' m' ph' r w := by
  refine ⟨⟨hp, .inl hd⟩, ?_⟩
  have h3 := h.2
  unfold RuleTo at h3 ⊢
  rw [if_neg h1] at h3
  rw [if_neg h2]
  exact clausesTo_upto hs hn h3

/-- With rules that only refuse, a refusal is by a rule that matches, and otherwise none does. -/
theorem says1_refuses {E : Env} {rules : List Rule} (ho : OnlyRefuses rules) {l : List Step} {ph : Phase} {e : Evt} {a : Action} {w : Withs}
    (h : Says1 E rules l ph e a w) :
    (a = .noresult ∧ ∀ r ∈ rules, Decides r → ∀ x, ¬ Hits E.W (facts E l) ((heard l).said ph e) ph r x) ∨
    (Refuses a ∧ ∃ r ∈ rules, Decides r ∧ r.result = a ∧ ∃ x, Hits E.W (facts E l) ((heard l).said ph e) ph r x) := by
  obtain ⟨used, ⟨h1, -, h3⟩ | ⟨pre, r, post, x, rfl, -, h3, h4, h5, -⟩, -⟩ := h
  · exact .inl ⟨h1, h3⟩
  · exact .inr ⟨h5 ▸ (ho r (by simp) h3).1, r, by simp, h3, h5.symm, x, h4⟩

theorem noresult_not_refuses : ¬ Refuses .noresult := by rintro (h | h) <;> cases h

/-! ## Where the conversation stands -/

theorem hear_greeting {t : List Step} (hq : ∀ q ∈ t, ∀ ph e id, q.asked = some (ph, e, id) → ph ≠ .helo) : ∀ m : Mail,
    (t.foldl hear m).isHelo = m.isHelo ∧ (t.foldl hear m).heloname = m.heloname := by
  induction t with
  | nil => exact fun m => ⟨rfl, rfl⟩
  | cons st t ih =>
    intro m
    obtain ⟨h1, h2⟩ := ih (fun q h => hq q (by simp [h])) (hear m st)
    have k : (hear m st).isHelo = m.isHelo ∧ (hear m st).heloname = m.heloname := by
      unfold hear
      split
      · rename_i ph e id h
        have h1 := hq st (by simp) _ _ _ h
        cases ph <;> simp_all [Mail.said]
      · exact ⟨rfl, rfl⟩
    exact ⟨h1.trans k.1, h2.trans k.2⟩

theorem Spec.Mailed.inMail {l b t : List Step} {m : Step} {a : Str} (h : Mailed l b m t a) : InMail l b a := by
  obtain ⟨h1, ⟨i, id, h2⟩, -, h4⟩ := h
  exact ⟨m, t, i, id, h1, h2, h4⟩

theorem asked_mfrom {m : Step} {e : Evt} {id : Str} (h : m.asked = some (.mfrom, e, id)) : m.event = some (.mailfrom e.arg) := by
  unfold Step.asked at h
  unfold Step.event
  split at h
  · rename_i hp
    rw [if_pos hp]
    split at h <;> try cases h
    rename_i h1
    rw [h1]
  · cases h
  · cases h

theorem asked_helo {m : Step} {e : Evt} {id : Str} (h : m.asked = some (.helo, e, id)) : ∃ i x, m.event = some (.helo i x) := by
  unfold Step.asked at h
  unfold Step.event
  split at h
  · rename_i hp
    rw [if_pos hp]
    split at h <;> try cases h
    rename_i h1
    exact ⟨_, _, by rw [h1]⟩
  · cases h
  · cases h

theorem Spec.Mailed.tls {l b t : List Step} {m : Step} {a : Str} (h : Mailed l b m t a) (hT : SteadyTls b t) :
    l.foldl tlsNoticed false = b.foldl tlsNoticed false := by
  obtain ⟨rfl, ⟨i, id, h2⟩, -, h4⟩ := h
  rw [List.foldl_append, List.foldl_cons]
  have hm : tlsNoticed (b.foldl tlsNoticed false) m = b.foldl tlsNoticed false := by
    unfold tlsNoticed
    rw [asked_mfrom h2]
  rw [hm]
  unfold SteadyTls at hT
  generalize b.foldl tlsNoticed false = x at hT ⊢
  induction t with
  | nil => rfl
  | cons q t ih =>
    have hq : tlsNoticed x q = x := by
      unfold tlsNoticed
      split
      · rename_i i y he
        exact absurd rfl (h4 q (by simp) _ _ _ (asked_of he)).1
      · rename_i d he
        exact hT q (by simp) d he
      · rfl
    rw [List.foldl_cons, hq]
    exact ih (fun q hq => h4 q (by simp [hq])) (fun q hq => hT q (by simp [hq]))

theorem Spec.Mailed.greeting {l b t : List Step} {m : Step} {a : Str} (h : Mailed l b m t a) :
    (heard l).isHelo = (heard b).isHelo ∧ (heard l).heloname = (heard b).heloname := by
  obtain ⟨rfl, ⟨i, id, h2⟩, -, h4⟩ := h
  unfold heard
  rw [List.foldl_append, List.foldl_cons]
  obtain ⟨k1, k2⟩ := hear_greeting (t := t) (fun q hq ph e id h => (h4 q hq ph e id h).1) (hear (b.foldl hear ⟨false, [], [], []⟩) m)
  rw [k1, k2]
  unfold hear
  rw [h2]
  exact ⟨rfl, rfl⟩

/-- The recipients were accepted in the transaction. -/
theorem Spec.Mailed.rcpts {b t : List Step} {m : Step} {a : Str} (h : Mailed (b ++ m :: t) b m t a) : ∀ y ∈ (envelope (b ++ m :: t)).rcpts,
    ∃ t1 q t2, t = t1 ++ q :: t2 ∧ q.event = some (.rcptto y) ∧ q.accepted = true := by
  obtain ⟨-, ⟨i, id, h2⟩, h3, h4⟩ := h
  have e0 : (envelope (b ++ [m])).rcpts = [] := by
    unfold envelope
    rw [List.foldl_append, List.foldl_cons, List.foldl_nil]
    unfold Envelope.step
    rw [asked_mfrom h2]
    simp only [h3, if_true, Envelope.take]
  induction t using List.reverseRecOn with
  | nil => intro y hy; rw [e0] at hy; cases hy
  | append_singleton t q ih =>
    intro y hy
    have ih := ih (fun q hq => h4 q (by simp [hq]))
    have he : envelope (b ++ m :: (t ++ [q])) = (envelope (b ++ m :: t)).step q := by
      rw [← List.cons_append, ← List.append_assoc]
      unfold envelope
      rw [List.foldl_append]
      rfl
    rw [he] at hy
    have old : y ∈ (envelope (b ++ m :: t)).rcpts → ∃ t1 q' t2, t ++ [q] = t1 ++ q' :: t2 ∧ q'.event = some (.rcptto y) ∧ q'.accepted = true := by
      intro hy
      obtain ⟨t1, q', t2, rfl, k⟩ := ih y hy
      exact ⟨t1, q', t2 ++ [q], by simp, k⟩
    unfold Envelope.step at hy
    split at hy
    · rename_i ev hev
      split at hy
      · rename_i hacc
        cases ev with
        | helo i x => exact absurd rfl (h4 q (by simp) _ _ _ (asked_of hev)).1
        | mailfrom x => exact absurd rfl (h4 q (by simp) _ _ _ (asked_of hev)).2
        | rcptto x =>
          rcases List.mem_append.1 hy with hy | hy
          · exact old hy
          · rw [List.mem_singleton.1 hy]
            exact ⟨t, q, [], by simp, hev, hacc⟩
        | _ => exact old hy
      · exact old hy
    · exact old hy

theorem closed_run {cf : Conf} {E : Env} {s s' : Sess} {l : List Step} (h : Run cf E s l s') (hc : s.pc = .closed) : s'.pc = .closed := by
  induction h with
  | nil => exact hc
  | snoc _ hok ih => exact closed_stays (st := ⟨_, _, _, _, _, _⟩) hok ih

/-! ## The claims -/

section
variable {o : BaseOpts} {cf : Conf} {E : Env} {l : List Step} {s : Sess}

/-- What was let pass, with rules that only refuse: the rulings of accepted commands. -/
theorem passed_says {rules : List Rule} (ho : OnlyRefuses rules) {k : List Step} {ph : Phase} {e : Evt} (h : Passed E rules k ph e)
    (hn : ph = .mfrom → e.arg ≠ []) : (∀ r ∈ rules, Decides r → ∀ x, ¬ Hits E.W (facts E k) ((heard k).said ph e) ph r x) ∧
      (ph = .helo ∨ ph = .mfrom ∨ ∀ a w, ¬ Waiting E rules k a w) := by
  obtain ⟨a, w, h1, h2⟩ := h
  cases h1 with
  | late _ _ h3 =>
    obtain ⟨_, _, _, _, _, -, -, -, h5, -⟩ := h3
    exact absurd h5 h2
  | null h3 h4 => exact absurd h4 (hn h3)
  | plain h3 h4 _ =>
    refine ⟨?_, h3⟩
    rcases says1_refuses ho h4 with ⟨-, h5⟩ | ⟨h5, -⟩
    · exact h5
    · exact absurd h5 h2

theorem phase_lt_of {p q : Phase} (h1 : p ≤ q) (h2 : p ≠ q) : p < q := by
  revert h1 h2
  cases p <;> cases q <;> decide

/-- MAIL FROM after an accepted greeting is refused only for a rule that needs the sender (or TLS). -/
theorem fresh_from {rules : List Rule} (ho : OnlyRefuses rules) (hp : ∀ r ∈ rules, FromParse r) {b t : List Step} {g : Step} {i : Bool} {x : Str}
    (hq : ∀ q ∈ t, ∀ ph e id, q.asked = some (ph, e, id) → ph ≠ .helo) {id : Str} (hg : g.asked = some (.helo, ⟨i, x⟩, id))
    (hpass : Passed E rules b .helo ⟨i, x⟩) {e : Evt} {a : Action} {w : Withs} (h : Ruling E rules (b ++ g :: t) .mfrom e a w) (hr : Refuses a) :
    RefusedFor E rules (b ++ g :: t) .mfrom e a := by
  have hsay : Says1 E rules (b ++ g :: t) .mfrom e a w := by
    cases h with
    | late _ h _ => exact absurd rfl h
    | null _ _ _ h => rcases hr with hr | hr <;> cases hr
    | plain _ h _ => exact h
  rcases says1_refuses ho hsay with ⟨rfl, -⟩ | ⟨-, r, k1, k2, k3, y, k4⟩
  · exact absurd hr noresult_not_refuses
  refine ⟨r, k1, k2, k3, ?_, y, k4⟩
  have hreq := (hp r k1).requires
  rw [← hreq]
  by_contra hne
  have hlt : r.requires < .mfrom := phase_lt_of k4.1.1 hne
  refine (passed_says ho hpass (by simp)).1 r k1 k2 y (hits_move ?_ (ho r k1 k2).2 (hp r k1).le ?_ ?_ ?_ k4)
  · refine ⟨rfl, rfl, rfl, fun _ => ?_, fun h => absurd (Nat.lt_of_le_of_lt h hlt) (by decide), fun h => absurd (Nat.lt_of_le_of_lt h hlt) (by decide)⟩
    have := hear_greeting hq (hear (b.foldl hear ⟨false, [], [], []⟩) g)
    show (heard _).isHelo = i ∧ (heard _).heloname = x
    unfold heard
    rw [List.foldl_append, List.foldl_cons, this.1, this.2]
    unfold hear
    rw [hg]
    exact ⟨rfl, rfl⟩
  · revert hlt; cases r.requires <;> decide
  · exact fun h => absurd h.1 (by decide)
  · exact fun h => absurd h.1 (by decide)

/-- RCPT TO is refused only for a rule about recipients, or because of a null sender. -/
theorem fresh_to {rules : List Rule} (ho : OnlyRefuses rules) (hp : ∀ r ∈ rules, FromParse r) {l b t : List Step} {m : Step} {x : Str} (hm : Mailed l b m t x)
    (hT : SteadyTls b t) {i : Bool} (hx : x ≠ []) (hpass : Passed E rules b .mfrom ⟨i, x⟩) {e : Evt} {a : Action} {w : Withs}
    (h : Ruling E rules l .rto e a w) (hr : Refuses a) : RefusedFor E rules l .rto e a := by
  have hsay : Says1 E rules l .rto e a w := by
    cases h with
    | late _ _ h => exact absurd (hm.inMail.waiting.1 h).1 hx
    | null h => cases h
    | plain _ h _ => exact h
  rcases says1_refuses ho hsay with ⟨rfl, -⟩ | ⟨-, r, k1, k2, k3, y, k4⟩
  · exact absurd hr noresult_not_refuses
  refine ⟨r, k1, k2, k3, ?_, y, k4⟩
  rw [← (hp r k1).requires]
  by_contra hne
  have hlt : r.requires < .rto := phase_lt_of k4.1.1 hne
  refine (passed_says ho hpass (fun _ => hx)).1 r k1 k2 y (hits_move ?_ (ho r k1 k2).2 (hp r k1).le ?_ ?_ ?_ k4)
  · exact ⟨rfl, rfl, rfl, fun _ => hm.greeting, fun _ => ⟨hm.tls hT, hm.inMail.from_⟩, fun h => absurd (Nat.lt_of_le_of_lt h hlt) (by decide)⟩
  · revert hlt; cases r.requires <;> decide
  · exact fun h => absurd h.1 (by decide)
  · exact fun h => absurd h.1 (by decide)

/-- DATA and messages are not refused. -/
theorem fresh_data {rules : List Rule} (ho : OnlyRefuses rules) (hp : ∀ r ∈ rules, FromParse r) {b t : List Step} {m : Step} {x : Str}
    (hm : Mailed (b ++ m :: t) b m t x) (hT : SteadyTls b t) (hne : (envelope (b ++ m :: t)).rcpts ≠ [])
    (hpass : ∀ t1 q t2 y, t = t1 ++ q :: t2 → q.event = some (.rcptto y) → q.accepted = true → Passed E rules (b ++ m :: t1) .rto ⟨false, y⟩)
    {ph : Phase} (hph : ph = .data ∨ ph = .message) {e : Evt} {a : Action} {w : Withs} (h : Ruling E rules (b ++ m :: t) ph e a w) : a = .noresult := by
  have same : ∀ t1 q t2, t = t1 ++ q :: t2 → Mailed (b ++ m :: t1) b m t1 x ∧ SteadyTls b t1 := by
    rintro t1 q t2 rfl
    obtain ⟨-, h2, h3, h4⟩ := hm
    exact ⟨⟨rfl, h2, h3, fun q hq => h4 q (by simp [hq])⟩, fun q hq => hT q (by simp [hq])⟩
  have n1 : ph ≠ .helo ∧ ph ≠ .mfrom ∧ ph > .rto := by rcases hph with rfl | rfl <;> exact ⟨by decide, by decide, by decide⟩
  obtain ⟨y0, hy0⟩ := List.exists_mem_of_ne_nil _ hne
  -- What is known after an accepted recipient.
  have key : ∀ y ∈ (envelope (b ++ m :: t)).rcpts, ∃ t1, Mailed (b ++ m :: t1) b m t1 x ∧ SteadyTls b t1 ∧ (∀ a w, ¬ Waiting E rules (b ++ m :: t1) a w) ∧
      ∀ r ∈ rules, Decides r → ∀ z, ¬ Hits E.W (facts E (b ++ m :: t1)) ((heard (b ++ m :: t1)).said .rto ⟨false, y⟩) .rto r z := by
    intro y hy
    obtain ⟨t1, q, t2, h1, h2, h3⟩ := hm.rcpts y hy
    obtain ⟨k1, k2⟩ := passed_says ho (hpass t1 q t2 y h1 h2 h3) (fun h => by cases h)
    obtain ⟨s1, s2⟩ := same t1 q t2 h1
    refine ⟨t1, s1, s2, ?_, k1⟩
    rcases k2 with k2 | k2 | k2
    · cases k2
    · cases k2
    · exact k2
  have hsay : Says1 E rules (b ++ m :: t) ph e a w := by
    cases h with
    | late _ _ h =>
      obtain ⟨t1, s1, -, hw, -⟩ := key y0 hy0
      exact absurd (s1.inMail.waiting.2 (hm.inMail.waiting.1 h)) (hw _ _)
    | null h => exact absurd h n1.2.1
    | plain _ h _ => exact h
  rcases says1_refuses ho hsay with ⟨rfl, -⟩ | ⟨-, r, k1, k2, k3, z, k4⟩
  · rfl
  exfalso
  have hsaid : (heard (b ++ m :: t)).isHelo = ((heard (b ++ m :: t)).said ph e).isHelo ∧
      (heard (b ++ m :: t)).heloname = ((heard (b ++ m :: t)).said ph e).heloname ∧
      (heard (b ++ m :: t)).from_ = ((heard (b ++ m :: t)).said ph e).from_ := by
    rcases hph with rfl | rfl <;> exact ⟨rfl, rfl, rfl⟩
  have hle : r.requires ≤ .rto := (hp r k1).requires ▸ needsC_le_rto _
  have up : ∀ {t1 : List Step}, Mailed (b ++ m :: t1) b m t1 x → SteadyTls b t1 → ∀ y, SameUpTo .rto (facts E (b ++ m :: t)) (facts E (b ++ m :: t1))
      { (heard (b ++ m :: t)).said ph e with rcptto := y } { heard (b ++ m :: t1) with rcptto := y } := by
    intro t1 s1 s2 y
    refine ⟨rfl, rfl, rfl, fun _ => ?_, fun _ => ⟨?_, ?_⟩, fun _ => rfl⟩
    · exact ⟨hsaid.1.symm.trans (hm.greeting.1.trans s1.greeting.1.symm), hsaid.2.1.symm.trans (hm.greeting.2.trans s1.greeting.2.symm)⟩
    · exact (hm.tls hT).trans (s1.tls s2).symm
    · exact hsaid.2.2.symm.trans (hm.inMail.from_.trans s1.inMail.from_.symm)
  by_cases hc : ph > .rto ∧ r.requires ≥ .rto
  · -- about recipients: it matched for the recipient
    have h3 := k4.2
    unfold RuleTo at h3
    rw [if_pos hc] at h3
    obtain ⟨y, hy, k⟩ := (rcptsTo_hit h3).1 z rfl
    obtain ⟨t1, s1, s2, -, hn⟩ := key y hy
    refine hn r k1 k2 z ⟨⟨hle, .inl (ho r k1 k2).2⟩, ?_⟩
    unfold RuleTo
    rw [if_neg (fun h => absurd h.1 (by decide))]
    exact clausesTo_upto (up s1 s2 y) (needsC_le_rto _) k
  · obtain ⟨t1, s1, s2, -, hn⟩ := key y0 hy0
    have hlt : r.requires < .rto := by
      have : ¬ r.requires ≥ .rto := fun h => hc ⟨n1.2.2, h⟩
      revert this; cases r.requires <;> decide
    have u := up s1 s2 y0
    have hs : SameUpTo r.requires (facts E (b ++ m :: t)) (facts E (b ++ m :: t1)) ((heard (b ++ m :: t)).said ph e)
        ((heard (b ++ m :: t1)).said .rto ⟨false, y0⟩) := ⟨rfl, rfl, rfl, fun _ => u.helo (by decide), fun _ => u.from_ (by decide),
      fun h => absurd (Nat.lt_of_le_of_lt h hlt) (by decide)⟩
    exact hn r k1 k2 z (hits_move hs (ho r k1 k2).2 (hp r k1).le hle hc (fun h => absurd h.1 (by decide)) k4)

end

theorem answered {E : Env} {rules : List Rule} (ho : OnlyRefuses rules) {l : List Step} {ph : Phase} {e : Evt} {a : Action} {w : Withs}
    (h : Ruling E rules l ph e a w) : Refuses a ∨ a = .noresult ∨ a = .accept := by
  cases h with
  | late _ _ h =>
    obtain ⟨_, _, _, _, _, -, -, -, h5, -⟩ := h
    exact .inl h5
  | null => exact .inr (.inr rfl)
  | plain _ h _ =>
    rcases says1_refuses ho h with ⟨h, -⟩ | ⟨h, -⟩
    · exact .inr (.inl h)
    · exact .inl h

/-- The answer when nothing refuses: nothing for a greeting (the library answers it), acceptance for everything else. -/
theorem answer_yes {out : List Out} {ph : Phase} {a : Action} {m id : Str} {rcpts : List Str} (h : sent out = answerTo ph a m id rcpts)
    (ha : a = .noresult ∨ a = .accept) : replies out = if ph = .helo then [] else [.accepted] := by
  rw [replies_answers, h]
  rcases ha with rfl | rfl <;> cases ph <;> simp only [answerTo] <;> (repeat' split) <;> simp_all [verdict]

/-- **C98.** With reject and stall rules only, none tied to a phase: once a recipient is accepted, DATA and messages of the transaction are
not refused by rules. -/
theorem C98_message {o : BaseOpts} {cf : Conf} (hb : Built o cf) {E : Env} (hs : E.W.Static) {l : List Step} {s : Sess} (h : Life cf E l s) :
    ∃ rules, Loaded cf E s.stall rules ∧ (OnlyRefuses rules → ∀ l1 st l2 ph e id b m t x, l = l1 ++ st :: l2 →
      st.asked = some (ph, e, id) → ph = .data ∨ ph = .message → Mailed l1 b m t x → SteadyTls b t → (envelope l1).rcpts ≠ [] →
      replies st.out = [.accepted]) := by
  obtain ⟨rules, hl, hx⟩ := C76_answers hb hs h
  refine ⟨rules, hl, ?_⟩
  intro ho l1 st l2 ph e id b m t x h1 h2 hph hm hT hne
  obtain rfl := hm.1
  obtain ⟨a, w, k1, -, k3⟩ := hx _ st l2 ph e id h1 h2
  have ha := fresh_data ho (hl.parsed hb) hm hT hne (by
    rintro t1 q t2 y rfl h3 h4
    obtain ⟨a, w, j1, -, j3⟩ := hx (b ++ m :: t1) q (t2 ++ st :: l2) _ _ _ (by rw [h1]; simp) (asked_of h3)
    exact ⟨a, w, j1, accepted_passed h4 j3⟩) hph k1
  rcases k3 with ⟨k3, -⟩ | ⟨-, ⟨x, k3⟩, -⟩
  · rw [answer_yes k3 (.inl ha), if_neg (by rcases hph with rfl | rfl <;> decide)]
  · rw [asked_of k3] at h2
    cases h2
    rcases hph with h | h <;> cases h

/-- C98: after an accepted MAIL FROM, a recipient is refused only for a rule that is about recipients; a null sender apart, the refusal of
which waits for the recipient. -/
theorem C98_recipient {o : BaseOpts} {cf : Conf} (hb : Built o cf) {E : Env} (hs : E.W.Static) {l : List Step} {s : Sess} (h : Life cf E l s) :
    ∃ rules, Loaded cf E s.stall rules ∧ (OnlyRefuses rules → ∀ l1 st l2 e id b m t x, l = l1 ++ st :: l2 →
      st.asked = some (.rto, e, id) → Mailed l1 b m t x → SteadyTls b t → x ≠ [] → replies st.out ≠ [.accepted] →
      ∃ a, RefusedFor E rules l1 .rto e a) := by
  obtain ⟨rules, hl, hx⟩ := C76_answers hb hs h
  refine ⟨rules, hl, ?_⟩
  intro ho l1 st l2 e id b m t x h1 h2 hm hT hne hr
  obtain ⟨a, w, k1, -, k3⟩ := hx _ st l2 _ e id h1 h2
  obtain ⟨i, mid, hma⟩ := hm.2.1
  refine ⟨a, fresh_to ho (hl.parsed hb) hm hT (i := i) hne ?_ k1 ?_⟩
  · obtain ⟨a, w, j1, -, j3⟩ := hx b m (t ++ st :: l2) _ _ _ (by rw [h1, hm.1]; simp) hma
    exact ⟨a, w, j1, accepted_passed hm.2.2.1 j3⟩
  · rcases k3 with ⟨k3, -⟩ | ⟨-, ⟨x, k3⟩, -⟩
    · rcases answered ho k1 with k | k
      · exact k
      · exact absurd (answer_yes k3 k) hr
    · rw [asked_of k3] at h2
      cases h2

/-- C98: after an accepted greeting, a sender is refused only for a rule that needs the sender or TLS (or after too many RSETs). -/
theorem C98_sender {o : BaseOpts} {cf : Conf} (hb : Built o cf) {E : Env} (hs : E.W.Static) {l : List Step} {s : Sess} (h : Life cf E l s) :
    ∃ rules, Loaded cf E s.stall rules ∧ (OnlyRefuses rules → ∀ l1 st l2 e id b, l = l1 ++ st :: l2 →
      st.asked = some (.mfrom, e, id) → Greeted l1 b → replies st.out ≠ [.accepted] →
      (∃ a, RefusedFor E rules l1 .mfrom e a) ∨ st.rsetDrop) := by
  obtain ⟨rules, hl, hx⟩ := C76_answers hb hs h
  refine ⟨rules, hl, ?_⟩
  rintro ho l1 st l2 e id b h1 h2 ⟨g, t, i, x, gid, rfl, hg, hacc, hq⟩ hr
  obtain ⟨a, w, k1, -, k3⟩ := hx _ st l2 _ e id h1 h2
  rcases k3 with ⟨k3, -⟩ | ⟨-, k3⟩
  · refine .inl ⟨a, fresh_from ho (hl.parsed hb) hq hg ?_ k1 ?_⟩
    · obtain ⟨a, w, j1, -, j3⟩ := hx b g (t ++ st :: l2) _ _ _ (by rw [h1]; simp) hg
      exact ⟨a, w, j1, accepted_passed hacc j3⟩
    · rcases answered ho k1 with k | k
      · exact k
      · exact absurd (answer_yes k3 k) hr
  · exact .inr k3

/-- C98: a greeting is refused only for a rule that needs it, or a stall rule about the client: these do nothing when the client connects. -/
theorem C98_greeting {o : BaseOpts} {cf : Conf} (hb : Built o cf) {E : Env} (hs : E.W.Static) {l : List Step} {s : Sess} (h : Life cf E l s) :
    ∃ rules, Loaded cf E s.stall rules ∧ (OnlyRefuses rules → ∀ l1 st l2 e id, l = l1 ++ st :: l2 →
      st.asked = some (.helo, e, id) → replies st.out ≠ [] → (∃ a, RefusedFor E rules l1 .helo e a) ∨
      ∃ r ∈ rules, r.result = .stall ∧ needsC r.clauses ≤ .connect ∧ ∃ w, Hits E.W (facts E l1) ((heard l1).said .helo e) .helo r w) := by
  obtain ⟨rules, hl, hx⟩ := C76_answers hb hs h
  obtain ⟨rules', hl', hc⟩ := C76_connect hb hs h
  obtain rfl := hl.unique hl'
  refine ⟨rules, hl, ?_⟩
  intro ho l1 st l2 e id h1 h2 hr
  obtain ⟨a, w, k1, -, k3⟩ := hx _ st l2 _ e id h1 h2
  have hk3 : sent st.out = answerTo .helo a (w.message.getD []) id (envelope l1).rcpts := by
    rcases k3 with ⟨k3, -⟩ | ⟨-, ⟨x, k3⟩, -⟩
    · exact k3
    · rw [asked_of k3] at h2
      cases h2
  have hra : Refuses a := by
    rcases answered ho k1 with k | k
    · exact k
    · exact absurd (answer_yes hk3 k) hr
  have hsay : Says1 E rules l1 .helo e a w := by
    cases k1 with
    | late h => exact absurd rfl h
    | null h => cases h
    | plain _ h _ => exact h
  obtain ⟨used, ⟨rfl, -, -⟩ | ⟨pre, r, post, y, hrules, -, j3, j4, j5, j6⟩, -⟩ := hsay
  · exact absurd hra noresult_not_refuses
  have hmem : r ∈ rules := by rw [hrules]; simp
  have hreq := (hl.parsed hb r hmem).requires
  by_cases hh : r.requires = .helo
  · exact .inl ⟨a, r, hmem, j3, j5.symm, hreq ▸ hh, y, j4⟩
  have hle : r.requires ≤ .connect := by
    have := j4.1.1
    revert hh this
    cases r.requires <;> decide
  rcases (ho r hmem j3).1 with hrej | hst
  · exfalso
    -- the client would have been dropped
    obtain ⟨sh, i, s0, sh0, o0, hstart, hrun⟩ := h
    obtain ⟨hr1, hok, -⟩ := hrun.split h1
    have hready : st.pre.pc = .ready := by
      obtain ⟨i, x, he⟩ := asked_helo h2
      unfold Step.event at he
      split at he
      · assumption
      · cases he
    obtain ⟨q, hq, hqc, -⟩ := (life_known ⟨sh, i, s0, sh0, o0, hstart, hr1⟩).dns (by rw [hready]; simp) (by rw [hready]; simp)
    obtain ⟨c1, c2, rfl⟩ := List.append_of_mem hq
    obtain ⟨used, a', f1, -, f3⟩ := hc c1 q (c2 ++ st :: l2) (by rw [h1]; simp) hqc
    have move : ∀ q' ∈ rules, Decides q' → q'.requires ≤ .connect → ∀ {ph ph' : Phase} {k k' : List Step} {m m' : Mail} {z}, ph ≤ .rto → ph' ≤ .rto →
        .connect ≤ ph' → Hits E.W (facts E k) m ph q' z → Hits E.W (facts E k') m' ph' q' z := by
      intro q' hq' hd hc' ph ph' k k' m m' z hp hp' hcp hh
      refine hits_move ?_ (ho q' hq' hd).2 (hl.parsed hb q' hq').le (Nat.le_trans hc' hcp) ?_ ?_ hh
      · exact ⟨rfl, rfl, rfl, fun h => absurd (Nat.le_trans h hc') (by decide), fun h => absurd (Nat.le_trans h hc') (by decide),
          fun h => absurd (Nat.le_trans h hc') (by decide)⟩
      · exact fun h => absurd (Nat.lt_of_lt_of_le h.1 hp) (by decide)
      · exact fun h => absurd (Nat.lt_of_lt_of_le h.1 hp') (by decide)
    have ha' : a' = .reject := by
      rcases f1 with ⟨-, -, f⟩ | ⟨pre', r', post', y', g1, -, g3, g4, g5, g6⟩
      · exact absurd (move r hmem j3 hle (by decide) (by decide) (by decide) j4) (f r hmem j3 y)
      · have hmem' : r' ∈ rules := by rw [g1]; simp
        have h4 : Hits E.W (facts E (c1 ++ q :: c2)) ((heard (c1 ++ q :: c2)).said .helo e) .helo r' y' :=
          move r' hmem' g3 g4.1.1 (by decide) (by decide) (by decide) g4
        have h5 : Hits E.W (facts E c1) (heard c1) .connect r y := move r hmem j3 hle (by decide) (by decide) (by decide) j4
        have e1 : FirstMatch E.W (facts E c1) (heard c1) .connect rules (pre' ++ [r']) a' := .inr ⟨pre', r', post', y', g1, rfl, g3, g4, g5, g6⟩
        have e2 : FirstMatch E.W (facts E c1) (heard c1) .connect rules (pre ++ [r]) a :=
          .inr ⟨pre, r, post, y, hrules, rfl, j3, h5, j5, fun q' hq' hd z hz => j6 q' hq' hd z
            (move q' (by rw [hrules]; simp [hq']) hd hz.1.1 (by decide) (by decide) (by decide) hz)⟩
        rw [(e1.unique e2).1, j5, hrej]
    obtain ⟨-, -, hr2⟩ := hr1.split rfl
    rw [if_pos ha'] at f3
    rw [closed_run hr2 f3] at hready
    cases hready
  · exact .inr ⟨r, hmem, hst, hreq ▸ hle, y, j4⟩

/-! ## Examples -/

/-- Rules that only refuse; a rule that accepts, in one phase; and a rule tied to a phase. -/
def onlyEnv : Env := { demoEnv with fs := fun _ => tbl (.notExist b!"no such file") [
  (b!"/only", .data b!"reject to bad@example.com\nreject from-has noat\nset-with all with message hi\nreject helo enemy.org\n"),
  (b!"/accept", .data b!"@helo accept helo liar.com\nstall dns exists\n"),
  (b!"/phase", .data b!"@data reject from evil@example.com\n")] }

/-- Refused is the greeting, sender or recipient that gives the reason; then everything is accepted up to the message. -/
example : seen (fun l _ _ => (l.drop 2).map fun st => replies st.out) (driveAll { demoConfT b!"/only" with savedir := [] } onlyEnv {} {} (events
    [.helo false b!"enemy.org", .helo false b!"me", .mailfrom b!"noat", .mailfrom b!"a@example.com", .rcptto b!"bad@example.com", .rcptto b!"u@example.com", .data, .gotdata b!"x"] ++
    List.replicate 1 ({} : Inp))) =
    .ok [[.rejected], [], [.rejected], [.accepted], [.rejected], [.accepted], [.accepted], [], [.accepted]] := by
  decide +kernel

/-- These are such rules. -/
example : (∃ rules, Loaded (demoConfT b!"/only") onlyEnv false rules ∧ OnlyRefuses rules ∧ rules.length = 4) := by
  refine ⟨[⟨[⟨.matchN .to b!"bad@example.com", {}⟩], .reject, .rto, .any⟩, ⟨[⟨.optN .fromHas oNoat, {}⟩], .reject, .mfrom, .any⟩,
    ⟨[⟨.all, { message := some b!"hi" }⟩], .noresult, .any, .any⟩, ⟨[⟨.matchN .helo b!"enemy.org", {}⟩], .reject, .helo, .any⟩],
    .inr (.inl ⟨rfl, ?_⟩), ?_, rfl⟩
  · decide +kernel
  · intro r hr hd
    simp only [List.mem_cons, List.not_mem_nil, or_false] at hr
    rcases hr with rfl | rfl | rfl | rfl
    · exact ⟨.inl rfl, rfl⟩
    · exact ⟨.inl rfl, rfl⟩
    · exact absurd rfl hd.1
    · exact ⟨.inl rfl, rfl⟩

/-- With a rule that accepts a greeting, the client is refused at MAIL FROM for what was known when it connected. -/
example : seen (fun l _ _ => (l.drop 2).map fun st => replies st.out) (driveAll (demoConfT b!"/accept") onlyEnv {} {} (events
    [.helo false b!"me", .helo false b!"liar.com", .mailfrom b!"a@example.com"])) =
    .ok [[.deferred], [], [.deferred]] := by
  decide +kernel

/-- With a rule tied to DATA, DATA is refused for the sender. -/
example : seen (fun l _ _ => (l.drop 2).map fun st => replies st.out) (driveAll (demoConfT b!"/phase") onlyEnv {} {} (events
    [.helo false b!"me", .mailfrom b!"evil@example.com", .rcptto b!"u@example.com", .data])) =
    .ok [[], [.accepted], [.accepted], [.rejected]] := by
  decide +kernel

end Sink
