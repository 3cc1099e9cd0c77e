import Verif.Props.Answers

/-!
# C77: rules about the connection match for all of it or not at all
-/

namespace Sink
open Spec Gram

/-- The same client. -/
def SameClient (tr tr' : TransR) : Prop := tr.rip = tr'.rip ∧ tr.rdns = tr'.rdns

theorem later_eq_any {a b : Phase} (h : later a b = .any) : a = .any ∧ b = .any := by
  have h1 : later a b ≤ .any := by rw [h]; exact Nat.le_refl _
  obtain ⟨h2, h3⟩ := later_le h1
  have key : ∀ p : Phase, p ≤ .any → p = .any := by intro p; cases p <;> decide
  exact ⟨key a h2, key b h3⟩

theorem dblName_conn {W : World} {tr tr' : TransR} (ht : SameClient tr tr') {m m' : Mail} {o : Opts}
    (h1 : o &&& oFrom = 0) (h2 : o &&& (oEhlo ||| oHelo) = 0) {n : Str} (h : DblName W tr m o n) : DblName W tr' m' o n := by
  cases h with
  | helo h => exact absurd h2 h
  | host h3 h4 => exact .host h3 (ht.2 ▸ h4)
  | from_ h => rw [h1] at h; exact absurd h (by decide)

mutual
theorem holds_conn {W : World} {tr tr' : TransR} (ht : SameClient tr tr') {m m' : Mail} : ∀ e : Expr, needs e = .any →
    (Holds W tr m e ↔ Holds W tr' m' e)
  | .andL es, h => by rw [Holds, Holds]; exact holdsAll_conn ht es (by rwa [needs] at h)
  | .notN e, h => by rw [Holds, Holds, holds_conn ht e (by rwa [needs] at h)]
  | .orN l r, h => by
    rw [needs] at h
    rw [Holds, Holds, holds_conn ht l (later_eq_any h).1, holds_conn ht r (later_eq_any h).2]
  | .all, _ => by rw [Holds, Holds]
  | .tls _, h => by simp [needs, opNeeds] at h
  | .dnsbl _, _ => by rw [Holds, Holds]; unfold DnsblHolds; rw [ht.1]
  | .matchN k a, h => by
    rw [Holds, Holds]
    unfold MatchHolds
    cases k with
    | host => simp only [subjects, ht.2]
    | ip => simp only [subjects, ht.1]
    | _ => simp [needs, opNeeds] at h
  | .source a, h => by simp [needs, opNeeds] at h
  | .dbl o d, h => by
    rw [Holds, Holds]
    simp only [needs, opNeeds] at h
    split at h
    · cases h
    · split at h
      · cases h
      · rename_i h1 h2
        have h1 := Decidable.not_not.1 h1
        have h2 := Decidable.not_not.1 h2
        exact ⟨fun ⟨n, k1, k2⟩ => ⟨n, dblName_conn ht h1 h2 k1, k2⟩,
          fun ⟨n, k1, k2⟩ => ⟨n, dblName_conn ⟨ht.1.symm, ht.2.symm⟩ h1 h2 k1, k2⟩⟩
  | .optN k o, h => by
    rw [Holds, Holds]
    cases k with
    | dns =>
      have : ∀ a, HasAttr W tr m .dns a ↔ HasAttr W tr' m' .dns a := fun a => by simp only [HasAttr]; cases a <;> simp only [DnsAttr, ht.2]
      simp only [this]
    | _ => simp [needs, opNeeds] at h
theorem holdsAll_conn {W : World} {tr tr' : TransR} (ht : SameClient tr tr') {m m' : Mail} : ∀ es : List Expr, needsL es = .any →
    (HoldsAll W tr m es ↔ HoldsAll W tr' m' es)
  | [], _ => by rw [HoldsAll, HoldsAll]
  | e :: es, h => by
    rw [needsL] at h
    rw [HoldsAll, HoldsAll, holds_conn ht e (later_eq_any h).1, holdsAll_conn ht es (later_eq_any h).2]
end

mutual
theorem misses_conn {W : World} {tr tr' : TransR} (ht : SameClient tr tr') {m m' : Mail} : ∀ e : Expr, needs e = .any →
    (Misses W tr m e ↔ Misses W tr' m' e)
  | .andL es, h => by rw [Misses, Misses]; exact missesAll_conn ht es (by rwa [needs] at h)
  | .notN e, h => by rw [Misses, Misses]; exact misses_conn ht e (by rwa [needs] at h)
  | .orN l r, h => by
    rw [needs] at h
    rw [Misses, Misses, misses_conn ht l (later_eq_any h).1, misses_conn ht r (later_eq_any h).2, holds_conn ht l (later_eq_any h).1]
  | .matchN _ _, _ => by rw [Misses, Misses]
  | .source _, _ => by rw [Misses, Misses]
  | .all, _ | .tls _, _ | .dnsbl _, _ | .dbl _ _, _ | .optN _ _, _ => by rw [Misses, Misses]
theorem missesAll_conn {W : World} {tr tr' : TransR} (ht : SameClient tr tr') {m m' : Mail} : ∀ es : List Expr, needsL es = .any →
    (MissesAll W tr m es ↔ MissesAll W tr' m' es)
  | [], _ => by rw [MissesAll, MissesAll]
  | e :: es, h => by
    rw [needsL] at h
    rw [MissesAll, MissesAll, misses_conn ht e (later_eq_any h).1, missesAll_conn ht es (later_eq_any h).2, holds_conn ht e (later_eq_any h).1]
end

theorem clausesTo_conn {W : World} {tr tr' : TransR} (ht : SameClient tr tr') {m m' : Mail} {cs : List RClause} {o : Outcome}
    (hn : needsC cs = .any) (h : ClausesTo W tr m cs o) : ClausesTo W tr' m' cs o := by
  induction h with
  | nil => exact .nil
  | miss h1 =>
    rw [needsC] at hn
    exact .miss ((misses_conn ht _ (later_eq_any hn).1).1 h1)
  | hit h1 h2 =>
    rw [needsC] at hn
    exact .hit ((misses_conn ht _ (later_eq_any hn).1).not.1 h1) ((holds_conn ht _ (later_eq_any hn).1).1 h2)
  | next h1 h2 _ ih =>
    rw [needsC] at hn
    exact .next ((misses_conn ht _ (later_eq_any hn).1).not.1 h1) ((holds_conn ht _ (later_eq_any hn).1).not.1 h2) (ih (later_eq_any hn).2)

/-- The rule needs nothing the client says and is not tied to a phase. -/
def Spec.AboutClient (r : Rule) : Prop := r.requires = .any ∧ r.deferto = .any

/-- The rule, read as a statement about the client alone, is true. -/
def Spec.MatchesClient (E : Env) (r : Rule) : Prop := ∃ w, ClausesTo E.W (facts E []) ⟨false, [], [], []⟩ r.clauses (.hit w)

theorem facts_client (E : Env) (l l' : List Step) : SameClient (facts E l) (facts E l') := ⟨rfl, rfl⟩

theorem hits_client {E : Env} {r : Rule} (hp : FromParse r) (hr : AboutClient r) {l : List Step} {m : Mail} {ph : Phase} {w : Withs} :
    Hits E.W (facts E l) m ph r w ↔ ClausesTo E.W (facts E []) ⟨false, [], [], []⟩ r.clauses (.hit w) := by
  have hn : needsC r.clauses = .any := hp.requires ▸ hr.1
  have h1 : ¬ (ph > .rto ∧ r.requires ≥ .rto) := fun h => by rw [hr.1] at h; exact absurd h.2 (by decide)
  unfold Hits RuleTo
  rw [if_neg h1]
  constructor
  · exact fun h => clausesTo_conn (facts_client E _ _) hn h.2
  · exact fun h => ⟨⟨by rw [hr.1]; exact Nat.zero_le _, .inl hr.2⟩, clausesTo_conn (facts_client E _ _) hn h⟩

/-- **C77.** A rule about the client either matches at every decision of the connection, always with the same clause, or at none. -/
theorem C77_constant {E : Env} {r : Rule} (hp : FromParse r) (hr : AboutClient r) {l l' : List Step} {m m' : Mail} {ph ph' : Phase} {w : Withs} :
    Hits E.W (facts E l) m ph r w ↔ Hits E.W (facts E l') m' ph' r w := by
  rw [hits_client hp hr, hits_client hp hr]

/-! ## Rules that can be left out -/

theorem lastGiven_drop {W : World} {tr : TransR} {m : Mail} {ph : Phase} {k : WKey} {v : Option Str} {pre post : List Rule} {r : Rule}
    (hr : ∀ w, ¬ Hits W tr m ph r w) : LastGiven W tr m ph k (pre ++ r :: post) v ↔ LastGiven W tr m ph k (pre ++ post) v := by
  constructor
  · rintro (⟨p, q, s, w, y, h1, h2, h3, h4, h5⟩ | ⟨h1, h2⟩)
    · rw [List.append_eq_append_iff] at h1
      rcases h1 with ⟨a, h6, h7⟩ | ⟨a, h6, h7⟩
      · cases a with
        | nil =>
          simp only [List.nil_append, List.cons.injEq] at h7
          rw [← h7.1] at h2
          exact absurd h2 (hr w)
        | cons x a =>
          simp only [List.cons_append, List.cons.injEq] at h7
          refine .inl ⟨pre ++ a, q, s, w, y, ?_, h2, h3, h4, h5⟩
          rw [h7.2, List.append_assoc]
      · cases a with
        | nil =>
          simp only [List.nil_append, List.cons.injEq] at h7
          rw [h7.1] at h2
          exact absurd h2 (hr w)
        | cons x a =>
          simp only [List.cons_append, List.cons.injEq] at h7
          refine .inl ⟨p, q, a ++ post, w, y, ?_, h2, h3, h4, fun z hz => h5 z ?_⟩
          · rw [h6, ← h7.1]; simp
          · rw [h7.2]; simp only [List.mem_append, List.mem_cons] at hz ⊢; tauto
    · exact .inr ⟨h1, fun q hq => h2 q (by simp only [List.mem_append, List.mem_cons] at hq ⊢; tauto)⟩
  · rintro (⟨p, q, s, w, y, h1, h2, h3, h4, h5⟩ | ⟨h1, h2⟩)
    · rw [List.append_eq_append_iff] at h1
      rcases h1 with ⟨a, h6, h7⟩ | ⟨a, h6, h7⟩
      · refine .inl ⟨pre ++ r :: a, q, s, w, y, ?_, h2, h3, h4, h5⟩
        rw [h7]; simp
      · cases a with
        | nil =>
          refine .inl ⟨pre ++ [r], q, s, w, y, ?_, h2, h3, h4, h5⟩
          simp only [List.nil_append] at h7
          rw [← h7]; simp
        | cons x a =>
          simp only [List.cons_append, List.cons.injEq] at h7
          refine .inl ⟨p, q, a ++ r :: post, w, y, ?_, h2, h3, h4, fun z hz w' hh => ?_⟩
          · rw [h6, ← h7.1]; simp
          · simp only [List.mem_append, List.mem_cons] at hz
            rcases hz with hz | rfl | hz
            · exact h5 z (by rw [h7.2]; simp [hz]) w' hh
            · exact absurd hh (hr w')
            · exact h5 z (by rw [h7.2]; simp [hz]) w' hh
    · refine .inr ⟨h1, fun q hq w' hh => ?_⟩
      simp only [List.mem_append, List.mem_cons] at hq
      rcases hq with hq | rfl | hq
      · exact h2 q (by simp [hq]) w' hh
      · exact absurd hh (hr w')
      · exact h2 q (by simp [hq]) w' hh

theorem firstMatch_drop {W : World} {tr : TransR} {m : Mail} {ph : Phase} {a : Action} {pre post : List Rule} {r : Rule}
    (hr : ∀ w, ¬ Hits W tr m ph r w) (P : List Rule → Prop) (hP : ∀ p s, P (p ++ r :: s) ↔ P (p ++ s)) :
    (∃ used, FirstMatch W tr m ph (pre ++ r :: post) used a ∧ P used) ↔ ∃ used, FirstMatch W tr m ph (pre ++ post) used a ∧ P used := by
  constructor
  · rintro ⟨used, h | ⟨p, q, s, w, h1, rfl, h3, h4, h5, h6⟩, hp⟩
    · obtain ⟨rfl, rfl, h3⟩ := h
      exact ⟨_, .inl ⟨rfl, rfl, fun q hq => h3 q (by simp only [List.mem_append, List.mem_cons] at hq ⊢; tauto)⟩, (hP _ _).1 hp⟩
    · rw [List.append_eq_append_iff] at h1
      rcases h1 with ⟨b, rfl, h7⟩ | ⟨b, rfl, h7⟩
      · cases b with
        | nil =>
          simp only [List.nil_append, List.cons.injEq] at h7
          rw [← h7.1] at h4
          exact absurd h4 (hr w)
        | cons x b =>
          simp only [List.cons_append, List.cons.injEq] at h7
          obtain ⟨rfl, rfl⟩ := h7
          refine ⟨pre ++ (b ++ [q]), .inr ⟨pre ++ b, q, s, w, by simp, by simp, h3, h4, h5, fun z hz => h6 z ?_⟩, (hP _ _).1 (by simpa using hp)⟩
          simp only [List.mem_append, List.mem_cons] at hz ⊢; tauto
      · cases b with
        | nil =>
          simp only [List.nil_append, List.cons.injEq] at h7
          rw [h7.1] at h4
          exact absurd h4 (hr w)
        | cons x b =>
          simp only [List.cons_append, List.cons.injEq] at h7
          obtain ⟨rfl, rfl⟩ := h7
          exact ⟨p ++ [q], .inr ⟨p, q, b ++ post, w, by simp, rfl, h3, h4, h5, h6⟩, hp⟩
  · rintro ⟨used, h | ⟨p, q, s, w, h1, rfl, h3, h4, h5, h6⟩, hp⟩
    · obtain ⟨rfl, rfl, h3⟩ := h
      refine ⟨_, .inl ⟨rfl, rfl, fun q hq hd w => ?_⟩, (hP _ _).2 hp⟩
      simp only [List.mem_append, List.mem_cons] at hq
      rcases hq with hq | rfl | hq
      · exact h3 q (by simp [hq]) hd w
      · exact hr w
      · exact h3 q (by simp [hq]) hd w
    · rw [List.append_eq_append_iff] at h1
      have key : ∀ b, p = pre ++ b → post = b ++ q :: s → ∃ used, FirstMatch W tr m ph (pre ++ r :: post) used a ∧ P used := by
        rintro b rfl rfl
        refine ⟨pre ++ r :: (b ++ [q]), .inr ⟨pre ++ r :: b, q, s, w, by simp, by simp, h3, h4, h5, fun z hz hd w' => ?_⟩,
          (hP _ _).2 (by simpa using hp)⟩
        simp only [List.mem_append, List.mem_cons] at hz
        rcases hz with hz | rfl | hz
        · exact h6 z (by simp [hz]) hd w'
        · exact hr w'
        · exact h6 z (by simp [hz]) hd w'
      rcases h1 with ⟨b, h7, h8⟩ | ⟨b, rfl, h8⟩
      · exact key b h7 h8
      · cases b with
        | nil => exact key [] (by simp) (by simpa using h8.symm)
        | cons x b =>
          simp only [List.cons_append, List.cons.injEq] at h8
          obtain ⟨rfl, rfl⟩ := h8
          exact ⟨p ++ [q], .inr ⟨p, q, b ++ r :: post, w, by simp, rfl, h3, h4, h5, h6⟩, hp⟩

theorem firstMatch_cut {W : World} {tr : TransR} {m : Mail} {ph : Phase} {a : Action} {pre post used : List Rule} {r : Rule} {w : Withs}
    (hr : Hits W tr m ph r w) (hd : Decides r) :
    FirstMatch W tr m ph (pre ++ r :: post) used a ↔ FirstMatch W tr m ph (pre ++ [r]) used a := by
  constructor
  · rintro (⟨-, -, h3⟩ | ⟨p, q, s, w', h1, rfl, h3, h4, h5, h6⟩)
    · exact absurd hr (h3 r (by simp) hd w)
    · rw [List.append_eq_append_iff] at h1
      rcases h1 with ⟨b, rfl, h7⟩ | ⟨b, rfl, h7⟩
      · cases b with
        | nil =>
          simp only [List.nil_append, List.cons.injEq] at h7
          obtain ⟨rfl, rfl⟩ := h7
          simp only [List.append_nil] at h6 ⊢
          exact .inr ⟨pre, r, [], w', rfl, rfl, h3, h4, h5, h6⟩
        | cons x b =>
          simp only [List.cons_append, List.cons.injEq] at h7
          obtain ⟨rfl, rfl⟩ := h7
          exact absurd hr (h6 r (by simp) hd w)
      · cases b with
        | nil =>
          simp only [List.nil_append, List.cons.injEq] at h7
          obtain ⟨rfl, rfl⟩ := h7
          exact .inr ⟨p, q, [], w', by simp, rfl, h3, h4, h5, h6⟩
        | cons x b =>
          simp only [List.cons_append, List.cons.injEq] at h7
          obtain ⟨rfl, rfl⟩ := h7
          exact .inr ⟨p, q, b ++ [r], w', by simp, rfl, h3, h4, h5, h6⟩
  · rintro (⟨-, -, h3⟩ | ⟨p, q, s, w', h1, rfl, h3, h4, h5, h6⟩)
    · exact absurd hr (h3 r (by simp) hd w)
    · refine .inr ⟨p, q, s ++ post, w', ?_, rfl, h3, h4, h5, h6⟩
      rw [← List.cons_append, ← List.append_assoc, ← h1]; simp

/-- The rules that count on a connection: those after a rule about the client that matches never do, and one that does not match never
does. -/
def Spec.Shrinks (E : Env) (pre : List Rule) (r : Rule) (post : List Rule) (rules : List Rule) : Prop :=
  MatchesClient E r ∧ rules = pre ++ [r] ∨ ¬ MatchesClient E r ∧ rules = pre ++ post

theorem says1_trim {E : Env} {pre post rules : List Rule} {r : Rule} (hp : FromParse r) (hr : AboutClient r) (hd : Decides r)
    (ht : Shrinks E pre r post rules) {l : List Step} {ph : Phase} {e : Evt} {a : Action} {w : Withs} :
    Says1 E (pre ++ r :: post) l ph e a w ↔ Says1 E rules l ph e a w := by
  unfold Says1
  rcases ht with ⟨⟨w0, hm⟩, rfl⟩ | ⟨hm, rfl⟩
  · simp only [firstMatch_cut ((hits_client hp hr).2 hm) hd]
  · have hn : ∀ w, ¬ Hits E.W (facts E l) ((heard l).said ph e) ph r w := fun w hw => hm ⟨w, (hits_client hp hr).1 hw⟩
    exact firstMatch_drop hn (fun used => ∀ k : WKey, LastGiven E.W (facts E l) ((heard l).said ph e) ph k used (k.of w))
      fun p s => forall_congr' fun k => lastGiven_drop hn

theorem waiting_trim {E : Env} {pre post rules : List Rule} {r : Rule} (hp : FromParse r) (hr : AboutClient r) (hd : Decides r)
    (ht : Shrinks E pre r post rules) {l : List Step} {a : Action} {w : Withs} :
    Waiting E (pre ++ r :: post) l a w ↔ Waiting E rules l a w := by
  unfold Waiting
  simp only [says1_trim hp hr hd ht]

/-- C77: the rulings of a connection are those of the trimmed rules. -/
theorem C77_trim {E : Env} {pre post rules : List Rule} {r : Rule} (hp : FromParse r) (hr : AboutClient r) (hd : Decides r)
    (ht : Shrinks E pre r post rules) {l : List Step} {ph : Phase} {e : Evt} {a : Action} {w : Withs} :
    Ruling E (pre ++ r :: post) l ph e a w ↔ Ruling E rules l ph e a w := by
  have hs := @says1_trim E pre post rules r hp hr hd ht
  have hw := @waiting_trim E pre post rules r hp hr hd ht
  constructor
  · rintro (⟨h1, h2, h3⟩ | ⟨h1, h2, h3, h4⟩ | ⟨h1, h2, h3⟩)
    · exact .late h1 h2 (hw.1 h3)
    · exact .null h1 h2 (hs.1 h3) h4
    · exact .plain (h1.imp id (Or.imp id fun h a w k => h a w (hw.2 k))) (hs.1 h2) h3
  · rintro (⟨h1, h2, h3⟩ | ⟨h1, h2, h3, h4⟩ | ⟨h1, h2, h3⟩)
    · exact .late h1 h2 (hw.2 h3)
    · exact .null h1 h2 (hs.2 h3) h4
    · exact .plain (h1.imp id (Or.imp id fun h a w k => h a w (hw.1 k))) (hs.2 h2) h3

/-- **C77.** If a rule about the client matches, the rules after it have no say in any answer of the connection; if it does not match, it
has none itself. -/
theorem C77_answers {o : BaseOpts} {cf : Conf} (hb : Built o cf) {E : Env} (hs : E.W.Static) {l : List Step} {s : Sess} (h : Life cf E l s) :
    ∃ rules, Loaded cf E s.stall rules ∧ ∀ pre r post trimmed, rules = pre ++ r :: post → AboutClient r → Decides r → Shrinks E pre r post trimmed →
      ∀ l1 st l2 ph e id, l = l1 ++ st :: l2 → st.asked = some (ph, e, id) →
      ∃ a w, Ruling E trimmed l1 ph e a w ∧
        (sent st.out = answerTo ph a (w.message.getD []) id (envelope l1).rcpts ∧ st.post.pc = .ready ∨
         (a = .noresult ∨ a = .accept) ∧ st.rsetDrop) := by
  obtain ⟨rules, hl, hx⟩ := C76_answers hb hs h
  refine ⟨rules, hl, ?_⟩
  rintro pre r post trimmed rfl hr hd ht l1 st l2 ph e id h1 h2
  obtain ⟨a, w, k1, -, k3⟩ := hx l1 st l2 ph e id h1 h2
  exact ⟨a, w, (C77_trim (hl.parsed hb r (by simp)) hr hd ht).1 k1, k3⟩

theorem firstMatch_one {W : World} {tr : TransR} {m : Mail} {ph : Phase} {a : Action} {r : Rule} {used : List Rule} {w : Withs}
    (hr : Hits W tr m ph r w) (hd : Decides r) (h : FirstMatch W tr m ph [r] used a) : a = r.result := by
  rcases h with ⟨-, -, h⟩ | ⟨p, q, s, w', h1, -, -, -, h5, -⟩
  · exact absurd hr (h r (by simp) hd w)
  · cases p with
    | nil => simp only [List.nil_append, List.cons.injEq] at h1; rw [h1.1]; exact h5
    | cons x p => simp at h1

theorem ruling_one {E : Env} {r : Rule} (hp : FromParse r) (hr : AboutClient r) (hm : MatchesClient E r) (hx : r.result = .accept) {l : List Step}
    {ph : Phase} {e : Evt} {a : Action} {w : Withs} (h : Ruling E [r] l ph e a w) : a = .accept := by
  obtain ⟨w0, hm⟩ := hm
  have hd : Decides r := by unfold Decides; rw [hx]; decide
  have key : ∀ {l ph e a w}, Says1 E [r] l ph e a w → a = .accept := by
    rintro l ph e a w ⟨used, h1, -⟩
    exact (firstMatch_one ((hits_client hp hr).2 hm) hd h1).trans hx
  cases h with
  | late _ _ h3 =>
    obtain ⟨_, _, _, _, _, -, -, h4, h5, -⟩ := h3
    exact key h4
  | null => rfl
  | plain _ h => exact key h

/-- C77: if the first rule is about the client, matches and accepts, everything the client says is accepted, except the sender after too many
RSETs. -/
theorem C77_welcome {o : BaseOpts} {cf : Conf} (hb : Built o cf) {E : Env} (hs : E.W.Static) {l : List Step} {s : Sess} (h : Life cf E l s) :
    ∃ rules, Loaded cf E s.stall rules ∧ ∀ r post, rules = r :: post → AboutClient r → MatchesClient E r → r.result = .accept →
      ∀ l1 st l2 ph e id, l = l1 ++ st :: l2 → st.asked = some (ph, e, id) →
      ∃ m, sent st.out = answerTo ph .accept m id (envelope l1).rcpts ∧ st.post.pc = .ready ∨ st.rsetDrop := by
  obtain ⟨rules, hl, hx⟩ := C77_answers hb hs h
  refine ⟨rules, hl, ?_⟩
  rintro r post rfl hr hm ha l1 st l2 ph e id h1 h2
  have hd : Decides r := by unfold Decides; rw [ha]; decide
  obtain ⟨a, w, k1, k2⟩ := hx [] r post [r] rfl hr hd (.inl ⟨hm, rfl⟩) l1 st l2 ph e id h1 h2
  cases ruling_one (hl.parsed hb r (by simp)) hr hm ha k1
  rcases k2 with k | ⟨-, k⟩
  · exact ⟨_, .inl k⟩
  · exact ⟨[], .inr k⟩

/-- C77: if it rejects, the client is dropped on connecting, before a greeting. -/
theorem C77_unwelcome {o : BaseOpts} {cf : Conf} (hb : Built o cf) {E : Env} (hs : E.W.Static) {l : List Step} {s : Sess} (h : Life cf E l s) :
    ∃ rules, Loaded cf E s.stall rules ∧ ∀ r post, rules = r :: post → AboutClient r → MatchesClient E r → r.result = .reject →
      ∀ st ∈ l, st.pre.pc = .connect → sent st.out = [] ∧ st.post.pc = .closed := by
  obtain ⟨rules, hl, hx⟩ := C76_connect hb hs h
  refine ⟨rules, hl, ?_⟩
  rintro r post rfl hr ⟨w0, hm⟩ ha st hst hpc
  have hd : Decides r := by unfold Decides; rw [ha]; decide
  obtain ⟨l1, l2, rfl⟩ := List.append_of_mem hst
  obtain ⟨used, a, k1, k2, k3⟩ := hx l1 st l2 rfl hpc
  have hh := (hits_client (l := l1) (m := heard l1) (ph := .connect) (hl.parsed hb r (by simp)) hr).2 hm
  cases (firstMatch_one hh hd ((firstMatch_cut (pre := []) hh hd).1 k1)).trans ha
  exact ⟨k2, k3⟩

/-- Without the standard rules (`-nostdrules`), and with a rule that trusts clients with reverse DNS. -/
def demoEnvT : Env := { demoEnv with fs := fun _ => tbl (.notExist b!"no such file") [
  (b!"/c", .data b!"accept dns exists\nreject from-has bad\nreject all\n"),
  (b!"/d", .data b!"reject from-has bad\naccept dns exists\nreject to-has bad,noat\n")] }

def demoConfT (f : Str) : Conf := { demoConf with base := [], rulefiles := [f] }

example (f : Str) : Built ⟨false, false, [], [], []⟩ (demoConfT f) :=
  ⟨⟨demoLib, fun _ _ => .notExist [], 5, by show _ = Except.ok []; decide +kernel⟩,
   ⟨demoLib, fun _ _ => .notExist [], 5, by show _ = Except.ok demoConf.stallall; decide +kernel⟩⟩

/-- The trusting rule. -/
def demoTrust : Rule := ⟨[⟨.optN .dns oExists, {}⟩], .accept, .any, .any⟩

/-- It is the first rule, about the client, and matches. -/
example : (∃ post, Loaded (demoConfT b!"/c") demoEnvT false (demoTrust :: post)) ∧ AboutClient demoTrust ∧ MatchesClient demoEnvT demoTrust := by
  refine ⟨⟨[⟨[⟨.optN .fromHas oBad, {}⟩], .reject, .mfrom, .any⟩, ⟨[⟨.all, {}⟩], .reject, .any, .any⟩], .inr (.inl ⟨rfl, ?_⟩)⟩, ⟨rfl, rfl⟩, {}, ?_⟩
  · decide +kernel
  · refine .hit (by rw [Misses]; exact id) ?_
    rw [Holds]
    exact ⟨.exists_, show (facts demoEnvT []).rdns.verified ≠ [] by decide +kernel, by decide +kernel⟩

/-- So the later rules have no say; with the first two exchanged, the one before the trusting rule does. -/
example : ([b!"/c", b!"/d"].map fun f => seen (fun l _ _ => (l.drop 2).map fun st => sent st.out) (driveAll (demoConfT f) demoEnvT {} {} (events
    [.helo false b!"me", .mailfrom b!"a@@", .mailfrom b!"a@example.com", .rcptto b!"u"]))) =
    [.ok [[], [.accept], [.accept], [.accept]], .ok [[], [.reject], [.accept], [.accept]]] := by
  decide +kernel

end Sink
