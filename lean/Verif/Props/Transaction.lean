import Verif.Spec.Standing
import Verif.Props.Adding

/-!
# C88: earlier mail of a connection, and other recipients, do not matter
-/

namespace Sink
open Spec Gram

/-- The same as far as it is known in a phase. -/
structure SameUpTo (ph : Phase) (tr tr' : TransR) (m m' : Mail) : Prop where
  rip : tr.rip = tr'.rip
  lip : tr.lip = tr'.lip
  rdns : tr.rdns = tr'.rdns
  helo : Phase.helo ≤ ph → m.isHelo = m'.isHelo ∧ m.heloname = m'.heloname
  from_ : Phase.mfrom ≤ ph → tr.tlson = tr'.tlson ∧ m.from_ = m'.from_
  rcptto : Phase.rto ≤ ph → m.rcptto = m'.rcptto

theorem SameUpTo.symm {ph : Phase} {tr tr' : TransR} {m m' : Mail} (h : SameUpTo ph tr tr' m m') : SameUpTo ph tr' tr m' m :=
  ⟨h.rip.symm, h.lip.symm, h.rdns.symm, fun k => ⟨(h.helo k).1.symm, (h.helo k).2.symm⟩, fun k => ⟨(h.from_ k).1.symm, (h.from_ k).2.symm⟩,
    fun k => (h.rcptto k).symm⟩

theorem dblName_upto {W : World} {ph : Phase} {tr tr' : TransR} {m m' : Mail} (hs : SameUpTo ph tr tr' m m') {o : Opts} {d : Str}
    (h : opNeeds (.dbl o d) ≤ ph) {n : Str} (hn : DblName W tr m o n) : DblName W tr' m' o n := by
  have k1 : o &&& oFrom ≠ 0 → Phase.mfrom ≤ ph := fun h1 => by simp only [opNeeds, if_pos h1] at h; exact h
  have k2 : o &&& (oEhlo ||| oHelo) ≠ 0 → Phase.helo ≤ ph := fun h1 => by
    simp only [opNeeds, if_pos h1] at h
    split at h
    · exact Nat.le_trans (by decide : Phase.helo ≤ Phase.mfrom) h
    · exact h
  cases hn with
  | helo h1 h2 =>
    have k := (hs.helo (k2 h1)).2
    rw [k] at h2 ⊢
    exact .helo h1 h2
  | host h1 h2 => exact .host h1 (hs.rdns ▸ h2)
  | from_ h1 h2 h3 =>
    have k : o &&& oFrom ≠ 0 := by rw [h1]; decide
    exact .from_ h1 ((hs.from_ (k1 k)).2 ▸ h2) h3

mutual
theorem holds_upto {W : World} {ph : Phase} {tr tr' : TransR} {m m' : Mail} (hs : SameUpTo ph tr tr' m m') : ∀ e : Expr, needs e ≤ ph →
    (Holds W tr m e ↔ Holds W tr' m' e)
  | .andL es, h => by rw [Holds, Holds]; exact holdsAll_upto hs es (by rwa [needs] at h)
  | .notN e, h => by rw [Holds, Holds, holds_upto hs e (by rwa [needs] at h)]
  | .orN l r, h => by
    rw [needs] at h
    rw [Holds, Holds, holds_upto hs l (later_le h).1, holds_upto hs r (later_le h).2]
  | .all, _ => by rw [Holds, Holds]
  | .tls _, h => by rw [Holds, Holds, (hs.from_ h).1]
  | .dnsbl _, _ => by rw [Holds, Holds]; unfold DnsblHolds; rw [hs.rip]
  | .matchN k a, h => by
    rw [Holds, Holds]
    unfold MatchHolds
    rw [needs] at h
    cases k with
    | host => simp only [subjects, hs.rdns]
    | ip => simp only [subjects, hs.rip]
    | helo => simp only [subjects, (hs.helo h).2]
    | from_ => simp only [subjects, (hs.from_ h).2]
    | sourceFrom => simp only [subjects, (hs.from_ h).2]
    | «to» => simp only [subjects, hs.rcptto h]
  | .source a, h => by
    rw [needs] at h
    rw [Holds, Holds]
    unfold MatchHolds
    simp only [subjects, hs.rdns, (hs.from_ h).2, (hs.helo (Nat.le_trans (by decide : Phase.helo ≤ Phase.mfrom) h)).2]
  | .dbl o d, h => by
    rw [needs] at h
    rw [Holds, Holds]
    exact ⟨fun ⟨n, k1, k2⟩ => ⟨n, dblName_upto hs h k1, k2⟩, fun ⟨n, k1, k2⟩ => ⟨n, dblName_upto hs.symm h k1, k2⟩⟩
  | .optN k o, h => by
    rw [needs] at h
    rw [Holds, Holds]
    cases k with
    | dns =>
      have : ∀ a, HasAttr W tr m .dns a ↔ HasAttr W tr' m' .dns a := fun a => by simp only [HasAttr]; cases a <;> simp only [DnsAttr, hs.rdns]
      simp only [this]
    | heloHas =>
      have : ∀ a, HasAttr W tr m .heloHas a ↔ HasAttr W tr' m' .heloHas a := fun a => by
        simp only [HasAttr]; cases a <;> simp only [HeloAttr, (hs.helo h).1, (hs.helo h).2, hs.rip, hs.lip]
      simp only [this]
    | fromHas => simp only [HasAttr, (hs.from_ h).2]
    | toHas => simp only [HasAttr, hs.rcptto h]
theorem holdsAll_upto {W : World} {ph : Phase} {tr tr' : TransR} {m m' : Mail} (hs : SameUpTo ph tr tr' m m') : ∀ es : List Expr,
    needsL es ≤ ph → (HoldsAll W tr m es ↔ HoldsAll W tr' m' es)
  | [], _ => by rw [HoldsAll, HoldsAll]
  | e :: es, h => by
    rw [needsL] at h
    rw [HoldsAll, HoldsAll, holds_upto hs e (later_le h).1, holdsAll_upto hs es (later_le h).2]
end

mutual
theorem misses_upto {W : World} {ph : Phase} {tr tr' : TransR} {m m' : Mail} (hs : SameUpTo ph tr tr' m m') : ∀ e : Expr, needs e ≤ ph →
    (Misses W tr m e ↔ Misses W tr' m' e)
  | .andL es, h => by rw [Misses, Misses]; exact missesAll_upto hs es (by rwa [needs] at h)
  | .notN e, h => by rw [Misses, Misses]; exact misses_upto hs e (by rwa [needs] at h)
  | .orN l r, h => by
    rw [needs] at h
    rw [Misses, Misses, misses_upto hs l (later_le h).1, misses_upto hs r (later_le h).2, holds_upto hs l (later_le h).1]
  | .matchN _ _, _ => by rw [Misses, Misses]
  | .source _, _ => by rw [Misses, Misses]
  | .all, _ | .tls _, _ | .dnsbl _, _ | .dbl _ _, _ | .optN _ _, _ => by rw [Misses, Misses]
theorem missesAll_upto {W : World} {ph : Phase} {tr tr' : TransR} {m m' : Mail} (hs : SameUpTo ph tr tr' m m') : ∀ es : List Expr,
    needsL es ≤ ph → (MissesAll W tr m es ↔ MissesAll W tr' m' es)
  | [], _ => by rw [MissesAll, MissesAll]
  | e :: es, h => by
    rw [needsL] at h
    rw [MissesAll, MissesAll, misses_upto hs e (later_le h).1, missesAll_upto hs es (later_le h).2, holds_upto hs e (later_le h).1]
end

theorem clausesTo_upto {W : World} {ph : Phase} {tr tr' : TransR} {m m' : Mail} (hs : SameUpTo ph tr tr' m m') {cs : List RClause} {o : Outcome}
    (hn : needsC cs ≤ ph) (h : ClausesTo W tr m cs o) : ClausesTo W tr' m' cs o := by
  induction h with
  | nil => exact .nil
  | miss h1 =>
    rw [needsC] at hn
    exact .miss ((misses_upto hs _ (later_le hn).1).1 h1)
  | hit h1 h2 =>
    rw [needsC] at hn
    exact .hit ((misses_upto hs _ (later_le hn).1).not.1 h1) ((holds_upto hs _ (later_le hn).1).1 h2)
  | next h1 h2 _ ih =>
    rw [needsC] at hn
    exact .next ((misses_upto hs _ (later_le hn).1).not.1 h1) ((holds_upto hs _ (later_le hn).1).not.1 h2) (ih (later_le hn).2)

/-- Nothing is needed that is not known by RCPT TO. -/
theorem needs_rto (e : Expr) : opNeeds e ≤ .rto := by
  unfold opNeeds
  split <;> first | decide | skip
  split
  · decide
  · split <;> decide

mutual
theorem needs_le_rto : ∀ e : Expr, needs e ≤ .rto
  | .andL es => by rw [needs]; exact needsL_le_rto es
  | .notN e => by rw [needs]; exact needs_le_rto e
  | .orN l r => by
    rw [needs]
    unfold later
    split
    · exact needs_le_rto r
    · exact needs_le_rto l
  | .all | .tls _ | .dnsbl _ | .matchN _ _ | .source _ | .dbl _ _ | .optN _ _ => by rw [needs]; exact needs_rto _
theorem needsL_le_rto : ∀ es : List Expr, needsL es ≤ .rto
  | [] => by rw [needsL]; decide
  | e :: es => by
    rw [needsL]
    unfold later
    split
    · exact needsL_le_rto es
    · exact needs_le_rto e
end

theorem needsC_le_rto : ∀ cs : List RClause, needsC cs ≤ .rto
  | [] => by rw [needsC]; decide
  | c :: cs => by
    rw [needsC]
    unfold later
    split
    · exact needsC_le_rto cs
    · exact needs_le_rto c.expr

theorem rcptsTo_upto {W : World} {tr tr' : TransR} {m m' : Mail} (hs : ∀ x, SameUpTo .rto tr tr' { m with rcptto := x } { m' with rcptto := x })
    {r : Rule} {as : List Str} {o : Outcome} (h : RcptsTo W tr m r as o) : RcptsTo W tr' m' r as o := by
  induction h with
  | nil => exact .nil
  | stop h1 h2 => exact .stop (clausesTo_upto (hs _) (needsC_le_rto _) h1) h2
  | next h1 _ ih => exact .next (clausesTo_upto (hs _) (needsC_le_rto _) h1) ih

/-- A rule takes no notice of what is not known in a phase. -/
theorem hits_upto {W : World} {ph : Phase} {tr tr' : TransR} {m m' : Mail} (hs : SameUpTo ph tr tr' m m')
    (hr : ph > .rto → tr.rcptto = tr'.rcptto) {r : Rule} (hn : needsC r.clauses ≤ r.requires) {w : Withs}
    (h : Hits W tr m ph r w) : Hits W tr' m' ph r w := by
  refine ⟨h.1, ?_⟩
  have h2 := h.2
  unfold RuleTo at h2 ⊢
  split
  · rename_i hc
    rw [if_pos hc] at h2
    have hp : Phase.rto ≤ ph := Nat.le_of_lt hc.1
    have l1 : Phase.helo ≤ ph := Nat.le_trans (by decide : Phase.helo ≤ Phase.rto) hp
    have l2 : Phase.mfrom ≤ ph := Nat.le_trans (by decide : Phase.mfrom ≤ Phase.rto) hp
    rw [← hr hc.1]
    exact rcptsTo_upto (fun x => ⟨hs.rip, hs.lip, hs.rdns, fun _ => hs.helo l1, fun _ => hs.from_ l2, fun _ => rfl⟩) h2
  · rename_i hc
    rw [if_neg hc] at h2
    exact clausesTo_upto hs (Nat.le_trans hn h.1.1) h2

/-! ## Rulings -/

theorem goes_imp {H H' : Rule → Withs → Prop} {rs : List Rule} (hh : ∀ r ∈ rs, ∀ x, H r x ↔ H' r x) {w w' : Withs} {a : Action}
    (h : Goes H rs w a w') : Goes H' rs w a w' := by
  induction h with
  | nil => exact .nil
  | @skip r rs w a w' hn _ ih =>
    exact .skip (fun x hx => hn x ((hh _ (by simp) x).2 hx)) (ih fun q hq => hh q (by simp [hq]))
  | set hx hd _ ih => exact .set ((hh _ (by simp) _).1 hx) hd (ih fun q hq => hh q (by simp [hq]))
  | stop hx hd => exact .stop ((hh _ (by simp) _).1 hx) hd

theorem says1_upto {E : Env} {rules : List Rule} (hp : ∀ r ∈ rules, FromParse r) {l l' : List Step} {ph : Phase} {e e' : Evt}
    (hs : SameUpTo ph (facts E l) (facts E l') ((heard l).said ph e) ((heard l').said ph e'))
    (hr : ph > .rto → (envelope l).rcpts = (envelope l').rcpts) {a : Action} {w : Withs} (h : Says1 E rules l ph e a w) :
    Says1 E rules l' ph e' a w :=
  says1_goes.2 (goes_imp (fun r hq _ => ⟨hits_upto hs hr (hp r hq).le, hits_upto hs.symm (fun k => (hr k).symm) (hp r hq).le⟩) (says1_goes.1 h))

/-- A step that is no greeting and no MAIL FROM leaves them alone. -/
theorem hear_quiet {st : Step} (hq : ∀ ph e id, st.asked = some (ph, e, id) → ph ≠ .helo ∧ ph ≠ .mfrom) (m : Mail) :
    (hear m st).isHelo = m.isHelo ∧ (hear m st).heloname = m.heloname ∧ (hear m st).from_ = m.from_ := by
  unfold hear
  split
  · rename_i ph e id h
    obtain ⟨h1, h2⟩ := hq _ _ _ h
    cases ph <;> simp_all [Mail.said]
  · exact ⟨rfl, rfl, rfl⟩

theorem hear_quiets {t : List Step} (hq : ∀ q ∈ t, ∀ ph e id, q.asked = some (ph, e, id) → ph ≠ .helo ∧ ph ≠ .mfrom) : ∀ m : Mail,
    (t.foldl hear m).isHelo = m.isHelo ∧ (t.foldl hear m).heloname = m.heloname ∧ (t.foldl hear m).from_ = m.from_ := by
  induction t with
  | nil => exact fun m => ⟨rfl, rfl, rfl⟩
  | cons st t ih =>
    intro m
    obtain ⟨h1, h2, h3⟩ := ih (fun q h => hq q (by simp [h])) (hear m st)
    obtain ⟨k1, k2, k3⟩ := hear_quiet (hq st (by simp)) m
    exact ⟨h1.trans k1, h2.trans k2, h3.trans k3⟩

theorem Spec.InMail.from_ {l b : List Step} {a : Str} (h : InMail l b a) : (heard l).from_ = a := by
  obtain ⟨st, t, i, id, rfl, h2, h3⟩ := h
  unfold heard
  rw [List.foldl_append, List.foldl_cons, (hear_quiets h3 _).2.2, hear, h2]
  rfl

theorem Spec.InMail.waiting {E : Env} {rules : List Rule} {l b : List Step} {a : Str} (h : InMail l b a) {x : Action} {w : Withs} :
    Waiting E rules l x w ↔ a = [] ∧ Refuses x ∧ ∃ i, Says1 E rules b .mfrom ⟨i, []⟩ x w := by
  obtain ⟨st, t, i, id, rfl, h2, h3⟩ := h
  constructor
  · intro hw
    have hw : Waiting E rules (b ++ [st] ++ t) x w := by simpa using hw
    have key : ∀ t : List Step, (∀ q ∈ t, ∀ ph e id, q.asked = some (ph, e, id) → ph ≠ .helo ∧ ph ≠ .mfrom) →
        Waiting E rules (b ++ [st] ++ t) x w → Waiting E rules (b ++ [st]) x w := by
      intro t
      induction t using List.reverseRecOn with
      | nil => intro _ h; simpa using h
      | append_singleton t q ih =>
        intro hq h
        rw [← List.append_assoc] at h
        exact ih (fun q h => hq q (by simp [h])) ((Waiting.more_iff (hq q (by simp))).1 h)
    obtain ⟨-, k2, k3, k4⟩ := (key t h3 hw).last h2 (.inr rfl)
    have k2 : a = [] := k2
    subst k2
    exact ⟨rfl, k4, i, k3⟩
  · rintro ⟨rfl, k1, i', k2⟩
    refine ⟨b, st, t, i, id, rfl, h2, ?_, k1, h3⟩
    exact k2

theorem sameUpTo_said {E : Env} {l l' : List Step} {ph : Phase} {e e' : Evt} (hs : SameStanding l l' ph) (he : SameCommand ph e e') :
    SameUpTo ph (facts E l) (facts E l') ((heard l).said ph e) ((heard l').said ph e') := by
  have hg : greeting l = greeting l' → (heard l).isHelo = (heard l').isHelo ∧ (heard l).heloname = (heard l').heloname ∧
      (facts E l).tlson = (facts E l').tlson := by
    intro h
    simp only [greeting, Prod.mk.injEq] at h
    exact h
  cases ph with
  | any => exact hs.elim
  | connect => exact hs.elim
  | helo =>
    have he : e = e' := he
    subst he
    exact ⟨rfl, rfl, rfl, fun _ => ⟨rfl, rfl⟩, fun h => absurd h (by decide), fun h => absurd h (by decide)⟩
  | mfrom =>
    obtain ⟨h1, h2, h3⟩ := hg hs
    exact ⟨rfl, rfl, rfl, fun _ => ⟨h1, h2⟩, fun _ => ⟨h3, he⟩, fun h => absurd h (by decide)⟩
  | rto =>
    obtain ⟨a, b, b', k1, k2, -, k4⟩ := hs
    obtain ⟨h1, h2, h3⟩ := hg k4
    exact ⟨rfl, rfl, rfl, fun _ => ⟨h1, h2⟩, fun _ => ⟨h3, k1.from_.trans k2.from_.symm⟩, fun _ => he⟩
  | data =>
    obtain ⟨⟨a, b, b', k1, k2, -, k4⟩, -⟩ := hs
    obtain ⟨h1, h2, h3⟩ := hg k4
    exact ⟨rfl, rfl, rfl, fun _ => ⟨h1, h2⟩, fun _ => ⟨h3, k1.from_.trans k2.from_.symm⟩, fun _ => rfl⟩
  | message =>
    obtain ⟨⟨a, b, b', k1, k2, -, k4⟩, -⟩ := hs
    obtain ⟨h1, h2, h3⟩ := hg k4
    exact ⟨rfl, rfl, rfl, fun _ => ⟨h1, h2⟩, fun _ => ⟨h3, k1.from_.trans k2.from_.symm⟩, fun _ => rfl⟩

theorem Spec.SameMail.waiting {E : Env} {rules : List Rule} (hp : ∀ r ∈ rules, FromParse r) {l l' : List Step} (h : SameMail l l') {a : Action}
    {w : Withs} (hw : Waiting E rules l a w) : Waiting E rules l' a w := by
  obtain ⟨x, b, b', k1, k2, k3, -⟩ := h
  obtain ⟨rfl, h2, i, h3⟩ := k1.waiting.1 hw
  exact k2.waiting.2 ⟨rfl, h2, i, says1_upto hp (sameUpTo_said (ph := .mfrom) k3 rfl) (fun h => absurd h (by decide)) h3⟩

theorem Spec.SameMail.symm {l l' : List Step} (h : SameMail l l') : SameMail l' l := by
  obtain ⟨a, b, b', k1, k2, k3, k4⟩ := h
  exact ⟨a, b', b, k2, k1, k3.symm, k4.symm⟩

theorem Spec.SameStanding.mail {l l' : List Step} {ph : Phase} (h : SameStanding l l' ph) (h1 : ph ≠ .helo) (h2 : ph ≠ .mfrom) : SameMail l l' := by
  cases ph with
  | any => exact h.elim
  | connect => exact h.elim
  | helo => exact absurd rfl h1
  | mfrom => exact absurd rfl h2
  | rto => exact h
  | data => exact h.1
  | message => exact h.1

theorem Spec.SameStanding.rcpts {l l' : List Step} {ph : Phase} (h : SameStanding l l' ph) (hp : ph > .rto) :
    (envelope l).rcpts = (envelope l').rcpts := by
  cases ph with
  | data => exact h.2
  | message => exact h.2
  | _ => exact absurd hp (by decide)

/-- **C88.** The ruling on a command depends only on the greeting, TLS, the sender of the transaction, for DATA and messages on the
recipients accepted in it, and on the command: not on earlier transactions, refused commands, other recipients or the text of messages. -/
theorem C88_ruling {E : Env} {rules : List Rule} (hp : ∀ r ∈ rules, FromParse r) {l l' : List Step} {ph : Phase} (hs : SameStanding l l' ph)
    {e e' : Evt} (he : SameCommand ph e e') {a : Action} {w : Withs} (h : Ruling E rules l ph e a w) : Ruling E rules l' ph e' a w := by
  have hsay : ∀ {a w}, Says1 E rules l ph e a w → Says1 E rules l' ph e' a w := fun h => says1_upto hp (sameUpTo_said hs he) hs.rcpts h
  have harg : ph = .mfrom → e.arg = e'.arg := fun h => by subst h; exact he
  cases h with
  | late h1 h2 h3 => exact .late h1 h2 ((hs.mail h1 h2).waiting hp h3)
  | null h1 h2 h3 h4 => exact .null h1 (harg h1 ▸ h2) (hsay h3) h4
  | plain h1 h2 h3 =>
    refine .plain ?_ (hsay h2) (fun k => h3 ⟨k.1, (harg k.1).symm ▸ k.2.1, k.2.2⟩)
    rcases h1 with h1 | h1 | h1
    · exact .inl h1
    · exact .inr (.inl h1)
    · by_cases k1 : ph = .helo
      · exact .inl k1
      · by_cases k2 : ph = .mfrom
        · exact .inr (.inl k2)
        · exact .inr (.inr fun a w hw => h1 a w ((hs.mail k1 k2).symm.waiting hp hw))

theorem Spec.Loaded.unique {cf : Conf} {E : Env} {b : Bool} {rs rs' : List Rule} (h : Loaded cf E b rs) (h' : Loaded cf E b rs') : rs = rs' := by
  rcases h with ⟨h1, h2⟩ | ⟨h1, h2⟩ | ⟨h1, ⟨f, m, h2⟩, h3⟩ <;> rcases h' with ⟨k1, k2⟩ | ⟨k1, k2⟩ | ⟨k1, ⟨f', m', k2⟩, k3⟩ <;> subst h1 <;>
    first | cases k1 | skip
  · rw [h2, k2]
  · rw [h2] at k2; cases k2; rfl
  · rw [h2] at k2; cases k2
  · rw [h2] at k2; cases k2
  · rw [h3, k3]

theorem answerTo_rcpts {ph : Phase} {a : Action} {m id : Str} {rs rs' : List Str} (h : ph > .rto → rs = rs') :
    answerTo ph a m id rs = answerTo ph a m id rs' := by
  cases ph with
  | data => rw [h (by decide)]
  | message => rw [h (by decide)]
  | _ => cases a <;> rfl

/-- **C88.** So are the answers: two commands of the same kind and argument (and ID, for messages), on one connection or on two of the same
client, are answered in the same words if they stand in the same place in their transactions, unless one ends the connection for its RSETs. -/
theorem C88_answers {o : BaseOpts} {cf : Conf} (hb : Built o cf) {E : Env} (hs : E.W.Static) {l l' : List Step} {s s' : Sess}
    (h : Life cf E l s) (h' : Life cf E l' s') (hst : s.stall = s'.stall) {l1 l2 l1' l2' : List Step} {st st' : Step}
    (hl : l = l1 ++ st :: l2) (hl' : l' = l1' ++ st' :: l2') {ph : Phase} {e e' : Evt} {id : Str}
    (ha : st.asked = some (ph, e, id)) (ha' : st'.asked = some (ph, e', id)) (hss : SameStanding l1 l1' ph) (he : SameCommand ph e e') :
    sent st.out = sent st'.out ∧ st.post.c.withprops = st'.post.c.withprops ∨ st.rsetDrop ∨ st'.rsetDrop := by
  obtain ⟨rules, hL, hall⟩ := C76_answers hb hs h
  obtain ⟨rules', hL', hall'⟩ := C76_answers hb hs h'
  cases hL.unique (hst ▸ hL')
  obtain ⟨a, w, h1, h2, h3⟩ := hall l1 st l2 ph e id hl ha
  obtain ⟨a', w', k1, k2, k3⟩ := hall' l1' st' l2' ph e' id hl' ha'
  obtain ⟨rfl, rfl⟩ := (C88_ruling (hL.parsed hb) hss he h1).unique k1
  rcases h3 with ⟨h3, -⟩ | ⟨-, h3⟩
  · rcases k3 with ⟨k3, -⟩ | ⟨-, k3⟩
    · exact .inl ⟨by rw [h3, k3, answerTo_rcpts hss.rcpts], by rw [h2, k2]⟩
    · exact .inr (.inr k3)
  · exact .inr (.inl h3)

/-! ## The order of recipients -/

theorem goes_action {H H' : Rule → Withs → Prop} {rs : List Rule} (hh : ∀ r ∈ rs, (∃ x, H r x) ↔ ∃ x, H' r x) {w w' : Withs} {a : Action}
    (h : Goes H rs w a w') : ∀ v, ∃ v', Goes H' rs v a v' := by
  induction h with
  | nil => exact fun v => ⟨_, .nil⟩
  | @skip r rs w a w' hn _ ih =>
    intro v
    obtain ⟨v', h⟩ := ih (fun q hq => hh q (by simp [hq])) v
    refine ⟨v', .skip (fun x hx => ?_) h⟩
    obtain ⟨y, hy⟩ := (hh r (by simp)).2 ⟨x, hx⟩
    exact hn y hy
  | @set r rs w x a w' hx hd _ ih =>
    intro v
    obtain ⟨y, hy⟩ := (hh r (by simp)).1 ⟨x, hx⟩
    obtain ⟨v', h⟩ := ih (fun q hq => hh q (by simp [hq])) (y.over v)
    exact ⟨v', .set hy hd h⟩
  | @stop r rs w x hx hd =>
    intro v
    obtain ⟨y, hy⟩ := (hh r (by simp)).1 ⟨x, hx⟩
    exact ⟨_, .stop hy hd⟩

/-- The clauses are tried one after another and come to something. -/
theorem clausesTo_ends {W : World} {tr : TransR} {m : Mail} : ∀ cs : List RClause, (∀ c ∈ cs, ¬ Misses W tr m c.expr) →
    ClausesTo W tr m cs .no ∨ ∃ w, ClausesTo W tr m cs (.hit w)
  | [], _ => .inl .nil
  | c :: cs, h => by
    by_cases hc : Holds W tr m c.expr
    · exact .inr ⟨_, .hit (h c (by simp)) hc⟩
    · rcases clausesTo_ends cs (fun q hq => h q (by simp [hq])) with k | ⟨w, k⟩
      · exact .inl (.next (h c (by simp)) hc k)
      · exact .inr ⟨w, .next (h c (by simp)) hc k⟩

theorem rcptsTo_some {W : World} {tr : TransR} {m : Mail} {r : Rule} (hm : ∀ c ∈ r.clauses, ∀ m, ¬ Misses W tr m c.expr) {x : Str} {w : Withs}
    (hx : ClausesTo W tr { m with rcptto := x } r.clauses (.hit w)) : ∀ as : List Str, x ∈ as → ∃ w', RcptsTo W tr m r as (.hit w')
  | a :: as, h => by
    rcases clausesTo_ends (m := { m with rcptto := a }) r.clauses (fun c hc => hm c hc _) with k | ⟨v, k⟩
    · rcases List.mem_cons.1 h with rfl | h
      · exact ⟨w, .stop hx (by simp)⟩
      · obtain ⟨w', k'⟩ := rcptsTo_some hm hx as h
        exact ⟨w', .next k k'⟩
    · exact ⟨v, .stop k (by simp)⟩

/-- Which rules match at DATA and with the message depends on which recipients there are, not on their order. -/
theorem hits_order {W : World} {ph : Phase} {tr tr' : TransR} {m m' : Mail} (hs : SameUpTo ph tr tr' m m')
    (hr : ∀ a ∈ tr.rcptto, a ∈ tr'.rcptto) {r : Rule} (hn : needsC r.clauses ≤ r.requires) (hm : ∀ c ∈ r.clauses, ∀ m, ¬ Misses W tr' m c.expr)
    {w : Withs} (h : Hits W tr m ph r w) : ∃ w', Hits W tr' m' ph r w' := by
  have h2 := h.2
  unfold RuleTo at h2
  split at h2
  · rename_i hc
    have hp : Phase.rto ≤ ph := Nat.le_of_lt hc.1
    have l1 : Phase.helo ≤ ph := Nat.le_trans (by decide : Phase.helo ≤ Phase.rto) hp
    have l2 : Phase.mfrom ≤ ph := Nat.le_trans (by decide : Phase.mfrom ≤ Phase.rto) hp
    obtain ⟨x, hx, k⟩ := (rcptsTo_hit h2).1 w rfl
    have k' : ClausesTo W tr' { m' with rcptto := x } r.clauses (.hit w) :=
      clausesTo_upto (m := { m with rcptto := x }) (m' := { m' with rcptto := x }) ⟨hs.rip, hs.lip, hs.rdns, fun _ => hs.helo l1, fun _ => hs.from_ l2, fun _ => rfl⟩
        (needsC_le_rto _) k
    obtain ⟨w', k2⟩ := rcptsTo_some hm k' _ (hr x hx)
    exact ⟨w', h.1, by unfold RuleTo; rw [if_pos hc]; exact k2⟩
  · rename_i hc
    exact ⟨w, h.1, by unfold RuleTo; rw [if_neg hc]; exact clausesTo_upto hs (Nat.le_trans hn h.1.1) h2⟩

/-- **C88.** The order of the recipients, and repeating one, makes no difference to the action on DATA and messages, as long as the rules
consult no empty pattern file; nor to the options, if the clauses of each rule have the same ones (for example if there is one clause). -/
theorem C88_order {E : Env} {rules : List Rule} (hp : ∀ r ∈ rules, FromParse r) (hm : ∀ r ∈ rules, ∀ c ∈ r.clauses, ∀ tr m, ¬ Misses E.W tr m c.expr)
    {l l' : List Step} (hs : SameMail l l') (hr : ∀ a, a ∈ (envelope l).rcpts ↔ a ∈ (envelope l').rcpts) {ph : Phase}
    (hph : ph = .data ∨ ph = .message) {e e' : Evt} {a : Action} {w : Withs} (h : Ruling E rules l ph e a w) :
    ∃ w', Ruling E rules l' ph e' a w' ∧ ((∀ r ∈ rules, ∀ c ∈ r.clauses, ∀ c' ∈ r.clauses, c.withs = c'.withs) → w' = w) := by
  have n1 : ph ≠ .helo ∧ ph ≠ .mfrom := by rcases hph with rfl | rfl <;> exact ⟨by decide, by decide⟩
  have hu : SameUpTo ph (facts E l) (facts E l') ((heard l).said ph e) ((heard l').said ph e') := by
    obtain ⟨x, b, b', k1, k2, -, k4⟩ := hs
    simp only [greeting, Prod.mk.injEq] at k4
    rcases hph with rfl | rfl <;>
      exact ⟨rfl, rfl, rfl, fun _ => ⟨k4.1, k4.2.1⟩, fun _ => ⟨k4.2.2, k1.from_.trans k2.from_.symm⟩, fun _ => rfl⟩
  have go : ∀ r ∈ rules, ∀ x, Hits E.W (facts E l) ((heard l).said ph e) ph r x → ∃ y, Hits E.W (facts E l') ((heard l').said ph e') ph r y :=
    fun r hr' x hx => hits_order hu (fun a => (hr a).1) (hp r hr').le (fun c hc m => hm r hr' c hc _ m) hx
  have back : ∀ r ∈ rules, ∀ x, Hits E.W (facts E l') ((heard l').said ph e') ph r x → ∃ y, Hits E.W (facts E l) ((heard l).said ph e) ph r y :=
    fun r hr' x hx => hits_order hu.symm (fun a => (hr a).2) (hp r hr').le (fun c hc m => hm r hr' c hc _ m) hx
  have hsay : ∀ {a w}, Says1 E rules l ph e a w → ∃ w', Says1 E rules l' ph e' a w' ∧
      ((∀ r ∈ rules, ∀ c ∈ r.clauses, ∀ c' ∈ r.clauses, c.withs = c'.withs) → w' = w) := by
    intro a w h
    by_cases hw : ∀ r ∈ rules, ∀ c ∈ r.clauses, ∀ c' ∈ r.clauses, c.withs = c'.withs
    · have one : ∀ r ∈ rules, ∀ x y, GivesOpt r x → GivesOpt r y → x = y := by
        rintro r hr' x y ⟨c, h1, rfl⟩ ⟨c', h2, rfl⟩
        exact hw r hr' c h1 c' h2
      refine ⟨w, says1_goes.2 (goes_imp (fun r hr' x => ⟨fun hx => ?_, fun hx => ?_⟩) (says1_goes.1 h)), fun _ => rfl⟩
      · obtain ⟨y, hy⟩ := go r hr' x hx
        rw [one r hr' x y (hits_gives hx) (hits_gives hy)]; exact hy
      · obtain ⟨y, hy⟩ := back r hr' x hx
        rw [one r hr' x y (hits_gives hx) (hits_gives hy)]; exact hy
    · obtain ⟨w', h'⟩ := goes_action (fun r hr' => ⟨fun ⟨x, hx⟩ => go r hr' x hx, fun ⟨x, hx⟩ => back r hr' x hx⟩) (says1_goes.1 h) {}
      exact ⟨w', says1_goes.2 h', fun k => absurd k hw⟩
  cases h with
  | late h1 h2 h3 => exact ⟨w, .late h1 h2 (hs.waiting hp h3), fun _ => rfl⟩
  | null h1 => exact absurd h1 n1.2
  | plain h1 h2 h3 =>
    obtain ⟨w', k1, k2⟩ := hsay h2
    refine ⟨w', .plain (.inr (.inr fun a w hw => ?_)) k1 (fun k => n1.2 k.1), k2⟩
    rcases h1 with h1 | h1 | h1
    · exact n1.1 h1
    · exact n1.2 h1
    · exact h1 a w (hs.symm.waiting hp hw)

/-! ## Examples -/

/-- Rules about the sender, a recipient, and recipients at DATA. -/
def demoEnvS : Env := { demoEnv with fs := fun _ => tbl (.notExist b!"no such file") [
  (b!"/s", .data b!"reject from evil@example.com\nreject to x@example.com from b@example.com\n@data stall to u@example.com with message one ; to v@example.com with message two\n")] }

def demoConfS : Conf := { demoConf with rulefiles := [b!"/s"] }

example : Built ⟨true, false, [], [], []⟩ demoConfS ∧ demoEnvS.W.Static :=
  ⟨⟨⟨demoLib, fun _ _ => .notExist [], 5, by decide +kernel⟩, ⟨demoLib, fun _ _ => .notExist [], 5, by decide +kernel⟩⟩, demoWorld_static⟩

/-- The recipient `x` in a first transaction, and in a third after a refused one and another recipient. -/
example : seen (fun l _ _ => (l.drop 3).map fun st => sent st.out) (driveAll demoConfS demoEnvS {} {} (events
    [.helo false b!"me.example.com", .mailfrom b!"b@example.com", .rcptto b!"x@example.com", .mailfrom b!"evil@example.com",
     .mailfrom b!"b@example.com", .rcptto b!"y@example.com", .rcptto b!"x@example.com", .mailfrom b!"c@example.com", .rcptto b!"x@example.com"])) =
    .ok [[.accept], [.rejectMsg b!"We do not consent to you emailing that address"], [.reject], [.accept], [.accept],
      [.rejectMsg b!"We do not consent to you emailing that address"], [.accept], [.accept]] := by
  decide +kernel

/-- The order of the recipients does not matter to the action, but it does to the message: the clauses of the rule have different ones. -/
example : seen (fun l _ _ => (l.drop 3).map fun st => sent st.out) (driveAll demoConfS demoEnvS {} {} (events
    [.helo false b!"me.example.com", .mailfrom b!"a@example.com", .rcptto b!"u@example.com", .rcptto b!"v@example.com", .data,
     .mailfrom b!"a@example.com", .rcptto b!"v@example.com", .rcptto b!"u@example.com", .data])) =
    .ok [[.accept], [.accept], [.accept], [.tempfailMsg b!"one"], [.accept], [.accept], [.accept], [.tempfailMsg b!"two"]] := by
  decide +kernel

end Sink
