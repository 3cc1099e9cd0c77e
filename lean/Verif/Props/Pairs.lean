import Verif.Props.Changing
import Verif.Props.Build
import Verif.Props.Rewrite
import Verif.Props.Order

/-!
# C97: a rules file of senders and their recipients, from its text to the answers

The first thing the manual shows (doc.go: "reject from A to B"): lines that say who may not write to whom.
-/

namespace Sink
namespace Spec

/-- A word that stands for itself in a rule: it needs no quotes and names no file. -/
def Pattern (w : Str) : Prop := PlainWord w ∧ argFile w = none

/-- The text of the file: a line for each pair. -/
def pairText (ps : List (Str × Str)) : Str := ps.flatMap fun p => b!"reject from " ++ p.1 ++ b!" to " ++ p.2 ++ b!"\n"

/-- The sender may not write to the recipient. -/
def Blocked (L : Lib) (ps : List (Str × Str)) (sender rcpt : Str) : Prop :=
  ∃ p ∈ ps, AddrMatch (L.lower sender) (L.lower p.1) ∧ AddrMatch (L.lower rcpt) (L.lower p.2)

/-- The sender of the last MAIL FROM. -/
def lastSender (l : List Step) : Str := l.foldl (fun x st => match st.event with | some (.mailfrom a) => a | _ => x) []

/-- Acceptance in its plainest form; the library answers EHLO and HELO. -/
def plainYes (ph : Phase) (id : Str) : List Reply := if ph = .helo then [] else [if id ≠ [] then .acceptData id else .accept]

end Spec
open Spec
open Gram (Term Orl Andl Clause Clauses RuleG Stmt File IsArg conj needs needsC)

/-- The rule of a pair. -/
def pairRule (p : Str × Str) : Rule := ruleOf .any .reject [⟨.andL [.matchN .from_ p.1, .matchN .to p.2], {}⟩]

theorem pair_line (L : Lib) {p : Str × Str} (h1 : PlainWord p.1) (h2 : PlainWord p.2) :
    LineOf L (b!"reject from " ++ p.1 ++ b!" to " ++ p.2) (pairRule p) := by
  obtain ⟨a, b⟩ := p
  have kw : ∀ {w : Str} {t : Tok}, PlainWord w → wordTok w = t → Lx w [(t, w)] := fun h h' => Lx.kw h h'
  have hx := (kw (w := b!"from") (t := .kw .from_) (by decide +kernel) (by decide +kernel)).two ((Lx.word h1).two
    ((kw (w := b!"to") (t := .kw .to) (by decide +kernel) (by decide +kernel)).two (Lx.word h2)))
  have hg : Clauses L .reject (([(.kw .from_, b!"from"), (wordTok a, a)].map mkI) ++ [(.kw .to, b!"to"), (wordTok b, b)].map mkI)
      [⟨conj [.matchN .from_ a, .matchN .to b], {}⟩] :=
    .one (.plain (.more (.one (.arg (a := mkI (wordTok a, a)) .from_ rfl (wordTok_isArg _)))
      (.one (.one (.arg (a := mkI (wordTok b, b)) .to rfl (wordTok_isArg _)))))) (fun h => absurd h (by simp))
  have := lineOf_mk (L := L) (w := b!"reject") (by decide +kernel) (by decide) (by decide) hx
    (RuleG.plain (ak := .reject) (by decide +kernel) .reject hg)
  simpa [pairRule, ruleOf, conj] using this

theorem pairs_parse (L : Lib) (load : Nat → Str → Except Fail (List Rule)) {ps : List (Str × Str)} (h : ∀ p ∈ ps, Pattern p.1 ∧ Pattern p.2) :
    parseWith L load (pairText ps) = .ok (ps.map pairRule) := by
  have := parseWith_lines (L := L) (load := load) (ps.map fun p => (b!"reject from " ++ p.1 ++ b!" to " ++ p.2, pairRule p)) (by
    intro l hl
    obtain ⟨p, hp, rfl⟩ := List.mem_map.1 hl
    exact pair_line L (h p hp).1.1 (h p hp).2.1)
  rw [List.flatMap_map, List.map_map] at this
  exact this

theorem pairs_loaded {cf : Conf} {E : Env} {f : Str} {ps : List (Str × Str)} (h : ∀ p ∈ ps, Pattern p.1 ∧ Pattern p.2)
    (hb : cf.base = []) (hr : cf.rulefiles = [f]) (hf : f ≠ []) (ht : E.fs [0] f = .data (pairText ps)) (hfd : E.fds ≠ 0)
    {rules : List Rule} (hl : Loaded cf E false rules) : rules = ps.map pairRule := by
  have ha : accumAll E.W.lib E.fs E.fds 0 cf.base cf.rulefiles = .ok (ps.map pairRule) := by
    obtain ⟨d, hd⟩ := Nat.exists_eq_succ_of_ne_zero hfd
    rw [hb, hr, hd]
    unfold accumAll accumRules
    rw [if_neg hf]
    unfold loadRules
    simp only [ht, pairs_parse _ _ h]
    rfl
  rcases hl with ⟨h, -⟩ | ⟨-, h⟩ | ⟨-, ⟨g, m, h⟩, -⟩
  · cases h
  · rw [ha] at h; injection h with h; exact h.symm
  · rw [ha] at h; cases h

theorem pair_holds {W : World} {tr : TransR} {m : Mail} {p : Str × Str} (h1 : argFile p.1 = none) (h2 : argFile p.2 = none) :
    Holds W tr m (.andL [.matchN .from_ p.1, .matchN .to p.2]) ↔
      AddrMatch (W.lib.lower m.from_) (W.lib.lower p.1) ∧ AddrMatch (W.lib.lower m.rcptto) (W.lib.lower p.2) := by
  simp only [Holds, HoldsAll, MatchHolds, patterns, h1, h2, subjects, PatMatch, List.mem_singleton, exists_eq_left, and_true]

/-- The pairs, as rules, in a phase. -/
theorem pairs_hit {W : World} {tr : TransR} {m : Mail} {ph : Phase} {ps : List (Str × Str)} (h : ∀ p ∈ ps, Pattern p.1 ∧ Pattern p.2) :
    (∃ r ∈ ps.map pairRule, ∃ y, Hits W tr m ph r y) ↔
      (ph = .rto ∧ Blocked W.lib ps m.from_ m.rcptto) ∨ (ph > .rto ∧ ∃ y ∈ tr.rcptto, Blocked W.lib ps m.from_ y) := by
  have key : ∀ p ∈ ps, (∃ y, Hits W tr m ph (pairRule p) y) ↔ .rto ≤ ph ∧ AtHand tr m ph .rto fun m =>
      AddrMatch (W.lib.lower m.from_) (W.lib.lower p.1) ∧ AddrMatch (W.lib.lower m.rcptto) (W.lib.lower p.2) := by
    intro p hp
    have hn : NoFile (.andL [.matchN .from_ p.1, .matchN .to p.2]) := ⟨(h p hp).1.2, (h p hp).2.2, trivial⟩
    have hne : needs (.andL [.matchN .from_ p.1, .matchN .to p.2]) = Phase.rto := rfl
    unfold pairRule
    simp only [hits_one hn, hne, true_or, and_true, exists_and_left, exists_eq_left]
    simp only [pair_holds (h p hp).1.2 (h p hp).2.2]
  simp only [List.mem_map, exists_exists_and_eq_and]
  constructor
  · rintro ⟨p, hp, hy⟩
    obtain ⟨h1, h2⟩ := (key p hp).1 hy
    unfold AtHand at h2
    by_cases hg : ph > .rto
    · rw [if_pos ⟨hg, by decide⟩] at h2
      obtain ⟨y, hy, h2⟩ := h2
      exact .inr ⟨hg, y, hy, p, hp, h2⟩
    · rw [if_neg (fun h => hg h.1)] at h2
      have : ph = .rto := by cases ph <;> first | rfl | exact absurd h1 (by decide) | exact absurd (by decide) hg
      exact .inl ⟨this, p, hp, h2⟩
  · rintro (⟨rfl, p, hp, h2⟩ | ⟨hg, y, hy, p, hp, h2⟩)
    · exact ⟨p, hp, (key p hp).2 ⟨by decide, by unfold AtHand; rw [if_neg (by decide)]; exact h2⟩⟩
    · refine ⟨p, hp, (key p hp).2 ⟨?_, ?_⟩⟩
      · cases ph <;> first | decide | exact absurd hg (by decide)
      · unfold AtHand
        rw [if_pos ⟨hg, by decide⟩]
        exact ⟨y, hy, h2⟩

theorem rejects_go {H : Rule → Withs → Prop} {rs : List Rule} (hr : ∀ r ∈ rs, r.result = .reject ∧ ∀ x, H r x → x = {}) {a : Action} {w : Withs}
    (h : Goes H rs {} a w) : ((∃ r ∈ rs, ∃ y, H r y) ∧ a = .reject ∧ w = {}) ∨ ((¬ ∃ r ∈ rs, ∃ y, H r y) ∧ a = .noresult ∧ w = {}) := by
  induction rs with
  | nil => cases h; exact .inr ⟨by simp, rfl, rfl⟩
  | cons r rs ih =>
    obtain ⟨h1, h2⟩ := hr r (by simp)
    cases h with
    | skip h3 h4 =>
      rcases ih (fun r hr' => hr r (by simp [hr'])) h4 with ⟨⟨q, hq, hy⟩, h⟩ | ⟨hn, h⟩
      · exact .inl ⟨⟨q, by simp [hq], hy⟩, h⟩
      · refine .inr ⟨?_, h⟩
        rintro ⟨q, hq, y, hy⟩
        rcases List.mem_cons.1 hq with rfl | hq
        · exact h3 y hy
        · exact hn ⟨q, hq, y, hy⟩
    | set h3 h4 => exact absurd ⟨by rw [h1]; simp, by rw [h1]; simp⟩ h4
    | stop h3 h4 => exact .inl ⟨⟨r, by simp, _, h3⟩, h1, by rw [h2 _ h3]; rfl⟩

/-- What the pairs say to a command. -/
theorem pairs_say {E : Env} {ps : List (Str × Str)} (h : ∀ p ∈ ps, Pattern p.1 ∧ Pattern p.2) {l : List Step} {ph : Phase} {e : Evt} {a : Action}
    {w : Withs} (hs : Says1 E (ps.map pairRule) l ph e a w) : w = {} ∧
      ((a = .reject ∧ ((ph = .rto ∧ Blocked E.W.lib ps (heard l).from_ e.arg) ∨
          (ph > .rto ∧ ∃ y ∈ (envelope l).rcpts, Blocked E.W.lib ps (heard l).from_ y))) ∨
       (a = .noresult ∧ ¬ ((ph = .rto ∧ Blocked E.W.lib ps (heard l).from_ e.arg) ∨
          (ph > .rto ∧ ∃ y ∈ (envelope l).rcpts, Blocked E.W.lib ps (heard l).from_ y)))) := by
  have hg := rejects_go (by
    intro r hr
    obtain ⟨p, hp, rfl⟩ := List.mem_map.1 hr
    refine ⟨rfl, fun x hx => ?_⟩
    have hn : NoFile (.andL [.matchN .from_ p.1, .matchN .to p.2]) := ⟨(h p hp).1.2, (h p hp).2.2, trivial⟩
    exact ((hits_one hn).1 hx).2.1) (says1_goes.1 hs)
  rw [pairs_hit h] at hg
  have hm : ((ph = .rto ∧ Blocked E.W.lib ps ((heard l).said ph e).from_ ((heard l).said ph e).rcptto) ∨
      (ph > .rto ∧ ∃ y ∈ (facts E l).rcptto, Blocked E.W.lib ps ((heard l).said ph e).from_ y)) ↔
      ((ph = .rto ∧ Blocked E.W.lib ps (heard l).from_ e.arg) ∨ (ph > .rto ∧ ∃ y ∈ (envelope l).rcpts, Blocked E.W.lib ps (heard l).from_ y)) := by
    cases ph with
    | rto => rfl
    | data | message => constructor <;> rintro (⟨h, -⟩ | h) <;> first | exact .inr h | exact absurd h (by decide)
    | _ => constructor <;> rintro (⟨h, -⟩ | ⟨h, -⟩) <;> exact absurd h (by decide)
  rw [hm] at hg
  rcases hg with ⟨h1, h2, h3⟩ | ⟨h1, h2, h3⟩
  · exact ⟨h3, .inl ⟨h2, h1⟩⟩
  · exact ⟨h3, .inr ⟨h2, h1⟩⟩

/-- The rulings of the pairs: a null sender is nothing special. -/
theorem pairs_rule {E : Env} {ps : List (Str × Str)} (h : ∀ p ∈ ps, Pattern p.1 ∧ Pattern p.2) {l : List Step} {ph : Phase} {e : Evt} {a : Action}
    {w : Withs} (hs : Ruling E (ps.map pairRule) l ph e a w) : w = {} ∧
      ((a = .reject ∧ ((ph = .rto ∧ Blocked E.W.lib ps (heard l).from_ e.arg) ∨
          (ph > .rto ∧ ∃ y ∈ (envelope l).rcpts, Blocked E.W.lib ps (heard l).from_ y))) ∨
       (a = .noresult ∧ ¬ ((ph = .rto ∧ Blocked E.W.lib ps (heard l).from_ e.arg) ∨
          (ph > .rto ∧ ∃ y ∈ (envelope l).rcpts, Blocked E.W.lib ps (heard l).from_ y)))) := by
  have hmf : ∀ {l e a w}, Says1 E (ps.map pairRule) l .mfrom e a w → ¬ Refuses a := by
    intro l e a w hs
    rcases (pairs_say h hs).2 with ⟨-, h1 | h1⟩ | ⟨rfl, -⟩
    · exact absurd h1.1 (by decide)
    · exact absurd h1.1 (by decide)
    · rintro (h | h) <;> cases h
  cases hs with
  | late _ _ h3 =>
    obtain ⟨_, _, _, _, _, -, -, h4, h5, -⟩ := h3
    exact absurd h5 (hmf h4)
  | null h1 _ h3 h4 =>
    subst h1
    exact absurd h4 (hmf h3)
  | plain _ h1 => exact pairs_say h h1

/-- What is said and the last sender. -/
theorem heard_sender (l : List Step) : (heard l).from_ = lastSender l := by
  induction l using List.reverseRecOn with
  | nil => rfl
  | append_singleton l st ih =>
    unfold heard lastSender at ih ⊢
    rw [List.foldl_append, List.foldl_append, List.foldl_cons, List.foldl_cons, List.foldl_nil, List.foldl_nil, ← ih]
    generalize List.foldl hear _ l = m
    unfold hear Step.asked Step.event
    cases st.pre.pc with
    | ready => cases st.i.ev <;> rfl
    | decide id b => cases b <;> rfl
    | _ => rfl

theorem closed_stays {cf : Conf} {E : Env} {st : Step} (hok : st.Ok cf E) (h : st.pre.pc = .closed) : st.post.pc = .closed := by
  unfold Step.Ok sstep at hok
  rw [h] at hok
  injection hok with hok
  injection hok with h1 _
  rw [← h1]
  exact h

theorem run_last {cf : Conf} {E : Env} {s0 s : Sess} {l : List Step} {st : Step} (h : Run cf E s0 (l ++ [st]) s) : s = st.post := by
  obtain ⟨-, -, h⟩ := h.split (l1 := l) (st := st) (l2 := []) rfl
  generalize hx : ([] : List Step) = k at h
  cases h with
  | nil => rfl
  | snoc => simp at hx

/-- **C97.** With a rules file of lines `reject from A to B`: a recipient is refused exactly if the sender matches A and the recipient B for
one of the lines; every other command and every message is accepted (unless the client is dropped after too many RSETs). -/
theorem C97_answers {o : BaseOpts} {cf : Conf} (hb : Built o cf) {E : Env} (hip : ∀ t n, E.W.lookupIP t n = E.W.lookupIP 0 n) {f : Str}
    {ps : List (Str × Str)} (hps : ∀ p ∈ ps, Pattern p.1 ∧ Pattern p.2) (hbase : cf.base = []) (hrf : cf.rulefiles = [f]) (hf : f ≠ [])
    (ht : E.fs [0] f = .data (pairText ps)) (hfd : E.fds ≠ 0) {l : List Step} {s : Sess} (h : Life cf E l s) (hst : s.stall = false) :
    ∀ l1 st l2 ph e id, l = l1 ++ st :: l2 → st.asked = some (ph, e, id) →
      (∀ y ∈ (envelope l1).rcpts, ¬ Blocked E.W.lib ps (lastSender l1) y) ∧
      (ph = .rto ∧ Blocked E.W.lib ps (lastSender l1) e.arg → sent st.out = [.rejectMsg b!"We do not consent to you emailing that address"]) ∧
      (¬ (ph = .rto ∧ Blocked E.W.lib ps (lastSender l1) e.arg) → sent st.out = plainYes ph id ∨ st.rsetDrop) := by
  obtain ⟨sh0, i0, s0, sh1, o1, hss, hr⟩ := h
  obtain ⟨W0, hS, rules, hl, hans, -⟩ := C86_answers hb hip hss hr
  rw [hst] at hl
  obtain rfl := pairs_loaded hps hbase hrf hf ht hfd hl
  have hlib : W0.lib = E.W.lib := hS.lib
  have hrule : ∀ {l1 ph e a w}, Ruling { E with W := W0 } (ps.map pairRule) l1 ph e a w → w = {} ∧
      ((a = .reject ∧ ((ph = .rto ∧ Blocked E.W.lib ps (lastSender l1) e.arg) ∨
          (ph > .rto ∧ ∃ y ∈ (envelope l1).rcpts, Blocked E.W.lib ps (lastSender l1) y))) ∨
       (a = .noresult ∧ ¬ ((ph = .rto ∧ Blocked E.W.lib ps (lastSender l1) e.arg) ∨
          (ph > .rto ∧ ∃ y ∈ (envelope l1).rcpts, Blocked E.W.lib ps (lastSender l1) y)))) := by
    intro l1 ph e a w hh
    have := pairs_rule hps hh
    rwa [show ({ E with W := W0 } : Env).W.lib = E.W.lib from hlib, heard_sender] at this
  -- No accepted recipient is blocked, as long as the connection is open.
  have inv : ∀ l1 st l2, l = l1 ++ st :: l2 → st.pre.pc ≠ .closed → ∀ y ∈ (envelope l1).rcpts, ¬ Blocked E.W.lib ps (lastSender l1) y := by
    intro l1
    induction l1 using List.reverseRecOn with
    | nil => intro st l2 _ _ y hy; cases hy
    | append_singleton k q ih =>
      intro st l2 hl' hpc y hy
      obtain ⟨hr1, -, -⟩ := hr.split hl'
      have hq : l = k ++ q :: (st :: l2) := by rw [hl']; simp
      obtain ⟨-, hok, -⟩ := hr.split hq
      rw [run_last hr1] at hpc
      have hk := ih q (st :: l2) hq fun hh => hpc (closed_stays hok hh)
      have he : envelope (k ++ [q]) = (envelope k).step q := by simp [envelope]
      have hs' : lastSender (k ++ [q]) = match q.event with | some (.mailfrom a) => a | _ => lastSender k := by simp [lastSender]
      rw [he] at hy
      rw [hs']
      unfold Envelope.step at hy
      cases hev : q.event with
      | none => rw [hev] at hy; exact hk y hy
      | some ev =>
        rw [hev] at hy
        have ha := asked_of hev
        simp only at hy ⊢
        cases ev with
        | helo h a => 
          split at hy
          · cases hy
          · exact hk y hy
        | mailfrom a =>
          split at hy
          · cases hy
          · rename_i hacc
            exfalso
            obtain ⟨b, w, g1, -, g2⟩ := hans k q _ _ _ _ hq ha
            obtain ⟨rfl, g3⟩ := hrule g1
            rcases g3 with ⟨-, g3 | g3⟩ | ⟨rfl, -⟩
            · exact absurd g3.1 (by decide)
            · exact absurd g3.1 (by decide)
            · rcases g2 with ⟨g2, -⟩ | ⟨-, g2⟩
              · apply hacc
                have hi : q.i.ev = .mailfrom a := by
                  unfold Step.event at hev
                  split at hev
                  · exact Option.some.inj hev
                  · cases hev
                unfold Step.accepted
                rw [hi, replies_answers, g2]
                rfl
              · exact hpc g2.2.1
        | rcptto a =>
          split at hy
          · rename_i hacc
            rcases List.mem_append.1 hy with hy | hy
            · exact hk y hy
            · rw [List.mem_singleton.1 hy]
              intro hbl
              obtain ⟨b, w, g1, -, g2⟩ := hans k q _ _ _ _ hq ha
              have := accepted_passed hacc g2
              rcases (hrule g1).2 with ⟨rfl, -⟩ | ⟨-, g1⟩
              · exact this (.inl rfl)
              · exact g1 (.inl ⟨rfl, hbl⟩)
          · exact hk y hy
        | _ =>
          split at hy <;> exact hk y hy
  intro l1 st l2 ph e id hl' ha
  have hpc : st.pre.pc ≠ .closed := by
    intro hh
    unfold Step.asked at ha
    rw [hh] at ha
    cases ha
  have hi := inv l1 st l2 hl' hpc
  obtain ⟨a, w, g1, -, g2⟩ := hans l1 st l2 ph e id hl' ha
  obtain ⟨rfl, g3⟩ := hrule g1
  refine ⟨hi, fun hx => ?_, fun hx => ?_⟩
  · rcases g3 with ⟨rfl, -⟩ | ⟨-, g3⟩
    · rcases g2 with ⟨g2, -⟩ | ⟨g2, -⟩
      · rw [g2, hx.1]; rfl
      · rcases g2 with g2 | g2 <;> cases g2
    · exact absurd (.inl hx) g3
  · rcases g3 with ⟨-, g3 | ⟨-, y, hy, g3⟩⟩ | ⟨rfl, -⟩
    · exact absurd g3 hx
    · exact absurd g3 (hi y hy)
    · refine g2.imp (fun g2 => ?_) And.right
      rw [g2.1]
      rfl

/-- C97: if the lines have plain addresses, upper and lower case apart they are compared as they are. -/
theorem C97_addresses (L : Lib) {ps : List (Str × Str)} (h : ∀ p ∈ ps, (∃ l d, IsAddr (L.lower p.1) l d) ∧ ∃ l d, IsAddr (L.lower p.2) l d)
    (sender rcpt : Str) : Blocked L ps sender rcpt ↔ ∃ p ∈ ps, L.lower sender = L.lower p.1 ∧ L.lower rcpt = L.lower p.2 := by
  constructor
  · rintro ⟨p, hp, h1, h2⟩
    obtain ⟨⟨l, d, k1⟩, l', d', k2⟩ := h p hp
    exact ⟨p, hp, addrMatch_full k1 h1, addrMatch_full k2 h2⟩
  · rintro ⟨p, hp, h1, h2⟩
    exact ⟨p, hp, h1 ▸ .self _, h2 ▸ .self _⟩

/-- The line of the manual, and another one. -/
def pairsDemo : List (Str × Str) := [(b!"info@fbi.gov", b!"joe@example.com"), (b!"@.mil", b!"fred@")]

example : pairText pairsDemo = b!"reject from info@fbi.gov to joe@example.com\nreject from @.mil to fred@\n" := by decide +kernel

example : ∀ p ∈ pairsDemo, Pattern p.1 ∧ Pattern p.2 := by
  have key : ∀ w ∈ [b!"info@fbi.gov", b!"joe@example.com", b!"@.mil", b!"fred@"], Pattern w := by
    intro w hw
    simp only [List.mem_cons, List.not_mem_nil, or_false] at hw
    rcases hw with rfl | rfl | rfl | rfl <;> exact ⟨by decide +kernel, by decide +kernel⟩
  intro p hp
  simp only [pairsDemo, List.mem_cons, List.not_mem_nil, or_false] at hp
  rcases hp with rfl | rfl <;> exact ⟨key _ (by simp), key _ (by simp)⟩

/-- A server with these lines. -/
def pairsEnv : Env := { demoEnv with fs := fun _ => tbl (.notExist b!"no such file") [(b!"/p", .data (pairText pairsDemo))] }

/-- `info@fbi.gov` may write to `jim` but not to `joe` or `JOE`; then someone else writes to `joe`, and a colonel neither to `fred` here nor there. -/
example : seen (fun l s _ => (s.stall, (l.drop 3).map fun st => replies st.out)) (driveAll (demoConfT b!"/p") pairsEnv {} {}
    (events [.helo false b!"me", .mailfrom b!"info@fbi.gov", .rcptto b!"joe@example.com", .rcptto b!"jim@example.com", .rcptto b!"JOE@example.com", .data, .gotdata b!"x"])) =
    .ok (false, [[.accepted], [.rejected], [.accepted], [.rejected], [.accepted], []]) ∧
  seen (fun l s _ => (s.stall, (l.drop 3).map fun st => replies st.out)) (driveAll (demoConfT b!"/p") pairsEnv {} {}
    (events [.helo false b!"me", .mailfrom b!"x@example.com", .rcptto b!"joe@example.com", .mailfrom b!"col@us.mil", .rcptto b!"fred@a", .rcptto b!"fred@b", .rcptto b!"joe@example.com"])) =
    .ok (false, [[.accepted], [.accepted], [.accepted], [.rejected], [.rejected], [.accepted]]) := by
  decide +kernel

end Sink
