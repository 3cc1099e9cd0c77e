import Verif.Props.Stats
import Verif.Props.Meta

/-!
# C66: what is written to the SMTP log besides the dialogue
-/

namespace Sink
namespace Spec

/-- The records given to the SMTP log, in order. -/
def logLines : List Out → List Str
  | [] => []
  | .log s :: o => s :: logLines o
  | _ :: o => logLines o

/-- What is added to the statistics of DNS blocklists, in order: to the left hits of blocklists, to the right records of the SBL. -/
def hitCounts : List Out → List (List Str ⊕ List Str)
  | [] => []
  | .dblcount h :: o => .inl h :: hitCounts o
  | .sblcount r :: o => .inr r :: hitCounts o
  | _ :: o => hitCounts o

/-- The lines of the log of do-nothing clients, `-dnlog`, in order. -/
def dnLines : List Out → List Str
  | [] => []
  | .dnlog s :: o => s :: dnLines o
  | _ :: o => dnLines o

/-- The line about the blocklists hit in a decision. -/
def hitLine (st : Step) : Option Str :=
  if st.decided = true ∧ st.post.c.dnsblhit ≠ [] then some (b!"! dnsbl hit: " ++ join b!" " st.post.c.dnsblhit ++ b!"\n") else none

/-- The line about a domain that could not be verified in a decision. -/
def errLine (st : Step) : Option Str := if st.decided then st.post.c.domerr.map fun e => b!"! " ++ e ++ b!"\n" else none

/-- The lines for the `note` option of the rules. -/
def noteLines (st : Step) : List Str :=
  if st.decided = true ∧ st.post.c.withprops.note.getD [] ≠ [] then [b!"! rule note: " ++ st.post.c.withprops.note.getD [] ++ b!"\n"] else []

/-- A line is left out if it is the same as the last one of its kind in the session. -/
def fresh (f : Step → Option Str) (l : List Step) (st : Step) : Bool :=
  match f st with
  | none => false
  | some ln => decide ((l.filterMap f).getLast? ≠ some ln)

/-- What the SBL says in its TXT records: the text after the last slash of each of them, unless there is none. -/
inductive TxtRecords : List Str → List Str → Prop
  | nil : TxtRecords [] []
  | found {p x : Str} {txts r : List Str} : x ≠ [] → c!"/" ∉ x → TxtRecords txts r → TxtRecords ((p ++ b!"/" ++ x) :: txts) (x :: r)
  | skip {txt : Str} {txts r : List Str} : (∀ p x, x ≠ [] → c!"/" ∉ x → txt ≠ p ++ b!"/" ++ x) → TxtRecords txts r → TxtRecords (txt :: txts) r

/-- These records in ascending order, each as often as it was said. -/
def SblRecords (txts : List Str) (recs : List Str) : Prop := Ascending recs ∧ ∃ r, TxtRecords txts r ∧ recs.Perm r

/-- The name to ask the SBL about, for an IPv4 address. -/
def SblName (rip nm : Str) : Prop :=
  ∃ a b c d rest, rip = join b!"." (a :: b :: c :: d :: rest) ∧ (∀ x ∈ a :: b :: c :: d :: rest, c!"." ∉ x) ∧
    nm = d ++ b!"." ++ c ++ b!"." ++ b ++ b!"." ++ a ++ b!".sbl.spamhaus.org."

/-- The line about records of the SBL. -/
def sblLine (recs : List Str) : Str := b!"! SBL records: " ++ join b!" " recs ++ b!"\n"

/-- What is said about the SBL after a line with hits: the records in each of the lines. -/
structure SblSaid (W : World) (rip : Str) (hits : List Str) (sbl : List (List Str)) : Prop where
  found : ∀ recs ∈ sbl, ∃ n nm txts, SblName rip nm ∧ W.lookupTXT n nm = .ok txts ∧ SblRecords txts recs ∧ recs ≠ []
  once : sbl.length ≤ hits.count b!"sbl.spamhaus.org."
  always : b!"sbl.spamhaus.org." ∈ hits → sbl = [] → ∃ n nm, SblName rip nm ∧ ∀ txts, W.lookupTXT n nm = .ok txts → SblRecords txts []

end Spec
open Spec

theorem dnLines_append (a b : List Out) : dnLines (a ++ b) = dnLines a ++ dnLines b := by
  induction a with
  | nil => rfl
  | cons x a ih => cases x <;> simp [dnLines, ih]

theorem dnLines_writeLog (t : Trans) (x : Str) : dnLines (writeLog t x) = [] := by
  unfold writeLog; split <;> rfl

theorem logLines_append (a b : List Out) : logLines (a ++ b) = logLines a ++ logLines b := by
  induction a with
  | nil => rfl
  | cons x a ih => cases x <;> simp [logLines, ih]

theorem hitCounts_append (a b : List Out) : hitCounts (a ++ b) = hitCounts a ++ hitCounts b := by
  induction a with
  | nil => rfl
  | cons x a ih => cases x <;> simp [hitCounts, ih]

theorem hitCounts_writeLog (t : Trans) (s : Str) : hitCounts (writeLog t s) = [] := by unfold writeLog; split <;> rfl
theorem logLines_writeLog (t : Trans) (s : Str) : logLines (writeLog t s) = if t.hasLog then [s] else [] := by
  unfold writeLog; split <;> rfl
theorem hitCounts_yakLog (cf : Conf) (E : Env) (i : Inp) (t : Trans) (w : Str) : hitCounts (yakLog cf E i t w) = [] := by
  unfold yakLog; split <;> rfl
theorem logLines_yakLog (cf : Conf) (E : Env) (i : Inp) (t : Trans) (w : Str) : logLines (yakLog cf E i t w) = [] := by
  unfold yakLog; split <;> rfl
theorem hitCounts_tlsClientLog (t : Trans) (st : TlsState) : hitCounts (tlsClientLog t st) = [] := by
  unfold tlsClientLog; split
  · rfl
  · split <;> exact hitCounts_writeLog _ _

theorem afterSlash_iff (txt x : Str) : afterSlash txt = some x ↔ x ≠ [] ∧ c!"/" ∉ x ∧ ∃ p, txt = p ++ b!"/" ++ x := by
  have key : ∀ r : Str, (∃ y, r = r.takeWhile (· != c!"/") ++ c!"/" :: y) ∨ r = r.takeWhile (· != c!"/") := by
    intro r
    induction r with
    | nil => exact .inr rfl
    | cons a r ih =>
      by_cases ha : a = c!"/"
      · exact .inl ⟨r, by simp [ha]⟩
      · rcases ih with ⟨y, hy⟩ | hy
        · exact .inl ⟨y, by rw [List.takeWhile_cons, if_pos (by simp [ha]), List.cons_append, ← hy]⟩
        · exact .inr (by rw [List.takeWhile_cons, if_pos (by simp [ha]), ← hy])
  have hno : c!"/" ∉ (txt.reverse.takeWhile (· != c!"/")).reverse := by
    intro h
    have := List.mem_takeWhile_imp (List.mem_reverse.1 h)
    simp at this
  unfold afterSlash
  constructor
  · intro h
    split at h
    · cases h
    · rename_i w hw
      split at h
      · cases h
      · rename_i hl
        cases h
        refine ⟨fun h => hw (by simpa using h), hno, ?_⟩
        rcases key txt.reverse with ⟨y, hy⟩ | hy
        · refine ⟨y.reverse, ?_⟩
          have := congrArg List.reverse hy
          rw [List.reverse_reverse] at this
          refine this.trans ?_
          simp
        · refine absurd ?_ hl
          rw [List.length_reverse, ← hy, List.length_reverse]
  · rintro ⟨h1, h2, p, rfl⟩
    have ht : ((p ++ b!"/" ++ x).reverse.takeWhile (· != c!"/")).reverse = x := by
      rw [List.reverse_append, List.takeWhile_append_of_pos (by
        intro a ha
        simp only [bne_iff_ne, ne_eq]
        rintro rfl
        exact h2 (List.mem_reverse.1 ha))]
      simp
    rw [ht]
    cases x with
    | nil => exact absurd rfl h1
    | cons a x =>
      simp only
      rw [if_neg (by simp; omega)]

theorem records_afterSlash (txts : List Str) : TxtRecords txts (txts.filterMap afterSlash) := by
  induction txts with
  | nil => exact .nil
  | cons t txts ih =>
    rw [List.filterMap_cons]
    cases h : afterSlash t with
    | none =>
      refine .skip (fun p x h1 h2 h3 => ?_) ih
      rw [(afterSlash_iff t x).2 ⟨h1, h2, p, h3⟩] at h
      cases h
    | some x =>
      obtain ⟨h1, h2, p, rfl⟩ := (afterSlash_iff t x).1 h
      exact .found h1 h2 ih

theorem TxtRecords.from {txts r : List Str} (h : TxtRecords txts r) : ∀ x ∈ r, ∃ txt ∈ txts, ∃ p, txt = p ++ b!"/" ++ x := by
  induction h with
  | nil => intro x hx; cases hx
  | found _ _ _ ih =>
    intro x hx
    rcases List.mem_cons.1 hx with rfl | hx
    · exact ⟨_, .head _, _, rfl⟩
    · obtain ⟨t, h1, h2⟩ := ih x hx
      exact ⟨t, .tail _ h1, h2⟩
  | skip _ _ ih =>
    intro x hx
    obtain ⟨t, h1, h2⟩ := ih x hx
    exact ⟨t, .tail _ h1, h2⟩

/-- What the SBL is asked, and what is made of it. -/
theorem getSBLHits_spec {W : World} {rip : Str} {t t' : Trace} {recs : List Str} (h : getSBLHits W rip t = .ok (recs, t')) :
    ∃ nm, SblName rip nm ∧ (match W.lookupTXT t.length nm with
      | .error _ => recs = []
      | .ok txts => SblRecords txts recs) := by
  unfold getSBLHits at h
  split at h
  · rename_i a b c d rest hs
    have hsp := splitOn_spec c!"." rip
    rw [hs] at hsp
    refine ⟨_, ⟨a, b, c, d, rest, hsp.2.1, hsp.2.2, rfl⟩, ?_⟩
    simp only at h
    split at h
    · rename_i he
      rw [he]
      cases h; rfl
    · rename_i txts he
      rw [he]
      cases h
      exact ⟨sortStrs_sorted _, _, records_afterSlash txts, sortStrs_perm _⟩
  · cases h

theorem logSbls_lines {W : World} {rip : Str} : ∀ {hs : List Str} {t t' : Trace} {o : List Out}, logSbls W rip hs t = .ok (o, t') →
    ∃ sbl, SblSaid W rip hs sbl ∧ logLines o = sbl.map sblLine ∧ hitCounts o = sbl.map .inr := by
  intro hs
  induction hs with
  | nil => intro t t' o h; cases h; exact ⟨[], ⟨by simp, by simp, by simp⟩, rfl, rfl⟩
  | cons x hs ih =>
    intro t t' o h
    rw [logSbls] at h
    split at h
    · rename_i hx
      cases h1 : getSBLHits W rip t with
      | error p => rw [h1] at h; cases h
      | ok r =>
        rw [h1] at h
        simp only [bind, Except.bind, pure, Except.pure] at h
        obtain ⟨recs, t1⟩ := r
        obtain ⟨nm, hnm, hrec⟩ := getSBLHits_spec h1
        cases h2 : logSbls W rip hs t1 with
        | error p => rw [h2] at h; cases h
        | ok q =>
          rw [h2] at h
          simp only at h
          obtain ⟨sbl, ⟨h3, h4, h6⟩, h5, h7⟩ := ih h2
          have hc : (x :: hs).count b!"sbl.spamhaus.org." = hs.count b!"sbl.spamhaus.org." + 1 := by rw [hx]; exact List.count_cons_self
          split at h
          · rename_i hlen
            cases h
            refine ⟨recs :: sbl, ⟨?_, by rw [hc]; exact Nat.succ_le_succ h4, fun _ hh => by cases hh⟩, by simp [logLines, h5, sblLine], by simp [hitCounts, h7]⟩
            intro rs hl
            have hne : recs ≠ [] := fun h => by rw [h] at hlen; exact absurd hlen (by decide)
            rcases List.mem_cons.1 hl with rfl | hl
            · cases hlk : W.lookupTXT t.length nm with
              | error e => rw [hlk] at hrec; exact absurd hrec hne
              | ok txts => rw [hlk] at hrec; exact ⟨_, _, _, hnm, hlk, hrec, hne⟩
            · exact h3 rs hl
          · rename_i hlen
            cases h
            have he : recs = [] := List.length_eq_zero_iff.1 (Nat.eq_zero_of_not_pos hlen)
            refine ⟨sbl, ⟨h3, by rw [hc]; exact Nat.le_succ_of_le h4, fun _ _ => ⟨t.length, nm, hnm, fun txts hlk => ?_⟩⟩, h5, h7⟩
            rw [hlk, he] at hrec
            exact hrec
    · rename_i hx
      obtain ⟨sbl, ⟨h3, h4, h6⟩, h5, h7⟩ := ih h
      refine ⟨sbl, ⟨h3, by rw [List.count_cons_of_ne hx]; exact h4, fun hm => ?_⟩, h5, h7⟩
      rcases List.mem_cons.1 hm with hm | hm
      · exact absurd hm.symm hx
      · exact h6 hm

/-- What the blocklist part of a decision does. -/
theorem logDnsbls_lines {W : World} {t t' : Trans} {c c' : Ctx} {o : List Out} (h : logDnsbls W t c = .ok (t', c', o)) :
    (t.hasLog = false → o = [] ∧ t' = t) ∧
    (t.hasLog = true →
      (c'.dnsblhit = [] → o = [] ∧ t' = t) ∧
      (c'.dnsblhit ≠ [] →
        t' = { t with lastmsg := b!"! dnsbl hit: " ++ join b!" " c'.dnsblhit ++ b!"\n" } ∧
        if b!"! dnsbl hit: " ++ join b!" " c'.dnsblhit ++ b!"\n" = t.lastmsg then o = []
        else ∃ o1, o = .log (b!"! dnsbl hit: " ++ join b!" " c'.dnsblhit ++ b!"\n") :: .dblcount c'.dnsblhit :: o1 ∧
          ∃ sbl, SblSaid W t.rip c'.dnsblhit sbl ∧ logLines o1 = sbl.map sblLine ∧ hitCounts o1 = sbl.map .inr)) := by
  unfold logDnsbls at h
  have hsl : ∀ {x : List Str}, x.length ≠ 0 → sortStrs x ≠ [] := fun hx hh => hx (by
    rw [← (sortStrs_perm _).length_eq, hh]; rfl)
  split at h
  · rename_i h0
    cases h
    refine ⟨fun _ => ⟨rfl, rfl⟩, fun hl => ?_⟩
    have : c.dnsblhit = [] := by
      rcases h0 with h0 | h0
      · exact List.length_eq_zero_iff.1 h0
      · rw [hl] at h0; cases h0
    exact ⟨fun _ => ⟨rfl, rfl⟩, fun hh => absurd this hh⟩
  · rename_i h0
    have h0' : c.dnsblhit.length ≠ 0 ∧ t.hasLog ≠ false := ⟨fun h => h0 (.inl h), fun h => h0 (.inr h)⟩
    refine ⟨fun hl => absurd hl h0'.2, fun hl => ?_⟩
    simp only at h
    split at h
    · rename_i hm
      cases h
      refine ⟨fun hh => absurd hh (hsl h0'.1), fun _ => ⟨?_, ?_⟩⟩
      · rw [hm]
      · rw [if_pos hm]
    · rename_i hm
      split at h
      · cases h
      · rename_i o1 tr hs
        cases h
        refine ⟨fun hh => absurd hh (hsl h0'.1), fun _ => ⟨rfl, ?_⟩⟩
        rw [if_neg hm]
        exact ⟨_, rfl, logSbls_lines hs⟩

theorem logLines_refusal (ph : Phase) (t : Trans) (m id : Str) (ref : Bool) (res : Action) :
    logLines (refusal ph t m id ref res) = [] ∧ hitCounts (refusal ph t m id ref res) = [] := by
  unfold refusal; split <;> exact ⟨rfl, rfl⟩

theorem logNote_lines {t : Trans} {c : Ctx} {o : List Out} (h : logNote t c = .ok o) :
    hitCounts o = [] ∧ logLines o = if c.withprops.note.getD [] ≠ [] then [b!"! rule note: " ++ c.withprops.note.getD [] ++ b!"\n"] else [] := by
  unfold logNote at h
  cases hn : c.withprops.note with
  | none => rw [hn] at h; cases h; exact ⟨rfl, rfl⟩
  | some n =>
    rw [hn] at h
    simp only at h
    split at h
    · rename_i h0
      cases h; exact ⟨rfl, by simp [h0, logLines]⟩
    · rename_i h0
      unfold logWrite at h
      split at h
      · cases h; exact ⟨rfl, by simp [h0, logLines]⟩
      · cases h

theorem logDomerr_lines (t : Trans) (c : Ctx) : hitCounts (logDomerr t c).2 = [] ∧
    (t.hasLog = false → logLines (logDomerr t c).2 = [] ∧ (logDomerr t c).1.lastamsg = t.lastamsg) ∧
    (t.hasLog = true → match c.domerr with
      | none => logLines (logDomerr t c).2 = [] ∧ (logDomerr t c).1.lastamsg = t.lastamsg
      | some e => logLines (logDomerr t c).2 = (if b!"! " ++ e ++ b!"\n" = t.lastamsg then [] else [b!"! " ++ e ++ b!"\n"]) ∧
          (logDomerr t c).1.lastamsg = b!"! " ++ e ++ b!"\n") := by
  unfold logDomerr
  cases hd : c.domerr with
  | none => exact ⟨rfl, fun _ => ⟨rfl, rfl⟩, fun _ => ⟨rfl, rfl⟩⟩
  | some e =>
    simp only
    split
    · rename_i h0
      exact ⟨rfl, fun _ => ⟨rfl, rfl⟩, fun h => by rw [h0] at h; cases h⟩
    · rename_i h0
      by_cases h1 : b!"! " ++ e ++ b!"\n" = t.lastamsg
      · rw [if_neg (not_not_intro h1), if_pos h1]
        exact ⟨rfl, fun h => absurd h h0, fun _ => ⟨rfl, h1.symm⟩⟩
      · rw [if_pos h1, if_neg h1]
        exact ⟨rfl, fun h => absurd h h0, fun _ => ⟨rfl, rfl⟩⟩

/-- What a decision logs. -/
structure Logged (W : World) (s s' : Sess) (o : List Out) : Prop where
  has : s'.trans.hasLog = s.trans.hasLog
  off : s.trans.hasLog = false → logLines o = [] ∧ hitCounts o = [] ∧ s'.trans.lastmsg = s.trans.lastmsg ∧ s'.trans.lastamsg = s.trans.lastamsg
  on : s.trans.hasLog = true →
    s'.trans.lastmsg = (if s'.c.dnsblhit = [] then s.trans.lastmsg else b!"! dnsbl hit: " ++ join b!" " s'.c.dnsblhit ++ b!"\n") ∧
    s'.trans.lastamsg = (match s'.c.domerr with | none => s.trans.lastamsg | some e => b!"! " ++ e ++ b!"\n") ∧
    ∃ sbl : List (List Str),
      (s'.c.dnsblhit ≠ [] ∧ b!"! dnsbl hit: " ++ join b!" " s'.c.dnsblhit ++ b!"\n" ≠ s.trans.lastmsg → SblSaid W s.trans.rip s'.c.dnsblhit sbl) ∧
      hitCounts o = (if s'.c.dnsblhit ≠ [] ∧ b!"! dnsbl hit: " ++ join b!" " s'.c.dnsblhit ++ b!"\n" ≠ s.trans.lastmsg then
          .inl s'.c.dnsblhit :: sbl.map .inr else []) ∧
      logLines o = (if s'.c.dnsblhit ≠ [] ∧ b!"! dnsbl hit: " ++ join b!" " s'.c.dnsblhit ++ b!"\n" ≠ s.trans.lastmsg then
          (b!"! dnsbl hit: " ++ join b!" " s'.c.dnsblhit ++ b!"\n") :: sbl.map sblLine else []) ++
        (match s'.c.domerr with
          | none => []
          | some e => if b!"! " ++ e ++ b!"\n" = s.trans.lastamsg then [] else [b!"! " ++ e ++ b!"\n"]) ++
        if s'.c.withprops.note.getD [] ≠ [] then [b!"! rule note: " ++ s'.c.withprops.note.getD [] ++ b!"\n"] else []

theorem logNote_off {t : Trans} {c : Ctx} {o : List Out} (h : logNote t c = .ok o) (ht : t.hasLog = false) : o = [] := by
  unfold logNote at h
  split at h
  · cases h; rfl
  · split at h
    · cases h; rfl
    · unfold logWrite at h
      rw [if_neg (by simp [ht])] at h
      cases h

theorem DecR.logged {E : Env} {ph : Phase} {evt : Evt} {id : Str} {s s' : Sess} {ref : Bool} {o : List Out} {res : Action} {c1 : Ctx}
    (h : DecR E ph evt id s ref s' o res c1) : Logged E.W s s' o := by
  obtain ⟨t1, o1, o3, h1, h2, h3, h4, h5⟩ := h.said
  obtain ⟨m, a, ht⟩ := h.trans
  have hlog : s'.trans.hasLog = s.trans.hasLog := by rw [ht]
  obtain ⟨r1, r2⟩ := logLines_refusal ph s'.trans (c1.withprops.message.getD []) id ref res
  obtain ⟨n1, n2⟩ := logNote_lines h2
  obtain ⟨d1, d2, d3⟩ := logDomerr_lines t1 s'.c
  obtain ⟨l1, l2⟩ := logDnsbls_lines h1
  have hl : logLines o = logLines o1 ++ logLines (logDomerr t1 s'.c).2 ++ logLines o3 := by
    rw [h3, logLines_append, logLines_append, logLines_append, r1, List.append_nil]
  have hh : hitCounts o = hitCounts o1 := by
    rw [h3, hitCounts_append, hitCounts_append, hitCounts_append, r2, n1, d1, List.append_nil, List.append_nil, List.append_nil]
  refine ⟨hlog, fun h0 => ?_, fun h0 => ?_⟩
  · obtain ⟨e1, e2⟩ := l1 h0
    subst e2
    obtain ⟨e3, e4⟩ := d2 h0
    have e5 := logNote_off h2 h0
    rw [hl, hh, e1, e3, e5, h4, h5, e4]
    exact ⟨rfl, rfl, rfl, rfl⟩
  · obtain ⟨l2, l3⟩ := l2 h0
    have key : t1.hasLog = true ∧ t1.lastamsg = s.trans.lastamsg := by
      by_cases hd : s'.c.dnsblhit = []
      · rw [(l2 hd).2]; exact ⟨h0, rfl⟩
      · rw [(l3 hd).1]; exact ⟨h0, rfl⟩
    have d4 := d3 key.1
    rw [h4, h5, hl, hh, n2]
    by_cases hd : s'.c.dnsblhit = []
    · obtain ⟨e1, e2⟩ := l2 hd
      refine ⟨by rw [if_pos hd, e2], ?_, [], (fun h => absurd hd h.1), ?_, ?_⟩
      · cases he : s'.c.domerr <;> rw [he] at d4 <;> simp only at d4 ⊢
        · rw [d4.2, key.2]
        · exact d4.2
      · rw [e1, if_neg (by simp [hd])]; rfl
      · rw [if_neg (c := s'.c.dnsblhit ≠ [] ∧ _) (by simp [hd]), e1]
        congr 1
        cases he : s'.c.domerr <;> rw [he] at d4 <;> simp only at d4 ⊢
        · rw [d4.1]; rfl
        · rw [d4.1, key.2]; rfl
    · obtain ⟨e1, e2⟩ := l3 hd
      by_cases hm : b!"! dnsbl hit: " ++ join b!" " s'.c.dnsblhit ++ b!"\n" = s.trans.lastmsg
      · rw [if_pos hm] at e2
        refine ⟨by rw [if_neg hd, e1], ?_, [], (fun h => absurd hm h.2), ?_, ?_⟩
        · cases he : s'.c.domerr <;> rw [he] at d4 <;> simp only at d4 ⊢
          · rw [d4.2, key.2]
          · exact d4.2
        · rw [e2, if_neg (fun h => h.2 hm)]; rfl
        · rw [if_neg (c := s'.c.dnsblhit ≠ [] ∧ _ ≠ s.trans.lastmsg) (fun h => h.2 hm), e2]
          congr 1
          cases he : s'.c.domerr <;> rw [he] at d4 <;> simp only at d4 ⊢
          · rw [d4.1]; rfl
          · rw [d4.1, key.2]; rfl
      · rw [if_neg hm] at e2
        obtain ⟨o4, e2, sbl, e3, e6, e5⟩ := e2
        refine ⟨by rw [if_neg hd, e1], ?_, sbl, (fun _ => e3), ?_, ?_⟩
        · cases he : s'.c.domerr <;> rw [he] at d4 <;> simp only at d4 ⊢
          · rw [d4.2, key.2]
          · exact d4.2
        · rw [e2, if_pos ⟨hd, hm⟩]; simp [hitCounts, e5]
        · rw [if_pos (c := s'.c.dnsblhit ≠ [] ∧ _) ⟨hd, hm⟩, e2, ← e6]
          congr 1
          cases he : s'.c.domerr <;> rw [he] at d4 <;> simp only at d4 ⊢
          · rw [d4.1]; rfl
          · rw [d4.1, key.2]; rfl

namespace Spec

/-- The hits on record for an address. -/
def yakOnRecord (sh : Shared) (ip : Str) : Int := ((sh.yak.get ip).map (·.count)).getD 0

/-- What else there is a line about: a connection dropped by the rules, a client certificate, a client found to do nothing. -/
inductive Step.Remark (E : Env) (st : Step) : List Str → Prop
  | dropped : st.pre.pc = .connect → st.post.pc = .closed →
      Remark E st [b!"! " ++ E.rip ++ b!" dropped on connect due to rule at " ++ st.i.nowText ++ b!"\n"]
  | anonymous : st.tlsSeen = true → st.i.tls.peer = none → Remark E st []
  | verified {p} : st.tlsSeen = true → st.i.tls.peer = some p → st.i.tls.tryVerify = none →
      Remark E st [b!"! TLS client certificate for '" ++ tlsName p ++ b!"' verifies.\n"]
  | unverified {p e} : st.tlsSeen = true → st.i.tls.peer = some p → st.i.tls.tryVerify = some e →
      Remark E st [b!"! TLS client certificate for '" ++ tlsName p ++ b!"' doesn't verify: " ++ e ++ b!"\n"]
  | rsets : st.rsetDrop → Remark E st [b!"! " ++ E.rip ++ b!" added as a yakker at hit " ++ decInt (yakOnRecord st.sh' E.rip) ++ b!" due to RSET\n"]
  | forced : st.ended = true → .count .yakforces ∈ st.out → Remark E st [b!"! " ++ E.rip ++ b!" forced to be a yakker\n"]
  | found : st.ended = true → .count .yakforces ∉ st.out → .count .yakads ∈ st.out →
      Remark E st [b!"! " ++ E.rip ++ b!" added as a yakker at hit " ++ decInt (yakOnRecord st.sh' E.rip) ++ b!"\n"]
  | unknown : st.ended = true → .count .yakads ∉ st.out → Remark E st []
  | plain : ¬ (st.pre.pc = .connect ∧ st.post.pc = .closed) → st.tlsSeen = false → ¬ st.rsetDrop → st.ended = false → Remark E st []

/-- Leave out what is the same as what stands before it. -/
def squeeze : List Str → List Str
  | [] => []
  | [a] => [a]
  | a :: b :: l => if a = b then squeeze (b :: l) else a :: squeeze (b :: l)

end Spec

/-- The state of the logger of a connection. -/
structure LogOK (cf : Conf) (l : List Step) (s : Sess) : Prop where
  has : s.trans.hasLog = (cf.smtplog && !s.stall)
  msg : s.trans.hasLog = true → s.trans.lastmsg = ((l.filterMap hitLine).getLast?).getD []
  amsg : s.trans.hasLog = true → s.trans.lastamsg = ((l.filterMap errLine).getLast?).getD []

theorem hitLine_ne {st : Step} {ln : Str} (h : hitLine st = some ln) : ln ≠ [] := by
  unfold hitLine at h; split at h <;> cases h; simp
theorem errLine_ne {st : Step} {ln : Str} (h : errLine st = some ln) : ln ≠ [] := by
  unfold errLine at h
  split at h
  · simp only [Option.map_eq_some_iff] at h
    obtain ⟨e, _, rfl⟩ := h
    simp
  · cases h

theorem getLast_filterMap_snoc (f : Step → Option Str) (l : List Step) (st : Step) :
    ((l ++ [st]).filterMap f).getLast? = match f st with | none => (l.filterMap f).getLast? | some x => some x := by
  rw [List.filterMap_append]
  cases h : f st <;> simp [h]

/-- The last line of a kind is not the empty one. -/
theorem last_ne {f : Step → Option Str} (hf : ∀ {st ln}, f st = some ln → ln ≠ []) (l : List Step) {ln : Str} (h0 : ln ≠ []) :
    (ln = ((l.filterMap f).getLast?).getD []) ↔ (l.filterMap f).getLast? = some ln := by
  cases h : (l.filterMap f).getLast? with
  | none => simp [h0]
  | some x => simp [eq_comm]

theorem Did.logState {cf : Conf} {E : Env} {s s' : Sess} {sh sh' : Shared} {i : Inp} {o : List Out} (h : Did cf E s sh i s' sh' o) :
    s'.trans.hasLog = s.trans.hasLog ∧
    (s.trans.hasLog = true →
      s'.trans.lastmsg = (hitLine ⟨s, i, sh, s', sh', o⟩).getD s.trans.lastmsg ∧
      s'.trans.lastamsg = (errLine ⟨s, i, sh, s', sh', o⟩).getD s.trans.lastamsg) := by
  have gotL : ∀ H a i t, (gotTrans H a i t).hasLog = t.hasLog ∧ (gotTrans H a i t).lastmsg = t.lastmsg ∧ (gotTrans H a i t).lastamsg = t.lastamsg := by
    intro H a i t; unfold gotTrans; simp only; split <;> exact ⟨rfl, rfl, rfl⟩
  have dec : ∀ {s0 s1 s2 : Sess} {o o1 : List Out} {sh'}, Logged E.W s0 s1 o1 → s0.trans.hasLog = s.trans.hasLog → s0.trans.lastmsg = s.trans.lastmsg →
      s0.trans.lastamsg = s.trans.lastamsg → s2.trans.hasLog = s1.trans.hasLog → s2.trans.lastmsg = s1.trans.lastmsg →
      s2.trans.lastamsg = s1.trans.lastamsg → s2.c = s1.c → Step.decided ⟨s, i, sh, s2, sh', o⟩ = true →
      s2.trans.hasLog = s.trans.hasLog ∧ (s.trans.hasLog = true →
        s2.trans.lastmsg = (hitLine ⟨s, i, sh, s2, sh', o⟩).getD s.trans.lastmsg ∧
        s2.trans.lastamsg = (errLine ⟨s, i, sh, s2, sh', o⟩).getD s.trans.lastamsg) := by
    intro s0 s1 s2 o o1 sh' hl a1 a2 a3 b1 b2 b3 hc hd
    refine ⟨by rw [b1, hl.has, a1], fun h0 => ?_⟩
    obtain ⟨h1, h2, _⟩ := hl.on (a1.trans h0)
    rw [b2, b3, h1, h2, a2, a3]
    unfold hitLine errLine
    rw [hd]
    simp only [hc, true_and, if_true]
    constructor
    · by_cases he : s1.c.dnsblhit = [] <;> simp [he]
    · cases s1.c.domerr <;> rfl
  have quiet : ∀ {s2 o sh'}, Step.decided ⟨s, i, sh, s2, sh', o⟩ = false → hitLine ⟨s, i, sh, s2, sh', o⟩ = none ∧ errLine ⟨s, i, sh, s2, sh', o⟩ = none := by
    intro s2 o sh' hd
    unfold hitLine errLine
    rw [hd]
    simp
  cases h with
  | tls hp ht =>
    obtain ⟨q1, q2⟩ := quiet (s2 := s') (o := o) (sh' := sh') (by simp [Step.decided, hp])
    rw [q1, q2]
    unfold tlsStep at ht
    cases ht
    exact ⟨rfl, fun _ => ⟨rfl, rfl⟩⟩
  | drop hp hd => exact dec hd.logged rfl rfl rfl rfl rfl rfl rfl (by simp [Step.decided, hp])
  | connect hp hd => exact dec hd.logged rfl rfl rfl rfl rfl rfl rfl (by simp [Step.decided, hp])
  | heloRef hp he hd | mailRef hp he hd | rcptRef hp he hd | dataRef hp he hd =>
    exact dec hd.logged rfl rfl rfl rfl rfl rfl rfl (by simp [Step.decided, hp, he])
  | heloAcc hp he hd | mailAcc hp he hd | mailCount hp he hd | mailDrop hp he hd | rcptAcc hp he hd | dataAcc hp he hd =>
    exact dec hd.logged rfl rfl rfl rfl rfl rfl rfl (by simp [Step.decided, hp, he])
  | answerRef hp hd | answerAcc hp hd => exact dec hd.logged rfl rfl rfl rfl rfl rfl rfl (by simp [Step.decided, hp])
  | gotKeep hp he =>
    obtain ⟨q1, q2⟩ := quiet (s2 := { s.got cf E _ i with pc := .decide _ false }) (o := o) (sh' := sh) (by simp [Step.decided, hp, he])
    rw [q1, q2]
    obtain ⟨g1, g2, g3⟩ := gotL E.H _ i s.trans
    exact ⟨g1, fun _ => ⟨g2, g3⟩⟩
  | gotSave hp he =>
    obtain ⟨q1, q2⟩ := quiet (s2 := (s.got cf E _ i).goto _) (o := o) (sh' := sh) (by simp [Step.decided, hp, he])
    rw [q1, q2]
    obtain ⟨g1, g2, g3⟩ := gotL E.H _ i s.trans
    exact ⟨g1, fun _ => ⟨g2, g3⟩⟩
  | tlserror hp he =>
    obtain ⟨q1, q2⟩ := quiet (by simp [Step.decided, hp, he])
    rw [q1, q2]; exact ⟨rfl, fun _ => ⟨rfl, rfl⟩⟩
  | finish hp he =>
    obtain ⟨q1, q2⟩ := quiet (by rcases he with ⟨he, _⟩ | ⟨he, _⟩ <;> simp [Step.decided, hp, he])
    rw [q1, q2]; exact ⟨rfl, fun _ => ⟨rfl, rfl⟩⟩
  | other hp he =>
    obtain ⟨q1, q2⟩ := quiet (by simp [Step.decided, hp, he])
    rw [q1, q2]; exact ⟨rfl, fun _ => ⟨rfl, rfl⟩⟩
  | save hp =>
    obtain ⟨q1, q2⟩ := quiet (by simp [Step.decided, hp])
    rw [q1, q2]; exact ⟨rfl, fun _ => ⟨rfl, rfl⟩⟩
  | answerFail hp =>
    obtain ⟨q1, q2⟩ := quiet (by simp [Step.decided, hp])
    rw [q1, q2]; exact ⟨rfl, fun _ => ⟨rfl, rfl⟩⟩
  | closed hp =>
    obtain ⟨q1, q2⟩ := quiet (by simp [Step.decided, hp])
    rw [q1, q2]; exact ⟨rfl, fun _ => ⟨rfl, rfl⟩⟩

theorem life_logOK {cf : Conf} {E : Env} {l : List Step} {s : Sess} (h : Life cf E l s) : LogOK cf l s := by
  obtain ⟨sh, i, s0, sh0, o, hst, hr⟩ := h
  have h0 : LogOK cf [] s0 := by
    unfold startSess at hst
    simp only [bind, Except.bind, pure, Except.pure] at hst
    split at hst
    · cases hst
    · split at hst
      · cases hst
      · cases hst
        exact ⟨rfl, fun _ => rfl, fun _ => rfl⟩
  refine Spec.Run.ind (P := fun l s => LogOK cf l s) hr h0 ?_
  intro l s1 s2 sh sh' i o _ ih hd _
  obtain ⟨h1, h2⟩ := hd.logState
  obtain ⟨h3, _⟩ := hd.flags
  refine ⟨by rw [h1, ih.has, h3], fun hl => ?_, fun hl => ?_⟩
  · rw [h1] at hl
    rw [(h2 hl).1, getLast_filterMap_snoc, ih.msg hl]
    cases hitLine _ <;> rfl
  · rw [h1] at hl
    rw [(h2 hl).2, getLast_filterMap_snoc, ih.amsg hl]
    cases errLine _ <;> rfl

theorem fresh_hit {cf : Conf} {E : Env} {l : List Step} {s : Sess} (h : Life cf E l s) (hl : s.trans.hasLog = true) {st : Step}
    (hd : st.decided = true) : fresh hitLine l st = true ↔ st.post.c.dnsblhit ≠ [] ∧
      b!"! dnsbl hit: " ++ join b!" " st.post.c.dnsblhit ++ b!"\n" ≠ s.trans.lastmsg := by
  unfold fresh
  by_cases he : st.post.c.dnsblhit = []
  · have : hitLine st = none := by simp [hitLine, he]
    rw [this]; simp [he]
  · have : hitLine st = some (b!"! dnsbl hit: " ++ join b!" " st.post.c.dnsblhit ++ b!"\n") := by simp [hitLine, he, hd]
    rw [this, (life_logOK h).msg hl]
    simp only [decide_eq_true_eq]
    rw [Ne, Ne, Ne, last_ne hitLine_ne l (hitLine_ne this)]
    exact ⟨fun h => ⟨he, h⟩, fun h => h.2⟩

theorem fresh_err {cf : Conf} {E : Env} {l : List Step} {s : Sess} (h : Life cf E l s) (hl : s.trans.hasLog = true) {st : Step}
    (hd : st.decided = true) : (if fresh errLine l st then (errLine st).toList else []) = match st.post.c.domerr with
      | none => []
      | some e => if b!"! " ++ e ++ b!"\n" = s.trans.lastamsg then [] else [b!"! " ++ e ++ b!"\n"] := by
  unfold fresh
  cases he : st.post.c.domerr with
  | none =>
    have : errLine st = none := by simp [errLine, he]
    rw [this]; rfl
  | some e =>
    have : errLine st = some (b!"! " ++ e ++ b!"\n") := by simp [errLine, he, hd]
    rw [this, (life_logOK h).amsg hl]
    simp only [decide_eq_true_eq]
    have hh := last_ne (f := errLine) errLine_ne l (errLine_ne this)
    by_cases hx : (l.filterMap errLine).getLast? = some (b!"! " ++ e ++ b!"\n")
    · rw [if_neg (not_not_intro hx), if_pos (hh.2 hx)]
    · rw [if_pos hx, if_neg fun h => hx (hh.1 h)]; rfl

/-- What a step may log, in the log of a connection that came so far. -/
structure StepSays (E : Env) (l : List Step) (st : Step) : Prop where
  lines : ∃ (sbl : List (List Str)) (own : List Str), (fresh hitLine l st = true → SblSaid E.W E.rip st.post.c.dnsblhit sbl) ∧
    st.Remark E own ∧
    hitCounts st.out = (if fresh hitLine l st then .inl st.post.c.dnsblhit :: sbl.map .inr else []) ∧
    logLines st.out = (if fresh hitLine l st then (hitLine st).toList ++ sbl.map sblLine else []) ++
      (if fresh errLine l st then (errLine st).toList else []) ++ noteLines st ++ own

theorem StepSays.of_decision {cf : Conf} {E : Env} {l : List Step} {s : Sess} (h : Life cf E l s) (hl : s.trans.hasLog = true)
    {s0 s1 s2 : Sess} {i : Inp} {sh sh' : Shared} {o1 o : List Out} {own : List Str} (hg : Logged E.W s0 s1 o1) (hc : s2.c = s1.c)
    (a0 : s0.trans.rip = s.trans.rip) (a1 : s0.trans.hasLog = s.trans.hasLog) (a2 : s0.trans.lastmsg = s.trans.lastmsg) (a3 : s0.trans.lastamsg = s.trans.lastamsg)
    (hd : Step.decided ⟨s, i, sh, s2, sh', o⟩ = true) (hr : Step.Remark E ⟨s, i, sh, s2, sh', o⟩ own)
    (ho : logLines o = logLines o1 ++ own) (hh : hitCounts o = hitCounts o1) : StepSays E l ⟨s, i, sh, s2, sh', o⟩ := by
  obtain ⟨_, _, sbl, h3, h5, h6⟩ := hg.on (a1.trans hl)
  have hf := fresh_hit h hl hd
  have hf' : fresh hitLine l ⟨s, i, sh, s2, sh', o⟩ = decide (s1.c.dnsblhit ≠ [] ∧
      b!"! dnsbl hit: " ++ join b!" " s1.c.dnsblhit ++ b!"\n" ≠ s.trans.lastmsg) := by
    rw [← hc]
    exact Bool.eq_iff_iff.2 (hf.trans (decide_eq_true_iff).symm)
  refine ⟨sbl, own, ?_, hr, ?_, ?_⟩
  · rw [hf', decide_eq_true_eq, ← a2]
    intro hx
    have := h3 hx
    rw [a0, h.ok.rip] at this
    simpa only [hc] using this
  · simp only [hh, h5, hf', a2, decide_eq_true_eq, hc]
  · rw [fresh_err h hl hd]
    simp only [ho, h6, hf', a2, a3, decide_eq_true_eq, hc, noteLines, hd, true_and, ne_eq]
    congr 1
    congr 1
    congr 1
    by_cases hx : ¬ s1.c.dnsblhit = [] ∧ ¬ b!"! dnsbl hit: " ++ join b!" " s1.c.dnsblhit ++ b!"\n" = s.trans.lastmsg
    · rw [if_pos hx, if_pos hx]
      unfold hitLine
      rw [hd, if_pos ⟨rfl, by rw [hc]; exact hx.1⟩]
      simp only [hc]
      rfl
    · rw [if_neg hx, if_neg hx]

theorem StepSays.of_none {E : Env} {l : List Step} {st : Step} {own : List Str} (hd : st.decided = false) (hh : hitCounts st.out = [])
    (ho : logLines st.out = own) (hr : st.Remark E own) : StepSays E l st := by
  have h1 : hitLine st = none := by simp [hitLine, hd]
  have h2 : errLine st = none := by simp [errLine, hd]
  have h3 : noteLines st = [] := by simp [noteLines, hd]
  refine ⟨[], own, by simp [fresh, h1], hr, by simp [hh, fresh, h1], ?_⟩
  simp [fresh, h1, h2, h3, ho]

theorem endStep_lines (cf : Conf) (E : Env) (s : Sess) (sh : Shared) (i : Inp) : hitCounts (endStep cf E s sh i).2.2 = [] ∧
    (logLines (endStep cf E s sh i).2.2).length ≤ 1 ∧ (s.trans.hasLog = false → logLines (endStep cf E s sh i).2.2 = []) := by
  have hl : ∀ {p : Prop} [Decidable p] {x : Out}, (∃ y, x = .count y) → hitCounts (if p then [x] else []) = [] ∧
      logLines (if p then [x] else []) = [] := by
    rintro p _ x ⟨y, rfl⟩; split <;> exact ⟨rfl, rfl⟩
  unfold endStep
  simp only
  split
  · rw [hitCounts_append, logLines_append, (hl ⟨_, rfl⟩).1, (hl ⟨_, rfl⟩).2]
    split
    · rw [hitCounts_append, logLines_append, hitCounts_append, logLines_append, hitCounts_writeLog, logLines_writeLog, hitCounts_yakLog, logLines_yakLog]
      cases s.trans.hasLog <;> simp [hitCounts, logLines]
    · simp [hitCounts, logLines]
  · split
    · rw [hitCounts_append, logLines_append, (hl ⟨_, rfl⟩).1, (hl ⟨_, rfl⟩).2]
      split
      · rw [hitCounts_append, logLines_append, hitCounts_append, logLines_append, hitCounts_writeLog, logLines_writeLog, hitCounts_yakLog, logLines_yakLog]
        cases s.trans.hasLog <;> simp [hitCounts, logLines]
      · simp [hitCounts, logLines]
    · split
      · rw [(hl ⟨_, rfl⟩).1, (hl ⟨_, rfl⟩).2]; simp
      · rw [(hl ⟨_, rfl⟩).1, (hl ⟨_, rfl⟩).2]; simp

theorem Spec.Step.Remark.of_pc {E : Env} {st : Step} (h : ¬ (st.pre.pc = .connect ∧ st.post.pc = .closed)) (hp : st.pre.pc ≠ .ready) : st.Remark E [] := by
  have he : st.event = none := by unfold Step.event; rw [if_neg hp]
  refine .plain h (by simp [Step.tlsSeen, he]) ?_ (by simp [Step.ended, he])
  rintro ⟨⟨a, ha⟩, _⟩
  rw [he] at ha; cases ha

theorem Spec.Step.Remark.of_open {E : Env} {st : Step} (hp : st.post.pc ≠ .closed) (ht : st.tlsSeen = false) (he : st.ended = false) : st.Remark E [] :=
  .plain (fun h => hp h.2) ht (fun h => hp h.2.1) he

theorem add_yakOnRecord {sh : Shared} {ip : Str} {ttl now : Int} (h : (sh.yak.add ip ttl now).1 ≠ 0) :
    (sh.yak.add ip ttl now).1 = yakOnRecord { sh with yak := (sh.yak.add ip ttl now).2 } ip := by
  by_cases hi : ip = []
  · subst hi; exact absurd rfl h
  · obtain ⟨h1, h2⟩ := sh.yak.add_eq hi ttl now
    unfold yakOnRecord
    rw [h2 ip, if_pos rfl, h1]
    rfl

theorem endStep_remark {cf : Conf} {E : Env} {s : Sess} {sh : Shared} {i : Inp} (hl : s.trans.hasLog = true) (hrip : s.trans.rip = E.rip)
    (hc : s.sesscounts = true → 0 < cf.yakCount) :
    (Out.count .yakforces ∈ (endStep cf E s sh i).2.2 → logLines (endStep cf E s sh i).2.2 = [b!"! " ++ E.rip ++ b!" forced to be a yakker\n"]) ∧
    (Out.count .yakforces ∉ (endStep cf E s sh i).2.2 → Out.count .yakads ∈ (endStep cf E s sh i).2.2 → logLines (endStep cf E s sh i).2.2 =
      [b!"! " ++ E.rip ++ b!" added as a yakker at hit " ++ decInt (yakOnRecord (endStep cf E s sh i).2.1 E.rip) ++ b!"\n"]) ∧
    (Out.count .yakads ∉ (endStep cf E s sh i).2.2 → logLines (endStep cf E s sh i).2.2 = []) := by
  generalize hlast : (if s.rulesgood = true ∧ (s.sesscounts = true ∨ cf.yakCount = 0) then
    [Out.count (if s.trans.lastresgood then Counter.abandons else .refuseds)] else []) = last
  have hL : logLines last = [] ∧ Out.count .yakads ∉ last ∧ Out.count .yakforces ∉ last := by
    rw [← hlast]; split
    · split <;> simp [logLines]
    · simp [logLines]
  obtain ⟨l1, l3, l4⟩ := hL
  have hyk : ∀ w, logLines (yakLog cf E i s.trans w) = [] ∧ Out.count .yakads ∉ yakLog cf E i s.trans w ∧ Out.count .yakforces ∉ yakLog cf E i s.trans w := by
    intro w; unfold yakLog; cases cf.dnlog <;> simp [logLines]
  unfold endStep
  simp only [hlast]
  split
  · simp only
    split
    · obtain ⟨y1, y2, y3⟩ := hyk b!"force-set"
      simp [logLines_append, logLines_writeLog, hl, hrip, logLines, l1, l3, l4, y1, y2, y3]
    · simp [l1, l3, l4]
  · split
    · rename_i hsc
      simp only
      split
      · rename_i hk
        obtain ⟨y1, y2, y3⟩ := hyk b!"added"
        have := hc hsc.2
        rw [hrip] at hk
        have hcnt := add_yakOnRecord (sh := sh) (ip := E.rip) (ttl := cf.yakTimeout) (now := i.now) (by omega)
        have hcnt' : yakOnRecord { sh with yak := (sh.yak.add s.trans.rip cf.yakTimeout i.now).2 } E.rip = (sh.yak.add s.trans.rip cf.yakTimeout i.now).1 := by
          rw [hrip]; exact hcnt.symm
        rw [hcnt']
        simp [logLines_append, logLines_writeLog, hl, hrip, logLines, l1, l3, l4, y1, y2, y3, writeLog]
      · simp [l1, l3, l4]
    · split <;> simp [l1, l3, l4]

theorem endStep_dn {cf : Conf} {E : Env} {s : Sess} {sh : Shared} {i : Inp} (hrip : s.trans.rip = E.rip) :
    dnLines (endStep cf E s sh i).2.2 = if cf.dnlog = true ∧ .count .yakads ∈ (endStep cf E s sh i).2.2 then
      [i.nowText ++ b!" [" ++ E.prefix_ ++ b!"] " ++ (if .count .yakforces ∈ (endStep cf E s sh i).2.2 then b!"force-set" else b!"added") ++
        b!" " ++ E.rip ++ b!" -> " ++ s.trans.laddr ++ b!"\n"] else [] := by
  generalize hlast : (if s.rulesgood = true ∧ (s.sesscounts = true ∨ cf.yakCount = 0) then
    [Out.count (if s.trans.lastresgood then Counter.abandons else .refuseds)] else []) = last
  have hL : dnLines last = [] ∧ Out.count .yakads ∉ last ∧ Out.count .yakforces ∉ last := by
    rw [← hlast]; split
    · split <;> simp [dnLines]
    · simp [dnLines]
  obtain ⟨l2, l3, l4⟩ := hL
  have hyk : ∀ w, Out.count .yakads ∉ yakLog cf E i s.trans w ∧ Out.count .yakforces ∉ yakLog cf E i s.trans w ∧
      dnLines (yakLog cf E i s.trans w) = if cf.dnlog then [i.nowText ++ b!" [" ++ E.prefix_ ++ b!"] " ++ w ++ b!" " ++ E.rip ++ b!" -> " ++ s.trans.laddr ++ b!"\n"] else [] := by
    intro w; unfold yakLog; rw [hrip]; cases cf.dnlog <;> simp [dnLines]
  have hw : ∀ x y, Out.count y ∉ writeLog s.trans x := by intro x y; unfold writeLog; split <;> simp
  unfold endStep
  simp only [hlast]
  split
  · simp only
    split
    · obtain ⟨y2, y3, y4⟩ := hyk b!"force-set"
      simp [dnLines_append, dnLines_writeLog, dnLines, l2, y4]
    · simp [l2, l3]
  · split
    · simp only
      split
      · obtain ⟨y2, y3, y4⟩ := hyk b!"added"
        simp [dnLines_append, dnLines_writeLog, dnLines, l2, l4, y3, y4, hw]
      · simp [l2, l3]
    · split <;> simp [l2, l3]

theorem tlsClientLog_lines (t : Trans) (st : TlsState) : (logLines (tlsClientLog t st)).length ≤ 1 ∧
    (t.hasLog = false → logLines (tlsClientLog t st) = []) := by
  unfold tlsClientLog; split
  · simp [logLines]
  · split <;> rw [logLines_writeLog] <;> cases t.hasLog <;> simp

theorem save_lines {cf : Conf} {E : Env} {s s' : Sess} {sh sh' : Shared} {i : Inp} {o : List Out} (h : sstep cf E s sh i = .ok (s', sh', o))
    {p : SavePc} {tgt rec_ id : Str} (hp : s.pc = .save p tgt rec_ id) : hitCounts o = [] ∧ logLines o = [] := by
  simp only [sstep, hp] at h
  cases p with
  | open_ =>
    simp only [openStep] at h
    split at h <;> cases h <;> exact ⟨rfl, rfl⟩
  | write =>
    simp only [writeStep] at h
    split at h <;> cases h <;> exact ⟨rfl, rfl⟩
  | sync =>
    simp only [syncStep] at h
    split at h <;> cases h <;> exact ⟨rfl, rfl⟩
  | close =>
    simp only [closeStep] at h
    split at h <;> cases h <;> exact ⟨rfl, rfl⟩

/-- **C66.** Exactly what each step adds to the log of its connection. -/
theorem C66_step {cf : Conf} {E : Env} {l : List Step} {s s' : Sess} (h : Life cf E l s) (hlog : cf.smtplog = true) (hst : s.stall = false)
    {sh sh' : Shared} {i : Inp} {o : List Out} (hs : sstep cf E s sh i = .ok (s', sh', o)) : StepSays E l ⟨s, i, sh, s', sh', o⟩ := by
  have hl : s.trans.hasLog = true := by rw [(life_logOK h).has, hlog, hst]; rfl
  have hrip := h.ok.rip
  have hdid := sstep_did hs
  cases hdid with
  | tls hp ht =>
    have ho := tlsStep_out ht
    refine .of_none (own := []) (by simp [Step.decided, hp]) ?_ ?_ (.of_pc (by rw [hp]; simp) (by rw [hp]; simp))
    all_goals rw [ho]; split <;> rfl
  | @drop s1 o1 o' res c1 hp hd hq hm ho =>
    have hst1 : s1.stall = false := hd.flags.1.trans hst
    have hl1 : s1.trans.hasLog = true := hd.logged.has.trans hl
    have hr1 : s1.trans.rip = E.rip := hd.rip.trans hrip
    rw [hst1, if_neg (by simp), hr1] at ho
    refine .of_decision h hl hd.logged rfl rfl rfl rfl rfl (by simp [Step.decided, hp]) (.dropped hp rfl) ?_ ?_
    · rw [logLines_append, ho, logLines_writeLog, if_pos hl1]
    · rw [hitCounts_append, ho, hitCounts_writeLog]; exact List.append_nil _
  | connect hp hd =>
    exact .of_decision h hl hd.logged rfl rfl rfl rfl rfl (by simp [Step.decided, hp]) (own := [])
      (.of_pc (by simp) (by rw [hp]; simp)) (by simp) rfl
  | heloRef hp he hd =>
    refine .of_decision h hl hd.logged rfl rfl rfl rfl rfl (by simp [Step.decided, hp, he]) (own := []) ?_ (by simp [logLines]) rfl
    have h1 : ¬ replies _ = [] := fun h => by have := hd.refused (by decide); rw [h] at this; simp at this
    refine .plain (by rw [hp]; simp) ?_ ?_ ?_
    · simp [Step.tlsSeen, Step.event, hp, he, Step.accepted, replies, h1]
    · rintro ⟨⟨a, ha⟩, _⟩; simp [Step.event, hp, he] at ha
    · simp [Step.ended, Step.event, hp, he]
  | mailRef hp he hd | rcptRef hp he hd | dataRef hp he hd =>
    exact .of_decision h hl hd.logged rfl rfl rfl rfl rfl (by simp [Step.decided, hp, he]) (own := [])
      (.of_open (by rw [hd.pc, hp]; simp) (by simp [Step.tlsSeen, Step.event, hp, he]) (by simp [Step.ended, Step.event, hp, he])) (by simp [logLines]) rfl
  | @heloAcc hh arg s1 o1 o' res c1 hp he hd hq hm ho =>
    have h1 := hd.none (.inr rfl)
    have h2 : replies o' = [] := hq
    have htl : s1.trans.tlson = s.trans.tlson := by
      obtain ⟨m, a, ht⟩ := hd.trans
      rw [ht]
    have hl1 : (s1.helod cf arg i.tls).trans.hasLog = true := hd.logged.has.trans hl
    have hacc : Step.accepted ⟨s, i, sh, s1.helod cf arg i.tls, sh, .count .ehlo :: o1 ++ o'⟩ = true := by
      simp [Step.accepted, he, replies, replies_append, h1, h2]
    have hseen : Step.tlsSeen ⟨s, i, sh, s1.helod cf arg i.tls, sh, .count .ehlo :: o1 ++ o'⟩ = decide (i.tls.on = true ∧ s1.trans.tlson = false) := by
      rw [htl]
      generalize hout : Out.count Counter.ehlo :: o1 ++ o' = out at hacc ⊢
      simp [Step.tlsSeen, Step.event, hp, he, hacc]
    refine .of_decision h hl hd.logged rfl rfl rfl rfl rfl (by simp [Step.decided, hp, he]) (own := logLines o') ?_ ?_ ?_
    · by_cases hon : i.tls.on = true ∧ s1.trans.tlson = false
      · rw [decide_eq_true hon] at hseen
        rw [if_pos hon] at ho
        have hlo : logLines o' = logLines (tlsClientLog (s1.helod cf arg i.tls).trans i.tls) := by rw [ho]; rfl
        rw [hlo]
        unfold tlsClientLog
        cases hpe : i.tls.peer with
        | none => exact .anonymous hseen hpe
        | some p =>
          cases hv : i.tls.tryVerify with
          | none => simp only [logLines_writeLog, if_pos hl1]; exact .verified hseen hpe hv
          | some e => simp only [logLines_writeLog, if_pos hl1]; exact .unverified hseen hpe hv
      · rw [decide_eq_false hon] at hseen
        rw [if_neg hon] at ho
        have hlo : logLines o' = [] := by rw [ho]; rfl
        rw [hlo]
        refine .plain (by rw [hp]; simp) hseen ?_ ?_
        · rintro ⟨⟨a, ha⟩, _⟩; simp [Step.event, hp, he] at ha
        · simp [Step.ended, Step.event, hp, he]
    · rw [logLines_append]; rfl
    · rw [hitCounts_append, ho]
      have : ∀ {p : Prop} [Decidable p] {x : List Out}, hitCounts x = [] → hitCounts (.count .ehloAccept :: if p then x else []) = [] := by
        intro p _ x hx
        split
        · exact hx
        · rfl
      rw [this (by simpa [hitCounts] using hitCounts_tlsClientLog _ _)]
      exact List.append_nil _
  | mailAcc hp he hd _ ho | mailCount hp he hd _ _ ho | rcptAcc hp he hd ho | dataAcc hp he hd ho =>
    exact .of_decision h hl hd.logged rfl rfl rfl rfl rfl (by simp [Step.decided, hp, he]) (own := [])
      (.of_open (by simp only [Sess.mailed, Sess.rcpted]; rw [hd.pc, hp]; simp) (by simp [Step.tlsSeen, Step.event, hp, he]) (by simp [Step.ended, Step.event, hp, he]))
      (by rw [logLines_append, ho]; rfl) (by rw [hitCounts_append, ho]; exact List.append_nil _)
  | @mailDrop arg s1 o1 o' res c1 hp he hd hn hk ho =>
    have hsent : sent (Out.count .mailfrom :: o1 ++ o') = [.tempfailMsg b!"Too many unsuccessful delivery attempts"] := by
      have hn : sent o1 = [] := by
        have := hd.none (.inr rfl)
        rw [replies_answers] at this
        exact List.map_eq_nil_iff.1 this
      have hw : ∀ t x, sent (writeLog t x) = [] := fun t x => by unfold writeLog; split <;> rfl
      rw [ho]
      simp only [sent_append, List.cons_append, List.nil_append, sent, hn, hw]
    have hl1 : s1.trans.hasLog = true := hd.logged.has.trans hl
    have hr1 : s1.trans.rip = E.rip := hd.rip.trans hrip
    have hpos : 0 < cf.yakCount := (h.ok.counts.1 (by rw [← hd.sc]; exact hn.2.2)).1
    rw [hr1] at ho hk
    rw [hr1]
    have hcnt := add_yakOnRecord (sh := sh) (ip := E.rip) (ttl := cf.yakTimeout) (now := i.now) (by omega)
    rw [hcnt] at ho
    have hr := Step.Remark.rsets (E := E) (st := ⟨s, i, sh, { s1 with pc := .closed },
      { sh with yak := (sh.yak.add E.rip cf.yakTimeout i.now).2 }, .count .mailfrom :: o1 ++ o'⟩) ⟨⟨arg, by simp [Step.event, hp, he]⟩, rfl, hsent⟩
    refine .of_decision h hl hd.logged rfl rfl rfl rfl rfl (by simp [Step.decided, hp, he]) hr ?_ ?_
    · rw [logLines_append, ho]
      simp only [List.cons_append, List.nil_append, logLines_append, logLines, logLines_writeLog, if_pos hl1, List.append_nil]
    · rw [hitCounts_append, ho]
      simp only [List.cons_append, List.nil_append, hitCounts_append, hitCounts, hitCounts_writeLog, List.append_nil]
  | gotKeep hp he _ ho | gotSave hp he _ _ ho =>
    refine .of_none (own := []) (by simp [Step.decided, hp, he]) ?_ ?_
      (.of_open (by simp [Sess.goto]) (by simp [Step.tlsSeen, Step.event, hp, he]) (by simp [Step.ended, Step.event, hp, he]))
    all_goals rw [ho]; simp only [hitCounts, logLines]; split <;> rfl
  | tlserror hp he =>
    exact .of_none (own := []) (by simp [Step.decided, hp, he]) rfl rfl
      (.of_open (by simp [hp]) (by simp [Step.tlsSeen, Step.event, hp, he]) (by simp [Step.ended, Step.event, hp, he]))
  | @finish x hp he =>
    have he' : ∀ o, Step.ended ⟨s, i, sh, { s with pc := .closed }, (endStep cf E s sh i).2.1, o⟩ = true := by
      intro o
      rcases he with ⟨he, _⟩ | ⟨he, _⟩ <;> simp [Step.ended, Step.event, hp, he]
    refine .of_none (by rcases he with ⟨he, _⟩ | ⟨he, _⟩ <;> simp [Step.decided, hp, he]) (endStep_lines cf E s sh i).1 rfl ?_
    have hx : ∀ y, (y = .yakads ∨ y = .yakforces) → (Out.count y ∈ Out.count x :: (endStep cf E s sh i).2.2 ↔ Out.count y ∈ (endStep cf E s sh i).2.2) := by
      intro y hy
      rw [List.mem_cons]
      refine or_iff_right ?_
      rcases he with ⟨_, rfl⟩ | ⟨_, rfl⟩ <;> rcases hy with rfl | rfl <;> simp
    obtain ⟨e1, e2, e3⟩ := endStep_remark (i := i) (sh := sh) hl hrip (fun hc => (h.ok.counts.1 hc).1)
    have hll : ∀ o, logLines (Out.count x :: o) = logLines o := fun _ => rfl
    by_cases hf : Out.count .yakforces ∈ (endStep cf E s sh i).2.2
    · rw [hll, e1 hf]
      exact .forced (he' _) ((hx _ (.inr rfl)).2 hf)
    · by_cases ha : Out.count .yakads ∈ (endStep cf E s sh i).2.2
      · rw [hll, e2 hf ha]
        exact .found (he' _) (fun hy => hf ((hx _ (.inr rfl)).1 hy)) ((hx _ (.inl rfl)).2 ha)
      · rw [hll, e3 ha]
        exact .unknown (he' _) (fun hy => ha ((hx _ (.inl rfl)).1 hy))
  | other hp he =>
    exact .of_none (own := []) (by simp [Step.decided, hp, he]) rfl rfl
      (.of_open (by simp [hp]) (by simp [Step.tlsSeen, Step.event, hp, he]) (by simp [Step.ended, Step.event, hp, he]))
  | save hp hss =>
    obtain ⟨e1, e2⟩ := save_lines hss hp
    exact .of_none (own := []) (by simp [Step.decided, hp]) e1 e2 (.of_pc (by rw [hp]; simp) (by rw [hp]; simp))
  | answerFail hp => exact .of_none (own := []) (by simp [Step.decided, hp]) rfl rfl (.of_pc (by rw [hp]; simp) (by rw [hp]; simp))
  | answerRef hp hd =>
    exact .of_decision h hl hd.logged rfl rfl rfl rfl rfl (by simp [Step.decided, hp]) (own := []) (.of_pc (by rw [hp]; simp) (by rw [hp]; simp))
      (by simp) rfl
  | answerAcc hp hd ho =>
    exact .of_decision h hl hd.logged rfl rfl rfl rfl rfl (by simp [Step.decided, hp]) (own := []) (.of_pc (by rw [hp]; simp) (by rw [hp]; simp))
      (by rw [logLines_append, ho]; rfl) (by rw [hitCounts_append, ho]; exact List.append_nil _)
  | closed hp => exact .of_none (own := []) (by simp [Step.decided, hp]) rfl rfl (.of_pc (by rw [hp]; simp) (by rw [hp]; simp))

/-- What a step adds to the log of do-nothing clients: one line when the end of the session makes its client one, naming the connection,
the client and the address it connected to. -/
theorem C66_dnlog {cf : Conf} {E : Env} {l : List Step} {s s' : Sess} (h : Life cf E l s)
    {sh sh' : Shared} {i : Inp} {o : List Out} (hs : sstep cf E s sh i = .ok (s', sh', o)) :
    dnLines o = if cf.dnlog = true ∧ Step.ended ⟨s, i, sh, s', sh', o⟩ = true ∧ .count .yakads ∈ o then
      [i.nowText ++ b!" [" ++ E.prefix_ ++ b!"] " ++ (if .count .yakforces ∈ o then b!"force-set" else b!"added") ++
        b!" " ++ E.rip ++ b!" -> " ++ E.laddr ++ b!"\n"] else [] := by
  have mild : ∀ {o : List Out}, Mild o → dnLines o = [] := by
    intro o ho
    induction o with
    | nil => rfl
    | cons x o ih =>
      have h1 := ho x (by simp)
      have h2 := ih (fun y hy => ho y (by simp [hy]))
      cases x <;> simp_all [dnLines, Out.mild]
  have quiet : ∀ {s' sh' o}, Step.ended ⟨s, i, sh, s', sh', o⟩ = false → dnLines o = [] → dnLines o = if cf.dnlog = true ∧
      Step.ended ⟨s, i, sh, s', sh', o⟩ = true ∧ .count .yakads ∈ o then
      [i.nowText ++ b!" [" ++ E.prefix_ ++ b!"] " ++ (if .count .yakforces ∈ o then b!"force-set" else b!"added") ++
        b!" " ++ E.rip ++ b!" -> " ++ E.laddr ++ b!"\n"] else [] := by
    intro s' sh' o h1 h2
    rw [h1, h2]; simp
  have hdid := sstep_did hs
  cases hdid with
  | tls hp ht _ hm => exact quiet (by simp [Step.ended, Step.event, hp]) (mild hm)
  | drop hp hd _ hm => exact quiet (by simp [Step.ended, Step.event, hp]) (mild (hd.mild.append hm))
  | connect hp hd => exact quiet (by simp [Step.ended, Step.event, hp]) (mild hd.mild)
  | heloRef hp he hd | mailRef hp he hd | rcptRef hp he hd | dataRef hp he hd =>
    exact quiet (by simp [Step.ended, Step.event, hp, he]) (by simpa [dnLines] using mild hd.mild)
  | heloAcc hp he hd _ hm => exact quiet (by simp [Step.ended, Step.event, hp, he]) (by rw [dnLines_append, mild hm]; simpa [dnLines] using mild hd.mild)
  | mailAcc hp he hd _ ho | mailCount hp he hd _ _ ho | rcptAcc hp he hd ho | dataAcc hp he hd ho =>
    exact quiet (by simp [Step.ended, Step.event, hp, he]) (by rw [dnLines_append, ho]; simpa [dnLines] using mild hd.mild)
  | mailDrop hp he hd _ _ ho =>
    exact quiet (by simp [Step.ended, Step.event, hp, he])
      (by rw [dnLines_append, ho, dnLines_append, dnLines_append, dnLines_writeLog]; simpa [dnLines] using mild hd.mild)
  | gotKeep hp he _ ho | gotSave hp he _ _ ho =>
    refine quiet (by simp [Step.ended, Step.event, hp, he]) ?_
    rw [ho]; simp only [dnLines]; split <;> rfl
  | tlserror hp he | other hp he => exact quiet (by simp [Step.ended, Step.event, hp, he]) rfl
  | @finish x hp he =>
    have he' : ∀ s' sh' o, Step.ended ⟨s, i, sh, s', sh', o⟩ = true := by
      intro s' sh' o
      rcases he with ⟨he, _⟩ | ⟨he, _⟩ <;> simp [Step.ended, Step.event, hp, he]
    have hx : ∀ y, (y = .yakads ∨ y = .yakforces) → (Out.count y ∈ Out.count x :: (endStep cf E s sh i).2.2 ↔ Out.count y ∈ (endStep cf E s sh i).2.2) := by
      intro y hy
      rw [List.mem_cons]
      refine or_iff_right ?_
      rcases he with ⟨_, rfl⟩ | ⟨_, rfl⟩ <;> rcases hy with rfl | rfl <;> simp
    have hll : ∀ o, dnLines (Out.count x :: o) = dnLines o := fun _ => rfl
    rw [hll, he']
    simp only [hx _ (.inl rfl), hx _ (.inr rfl), true_and]
    rw [endStep_dn h.ok.rip, (life_known h).laddr]
  | save hp _ _ _ hm => exact quiet (by simp [Step.ended, Step.event, hp]) (mild hm)
  | answerFail hp | closed hp => exact quiet (by simp [Step.ended, Step.event, hp]) rfl
  | answerRef hp hd => exact quiet (by simp [Step.ended, Step.event, hp]) (mild hd.mild)
  | answerAcc hp hd ho => exact quiet (by simp [Step.ended, Step.event, hp]) (by rw [dnLines_append, ho]; simpa [dnLines] using mild hd.mild)

/-- Without `-smtplog`, and for a stalled client, nothing is logged and no blocklist hit is counted. -/
theorem C66_off {cf : Conf} {E : Env} {l : List Step} {s s' : Sess} (h : Life cf E l s) (hoff : cf.smtplog = false ∨ s.stall = true)
    {sh sh' : Shared} {i : Inp} {o : List Out} (hs : sstep cf E s sh i = .ok (s', sh', o)) : logLines o = [] ∧ hitCounts o = [] := by
  have hl : s.trans.hasLog = false := by rw [(life_logOK h).has]; rcases hoff with h | h <;> simp [h]
  have off : ∀ {s0 s1 o1}, Logged E.W s0 s1 o1 → s0.trans.hasLog = s.trans.hasLog → logLines o1 = [] ∧ hitCounts o1 = [] ∧ s1.trans.hasLog = false :=
    fun hg he => ⟨(hg.off (he.trans hl)).1, (hg.off (he.trans hl)).2.1, hg.has.trans (he.trans hl)⟩
  have hw : ∀ {t : Trans} (x : Str), t.hasLog = false → writeLog t x = [] := fun x ht => by unfold writeLog; simp [ht]
  have hdid := sstep_did hs
  cases hdid with
  | tls hp ht => rw [tlsStep_out ht]; split <;> exact ⟨rfl, rfl⟩
  | drop hp hd hq hm ho =>
    obtain ⟨o1, o2, o3⟩ := off hd.logged rfl
    rw [logLines_append, hitCounts_append, o1, o2, ho, hw _ o3]
    simp [logLines, hitCounts]
  | connect hp hd => obtain ⟨o1, o2, o3⟩ := off hd.logged rfl; exact ⟨o1, o2⟩
  | heloRef hp he hd | mailRef hp he hd | rcptRef hp he hd | dataRef hp he hd =>
    obtain ⟨o1, o2, o3⟩ := off hd.logged rfl
    exact ⟨o1, o2⟩
  | @heloAcc hh arg s1 oa o' res c1 hp he hd hq hm ho =>
    obtain ⟨o1, o2, o3⟩ := off hd.logged rfl
    have h1 := (tlsClientLog_lines (s1.helod cf arg i.tls).trans i.tls).2 o3
    rw [logLines_append, hitCounts_append, ho]
    simp only [logLines, hitCounts, o1, o2, List.nil_append]
    split
    · simp only [List.cons_append, List.nil_append, logLines, hitCounts, h1, hitCounts_tlsClientLog]
      exact ⟨trivial, trivial⟩
    · exact ⟨rfl, rfl⟩
  | mailAcc hp he hd _ ho | mailCount hp he hd _ _ ho | rcptAcc hp he hd ho | dataAcc hp he hd ho =>
    obtain ⟨o1, o2, o3⟩ := off hd.logged rfl
    rw [logLines_append, hitCounts_append, ho]
    simp only [logLines, hitCounts, o1, o2, List.nil_append]
    exact ⟨trivial, trivial⟩
  | mailDrop hp he hd _ _ ho =>
    obtain ⟨o1, o2, o3⟩ := off hd.logged rfl
    rw [logLines_append, hitCounts_append, ho, hw _ o3]
    simp only [logLines, hitCounts, o1, o2, List.nil_append, List.cons_append]
    exact ⟨trivial, trivial⟩
  | gotKeep hp he _ ho | gotSave hp he _ _ ho => rw [ho]; simp only [logLines, hitCounts]; split <;> exact ⟨rfl, rfl⟩
  | tlserror hp he => exact ⟨rfl, rfl⟩
  | finish hp he => obtain ⟨e1, _, e3⟩ := endStep_lines cf E s sh i; exact ⟨e3 hl, e1⟩
  | other hp he => exact ⟨rfl, rfl⟩
  | save hp hss => exact ⟨(save_lines hss hp).2, (save_lines hss hp).1⟩
  | answerFail hp => exact ⟨rfl, rfl⟩
  | answerRef hp hd => obtain ⟨o1, o2, o3⟩ := off hd.logged rfl; exact ⟨o1, o2⟩
  | answerAcc hp hd ho =>
    obtain ⟨o1, o2, o3⟩ := off hd.logged rfl
    rw [logLines_append, hitCounts_append, ho, o1, o2]
    exact ⟨rfl, rfl⟩
  | closed hp => exact ⟨rfl, rfl⟩

theorem squeeze_snoc (l : List Str) (x : Str) : squeeze (l ++ [x]) = if l.getLast? = some x then squeeze l else squeeze l ++ [x] := by
  induction l with
  | nil => rfl
  | cons a l ih =>
    cases l with
    | nil =>
      show squeeze [a, x] = _
      simp only [squeeze, List.getLast?_singleton, Option.some.injEq]
      split
      · rename_i h; rw [h]
      · rfl
    | cons b l =>
      rw [List.getLast?_cons_cons]
      show squeeze (a :: b :: (l ++ [x])) = _
      rw [squeeze]
      have : b :: (l ++ [x]) = b :: l ++ [x] := rfl
      rw [this, ih, squeeze]
      split <;> split <;> rfl

namespace Spec
/-- Everything a session put out, in order. -/
def outs (l : List Step) : List Out := l.flatMap (·.out)
end Spec

/-- The blocklist hits counted in a connection are those of its decisions, each repetition counted once: `dnsblHits`. -/
theorem C66_counts {cf : Conf} {E : Env} {l : List Step} {s : Sess} (h : Life cf E l s) (hlog : cf.smtplog = true) (hst : s.stall = false) :
    ((hitCounts (outs l)).filterMap Sum.getLeft?).map (fun d => b!"! dnsbl hit: " ++ join b!" " d ++ b!"\n") = squeeze (l.filterMap hitLine) := by
  obtain ⟨sh, i, s0, sh0, o, hs0, hr⟩ := h
  have h0 : s0.stall = false := by rw [← (run_flags hr).1]; exact hst
  clear hst
  induction hr with
  | nil => rfl
  | @snoc l s1 s2 sh1 sh2 i1 o1 hr hs ih =>
    have hstall : s1.stall = false := by rw [(run_flags hr).1]; exact h0
    obtain ⟨sbl, -, -, -, hsays, -⟩ := C66_step ⟨_, _, _, _, _, hs0, hr⟩ hlog hstall hs
    have hright : (sbl.map (Sum.inr : List Str → List Str ⊕ List Str)).filterMap Sum.getLeft? = [] := by
      rw [List.filterMap_map]; exact List.filterMap_eq_nil_iff.2 fun _ _ => rfl
    have : outs (l ++ [⟨s1, i1, sh1, s2, sh2, o1⟩]) = outs l ++ o1 := by simp [outs]
    rw [this, hitCounts_append, List.filterMap_append, List.map_append, ih, List.filterMap_append]
    dsimp only at hsays
    rw [hsays]
    unfold fresh
    cases hh : hitLine ⟨s1, i1, sh1, s2, sh2, o1⟩ with
    | none => simp [hh]
    | some ln =>
      simp only [List.filterMap_cons, hh, List.filterMap_nil]
      rw [squeeze_snoc]
      have hln : ln = b!"! dnsbl hit: " ++ join b!" " s2.c.dnsblhit ++ b!"\n" := by
        unfold hitLine at hh
        split at hh <;> cases hh
        rfl
      by_cases hx : (l.filterMap hitLine).getLast? = some ln
      · rw [if_pos hx, if_neg (by rw [decide_eq_true_eq]; exact not_not_intro hx)]; exact List.append_nil _
      · rw [if_neg hx, if_pos (by rw [decide_eq_true_eq]; exact hx), hln]; rw [List.filterMap_cons, hright]; rfl

/-- The hits and the errors are those of the decision: the hits in alphabetical order, each of them once if the rules found them once. -/
theorem C66_hits {cf : Conf} {E : Env} {l : List Step} {s s' : Sess} (h : Life cf E l s) (hlog : cf.smtplog = true) (hst : s.stall = false)
    {sh sh' : Shared} {i : Inp} {o : List Out} (hs : sstep cf E s sh i = .ok (s', sh', o))
    (hdd : Step.decided ⟨s, i, sh, s', sh', o⟩ = true) :
    ∃ ph evt sd res c1, (sd = s ∨ sd = s.withRdns E) ∧ Decide E.W sd.trans.r ph evt sd.c = .ok (res, c1) ∧
      s'.c.dnsblhit.Perm c1.dnsblhit ∧ Ascending s'.c.dnsblhit ∧ s'.c.domerr = c1.domerr ∧ s'.c.withprops.note = c1.withprops.note := by
  have hl : s.trans.hasLog = true := by rw [(life_logOK h).has, hlog, hst]; rfl
  have sorted : ∀ {W t t' c c' o}, logDnsbls W t c = .ok (t', c', o) → t.hasLog = true → c'.dnsblhit = sortStrs c.dnsblhit := by
    intro W t t' c c' o h ht
    unfold logDnsbls at h
    split at h
    · rename_i h0
      cases h
      have : c.dnsblhit = [] := by
        rcases h0 with h0 | h0
        · exact List.length_eq_zero_iff.1 h0
        · rw [ht] at h0; cases h0
      rw [this]; rfl
    · simp only at h
      split at h
      · cases h; rfl
      · split at h
        · cases h
        · cases h; rfl
  have dec : ∀ {ph evt id sd ref s1 o1 res c1}, DecR E ph evt id sd ref s1 o1 res c1 → (sd = s ∨ sd = s.withRdns E) → ∀ s2 : Sess, s2.c = s1.c →
      ∃ ph evt sd res c1, (sd = s ∨ sd = s.withRdns E) ∧ Decide E.W sd.trans.r ph evt sd.c = .ok (res, c1) ∧
      s2.c.dnsblhit.Perm c1.dnsblhit ∧ Ascending s2.c.dnsblhit ∧ s2.c.domerr = c1.domerr ∧ s2.c.withprops.note = c1.withprops.note := by
    intro ph evt id sd ref s1 o1 res c1 hdec hsd s2 hc
    obtain ⟨t1, o1, o3, h1, _⟩ := hdec.said
    have hsl : sd.trans.hasLog = true := by rcases hsd with rfl | rfl <;> exact hl
    have hso := sorted h1 hsl
    obtain ⟨d, tr, hctx⟩ := hdec.ctx
    refine ⟨_, _, _, _, _, hsd, hdec.dec, ?_, ?_, ?_, ?_⟩
    · rw [hc, hso]; exact sortStrs_perm _
    · rw [hc, hso]; exact sortStrs_sorted _
    · rw [hc, hctx]
    · rw [hc, hctx]
  have hdid := sstep_did hs
  cases hdid with
  | drop hp hd | connect hp hd => exact dec hd (.inr rfl) _ rfl
  | heloRef hp he hd | mailRef hp he hd | rcptRef hp he hd | dataRef hp he hd => exact dec hd (.inl rfl) _ rfl
  | heloAcc hp he hd | mailAcc hp he hd | mailCount hp he hd | mailDrop hp he hd | rcptAcc hp he hd | dataAcc hp he hd =>
    exact dec hd (.inl rfl) _ rfl
  | answerRef hp hd | answerAcc hp hd => exact dec hd (.inl rfl) _ rfl
  | tls hp | answerFail hp | closed hp | save hp => simp [Step.decided, hp] at hdd
  | gotKeep hp he | gotSave hp he | tlserror hp he | other hp he => simp [Step.decided, hp, he] at hdd
  | finish hp he => rcases he with ⟨he, _⟩ | ⟨he, _⟩ <;> simp [Step.decided, hp, he] at hdd

/-- Setting up a connection logs nothing in the SMTP log.  A stalled client gets one line in the log of `-dnlog`. -/
theorem C66_start {cf : Conf} {E : Env} {sh sh' : Shared} {i : Inp} {s : Sess} {o : List Out} (h : startSess cf E sh i = .ok (s, sh', o)) :
    logLines o = [] ∧ hitCounts o = [] ∧
    o.filterMap (fun x => match x with | .dnlog m => some m | _ => none) =
      if s.stall = true ∧ cf.dnlog = true then
        [i.nowText ++ b!" [" ++ E.prefix_ ++ b!"] connection " ++ E.rip ++ b!" -> " ++ E.laddr ++ b!"\n"] else [] := by
  have hp : ∀ n t, logLines (connParams cf E n t).2.2.2 = [] ∧ hitCounts (connParams cf E n t).2.2.2 = [] ∧
      (connParams cf E n t).2.2.2.filterMap (fun x => match x with | .dnlog m => some m | _ => none) = [] := by
    intro n t
    unfold connParams
    repeat' split
    all_goals exact ⟨rfl, rfl, rfl⟩
  unfold startSess at h
  simp only [bind, Except.bind, pure, Except.pure] at h
  split at h
  · cases h
  · split at h
    · cases h
    · cases h
      simp only [logLines_append, hitCounts_append, List.filterMap_append, hp, List.append_nil]
      rename_i r _ _ _ _
      obtain ⟨rules, good, w⟩ := r
      cases w <;> cases hst : decide (cf.yakCount > 0 ∧ (sh.yak.lookup E.rip cf.yakTimeout i.now).1.1 = true ∧
        (sh.yak.lookup E.rip cf.yakTimeout i.now).1.2 ≥ cf.yakCount ∧ cf.smtplog = true) <;> cases hd : cf.dnlog <;> simp [logLines, hitCounts, yakLog, hd]

/-- A client on the SBL. -/
def demoListed : Env := { demoEnv with
  W := { demoWorld with
    lookupIP := fun n x => if x = b!"2.2.0.192.sbl.spamhaus.org." then .ok [.v4 0x7f000002#32] else demoWorld.lookupIP n x
    lookupTXT := fun _ x => if x = b!"2.2.0.192.sbl.spamhaus.org." then .ok [b!"https://www.spamhaus.org/sbl/query/SBL9", b!"see", b!"q/SBL10"]
      else .error (demoErr false) }
  fs := fun _ => tbl (.notExist b!"no such file") [
    (b!"/rules", .data b!"reject to bad@ dnsbl sbl.spamhaus.org.\nreject from-has unknown\nset-with to x@ with note \"odd\"\n")] }

set_option synthInstance.maxSize 1024 in
/-- An error and a hit are reported once, until there is another one; a note is logged each time. -/
example : seen (fun l _ _ => (l.drop 2).map fun st => (logLines st.out, hitCounts st.out)) (driveAll { demoConf with smtplog := true } demoListed {} {} (events
    [.helo false b!"example.com", .mailfrom b!"a@nowhere.org", .mailfrom b!"a@nowhere.org", .mailfrom b!"a@example.com", .rcptto b!"bad@example.com",
     .rcptto b!"x@example.com", .rcptto b!"bad@example.com", .rcptto b!"x@example.com", .mailfrom b!"a@nowhere.net", .done])) =
    .ok [([], []), ([b!"! domain nowhere.org: lookup: no such host\n"], []), ([], []), ([], []),
      ([b!"! dnsbl hit: sbl.spamhaus.org.\n", b!"! SBL records: SBL10 SBL9\n"], [.inl [b!"sbl.spamhaus.org."], .inr [b!"SBL10", b!"SBL9"]]),
      ([b!"! rule note: odd\n"], []), ([], []), ([b!"! rule note: odd\n"], []), ([b!"! domain nowhere.net: lookup: no such host\n"], []), ([], [])] := by
  decide +kernel

/-- A client that does nothing is reported when its session ends; one that goes too far with RSET is reported then. -/
example : seen (fun l _ _ => (logLines (outs l), dnLines (outs l))) (driveAll { demoConf with smtplog := true, dnlog := true, yakCount := 1, yakTimeout := 10, minphase := b!"to" }
    demoListed {} { nowText := b!"T" } ((events [.helo false b!"example.com", .abort]).map ({ · with nowText := b!"T" }))) =
    .ok ([b!"! 192.0.2.2 added as a yakker at hit 1\n"], [b!"T [7/1] added 192.0.2.2 -> 192.0.2.9:25\n"]) := by decide +kernel
example : seen (fun l _ _ => (logLines (outs l), dnLines (outs l))) (driveAll { demoConf with smtplog := true, dnlog := true, yakCount := 1, yakTimeout := 10, minphase := b!"to" }
    demoListed {} {} (events [.helo false b!"example.com", .mailfrom b!"a@example.com", .mailfrom b!"a@example.com", .mailfrom b!"a@example.com"])) =
    .ok ([b!"! 192.0.2.2 added as a yakker at hit 2 due to RSET\n"], []) := by decide +kernel

set_option synthInstance.maxSize 1024 in
/-- The same client when it is stalled as a do-nothing client. -/
example : seen (fun l s _ => (s.stall, logLines (outs l), hitCounts (outs l))) (driveAll { demoConf with smtplog := true, yakCount := 1, yakTimeout := 10 }
    demoListed { yak := (({} : IpMap).set b!"192.0.2.2" 10 1 0).2 } {} (events [.helo false b!"example.com", .abort])) = .ok (true, [], []) := by
  decide +kernel
example : (startSess { demoConf with smtplog := true, dnlog := true, yakCount := 1, yakTimeout := 10 } demoListed
    { yak := (({} : IpMap).set b!"192.0.2.2" 10 1 0).2 } { nowText := b!"T" }).toOption.map (fun r => r.2.2) =
    some [.loccount b!"192.0.2.9:25", .count .yakkers, .dnlog b!"T [7/1] connection 192.0.2.2 -> 192.0.2.9:25\n"] := by decide +kernel

end Sink
