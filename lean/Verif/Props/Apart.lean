import Verif.Props.Logger
import Verif.Props.Logs
import Verif.Props.Accept
import Verif.Props.HostPort
import Verif.Spec.Match

/-!
# C99: the SMTP log can be taken apart into conversations
-/

namespace Sink
open Spec

/-- The byte is a decimal digit. -/
def Spec.isDigit (c : UInt8) : Bool := decide (48 ≤ c ∧ c ≤ 57)

/-- What a line of the log says after `id`, if it begins with `id` and no digit comes next. -/
def Spec.belongs (id line : Str) : Option Str :=
  if id.isPrefixOf line && !((line.drop id.length).head?.any isDigit) then some (line.drop id.length) else none

/-- The record is one line and does not begin with a digit. -/
def Spec.ProperRecord (r : Str) : Prop := ∃ x, r = x ++ b!"\n" ∧ c!"\n" ∉ x ∧ x.head?.any isDigit = false

/-- The records of connection `k` in a history (newest first), oldest first. -/
def Spec.recordsOf (k : Nat) (h : List LogHap) : List Str := (h.reverse.filter fun e => e.k = k).map (·.rec_)

theorem dec_inj {m n : Nat} (h : decDigits m = decDigits n) : m = n := by
  have h1 := (decDigitsN_number (m + 1) m (Nat.lt_succ_self m)).2.1
  have h2 := (decDigitsN_number (n + 1) n (Nat.lt_succ_self n)).2.1
  unfold decDigits at h
  rw [h, h2] at h1
  exact h1.symm

theorem dec_digit {n : Nat} {c : UInt8} (h : c ∈ decDigits n) : isDigit c = true := by
  have := (digits_dec n).2 c h
  simp [isDigit, this]

theorem dec_ne (n : Nat) : decDigits n ≠ [] := (digits_dec n).1

/-- Two runs of digits, each followed by something else. -/
theorem digits_apart {a b x y : Str} (ha : ∀ c ∈ a, isDigit c = true) (hb : ∀ c ∈ b, isDigit c = true) (hx : x.head?.any isDigit = false)
    (hy : y.head?.any isDigit = false) (h : a ++ x = b ++ y) : a = b ∧ x = y := by
  induction a generalizing b with
  | nil =>
    cases b with
    | nil => exact ⟨rfl, h⟩
    | cons c b =>
      rw [List.nil_append] at h
      rw [h] at hx
      simp [hb c (by simp)] at hx
  | cons c a ih =>
    cases b with
    | nil =>
      rw [List.nil_append] at h
      rw [← h] at hy
      simp [ha c (by simp)] at hy
    | cons d b =>
      injection h with h1 h2
      obtain ⟨k1, k2⟩ := ih (fun c hc => ha c (by simp [hc])) (fun c hc => hb c (by simp [hc])) h2
      exact ⟨by rw [h1, k1], k2⟩

/-- Different connections have different prefixes, and so do different processes. -/
theorem C99_distinct {p p' k k' : Nat} (h : convId p k = convId p' k') : p = p' ∧ k = k' := by
  unfold convId at h
  rw [List.append_assoc, List.append_assoc] at h
  obtain ⟨h1, h2⟩ := digits_apart (fun c hc => dec_digit hc) (fun c hc => dec_digit hc) rfl rfl h
  exact ⟨dec_inj h1, dec_inj (List.append_cancel_left h2)⟩

theorem convId_line (p k : Nat) : c!"\n" ∉ convId p k := by
  have hd : ∀ n, c!"\n" ∉ decDigits n := fun n h => absurd (dec_digit h) (by decide)
  simp [convId, hd]

/-- A line of connection `j` belongs to it and to no other. -/
theorem belongs_line {p k j : Nat} {x : Str} (hx : x.head?.any isDigit = false) : belongs (convId p k) (convId p j ++ x) = if j = k then some x else none := by
  unfold belongs
  by_cases hjk : j = k
  · subst hjk
    rw [if_pos rfl, List.drop_left, hx]
    simp [List.isPrefixOf_iff_prefix]
  · rw [if_neg hjk]
    by_cases hp : convId p k <+: convId p j ++ x
    · obtain ⟨y, hy⟩ := hp
      rw [← hy, List.drop_left]
      have : y.head?.any isDigit = true := by
        by_contra hc
        have hc : y.head?.any isDigit = false := by simpa using hc
        unfold convId at hy
        rw [List.append_assoc, List.append_assoc, List.append_assoc, List.append_assoc] at hy
        have hy := List.append_cancel_left (List.append_cancel_left hy)
        exact hjk (dec_inj (digits_apart (fun c hc => dec_digit hc) (fun c hc => dec_digit hc) hc hx hy).1).symm
      simp [this]
    · rw [if_neg]
      simp [List.isPrefixOf_iff_prefix, hp]

theorem text_flatten {ls ms : List Str} {r : Str} (h : (ls.map (· ++ b!"\n")).flatten ++ r = (ms.map (· ++ b!"\n")).flatten) (hl : ∀ l ∈ ls, c!"\n" ∉ l)
    (hm : ∀ m ∈ ms, c!"\n" ∉ m) (hr : c!"\n" ∉ r) : ls = ms ∧ r = [] := by
  have cut : ∀ {a b s t : Str}, c!"\n" ∉ a → c!"\n" ∉ b → a ++ c!"\n" :: s = b ++ c!"\n" :: t → a = b ∧ s = t := by
    intro a b s t ha hb h
    induction a generalizing b with
    | nil =>
      cases b with
      | nil => injection h with _ h; exact ⟨rfl, h⟩
      | cons d b => injection h with h _; exact absurd (h ▸ List.mem_cons_self) hb
    | cons c a ih =>
      cases b with
      | nil => injection h with h _; exact absurd (h ▸ List.mem_cons_self) ha
      | cons d b =>
        injection h with h1 h2
        obtain ⟨k1, k2⟩ := ih (fun h => ha (by simp [h])) (fun h => hb (by simp [h])) h2
        exact ⟨by rw [h1, k1], k2⟩
  induction ls generalizing ms with
  | nil =>
    cases ms with
    | nil => exact ⟨rfl, by simpa using h⟩
    | cons m ms =>
      exfalso
      apply hr
      simp only [List.map_nil, List.flatten_nil, List.nil_append, List.map_cons, List.flatten_cons] at h
      rw [h]
      simp
  | cons l ls ih =>
    cases ms with
    | nil => simp at h
    | cons m ms =>
      simp only [List.map_cons, List.flatten_cons, List.append_assoc, List.cons_append, List.nil_append] at h
      obtain ⟨h1, h2⟩ := cut (hl l (by simp)) (hm m (by simp)) h
      obtain ⟨h3, h4⟩ := ih h2 (fun x hx => hl x (by simp [hx])) (fun x hx => hm x (by simp [hx]))
      exact ⟨by rw [h1, h3], h4⟩

/-- **C99.** Any number of conversations are logged to one file, in any interleaving, and every record is a line that does not begin with a
digit.  Then the lines that begin with the prefix of a connection (and no further digit) are exactly its records, in order. -/
theorem C99_apart {p : Nat} {h : List LogHap} {ls : Nat → Logger} (hr : LogRuns (convId p) h ls) (hok : ∀ e ∈ h, e.ok = true)
    (hrec : ∀ e ∈ h, ProperRecord e.rec_) {lines : List Str} {rest : Str} (ht : Text (logFile h) lines rest) (k : Nat) :
    rest = [] ∧ (lines.filterMap (belongs (convId p k))).map (· ++ b!"\n") = recordsOf k h := by
  have hne : ∀ k, convId p k ≠ [] := fun k => by simp [convId]
  rw [C58_file hne hr hok] at ht
  obtain ⟨h1, h2, h3⟩ := ht
  unfold recordsOf
  have hrec' : ∀ e ∈ h.reverse, ProperRecord e.rec_ := fun e he => hrec e (by simpa using he)
  generalize h.reverse = g at h1 hrec' ⊢
  have hb : ∀ e ∈ g, e.rec_ = e.rec_.dropLast ++ b!"\n" ∧ c!"\n" ∉ e.rec_.dropLast ∧ e.rec_.dropLast.head?.any isDigit = false := by
    intro e he
    obtain ⟨x, hx, h4, h5⟩ := hrec' e he
    rw [hx]
    simp only [List.dropLast_concat, true_and]
    exact ⟨h4, h5⟩
  have e1 : (g.map fun e => convId p e.k ++ e.rec_) = (g.map fun e => convId p e.k ++ e.rec_.dropLast).map (· ++ b!"\n") := by
    rw [List.map_map]
    refine List.map_congr_left fun e he => ?_
    simp only [Function.comp]
    rw [List.append_assoc, ← (hb e he).1]
  rw [e1] at h1
  obtain ⟨rfl, rfl⟩ := text_flatten h1.symm h2 (by
    intro m hm
    obtain ⟨e, he, rfl⟩ := List.mem_map.1 hm
    simp only [List.mem_append, not_or]
    exact ⟨convId_line _ _, (hb e he).2.1⟩) h3
  refine ⟨rfl, ?_⟩
  clear h1 h2 h3 e1 hrec' 
  induction g with
  | nil => rfl
  | cons e g ih =>
    have ih := ih fun e he => hb e (by simp [he])
    rw [List.map_cons, List.filterMap_cons, belongs_line (hb e (by simp)).2.2]
    by_cases hk : e.k = k
    · rw [if_pos hk, List.filter_cons_of_pos (by simpa using hk)]
      simp only [List.map_cons]
      rw [ih, ← (hb e (by simp)).1]
    · rw [if_neg hk, List.filter_cons_of_neg (by simpa using hk)]
      exact ih

/-- C99: the numbers `main` gives to connections make their prefixes different. -/
theorem C99_numbers {sc : StatConf} {l : List FrontObs} {s : Front} (h : Front.Runs sc l s) (p : Nat) :
    ((started l).map fun x => convId p x.1).Nodup := by
  have : (started l).map (fun x => convId p x.1) = ((started l).map (·.1)).map (convId p) := by simp
  rw [this, (C69_numbers h).1]
  exact List.Pairwise.map _ (fun a b hne h => hne (C99_distinct h).2) List.nodup_range'

/-- The texts that get into the log are single lines: the address of the client, the time, the names of blocklists, what is said about a domain,
the note of a rule (C08 has this for every rule), the SBL records and what is said about certificates. -/
structure Spec.PlainTexts (E : Env) (st : Step) : Prop where
  rip : OneLine E.rip
  now : OneLine st.i.nowText
  hits : ∀ n ∈ st.post.c.dnsblhit, OneLine n
  domerr : ∀ e, st.post.c.domerr = some e → OneLine e
  note : OneLine (st.post.c.withprops.note.getD [])
  txt : ∀ n nm txts, E.W.lookupTXT n nm = .ok txts → ∀ x ∈ txts, OneLine x
  name : ∀ p, st.i.tls.peer = some p → OneLine (tlsName p)
  trouble : ∀ e, st.i.tls.tryVerify = some e → OneLine e

theorem join_line {sep : Str} (hs : OneLine sep) : ∀ {ls : List Str}, (∀ l ∈ ls, OneLine l) → OneLine (join sep ls)
  | [], _ => by unfold join OneLine; simp
  | [a], h => by unfold join; exact h a (by simp)
  | a :: b :: ls, h => by
    have := join_line hs (ls := b :: ls) fun l hl => h l (by simp [List.mem_cons.1 hl])
    unfold join
    unfold OneLine at *
    simp [h a (by simp), hs, this]

theorem decInt_line (n : Int) : OneLine (decInt n) := by
  have := oneLine_decDigits n.natAbs
  unfold decInt OneLine at *
  split <;> simp [this]

/-- C99: what the server itself puts into the log begins with `! ` and ends with a newline; it is one line if the texts in it are. -/
theorem C99_own {cf : Conf} {E : Env} {l : List Step} {s s' : Sess} (h : Life cf E l s)
    {sh sh' : Shared} {i : Inp} {o : List Out} (hs : sstep cf E s sh i = .ok (s', sh', o)) :
    ∀ r ∈ logLines o, (∃ x, r = b!"! " ++ x ++ b!"\n") ∧ (PlainTexts E ⟨s, i, sh, s', sh', o⟩ → ProperRecord r) := by
  have key : ∀ {P : Prop} {r : Str} (x : Str), r = b!"! " ++ x ++ b!"\n" → (P → OneLine x) →
      (∃ x, r = b!"! " ++ x ++ b!"\n") ∧ (P → ProperRecord r) := by
    rintro P r x rfl hx
    exact ⟨⟨x, rfl⟩, fun hp => ⟨b!"! " ++ x, rfl, by simpa [OneLine] using hx hp, rfl⟩⟩
  intro r hr
  by_cases hoff : cf.smtplog = false ∨ s.stall = true
  · rw [(C66_off h hoff hs).1] at hr; cases hr
  simp only [not_or, Bool.not_eq_false, Bool.not_eq_true] at hoff
  obtain ⟨sbl, own, h1, h2, -, h3⟩ := C66_step h hoff.1 hoff.2 hs
  rw [h3] at hr
  simp only [List.mem_append] at hr
  rcases hr with ((hr | hr) | hr) | hr
  · split at hr
    · rename_i hf
      rcases List.mem_append.1 hr with hr | hr
      · simp only [Option.mem_toList, hitLine] at hr
        split at hr
        · cases hr
          refine key (b!"dnsbl hit: " ++ join b!" " s'.c.dnsblhit) (by simp) fun hp => ?_
          have := join_line (sep := b!" ") (by unfold OneLine; decide) hp.hits
          unfold OneLine at *
          simpa using this
        · cases hr
      · obtain ⟨recs, hrec, rfl⟩ := List.mem_map.1 hr
        obtain ⟨n, nm, txts, -, k2, ⟨-, rs, k3, k4⟩, -⟩ := (h1 hf).found recs hrec
        refine key (b!"SBL records: " ++ join b!" " recs) (by simp [sblLine]) fun hp => ?_
        have := join_line (sep := b!" ") (by unfold OneLine; decide) (ls := recs) fun x hx => by
          obtain ⟨txt, ht, p, rfl⟩ := TxtRecords.from k3 x (k4.mem_iff.1 hx)
          have := hp.txt n nm txts k2 _ ht
          unfold OneLine at *
          intro hc
          exact this (by simp [hc])
        unfold OneLine at *
        simpa using this
    · cases hr
  · split at hr
    · simp only [Option.mem_toList, errLine] at hr
      split at hr
      · simp only [Option.map_eq_some_iff] at hr
        obtain ⟨e, he, rfl⟩ := hr
        exact key e rfl fun hp => hp.domerr e he
      · cases hr
    · cases hr
  · unfold noteLines at hr
    split at hr
    · rw [List.mem_singleton.1 hr]
      refine key (b!"rule note: " ++ s'.c.withprops.note.getD []) (by simp) fun hp => ?_
      have := hp.note
      unfold OneLine at *
      simpa using this
    · cases hr
  · cases h2 with
    | dropped _ _ =>
      rw [List.mem_singleton.1 hr]
      refine key (E.rip ++ b!" dropped on connect due to rule at " ++ i.nowText) (by simp) fun hp => ?_
      have h1 := hp.rip
      have h2 := hp.now
      unfold OneLine at *
      simp only [List.mem_append, not_or]
      exact ⟨⟨h1, by decide⟩, h2⟩
    | @verified p _ hpeer _ =>
      rw [List.mem_singleton.1 hr]
      refine key (b!"TLS client certificate for '" ++ tlsName p ++ b!"' verifies.") (by simp) fun hp => ?_
      have h1 := hp.name p hpeer
      unfold OneLine at *
      simp only [List.mem_append, not_or]
      exact ⟨⟨by decide, h1⟩, by decide⟩
    | @unverified p e _ hpeer hv =>
      rw [List.mem_singleton.1 hr]
      refine key (b!"TLS client certificate for '" ++ tlsName p ++ b!"' doesn't verify: " ++ e) (by simp) fun hp => ?_
      have h1 := hp.name p hpeer
      have h2 := hp.trouble e hv
      unfold OneLine at *
      simp only [List.mem_append, not_or]
      exact ⟨⟨⟨by decide, h1⟩, by decide⟩, h2⟩
    | rsets _ =>
      rw [List.mem_singleton.1 hr]
      refine key (E.rip ++ b!" added as a yakker at hit " ++ decInt (yakOnRecord sh' E.rip) ++ b!" due to RSET") (by simp) fun hp => ?_
      have h1 := hp.rip
      have h2 := decInt_line (yakOnRecord sh' E.rip)
      unfold OneLine at *
      simp only [List.mem_append, not_or]
      exact ⟨⟨⟨h1, by decide⟩, h2⟩, by decide⟩
    | forced _ _ =>
      rw [List.mem_singleton.1 hr]
      refine key (E.rip ++ b!" forced to be a yakker") (by simp) fun hp => ?_
      have h1 := hp.rip
      unfold OneLine at *
      simp only [List.mem_append, not_or]
      exact ⟨h1, by decide⟩
    | found _ _ _ =>
      rw [List.mem_singleton.1 hr]
      refine key (E.rip ++ b!" added as a yakker at hit " ++ decInt (yakOnRecord sh' E.rip)) (by simp) fun hp => ?_
      have h1 := hp.rip
      have h2 := decInt_line (yakOnRecord sh' E.rip)
      unfold OneLine at *
      simp only [List.mem_append, not_or]
      exact ⟨⟨h1, by decide⟩, h2⟩
    | anonymous _ _ => cases hr
    | unknown _ _ => cases hr
    | plain _ _ _ _ => cases hr

/-- Two conversations in one file: number 1 is not mistaken for number 12. -/
example : (convId 42 1, convId 42 12) = (b!"42/1", b!"42/12") := by decide +kernel

example : [b!"42/1! hello", b!"42/12! there", b!"42/1! again"].filterMap (belongs (convId 42 1)) = [b!"! hello", b!"! again"] := by decide +kernel

/-- Such a history. -/
example : ∃ h ls, LogRuns (convId 42) h ls ∧ (∀ e ∈ h, e.ok = true) ∧ recordsOf 1 h = [b!"! a\n", b!"! c\n"] ∧
    logFile h = b!"42/1! a\n42/12! b\n42/1! c\n" :=
  ⟨_, _, .write (k := 1) (b := b!"! c\n") (O := fun _ => .ok) (.write (k := 12) (b := b!"! b\n") (O := fun _ => .ok)
    (.write (k := 1) (b := b!"! a\n") (O := fun _ => .ok) .init rfl) rfl) rfl, by decide +kernel, by decide +kernel, by decide +kernel⟩

/-- That no record begins with a digit is needed: this one could be of connection 1 or 12. -/
example : convId 42 1 ++ b!"2! x\n" = convId 42 12 ++ b!"! x\n" := by decide +kernel

end Sink
