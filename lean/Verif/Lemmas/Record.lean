import Verif.Lemmas.SessionInv
import Verif.Spec.Record
import Mathlib.Data.List.Induction

/-!
# Lemmas about records
-/

namespace Sink
open Spec

instance (s : Str) : Decidable (OneLine s) := by unfold OneLine; infer_instance

theorem oneLine_append {a b : Str} : OneLine (a ++ b) ↔ OneLine a ∧ OneLine b := by
  simp only [OneLine, List.mem_append, not_or]

theorem oneLine_nil : OneLine [] := by simp [OneLine]

theorem oneLine_flatMap {α : Type} {l : List α} {f : α → Str} (h : ∀ x ∈ l, OneLine (f x)) : OneLine (l.flatMap f) := by
  simp only [OneLine, List.mem_flatMap, not_exists, not_and]
  exact h

theorem digit_ne_nl : ∀ n : Nat, (48 + UInt8.ofNat (n % 10)) ≠ c!"\n" := by
  intro n
  have h : ∀ m : Nat, m < 10 → (48 + UInt8.ofNat m) ≠ c!"\n" := by decide
  exact h _ (Nat.mod_lt _ (by decide))

theorem oneLine_decDigitsN : ∀ k n, OneLine (decDigitsN k n) := by
  intro k
  induction k with
  | zero => intro n; simp [decDigitsN, OneLine]
  | succ k ih =>
    intro n
    rw [decDigitsN]
    split
    · rename_i hn
      have := digit_ne_nl n
      rw [Nat.mod_eq_of_lt hn] at this
      simp only [OneLine, List.mem_singleton]
      exact fun h => this h.symm
    · rw [oneLine_append]
      refine ⟨ih _, ?_⟩
      simp only [OneLine, List.mem_singleton]
      exact fun h => digit_ne_nl n h.symm

theorem oneLine_decDigits (n : Nat) : OneLine (decDigits n) := oneLine_decDigitsN _ _

theorem hexDigit_ne_nl : ∀ n : Nat, hexDigit (n % 16) ≠ c!"\n" := by
  intro n
  have h : ∀ m : Nat, m < 16 → hexDigit m ≠ c!"\n" := by decide
  exact h _ (Nat.mod_lt _ (by decide))

theorem oneLine_hex4 (v : UInt16) : OneLine (hex4 v) := by
  simp only [hex4, OneLine, List.mem_cons, List.not_mem_nil, or_false, not_or]
  exact ⟨fun h => hexDigit_ne_nl _ h.symm, fun h => hexDigit_ne_nl _ h.symm, fun h => hexDigit_ne_nl _ h.symm, fun h => hexDigit_ne_nl _ h.symm⟩

theorem oneLine_proto (v : UInt16) : OneLine (tlsProtoVersion v) := by
  unfold tlsProtoVersion
  split; · decide
  split; · decide
  split; · decide
  split; · decide
  split; · decide
  rw [oneLine_append]
  exact ⟨by decide, oneLine_hex4 v⟩

theorem cipherNames_oneLine : ∀ p ∈ cipherNames, OneLine p.2 := by decide +kernel

theorem lookup_mem {α β : Type} [BEq α] [LawfulBEq α] {l : List (α × β)} {a : α} {b : β} (h : l.lookup a = some b) : (a, b) ∈ l := by
  induction l with
  | nil => cases h
  | cons p l ih =>
    obtain ⟨x, y⟩ := p
    rw [List.lookup_cons] at h
    split at h
    · rename_i hx
      cases h
      rw [beq_iff_eq] at hx
      rw [hx]; exact List.mem_cons_self
    · exact List.mem_cons_of_mem _ (ih h)

/-- All of a record but the message is lines. -/
structure CleanTrans (t : Trans) : Prop where
  raddr : OneLine t.raddr
  laddr : OneLine t.laddr
  rip : OneLine t.rip
  helo : OneLine t.heloname
  from_ : OneLine t.from_
  rcpt : ∀ a ∈ t.rcptto, OneLine a
  hash : OneLine t.hash
  bodyhash : OneLine t.bodyhash
  when_ : OneLine t.when_

structure CleanNames (t : Trans) : Prop where
  verified : ∀ n ∈ t.rdns.verified, OneLine n
  nofwd : ∀ n ∈ t.rdns.nofwd, OneLine n
  inconsist : ∀ n ∈ t.rdns.inconsist, OneLine n
  server : OneLine t.servername
  peer : OneLine t.peername

/-- A line of DNS names without its newline, if there is one. -/
def dnsLine (pref : Str) (l : List Str) : List Str := if l.length = 0 then [] else [pref ++ l.flatMap (fun e => b!" " ++ e)]

/-- The TLS line without its newline, if there is one. -/
def tlsLine (t : Trans) : List Str :=
  if t.tlson then [
    b!"tls on cipher 0x" ++ hex4 t.cipher ++
    (match cipherNames.lookup t.cipher with
      | some cn => if cn ≠ [] then b!" name " ++ cn else []
      | none => []) ++
    b!" proto " ++ tlsProtoVersion t.tlsversion ++
    (if t.servername ≠ [] then b!" server-name '" ++ t.servername ++ b!"'" else []) ++
    (if t.peername ≠ [] then b!" client-name '" ++ t.peername ++ b!"'" else []) ++
    (if t.tlsverified then b!" client-name-verified" else [])]
  else []

/-- The lines of a record before the sender. -/
def lines1 (prefix_ : Str) (t : Trans) : List Str :=
  [b!"id " ++ prefix_ ++ b!" " ++ t.raddr ++ b!" " ++ t.when_,
   b!"remote " ++ (if t.rip = [] then t.raddr else t.rip) ++ b!" to " ++ t.laddr ++ b!" with helo '" ++ t.heloname ++ b!"'"] ++
  dnsLine b!"remote-dns" t.rdns.verified ++
  dnsLine b!"remote-dns-nofwd" t.rdns.nofwd ++
  dnsLine b!"remote-dns-inconsist" t.rdns.inconsist ++
  tlsLine t

/-- The lines of a record after the recipients. -/
def lines2 (t : Trans) : List Str := [b!"hash " ++ t.hash ++ b!" bytes " ++ decDigits t.data.length, b!"bodyhash " ++ t.bodyhash]

/-- Lines to text. -/
def unlines (l : List Str) : Str := l.flatMap (fun x => x ++ b!"\n")

theorem unlines_append (a b : List Str) : unlines (a ++ b) = unlines a ++ unlines b := List.flatMap_append
theorem unlines_cons (a : Str) (b : List Str) : unlines (a :: b) = a ++ b!"\n" ++ unlines b := rfl
theorem unlines_nil : unlines [] = [] := rfl

theorem dnsListText_lines (pref : Str) (l : List Str) : dnsListText pref l = unlines (dnsLine pref l) := by
  unfold dnsListText dnsLine
  split
  · rfl
  · simp [unlines]

theorem tlsText_lines (t : Trans) : tlsText t = unlines (tlsLine t) := by
  unfold tlsText tlsLine
  split
  · rw [unlines_cons, unlines_nil, List.append_nil]; rfl
  · rfl

theorem rcpt_lines (l : List Str) : l.flatMap (fun a => b!"to <" ++ a ++ b!">\n") = unlines (l.map fun a => b!"to <" ++ a ++ b!">") := by
  induction l with
  | nil => rfl
  | cons a l ih =>
    rw [List.map_cons, List.flatMap_cons, unlines_cons, ih]
    simp

/-- A record is lines, `body`, and the data. -/
theorem record_lines (H : Hashes) (prefix_ : Str) (t : Trans) : (msgDetails H prefix_ t).1 =
    unlines (lines1 prefix_ t ++ [b!"from <" ++ t.from_ ++ b!">"] ++ (t.rcptto.map fun a => b!"to <" ++ a ++ b!">") ++ lines2 t) ++
      b!"body\n" ++ t.data := by
  unfold msgDetails
  simp only
  unfold idLine metaText lines1 lines2
  rw [dnsListText_lines, dnsListText_lines, dnsListText_lines, tlsText_lines, rcpt_lines]
  simp only [unlines_append, unlines_cons, unlines_nil, List.append_assoc, List.nil_append, List.append_nil, List.cons_append]

/-! ## Reading lines -/

theorem splitBody_line {l s : Str} (hl : OneLine l) : ∀ cur : Str, splitBody cur (l ++ b!"\n" ++ s) =
    if (cur.reverse ++ l) = b!"body" then some ([], s) else (splitBody [] s).map fun x => ((cur.reverse ++ l) :: x.1, x.2) := by
  induction l with
  | nil =>
    intro cur
    simp only [List.nil_append, List.append_nil]
    show splitBody cur (c!"\n" :: s) = _
    rw [splitBody, if_pos rfl]
  | cons c l ih =>
    intro cur
    have h1 : c ≠ c!"\n" := fun h => hl (by simp [h])
    have h2 : OneLine l := fun h => hl (List.mem_cons_of_mem _ h)
    show splitBody cur (c :: (l ++ b!"\n" ++ s)) = _
    rw [splitBody, if_neg h1, ih h2]
    simp

theorem splitBody_lines {s : Str} {data : Str} (hs : splitBody [] s = some ([], data)) : ∀ {ls : List Str}, (∀ l ∈ ls, OneLine l ∧ l ≠ b!"body") →
    splitBody [] (unlines ls ++ s) = some (ls, data) := by
  intro ls
  induction ls with
  | nil => intro _; exact hs
  | cons l ls ih =>
    intro h
    have h1 := h l List.mem_cons_self
    rw [unlines_cons, List.append_assoc, splitBody_line h1.1, List.reverse_nil, List.nil_append, if_neg h1.2,
      ih fun x hx => h x (List.mem_cons_of_mem _ hx)]
    rfl

theorem splitBody_body (data : Str) : splitBody [] (b!"body\n" ++ data) = some ([], data) := by
  have := splitBody_line (l := b!"body") (s := data) (by decide) []
  rw [if_pos (by decide)] at this
  exact this

theorem angled_mk (tag a : Str) : angled tag (tag ++ b!" <" ++ a ++ b!">") = some a := by
  unfold angled
  rw [if_pos ⟨by rw [List.isPrefixOf_iff_prefix, List.append_assoc]; exact List.prefix_append _ _, List.getLast?_concat⟩]
  rw [show tag ++ b!" <" ++ a ++ b!">" = (tag ++ b!" <") ++ (a ++ b!">") by simp]
  rw [List.drop_left' (by simp)]
  simp

/-- A line that begins otherwise is not of the form. -/
theorem angled_none {tag l : Str} {n : Nat} (h : l.take n ≠ (tag ++ b!" <").take n) (hn : n ≤ tag.length + 2) : angled tag l = none := by
  unfold angled
  rw [if_neg]
  rintro ⟨hp, -⟩
  rw [List.isPrefixOf_iff_prefix] at hp
  obtain ⟨x, rfl⟩ := hp
  rw [List.take_append_of_le_length (by simpa using hn)] at h
  exact h rfl

/-- The lines before the sender cannot be taken for others. -/
theorem lines1_ok (prefix_ : Str) (t : Trans) : ∀ l ∈ lines1 prefix_ t, l ≠ b!"body" ∧ angled b!"from" l = none ∧ angled b!"to" l = none := by
  have key : ∀ (p x : Str), p.take 3 ∈ [b!"id ", b!"rem", b!"tls"] → 3 ≤ p.length →
      (p ++ x) ≠ b!"body" ∧ angled b!"from" (p ++ x) = none ∧ angled b!"to" (p ++ x) = none := by
    intro p x hp hl
    have h3 : (p ++ x).take 3 = p.take 3 := List.take_append_of_le_length hl
    refine ⟨fun h => ?_, angled_none (n := 3) ?_ (by decide), angled_none (n := 3) ?_ (by decide)⟩
    · rw [h] at h3; rw [← h3] at hp; revert hp; decide
    · rw [h3]; intro h; rw [h] at hp; revert hp; decide
    · rw [h3]; intro h; rw [h] at hp; revert hp; decide
  intro l hl
  unfold lines1 at hl
  simp only [List.mem_append, List.mem_cons, List.not_mem_nil, or_false] at hl
  rcases hl with ((((rfl | rfl) | hl) | hl) | hl) | hl
  · simp only [List.append_assoc]; exact key _ _ (by decide) (by decide)
  · simp only [List.append_assoc]; exact key _ _ (by decide) (by decide)
  · unfold dnsLine at hl; split at hl
    · cases hl
    · rw [List.mem_singleton] at hl; rw [hl]; exact key _ _ (by decide) (by decide)
  · unfold dnsLine at hl; split at hl
    · cases hl
    · rw [List.mem_singleton] at hl; rw [hl]; exact key _ _ (by decide) (by decide)
  · unfold dnsLine at hl; split at hl
    · cases hl
    · rw [List.mem_singleton] at hl; rw [hl]; exact key _ _ (by decide) (by decide)
  · unfold tlsLine at hl; split at hl
    · rw [List.mem_singleton] at hl; rw [hl]
      simp only [List.append_assoc]; exact key _ _ (by decide) (by decide)
    · cases hl

theorem lines2_ok (t : Trans) : ∀ l ∈ lines2 t, l ≠ b!"body" ∧ angled b!"to" l = none := by
  intro l hl
  unfold lines2 at hl
  simp only [List.mem_cons, List.not_mem_nil, or_false] at hl
  rcases hl with rfl | rfl
  · simp only [List.append_assoc]
    refine ⟨fun h => ?_, angled_none (n := 1) ?_ (by decide)⟩
    · exact absurd (congrArg (List.take 1) h) (by simp)
    · simp
  · refine ⟨fun h => ?_, angled_none (n := 1) ?_ (by decide)⟩
    · have := congrArg List.length h; simp at this
    · simp

theorem dnsLine_oneLine {pref : Str} {l : List Str} (hp : OneLine pref) (h : ∀ n ∈ l, OneLine n) : ∀ x ∈ dnsLine pref l, OneLine x := by
  intro x hx
  unfold dnsLine at hx
  split at hx
  · cases hx
  · rw [List.mem_singleton] at hx
    rw [hx, oneLine_append]
    refine ⟨hp, oneLine_flatMap fun n hn => ?_⟩
    rw [oneLine_append]
    exact ⟨by decide, h n hn⟩

theorem tlsLine_oneLine {t : Trans} (hs : OneLine t.servername) (hp : OneLine t.peername) : ∀ x ∈ tlsLine t, OneLine x := by
  intro x hx
  unfold tlsLine at hx
  split at hx
  · rw [List.mem_singleton] at hx
    rw [hx]
    simp only [oneLine_append]
    refine ⟨⟨⟨⟨⟨⟨⟨by decide, oneLine_hex4 _⟩, ?_⟩, by decide⟩, oneLine_proto _⟩, ?_⟩, ?_⟩, ?_⟩
    · split
      · rename_i cn hc
        split
        · rw [oneLine_append]
          exact ⟨by decide, cipherNames_oneLine _ (lookup_mem hc)⟩
        · exact oneLine_nil
      · exact oneLine_nil
    · split
      · simp only [oneLine_append]; exact ⟨⟨by decide, hs⟩, by decide⟩
      · exact oneLine_nil
    · split
      · simp only [oneLine_append]; exact ⟨⟨by decide, hp⟩, by decide⟩
      · exact oneLine_nil
    · split <;> decide
  · cases hx

theorem lines1_oneLine {prefix_ : Str} {t : Trans} (hp : OneLine prefix_) (hc : CleanTrans t) (hn : CleanNames t) :
    ∀ l ∈ lines1 prefix_ t, OneLine l := by
  intro l hl
  unfold lines1 at hl
  simp only [List.mem_append, List.mem_cons, List.not_mem_nil, or_false] at hl
  rcases hl with ((((rfl | rfl) | hl) | hl) | hl) | hl
  · simp only [oneLine_append]
    exact ⟨⟨⟨⟨⟨by decide, hp⟩, by decide⟩, hc.raddr⟩, by decide⟩, hc.when_⟩
  · simp only [oneLine_append]
    refine ⟨⟨⟨⟨⟨⟨by decide, ?_⟩, by decide⟩, hc.laddr⟩, by decide⟩, hc.helo⟩, by decide⟩
    split
    · exact hc.raddr
    · exact hc.rip
  · exact dnsLine_oneLine (by decide) hn.verified _ hl
  · exact dnsLine_oneLine (by decide) hn.nofwd _ hl
  · exact dnsLine_oneLine (by decide) hn.inconsist _ hl
  · exact tlsLine_oneLine hn.server hn.peer _ hl

theorem lines2_oneLine {t : Trans} (hc : CleanTrans t) : ∀ l ∈ lines2 t, OneLine l := by
  intro l hl
  unfold lines2 at hl
  simp only [List.mem_cons, List.not_mem_nil, or_false] at hl
  rcases hl with rfl | rfl
  · simp only [oneLine_append]
    exact ⟨⟨⟨by decide, hc.hash⟩, by decide⟩, oneLine_decDigits _⟩
  · simp only [oneLine_append]
    exact ⟨by decide, hc.bodyhash⟩

theorem findSome_skip {α β : Type} {f : α → Option β} {l r : List α} (h : ∀ x ∈ l, f x = none) : (l ++ r).findSome? f = r.findSome? f := by
  induction l with
  | nil => rfl
  | cons a l ih =>
    rw [List.cons_append, List.findSome?_cons, h a List.mem_cons_self]
    exact ih fun x hx => h x (List.mem_cons_of_mem _ hx)

theorem filterMap_skip {α β : Type} {f : α → Option β} {l : List α} (h : ∀ x ∈ l, f x = none) : l.filterMap f = [] := by
  rw [List.filterMap_eq_nil_iff]; exact h

theorem filterMap_angled (tag : Str) (l : List Str) : (l.map fun a => tag ++ b!" <" ++ a ++ b!">").filterMap (angled tag) = l := by
  induction l with
  | nil => rfl
  | cons a l ih => rw [List.map_cons, List.filterMap_cons, angled_mk]; simp only [ih]

/-- What the reader finds in text of the right form. -/
theorem readBack_lines {ls : List Str} {t : Trans} (hc : CleanTrans t)
    (hls : ∀ l ∈ ls, OneLine l ∧ l ≠ b!"body" ∧ angled b!"from" l = none ∧ angled b!"to" l = none) :
    readBack (unlines (ls ++ [b!"from <" ++ t.from_ ++ b!">"] ++ (t.rcptto.map fun a => b!"to <" ++ a ++ b!">") ++ lines2 t) ++
      (b!"body\n" ++ t.data)) = some (t.from_, t.rcptto, t.data) := by
  unfold readBack
  rw [splitBody_lines (splitBody_body t.data)]
  · have h1 : (ls ++ [b!"from <" ++ t.from_ ++ b!">"] ++ (t.rcptto.map fun a => b!"to <" ++ a ++ b!">") ++ lines2 t).findSome?
        (angled b!"from") = some t.from_ := by
      rw [List.append_assoc, List.append_assoc, findSome_skip fun x hx => (hls x hx).2.2.1, List.singleton_append,
        List.findSome?_cons]
      have := angled_mk b!"from" t.from_
      rw [show b!"from" ++ b!" <" = b!"from <" from rfl] at this
      rw [this]
    have h2 : (ls ++ [b!"from <" ++ t.from_ ++ b!">"] ++ (t.rcptto.map fun a => b!"to <" ++ a ++ b!">") ++ lines2 t).filterMap
        (angled b!"to") = t.rcptto := by
      rw [List.filterMap_append, List.filterMap_append, List.filterMap_append, filterMap_skip fun x hx => (hls x hx).2.2.2,
        filterMap_skip fun x hx => (lines2_ok _ x hx).2]
      have hf := filterMap_angled b!"to" t.rcptto
      rw [show b!"to" ++ b!" <" = b!"to <" from rfl] at hf
      rw [hf, List.nil_append, List.append_nil]
      have h3 : angled b!"to" (b!"from <" ++ t.from_ ++ b!">") = none := by
        rw [List.append_assoc]
        exact angled_none (n := 1) (by simp) (by decide)
      rw [List.filterMap_cons, h3, List.filterMap_nil, List.nil_append]
    simp only [Option.bind_eq_bind, Option.bind_some, h1, h2]
    rfl
  · intro l hl
    simp only [List.mem_append, List.mem_singleton, List.mem_map] at hl
    rcases hl with ((hl | rfl) | ⟨a, ha, rfl⟩) | hl
    · exact ⟨(hls l hl).1, (hls l hl).2.1⟩
    · refine ⟨?_, fun h => ?_⟩
      · simp only [oneLine_append]; exact ⟨⟨by decide, hc.from_⟩, by decide⟩
      · rw [List.append_assoc] at h
        exact absurd (congrArg (List.take 1) h) (by simp)
    · refine ⟨?_, fun h => ?_⟩
      · simp only [oneLine_append]; exact ⟨⟨by decide, hc.rcpt a ha⟩, by decide⟩
      · rw [List.append_assoc] at h
        exact absurd (congrArg (List.take 1) h) (by simp)
    · exact ⟨lines2_oneLine hc l hl, (lines2_ok _ l hl).1⟩

/-- What the reader finds in a record. -/
theorem readBack_record (H : Hashes) {prefix_ : Str} {t : Trans} (hp : OneLine prefix_) (hc : CleanTrans t) (hn : CleanNames t) :
    readBack (msgDetails H prefix_ t).1 = some (t.from_, t.rcptto, t.data) := by
  rw [record_lines, List.append_assoc]
  exact readBack_lines hc fun l hl => ⟨lines1_oneLine hp hc hn l hl, lines1_ok _ _ l hl⟩

/-- What the reader finds in a record without its first line. -/
theorem readBack_meta {t : Trans} (hc : CleanTrans t) (hn : CleanNames t) : readBack (metaText t) = some (t.from_, t.rcptto, t.data) := by
  have h := record_lines ⟨id, fun _ => .noParse⟩ [] t
  have h1 : metaText t = unlines ((lines1 [] t).tail ++ [b!"from <" ++ t.from_ ++ b!">"] ++ (t.rcptto.map fun a => b!"to <" ++ a ++ b!">") ++
      lines2 t) ++ (b!"body\n" ++ t.data) := by
    have h2 : lines1 [] t = (b!"id " ++ [] ++ b!" " ++ t.raddr ++ b!" " ++ t.when_) :: (lines1 [] t).tail := rfl
    rw [h2, List.cons_append, List.cons_append, List.cons_append, unlines_cons] at h
    have h3 : (b!"id " ++ [] ++ b!" " ++ t.raddr ++ b!" " ++ t.when_) ++ b!"\n" = idLine [] t := rfl
    rw [h3] at h
    simp only [msgDetails, List.append_assoc, List.append_cancel_left_eq] at h
    simpa only [List.append_assoc] using h
  rw [h1]
  exact readBack_lines hc fun l hl => ⟨lines1_oneLine oneLine_nil hc hn l (List.mem_of_mem_tail hl), lines1_ok _ _ l (List.mem_of_mem_tail hl)⟩

/-- The line of the message log. -/
theorem logLine_isLine {prefix_ : Str} {t : Trans} (hp : OneLine prefix_) (hc : CleanTrans t) : IsLine (logLine prefix_ t) := by
  refine ⟨_, ?_, rfl⟩
  simp only [oneLine_append]
  repeat' apply And.intro
  all_goals first
    | exact hc.when_ | exact hp | exact hc.raddr | exact hc.from_ | exact oneLine_decDigits _ | exact hc.hash | exact hc.bodyhash
    | exact hc.laddr | exact hc.helo | decide | skip
  · refine oneLine_flatMap fun a ha => ?_
    simp only [oneLine_append]
    exact ⟨⟨by decide, hc.rcpt a ha⟩, by decide⟩
  · split
    · simp only [oneLine_append]
      exact ⟨⟨⟨by decide, oneLine_hex4 _⟩, by decide⟩, oneLine_hex4 _⟩
    · exact oneLine_nil

/-! ## Connections -/

theorem noneIn : ∀ a ∈ ([] : List Str), OneLine a := by intro a h; cases h

theorem CleanTrans.of_eq {t t' : Trans} (h : CleanTrans t) (h1 : t'.raddr = t.raddr) (h2 : t'.laddr = t.laddr) (h3 : t'.rip = t.rip)
    (h4 : t'.heloname = t.heloname) (h5 : t'.from_ = t.from_) (h6 : t'.rcptto = t.rcptto) (h7 : t'.hash = t.hash)
    (h8 : t'.bodyhash = t.bodyhash) (h9 : t'.when_ = t.when_) : CleanTrans t' :=
  ⟨by rw [h1]; exact h.raddr, by rw [h2]; exact h.laddr, by rw [h3]; exact h.rip, by rw [h4]; exact h.helo, by rw [h5]; exact h.from_,
   by rw [h6]; exact h.rcpt, by rw [h7]; exact h.hash, by rw [h8]; exact h.bodyhash, by rw [h9]; exact h.when_⟩

theorem CleanNames.of_eq {t t' : Trans} (h : CleanNames t) (h1 : t'.rdns = t.rdns) (h2 : t'.servername = t.servername)
    (h3 : t'.peername = t.peername) : CleanNames t' :=
  ⟨by rw [h1]; exact h.verified, by rw [h1]; exact h.nofwd, by rw [h1]; exact h.inconsist, by rw [h2]; exact h.server, by rw [h3]; exact h.peer⟩

theorem DecR.clean {E : Env} {ph : Phase} {evt : Evt} {id : Str} {s s' : Sess} {ref : Bool} {o : List Out} {res : Action} {c1 : Ctx}
    (h : DecR E ph evt id s ref s' o res c1) (hc : CleanTrans s.trans) : CleanTrans s'.trans := by
  obtain ⟨m, a, ht⟩ := h.trans
  rw [ht]
  exact hc.of_eq rfl rfl rfl rfl rfl rfl rfl rfl rfl

theorem DecR.names {E : Env} {ph : Phase} {evt : Evt} {id : Str} {s s' : Sess} {ref : Bool} {o : List Out} {res : Action} {c1 : Ctx}
    (h : DecR E ph evt id s ref s' o res c1) (hc : CleanNames s.trans) : CleanNames s'.trans := by
  obtain ⟨m, a, ht⟩ := h.trans
  rw [ht]
  exact hc.of_eq rfl rfl rfl

theorem gotTrans_clean {E : Env} (hE : PlainEnv E) {arg : Str} {i : Inp} {t : Trans} (hi : OneLine i.nowText) (h : CleanTrans t) :
    CleanTrans (gotTrans E.H arg i t) := by
  have hb : OneLine (getHashes E.H arg).2 := by
    unfold getHashes
    simp only
    split
    · decide
    · decide
    · exact hE.gen _
  unfold gotTrans
  simp only
  split <;>
  exact ⟨h.raddr, h.laddr, h.rip, h.helo, h.from_, h.rcpt, hE.gen _, hb, hi⟩

theorem gotTrans_names {H : Hashes} {arg : Str} {i : Inp} {t : Trans} (hs : OneLine i.tls.servername)
    (hp : ∀ x, i.tls.verified = some x ∨ i.tls.peer = some x → OneLine (tlsName x)) (h : CleanNames t) :
    CleanNames (gotTrans H arg i t) := by
  unfold gotTrans
  simp only
  split
  · rename_i hv; exact ⟨h.verified, h.nofwd, h.inconsist, hs, hp _ (.inl hv)⟩
  · rename_i hv; exact ⟨h.verified, h.nofwd, h.inconsist, hs, hp _ (.inr hv)⟩
  · exact ⟨h.verified, h.nofwd, h.inconsist, hs, h.peer⟩

theorem rdnsLoop_names {W : World} {eip : Option IP} {P : Str → Prop} : ∀ {names : List Str} {r : RDNS} {t : Trace}, (∀ n ∈ names, P n) →
    ((∀ n ∈ r.verified, P n) ∧ (∀ n ∈ r.nofwd, P n) ∧ ∀ n ∈ r.inconsist, P n) →
    (∀ n ∈ (rdnsLoop W eip names r t).1.verified, P n) ∧ (∀ n ∈ (rdnsLoop W eip names r t).1.nofwd, P n) ∧
      ∀ n ∈ (rdnsLoop W eip names r t).1.inconsist, P n := by
  intro names
  induction names with
  | nil => intro r t _ h; exact h
  | cons a names ih =>
    intro r t hn hr
    have ha := hn a List.mem_cons_self
    have ht : ∀ n ∈ names, P n := fun n h => hn n (List.mem_cons_of_mem _ h)
    have hsn : ∀ {l : List Str}, (∀ n ∈ l, P n) → ∀ n ∈ l ++ [a], P n := by
      intro l hl n h
      rw [List.mem_append, List.mem_singleton] at h
      rcases h with h | rfl
      · exact hl n h
      · exact ha
    rw [rdnsLoop]
    split
    · exact ih ht ⟨hr.1, hsn hr.2.1, hr.2.2⟩
    · split
      · exact ih ht ⟨hsn hr.1, hr.2.1, hr.2.2⟩
      · exact ih ht ⟨hr.1, hr.2.1, hsn hr.2.2⟩

theorem mem_sortStrs {x : Str} {l : List Str} : x ∈ sortStrs l → x ∈ l := by
  have hi : ∀ (a : Str) (l : List Str), x ∈ insertStr a l → x = a ∨ x ∈ l := by
    intro a l
    induction l with
    | nil => intro h; simpa [insertStr] using h
    | cons b l ih =>
      intro h
      rw [insertStr] at h
      split at h
      · simpa using h
      · rw [List.mem_cons] at h
        rcases h with h | h
        · exact .inr (by simp [h])
        · rcases ih h with h | h
          · exact .inl h
          · exact .inr (List.mem_cons_of_mem _ h)
  induction l with
  | nil => exact id
  | cons a l ih =>
    intro h
    rcases hi a _ h with h | h
    · simp [h]
    · exact List.mem_cons_of_mem _ (ih h)

theorem withRdns_names {E : Env} (hD : PlainDns E) {s : Sess} (h : CleanNames s.trans) : CleanNames (s.withRdns E).trans := by
  have key : (∀ n ∈ (lookupAddrVerified E.W s.trans.rip s.c.trace).1.verified, OneLine n) ∧
      (∀ n ∈ (lookupAddrVerified E.W s.trans.rip s.c.trace).1.nofwd, OneLine n) ∧
      ∀ n ∈ (lookupAddrVerified E.W s.trans.rip s.c.trace).1.inconsist, OneLine n := by
    unfold lookupAddrVerified
    split
    · simp
    · simp only
      split
      · simp
      · rename_i names hn
        exact rdnsLoop_names (fun n h => hD _ _ _ hn n (mem_sortStrs h)) (by simp)
  exact ⟨key.1, key.2.1, key.2.2, h.server, h.peer⟩

theorem Did.clean {cf : Conf} {E : Env} {s s' : Sess} {sh sh' : Shared} {i : Inp} {o : List Out} (h : Did cf E s sh i s' sh' o)
    (hE : PlainEnv E) (hpl : Step.PlainCmd ⟨s, i, sh, s', sh', o⟩) (hc : CleanTrans s.trans) : CleanTrans s'.trans := by
  have arg : ∀ ev, s.pc = .ready → i.ev = ev → PlainArg ev := fun ev h1 h2 => hpl.2 ev (by simp [Step.event, h1, h2])
  cases h with
  | tls hp ht _ =>
    unfold tlsStep at ht
    cases ht
    exact hc
  | drop hp hd _ => exact hd.clean (hc.of_eq rfl rfl rfl rfl rfl rfl rfl rfl rfl)
  | connect hp hd => exact hd.clean (hc.of_eq rfl rfl rfl rfl rfl rfl rfl rfl rfl)
  | heloRef hp he hd => exact hd.clean hc
  | heloAcc hp he hd hq =>
    have := hd.clean hc
    exact ⟨this.raddr, this.laddr, this.rip, arg _ hp he, oneLine_nil, noneIn, oneLine_nil, oneLine_nil, this.when_⟩
  | mailRef hp he hd => exact hd.clean hc
  | mailAcc hp he hd _ _ =>
    have := hd.clean hc
    exact ⟨this.raddr, this.laddr, this.rip, this.helo, arg _ hp he, noneIn, this.hash, this.bodyhash, this.when_⟩
  | mailCount hp he hd _ _ _ =>
    have := hd.clean hc
    exact ⟨this.raddr, this.laddr, this.rip, this.helo, arg _ hp he, noneIn, this.hash, this.bodyhash, this.when_⟩
  | mailDrop hp he hd _ _ _ => exact hd.clean hc
  | rcptRef hp he hd => exact hd.clean hc
  | rcptAcc hp he hd ho =>
    have := hd.clean hc
    refine ⟨this.raddr, this.laddr, this.rip, this.helo, this.from_, ?_, this.hash, this.bodyhash, this.when_⟩
    intro a ha
    have ha2 := List.mem_append.1 ha
    rcases ha2 with ha2 | ha2
    · exact this.rcpt a ha2
    · rw [List.mem_singleton] at ha2; rw [ha2]; exact arg _ hp he
  | dataRef hp he hd => exact hd.clean hc
  | dataAcc hp he hd ho => exact hd.clean hc
  | gotKeep hq he hs ho => exact gotTrans_clean hE hpl.1 hc
  | gotSave hq he hs hn ho => exact gotTrans_clean hE hpl.1 hc
  | tlserror | finish | other | save | answerFail | closed => exact hc
  | answerRef _ hd => exact hd.clean hc
  | answerAcc _ hd _ => exact hd.clean hc

theorem Did.names {cf : Conf} {E : Env} {s s' : Sess} {sh sh' : Shared} {i : Inp} {o : List Out} (h : Did cf E s sh i s' sh' o)
    (hD : PlainDns E) (hp : Step.PlainTls ⟨s, i, sh, s', sh', o⟩) (hc : CleanNames s.trans) : CleanNames s'.trans := by
  cases h with
  | tls hp ht _ =>
    unfold tlsStep at ht
    cases ht
    exact hc
  | drop hp hd _ => exact hd.names (withRdns_names hD hc)
  | connect hp hd => exact hd.names (withRdns_names hD hc)
  | heloRef _ _ hd => exact hd.names hc
  | heloAcc _ _ hd _ => exact (hd.names hc).of_eq rfl rfl rfl
  | mailRef _ _ hd => exact hd.names hc
  | mailAcc _ _ hd _ _ => exact (hd.names hc).of_eq rfl rfl rfl
  | mailCount _ _ hd _ _ _ => exact (hd.names hc).of_eq rfl rfl rfl
  | mailDrop _ _ hd _ _ _ => exact hd.names hc
  | rcptRef _ _ hd => exact hd.names hc
  | rcptAcc _ _ hd _ => exact (hd.names hc).of_eq rfl rfl rfl
  | dataRef _ _ hd => exact hd.names hc
  | dataAcc _ _ hd _ => exact hd.names hc
  | gotKeep => exact gotTrans_names hp.1 hp.2 hc
  | gotSave => exact gotTrans_names hp.1 hp.2 hc
  | tlserror | finish | other | save | answerFail | closed => exact hc
  | answerRef _ hd => exact hd.names hc
  | answerAcc _ hd _ => exact hd.names hc

theorem startSess_clean {cf : Conf} {E : Env} {sh sh' : Shared} {i : Inp} {s : Sess} {o : List Out}
    (h : startSess cf E sh i = .ok (s, sh', o)) : ∃ b, s.trans = { savedir := cf.savedir, raddr := E.raddr, laddr := E.laddr, rip := E.rip, lip := E.lip, hasLog := b } := by
  unfold startSess at h
  simp only [bind, Except.bind, pure, Except.pure] at h
  split at h
  · cases h
  · split at h
    · cases h
    · cases h; exact ⟨_, rfl⟩

theorem life_clean {cf : Conf} {E : Env} (hE : PlainEnv E) {l : List Step} {s : Sess} (h : Life cf E l s) (hp : ∀ st ∈ l, st.PlainCmd) :
    CleanTrans s.trans := by
  obtain ⟨sh0, i0, s0, sh1, o1, hst, hr⟩ := h
  obtain ⟨b, hb⟩ := startSess_clean hst
  refine Spec.Run.ind (P := fun l s => (∀ st ∈ l, st.PlainCmd) → CleanTrans s.trans) hr ?_ ?_ hp
  · intro _
    rw [hb]
    exact ⟨hE.raddr, hE.laddr, hE.rip, oneLine_nil, oneLine_nil, noneIn, oneLine_nil, oneLine_nil, oneLine_nil⟩
  · intro l s1 s2 sh sh' i o _ ih hd _ hp
    exact hd.clean hE (hp _ (by simp)) (ih fun st hs => hp st (by simp [hs]))

theorem life_names {cf : Conf} {E : Env} (hD : PlainDns E) {l : List Step} {s : Sess} (h : Life cf E l s) (hp : ∀ st ∈ l, st.PlainTls) :
    CleanNames s.trans := by
  obtain ⟨sh0, i0, s0, sh1, o1, hst, hr⟩ := h
  obtain ⟨b, hb⟩ := startSess_clean hst
  refine Spec.Run.ind (P := fun l s => (∀ st ∈ l, st.PlainTls) → CleanNames s.trans) hr ?_ ?_ hp
  · intro _
    rw [hb]
    exact ⟨noneIn, noneIn, noneIn, oneLine_nil, oneLine_nil⟩
  · intro l s1 s2 sh sh' i o _ ih hd _ hp
    exact hd.names hD (hp _ (by simp)) (ih fun st hs => hp st (by simp [hs]))

end Sink
