import Verif.Lemmas.Conncfg
import Verif.Lemmas.SessionInv
import Verif.Spec.DemoSession
import Verif.Spec.DemoServer

/-!
# C48, C49: connection parameters
-/

namespace Sink
open Spec

/-! ## C49 -/

theorem words_newline {l : Str} {ws : List Str} : Words (l ++ b!"\n") ws ↔ Words l ws := by
  have h : ∀ {ws}, Words l ws → Words (l ++ b!"\n") ws := fun h => by
    have := h.append_spaces (post := [b!"\n"]) (by decide)
    simpa using this
  refine ⟨fun h' => ?_, h⟩
  rw [words_iff] at h' ⊢
  rw [← h']
  exact (words_iff.1 (h (fields_words l))).symm

theorem says_newline {P : PairOracle} {l : Str} {d : PerDest} : Says P (l ++ b!"\n") d ↔ Says P l d := by
  simp only [Says, words_newline]

theorem silent_newline {l : Str} : Silent (l ++ b!"\n") ↔ Silent l := by
  simp only [Silent, words_newline]

theorem connFile_newline {P : PairOracle} : ∀ {ls : List Str} {ds : List PerDest}, ConnFile P (ls.map (· ++ b!"\n")) ds ↔ ConnFile P ls ds := by
  intro ls
  induction ls with
  | nil =>
    intro ds
    constructor <;> (intro h; cases h; exact .nil)
  | cons l ls ih =>
    intro ds
    constructor
    · intro h
      cases h with
      | silent h1 h2 => exact .silent (silent_newline.1 h1) (ih.1 h2)
      | «says» h1 h2 => exact .says (says_newline.1 h1) (ih.1 h2)
    · intro h
      cases h with
      | silent h1 h2 => exact .silent (silent_newline.2 h1) (ih.2 h2)
      | «says» h1 h2 => exact .says (says_newline.2 h1) (ih.2 h2)

theorem loadConnFile_iff {P : PairOracle} {b : Str} {lines : List Str} {rest : Str} (h : Text b lines rest) (ds : List PerDest) :
    loadConnFile P (.data b) = .ok ds ↔ ConnFile P lines ds := by
  rw [loadConnFile, h.readLines]
  simp only
  rw [connLines_iff, connFile_newline]

/-- **C49.** A file is accepted, with entries `ds`, exactly when its (terminated) lines are each blank, a comment, or one LOCAL with at
most three settings, all `key=value` with a known key, with certificates and keys given together, as many of one as of the other, and
loadable; and the entries are what the lines say, in order.  Missing for the full statement: the unterminated last line `rest`
(see `C49_last_line_lost`). -/
theorem C49_strict_partial {P : PairOracle} {b : Str} {lines : List Str} {rest : Str} (h : Text b lines rest) (ds : List PerDest) :
    loadConnFile P (.data b) = .ok ds ↔ ConnFile P lines ds := loadConnFile_iff h ds

/-- **C49.** A file that cannot be read is not accepted. -/
theorem C49_unreadable {P : PairOracle} {f : FileRead} (h : ∀ b, f ≠ .data b) : ∀ ds, loadConnFile P f ≠ .ok ds := by
  intro ds
  cases f with
  | data b => exact absurd rfl (h b)
  | notExist m => simp [loadConnFile]
  | openErr m => simp [loadConnFile]
  | readErr m => simp [loadConnFile]

/-- What a file says is determined by its lines. -/
theorem Spec.ConnFile.unique {P : PairOracle} {ls : List Str} {ds ds' : List PerDest} (h : ConnFile P ls ds) (h' : ConnFile P ls ds') : ds = ds' := by
  have h1 := (connLines_iff (n := 0)).2 h
  rw [(connLines_iff (n := 0)).2 h'] at h1
  exact (Except.ok.inj h1).symm

/-- **C49.** Each entry comes from a line of the file. -/
theorem C49_entries {P : PairOracle} {b : Str} {ds : List PerDest} (h : loadConnFile P (.data b) = .ok ds) :
    ∃ lines rest, Text b lines rest ∧ (∀ d ∈ ds, ∃ l ∈ lines, Says P l d) ∧ ∀ l ∈ lines, Silent l ∨ ∃ d ∈ ds, Says P l d := by
  obtain ⟨lines, rest, ht⟩ := text_exists b
  refine ⟨lines, rest, ht, ?_⟩
  have hc := (loadConnFile_iff ht ds).1 h
  clear h ht
  induction hc with
  | nil => exact ⟨fun d hd => (nomatch hd), fun l hl => (nomatch hl)⟩
  | silent h1 _ ih =>
    refine ⟨fun d hd => ?_, fun l hl => ?_⟩
    · obtain ⟨l, hl, hs⟩ := ih.1 d hd
      exact ⟨l, List.mem_cons_of_mem _ hl, hs⟩
    · rcases List.mem_cons.1 hl with rfl | hl
      · exact .inl h1
      · exact ih.2 l hl
  | @«says» l0 d0 ls ds h1 _ ih =>
    refine ⟨fun d hd => ?_, fun l hl => ?_⟩
    · rcases List.mem_cons.1 hd with rfl | hd
      · exact ⟨l0, by simp, h1⟩
      · obtain ⟨l, hl, hs⟩ := ih.1 d hd
        exact ⟨l, List.mem_cons_of_mem _ hl, hs⟩
    · rcases List.mem_cons.1 hl with rfl | hl
      · exact .inr ⟨d0, by simp, h1⟩
      · rcases ih.2 l hl with h | ⟨d, hd, hs⟩
        · exact .inl h
        · exact .inr ⟨d, List.mem_cons_of_mem _ hd, hs⟩

/-- **C49**, why partial: the text after the last newline makes no difference, whatever it is (a finding: it should be an entry or an
error). -/
theorem C49_last_line_lost {P : PairOracle} {b : Str} {lines : List Str} (h : Text b lines []) {rest : Str} (hr : c!"\n" ∉ rest) :
    loadConnFile P (.data (b ++ rest)) = loadConnFile P (.data b) := by
  have h' : Text (b ++ rest) lines rest := ⟨by rw [h.1]; simp, h.2.1, hr⟩
  simp only [loadConnFile, h.readLines, h'.readLines]

/-- The full statement fails: a file with a line of nonsense is accepted. -/
theorem C49_not_all : loadConnFile (fun _ _ => none) (.data b!"* a b c d e") = .ok [] := by decide +kernel

example : loadConnFile (fun _ _ => none) (.data b!"# mine\n\n127.0.0.1:25 \t hostname=local\n10.0.0.0/8 cert=a,b key=c,d hostname=x=y\n*\n") =
    .ok [⟨b!"127.0.0.1:25", b!"local", []⟩, ⟨b!"10.0.0.0/8", b!"x=y", [⟨b!"a", b!"c"⟩, ⟨b!"b", b!"d"⟩]⟩, ⟨b!"*", [], []⟩] := by
  decide +kernel
example : ∀ ds, ¬ ConnFile (fun _ _ => none) [b!"* cert=a"] ds := by
  intro ds h
  have := (C49_strict_partial (P := fun _ _ => none) (b := b!"* cert=a\n") (rest := []) ⟨by decide, by decide, by decide⟩ ds).2 h
  revert this
  have e : loadConnFile (fun _ _ => none) (.data b!"* cert=a\n") = .error b!"certificate without key on line 1" := by decide +kernel
  rw [e]; exact fun h => nomatch h

/-! ## C48 -/

theorem matches_iff {L : Lib} {las lip : Str} {ip : IP} (h : L.parseIP lip = some ip) (d : PerDest) :
    d.matches L las lip = true ↔ Covers L las ip d := by
  unfold PerDest.matches Covers IpMatch
  simp only [Bool.or_eq_true, beq_iff_eq, h, or_assoc]
  cases hc : L.parseCIDR d.local_ with
  | none => simp [@eq_comm _ (some ip)]
  | some n => simp [contains_iff, @eq_comm _ (some ip)]

theorem find_iff {L : Lib} {las lip : Str} {ip : IP} (h : L.parseIP lip = some ip) (ds : List PerDest) (d : PerDest) :
    findDest L las lip ds = some d ↔ First L las ip ds d := by
  unfold findDest First
  rw [List.find?_eq_some_iff_append]
  simp only [Bool.not_eq_true', matches_iff h]
  constructor
  · rintro ⟨h1, l, r, h2, h3⟩
    exact ⟨l, r, h2, h1, fun x hx hc => by have := h3 x hx; rw [(matches_iff h x).2 hc] at this; cases this⟩
  · rintro ⟨l, r, h1, h2, h3⟩
    exact ⟨h2, l, r, h1, fun x hx => by rw [Bool.eq_false_iff]; exact fun hm => h3 x hx ((matches_iff h x).1 hm)⟩

theorem find_none {L : Lib} {las lip : Str} {ip : IP} (h : L.parseIP lip = some ip) (ds : List PerDest) :
    findDest L las lip ds = none ↔ ∀ d ∈ ds, ¬ Covers L las ip d := by
  unfold findDest
  rw [List.find?_eq_none]
  exact forall₂_congr fun d _ => not_congr (matches_iff h d)

/-- **C48.** The entry used is the first whose LOCAL is `*`, is the local `address:port`, is the local IP or is a block containing it.
Missing for the full statement: local addresses that are not plain IPs (see `C48_unparsable`). -/
theorem C48_first_partial {L : Lib} {las lip : Str} {ip : IP} (h : L.parseIP lip = some ip) (ds : List PerDest) :
    (∀ d, findDest L las lip ds = some d ↔ First L las ip ds d) ∧ (findDest L las lip ds = none ↔ ∀ d ∈ ds, ¬ Covers L las ip d) :=
  ⟨find_iff h ds, find_none h ds⟩

/-- **C48**, why partial: for a local address that is not a plain IP (a link-local IPv6 address comes with its zone), every LOCAL that is
not a plain IP matches, whatever it says. -/
theorem C48_unparsable {L : Lib} {las lip : Str} (h : L.parseIP lip = none) (d : PerDest) (hd : L.parseIP d.local_ = none) (ds : List PerDest) :
    findDest L las lip (d :: ds) = some d := by
  unfold findDest
  rw [List.find?_cons_of_pos]
  simp [PerDest.matches, h, hd]

theorem serverName_own {cf : Conf} {E : Env} {n : Str} {t : Trace} (h : serverName cf E [] = .ok (n, t)) : OwnName cf E n t.length := by
  unfold serverName at h
  split at h
  · rename_i hs
    cases h
    exact .option hs
  · rename_i hs
    have hs : cf.srvname = [] := by simpa using hs
    split at h
    · rename_i e he
      cases h
      exact .addr hs fun n r hn => by rw [show ([] : Trace).length = 0 from rfl] at he; rw [he] at hn; cases hn
    · rename_i he
      cases h
      exact .addr hs fun n r hn => by rw [show ([] : Trace).length = 0 from rfl] at he; rw [he] at hn; cases hn
    · rename_i m r he
      split at h
      · cases h
      · rename_i c hc
        cases h
        refine .name hs he ?_
        obtain ⟨y, rfl⟩ := List.getLast?_eq_some_iff.1 hc
        split
        · rename_i h; subst h
          left; simp
        · rename_i hne
          right
          refine ⟨rfl, ?_⟩
          rintro ⟨x, hx⟩
          have := congrArg List.getLast? hx
          simp at this
          exact hne this

theorem goodFile_iff {P : PairOracle} {f : FileRead} {ds : List PerDest} : GoodFile P f ds ↔ loadConnFile P f = .ok ds := by
  constructor
  · rintro ⟨b, lines, rest, rfl, h1, h2⟩
    exact (loadConnFile_iff h1 ds).2 h2
  · intro h
    cases f with
    | data b =>
      obtain ⟨lines, rest, ht⟩ := text_exists b
      exact ⟨b, lines, rest, rfl, ht, (loadConnFile_iff ht ds).1 h⟩
    | notExist m => simp [loadConnFile] at h
    | openErr m => simp [loadConnFile] at h
    | readErr m => simp [loadConnFile] at h

theorem startSess_params {cf : Conf} {E : Env} {sh sh' : Shared} {i : Inp} {s : Sess} {o : List Out} (h : startSess cf E sh i = .ok (s, sh', o)) :
    ∃ n t o', serverName cf E [] = .ok (n, t) ∧ s.sname = (connParams cf E n t).1 ∧ s.certs = (connParams cf E n t).2.1 ∧ s.tlsCfg = none ∧
      o = o' ++ (connParams cf E n t).2.2.2 ∧ ∀ m, Out.warn m ∉ o' := by
  unfold startSess at h
  simp only [bind, Except.bind, pure, Except.pure] at h
  split at h
  · cases h
  · rename_i r hr
    split at h
    · cases h
    · rename_i x hx
      cases h
      refine ⟨x.1, x.2, _, hx, rfl, rfl, rfl, rfl, ?_⟩
      intro m hm
      rcases List.mem_append.1 hm with hm | hm
      · rcases List.mem_cons.1 hm with hm | hm
        · cases hm
        · split at hm
          · simp at hm
          · cases hm
      · split at hm
        · rcases List.mem_cons.1 hm with hm | hm
          · cases hm
          · unfold yakLog at hm
            split at hm
            · simp at hm
            · cases hm
        · cases hm

theorem Spec.OwnName.time {cf : Conf} {E : Env} {n n' : Str} {t t' : Nat} (h : OwnName cf E n t) (h' : OwnName cf E n' t') : t = t' := by
  cases h <;> cases h' <;> first | rfl | contradiction

/-- **C48.** A connection begins with the name and the certificates of the first line for its local address; those of the command line are
used without such a line or without a file; a file that cannot be read or has an error is as no file, with a warning. -/
theorem C48_settings_partial {cf : Conf} {E : Env} {sh sh' : Shared} {i : Inp} {s : Sess} {o : List Out} {ip : IP}
    (hip : E.W.lib.parseIP E.lip = some ip) (h : startSess cf E sh i = .ok (s, sh', o)) :
    Settings cf E ip s.sname s.certs ∧
    ((∃ m, .warn m ∈ o) ↔ cf.connfile ≠ [] ∧ ∀ n t, OwnName cf E n t → ¬ ∃ ds, GoodFile E.pairs (E.W.files t cf.connfile) ds) := by
  obtain ⟨n, t, o', hn, h1, h2, -, h3, h4⟩ := startSess_params h
  have hown := serverName_own hn
  rw [h1, h2, h3]
  have hw : (∃ m, Out.warn m ∈ o' ++ (connParams cf E n t).2.2.2) ↔ ∃ m, Out.warn m ∈ (connParams cf E n t).2.2.2 :=
    exists_congr fun m => by rw [List.mem_append]; exact ⟨fun h => h.resolve_left (h4 m), .inr⟩
  rw [hw]
  unfold connParams
  split
  · rename_i hc
    exact ⟨.none hc hown, by simp [hc]⟩
  · rename_i hc
    simp only
    split
    · rename_i e he
      have hb : ¬ ∃ ds, GoodFile E.pairs (E.W.files t.length cf.connfile) ds := by
        rintro ⟨ds, hg⟩
        rw [goodFile_iff, he] at hg; cases hg
      refine ⟨.broken hc hown hb, ?_⟩
      simp only [List.mem_singleton, Out.warn.injEq, exists_eq, true_iff]
      exact ⟨hc, fun n' t' h' => by rw [← hown.time h']; exact hb⟩
    · rename_i dm hd
      have hg : GoodFile E.pairs (E.W.files t.length cf.connfile) dm := goodFile_iff.2 hd
      have hno : ¬ (cf.connfile ≠ [] ∧ ∀ n t, OwnName cf E n t → ¬ ∃ ds, GoodFile E.pairs (E.W.files t cf.connfile) ds) :=
        fun hh => hh.2 _ _ hown ⟨dm, hg⟩
      split
      · rename_i hf
        exact ⟨.silent hc hown hg ((find_none hip dm).1 hf), by simp only [List.not_mem_nil, exists_false, false_iff]; exact hno⟩
      · rename_i d hf
        refine ⟨?_, by simp only [List.not_mem_nil, exists_false, false_iff]; exact hno⟩
        have := Settings.line (cf := cf) hc hown hg ((find_iff hip dm d).1 hf)
        by_cases hm : d.myname = []
        · simpa [hm] using this
        · simpa [hm] using this

theorem DecR.params {E : Env} {ph : Phase} {evt : Evt} {id : Str} {s s' : Sess} {ref : Bool} {o : List Out} {res : Action} {c1 : Ctx}
    (h : DecR E ph evt id s ref s' o res c1) : s'.sname = s.sname ∧ s'.certs = s.certs ∧ (s.tlsCfg = none → s'.tlsCfg = none) := by
  rw [h.sess]
  refine ⟨rfl, rfl, fun hn => ?_⟩
  simp only [hn, tlsOpt]
  split <;> (try split) <;> rfl

theorem Did.params {cf : Conf} {E : Env} {s s' : Sess} {sh sh' : Shared} {i : Inp} {o : List Out} (h : Did cf E s sh i s' sh' o) :
    s'.sname = s.sname ∧ s'.certs = s.certs ∧ (s.certs = [] → s.tlsCfg = none → s'.tlsCfg = none) := by
  have key : ∀ {ph evt id ref s0 s1 o res c1}, DecR E ph evt id s0 ref s1 o res c1 →
      s1.sname = s0.sname ∧ s1.certs = s0.certs ∧ (s0.certs = [] → s0.tlsCfg = none → s1.tlsCfg = none) := fun hd =>
    ⟨hd.params.1, hd.params.2.1, fun _ => hd.params.2.2⟩
  cases h with
  | tls hp ht _ =>
    unfold tlsStep at ht
    cases ht
    exact ⟨rfl, rfl, fun h _ => by simp [h]⟩
  | drop hp hd _ => have r := key hd; exact r
  | connect hp hd => have r := key hd; exact r
  | heloRef hp he hd => have r := key hd; exact r
  | heloAcc hp he hd _ => have r := key hd; exact r
  | mailRef hp he hd => have r := key hd; exact r
  | mailAcc hp he hd => have r := key hd; exact r
  | mailCount hp he hd => have r := key hd; exact r
  | mailDrop hp he hd => have r := key hd; exact r
  | rcptRef hp he hd => have r := key hd; exact r
  | rcptAcc hp he hd _ => have r := key hd; exact r
  | dataRef hp he hd => have r := key hd; exact r
  | dataAcc hp he hd _ => have r := key hd; exact r
  | gotKeep hp he => exact ⟨rfl, rfl, fun _ h => h⟩
  | gotSave hp he => exact ⟨rfl, rfl, fun _ h => h⟩
  | tlserror hp he => exact ⟨rfl, rfl, fun _ h => h⟩
  | finish hp he _ => exact ⟨rfl, rfl, fun _ h => h⟩
  | other hp he => exact ⟨rfl, rfl, fun _ h => h⟩
  | save hp _ _ _ => exact ⟨rfl, rfl, fun _ h => h⟩
  | answerFail hp => exact ⟨rfl, rfl, fun _ h => h⟩
  | answerRef hp hd => have r := key hd; exact r
  | answerAcc hp hd _ => have r := key hd; exact r
  | closed hp => exact ⟨rfl, rfl, fun _ h => h⟩

theorem run_params {cf : Conf} {E : Env} {s0 s : Sess} {l : List Step} (hr : Run cf E s0 l s) :
    s.sname = s0.sname ∧ s.certs = s0.certs ∧ (s0.certs = [] → s0.tlsCfg = none → s.tlsCfg = none) := by
  refine Spec.Run.ind (P := fun l s => s.sname = s0.sname ∧ s.certs = s0.certs ∧ (s0.certs = [] → s0.tlsCfg = none → s.tlsCfg = none)) hr
    ⟨rfl, rfl, fun _ h => h⟩ ?_
  rintro l s1 s2 sh sh' i o _ ⟨h1, h2, h3⟩ hd _
  obtain ⟨g1, g2, g3⟩ := hd.params
  exact ⟨g1.trans h1, g2.trans h2, fun a b => g3 (h2.trans a) (h3 a b)⟩

/-- **C48.** The settings stay for the whole life of the connection, whatever happens to the file later. -/
theorem C48_life_partial {cf : Conf} {E : Env} {l : List Step} {s : Sess} {ip : IP} (hip : E.W.lib.parseIP E.lip = some ip)
    (h : Life cf E l s) : Settings cf E ip s.sname s.certs := by
  obtain ⟨sh, i, s0, sh0, o, hst, hr⟩ := h
  obtain ⟨h1, h2, -⟩ := run_params hr
  rw [h1, h2]
  exact (C48_settings_partial hip hst).1

/-- **C48.** Without certificates TLS is never offered. -/
theorem C48_no_certificates {cf : Conf} {E : Env} {l : List Step} {s : Sess} (h : Life cf E l s) (hc : s.certs = []) : s.tlsCfg = none := by
  obtain ⟨sh, i, s0, sh0, o, hst, hr⟩ := h
  obtain ⟨-, h2, h3⟩ := run_params hr
  obtain ⟨n, t, o', -, -, -, ht, -⟩ := startSess_params hst
  exact h3 (h2 ▸ hc) ht

/-- The settings are determined by the configuration, the local address and the file. -/
theorem Spec.Settings.unique {cf : Conf} {E : Env} {ip : IP} {n n' : Str} {c c' : List TlsCert} (hip : E.W.lib.parseIP E.lip = some ip)
    (h : Settings cf E ip n c) (h' : Settings cf E ip n' c') : n = n' ∧ c = c' := by
  have un : ∀ {a b m}, Undotted m a → Undotted m b → a = b := by
    rintro a b m (rfl | ⟨rfl, h⟩) (h2 | ⟨rfl, h2⟩)
    · simpa using h2
    · exact absurd ⟨a, rfl⟩ h2
    · exact absurd ⟨b, h2⟩ h
    · rfl
  have hn : ∀ {a b t t'}, OwnName cf E a t → OwnName cf E b t' → a = b := by
    intro a b t t' h1 h2
    cases h1 with
    | option h1 => cases h2 <;> first | rfl | contradiction
    | name h1 h3 h4 =>
      cases h2 with
      | option h2 => contradiction
      | name h2 h5 h6 => rw [h3] at h5; cases h5; exact un h4 h6
      | addr h2 h5 => exact absurd h3 (h5 _ _)
    | addr h1 h3 =>
      cases h2 with
      | option h2 => contradiction
      | name h2 h5 h6 => exact absurd h5 (h3 _ _)
      | addr h2 h5 => rfl
  have hg : ∀ {f d d'}, GoodFile E.pairs f d → GoodFile E.pairs f d' → d = d' := by
    intro f d d' h1 h2
    rw [goodFile_iff] at h1 h2
    rw [h1] at h2; exact Except.ok.inj h2
  cases h with
  | none h1 h2 => cases h' with
    | none h3 h4 => exact ⟨hn h2 h4, rfl⟩
    | broken h3 h4 => contradiction
    | silent h3 h4 => contradiction
    | line h3 h4 => contradiction
  | broken h1 h2 hb => cases h' with
    | none h3 h4 => contradiction
    | broken h3 h4 => exact ⟨hn h2 h4, rfl⟩
    | silent h3 h4 => exact ⟨hn h2 h4, rfl⟩
    | line h3 h4 h5 => have := h2.time h4; subst this; exact absurd ⟨_, h5⟩ hb
  | silent h1 h2 hb hf => cases h' with
    | none h3 h4 => contradiction
    | broken h3 h4 => exact ⟨hn h2 h4, rfl⟩
    | silent h3 h4 => exact ⟨hn h2 h4, rfl⟩
    | line h3 h4 h5 h6 =>
      have := h2.time h4; subst this
      cases hg hb h5
      obtain ⟨l, r, rfl, hc, -⟩ := h6
      exact absurd hc (hf _ (by simp))
  | line h1 h2 hb hf => cases h' with
    | none h3 h4 => contradiction
    | broken h3 h4 h5 => have := h2.time h4; subst this; exact absurd ⟨_, hb⟩ h5
    | silent h3 h4 h5 h6 =>
      have := h2.time h4; subst this
      cases hg hb h5
      obtain ⟨l, r, rfl, hc, -⟩ := hf
      exact absurd hc (h6 _ (by simp))
    | line h3 h4 h5 h6 =>
      have := h2.time h4; subst this
      cases hg hb h5
      cases hn h2 h4
      have e := (find_iff (las := E.laddr) hip _ _).2 hf
      rw [(find_iff hip _ _).2 h6] at e
      cases e
      exact ⟨rfl, rfl⟩

/-- The demonstration world with a connection parameter file. -/
def demoEnvC (text : Str) : Env :=
  { demoEnv with W := { demoWorld with files := fun _ => tbl (.notExist b!"no such file") [(b!"/conn", .data text)] } }

/-- The name, the certificates and the number of warnings with this file. -/
def demoParams (text : Str) : Option (Str × List TlsCert × Nat) :=
  match startSess { demoConf with connfile := b!"/conn", certs := [⟨b!"c", b!"k"⟩] } (demoEnvC text) {} {} with
  | .ok (s, _, o) => some (s.sname, s.certs, (o.filter fun x => match x with | .warn _ => true | _ => false).length)
  | .error _ => none

example : demoParams b!"192.0.2.8\n192.0.2.0/24 hostname=other\n* cert=a key=b\n" = some (b!"other", [], 0) := by decide +kernel
example : demoParams b!"192.0.2.9:26\n192.0.2.9:25 cert=a key=b\n*\n" = some (b!"here", [⟨b!"a", b!"b"⟩], 0) := by decide +kernel
example : demoParams b!"192.0.2.8\n" = some (b!"here", [⟨b!"c", b!"k"⟩], 0) := by decide +kernel
example : demoParams b!"* hostname=x\n* certificate=a\n" = some (b!"here", [⟨b!"c", b!"k"⟩], 1) := by decide +kernel
example : demoEnv.W.lib.parseIP demoEnv.lip = some (.v4 0xc0000209#32) := by decide +kernel
/-- A block that has nothing to do with the local address. -/
example : demoLib.parseIP b!"fe80::1%eth0" = none ∧
    findDest demoLib b!"[fe80::1%eth0]:25" b!"fe80::1%eth0" [⟨b!"10.0.0.0/8", b!"x", []⟩, ⟨b!"*", b!"y", []⟩] = some ⟨b!"10.0.0.0/8", b!"x", []⟩ := by
  decide +kernel

end Sink
