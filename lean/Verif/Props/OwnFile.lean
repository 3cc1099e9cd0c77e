import Verif.Props.SavedOnce
import Verif.Props.Program
import Verif.Props.Apart
import Verif.Props.Meta

/-!
# C120: with `-save-hash all` the messages of different connections are in different files
-/

namespace Sink

open Spec

theorem word_inj {p q x y : Str} (hp : c!" " ∉ p) (hq : c!" " ∉ q) (h : p ++ b!" " ++ x = q ++ b!" " ++ y) : p = q := by
  have key : ∀ {p x : Str}, c!" " ∉ p → (p ++ b!" " ++ x).takeWhile (· != c!" ") = p := by
    intro p x hp
    rw [List.append_assoc, List.takeWhile_append_of_pos]
    · simp
    · intro c hc
      simp only [bne_iff_ne, ne_eq]
      rintro rfl
      exact hp hc
  rw [← key (x := x) hp, h, key hq]

theorem convId_blank (p k : Nat) : c!" " ∉ convId p k := by
  have hd : ∀ n, c!" " ∉ decDigits n := fun n h => absurd (dec_digit h) (by decide)
  unfold convId
  simp only [List.mem_append, not_or]
  exact ⟨⟨hd _, by decide⟩, hd _⟩

/-- The record of a message begins with the prefix of its connection. -/
theorem arrived_prefix {cf : Conf} {E E' : Env} {a a' : Step} {data data' tgt tgt' r n n' : Str} (h1 : a.Ok cf E) (h2 : a.event = some (.gotdata data))
    (h3 : a.post.pc = .save .open_ tgt r n) (h1' : a'.Ok cf E') (h2' : a'.event = some (.gotdata data')) (h3' : a'.post.pc = .save .open_ tgt' r n')
    (hp : c!" " ∉ E.prefix_) (hp' : c!" " ∉ E'.prefix_) : E.prefix_ = E'.prefix_ := by
  have e1 := (arrived_saves h1 h2 h3).1.name.2.2
  have e2 := (arrived_saves h1' h2' h3').1.name.2.2
  rw [e1] at e2
  simp only [msgDetails, idLine, List.append_assoc] at e2
  have e3 := List.append_cancel_left e2
  refine word_inj (x := a.post.trans.raddr ++ (b!" " ++ (a.post.trans.when_ ++ (b!"\n" ++ metaText a.post.trans))))
    (y := a'.post.trans.raddr ++ (b!" " ++ (a'.post.trans.when_ ++ (b!"\n" ++ metaText a'.post.trans)))) hp hp' ?_
  simpa only [List.append_assoc] using e3

/-- **C120.** In a run of the program the records of messages of different connections are different, whatever the messages are. -/
theorem C120_records {L : Launch} {l : List Mark} {p : Program} (hr : Program.Runs L l p) {e e' : Hap} (he : .sess e ∈ l) (he' : .sess e' ∈ l)
    (hk : e.k ≠ e'.k) {st st' : Step} (_hs : Hap.step e = some st) (_hs' : Hap.step e' = some st') {data data' tgt tgt' r r' : Str}
    (h : SavesTo L.cf e.E st data tgt r) (h' : SavesTo L.cf e'.E st' data' tgt' r') : r ≠ r' := by
  rintro rfl
  obtain ⟨h1, h2, n, h3⟩ := h
  obtain ⟨h1', h2', n', h3'⟩ := h'
  have hx := (hr.hap he).2.prefix_
  have hx' := (hr.hap he').2.prefix_
  have := arrived_prefix h1 h2 h3 h1' h2' h3' (hx ▸ convId_blank _ _) (hx' ▸ convId_blank _ _)
  rw [hx, hx'] at this
  exact hk (C99_distinct this).2

/-- **C120.** So they go to different files with `-save-hash all`, if the hash is different for different records and has no `/` in it. -/
theorem C120_files {L : Launch} (hall : L.cf.hashtype = b!"all") {l : List Mark} {p : Program} (hr : Program.Runs L l p) {e e' : Hap} (he : .sess e ∈ l)
    (he' : .sess e' ∈ l) (hk : e.k ≠ e'.k) {st st' : Step} (hs : Hap.step e = some st) (hs' : Hap.step e' = some st') {data data' tgt tgt' r r' : Str}
    (h : SavesTo L.cf e.E st data tgt r) (h' : SavesTo L.cf e'.E st' data' tgt' r') (hcol : e.E.H.gen r = e'.E.H.gen r' → r = r')
    (hslash : c!"/" ∉ e.E.H.gen r ∧ c!"/" ∉ e'.E.H.gen r') : tgt ≠ tgt' := by
  rintro rfl
  refine C120_records hr he he' hk hs hs' h h' (hcol ?_)
  obtain ⟨h1, h2, n, h3⟩ := h
  obtain ⟨h1', h2', n', h3'⟩ := h'
  have e1 := C44_all (arrived_saves h1 h2 h3).1 hall
  have e2 := C44_all (arrived_saves h1' h2' h3').1 hall
  rw [← e1, ← e2]
  exact basename_eq (e1 ▸ hslash.1) (e2 ▸ hslash.2) ((arrived_dir h1 h2 h3).symm.trans (arrived_dir h1' h2' h3'))

theorem line_inj {p q x y : Str} (hp : OneLine p) (hq : OneLine q) (h : p ++ b!"\n" ++ x = q ++ b!"\n" ++ y) : p = q := by
  have key : ∀ {p x : Str}, OneLine p → (p ++ b!"\n" ++ x).takeWhile (· != c!"\n") = p := by
    intro p x hp
    rw [List.append_assoc, List.takeWhile_append_of_pos]
    · simp
    · intro c hc
      simp only [bne_iff_ne, ne_eq]
      rintro rfl
      exact hp hc
  rw [← key (x := x) hp, h, key hq]

theorem Spec.CameIn.life {cf : Conf} {h : List Hap} {g : Server} (hr : Server.Runs cf h g) {k : Nat} {E : Env} {s : Sess} (hk : g.conns k = some (E, s)) {l : List Step}
    {a : Step} {data p r : Str} (hc : CameIn cf h k E l a data p r) : Life cf E l a.pre := by
  obtain ⟨⟨m, hm⟩, -⟩ := hc
  obtain ⟨sh, i, s0, sh0, o, hst, hrun⟩ := hr.life.1 _ _ hk
  exact ⟨sh, i, s0, sh0, o, hst, (Spec.Run.split hrun hm).1⟩

/-- **C120.** The manual on `all`: "basically always completely unique", "assuming no hash collisions" and that "the sender doesn't send two copies over the same
connection in the same second".  If two messages go to one file, they came over the same connection in the same second, and their records are the same. -/
theorem C120_only {L : Launch} (hall : L.cf.hashtype = b!"all") {ms : List Mark} {p : Program} (hr : Program.Runs L ms p) {k k' : Nat} {E E' : Env} {s s' : Sess}
    (hk : p.srv.conns k = some (E, s)) (hk' : p.srv.conns k' = some (E', s')) {l l' : List Step} {a a' : Step} {data data' tgt r r' : Str}
    (h : CameIn L.cf (hapsOf ms) k E l a data tgt r) (h' : CameIn L.cf (hapsOf ms) k' E' l' a' data' tgt r') (ht : OneLine a.i.nowText) (ht' : OneLine a'.i.nowText)
    (hcol : E.H.gen r = E'.H.gen r' → r = r') (hslash : c!"/" ∉ E.H.gen r ∧ c!"/" ∉ E'.H.gen r') : k = k' ∧ a.i.nowText = a'.i.nowText ∧ r = r' := by
  have hl := h.life hr.parts.2.1 hk
  have hl' := h'.life hr.parts.2.1 hk'
  obtain ⟨-, h1, h2, n, h3⟩ := h
  obtain ⟨-, h1', h2', n', h3'⟩ := h'
  have e1 := C44_all (arrived_saves h1 h2 h3).1 hall
  have e2 := C44_all (arrived_saves h1' h2' h3').1 hall
  have hrr : r = r' := by
    refine hcol ?_
    rw [← e1, ← e2]
    exact basename_eq (e1 ▸ hslash.1) (e2 ▸ hslash.2) ((arrived_dir h1 h2 h3).symm.trans (arrived_dir h1' h2' h3'))
  subst hrr
  have hx := (hr.env hk).2.prefix_
  have hx' := (hr.env hk').2.prefix_
  have hpre := arrived_prefix h1 h2 h3 h1' h2' h3' (hx ▸ convId_blank _ _) (hx' ▸ convId_blank _ _)
  have hkk : k = k' := by
    rw [hx, hx'] at hpre
    exact (C99_distinct hpre).2
  subst hkk
  rw [hk] at hk'
  cases hk'
  refine ⟨rfl, ?_, rfl⟩
  obtain ⟨n1, -, n2⟩ := (arrived_saves h1 h2 h3).1.name
  obtain ⟨n1', -, n2'⟩ := (arrived_saves h1' h2' h3').1.name
  have hra : a.post.trans.raddr = E.raddr := by rw [n1, (gotTrans_kept _ _ _ _).1, (life_known hl).raddr]
  have hra' : a'.post.trans.raddr = E.raddr := by rw [n1', (gotTrans_kept _ _ _ _).1, (life_known hl').raddr]
  have hw : ∀ (H : Hashes) (d : Str) (i : Inp) (t : Trans), (gotTrans H d i t).when_ = i.nowText := by
    intro H d i t
    unfold gotTrans
    simp only
    split <;> rfl
  rw [n2] at n2'
  simp only [msgDetails, idLine, hra, hra', List.append_assoc] at n2'
  have n3 := List.append_cancel_left (List.append_cancel_left (List.append_cancel_left (List.append_cancel_left (List.append_cancel_left n2'))))
  rw [n1, n1', hw, hw] at n3
  exact line_inj ht ht' (by simpa only [List.append_assoc] using n3)

/-- **C120.** They are then two copies: sender, recipients and data are the same. -/
theorem C120_copies {L : Launch} (hall : L.cf.hashtype = b!"all") {ms : List Mark} {p : Program} (hr : Program.Runs L ms p) {k k' : Nat} {E E' : Env} {s s' : Sess}
    (hk : p.srv.conns k = some (E, s)) (hk' : p.srv.conns k' = some (E', s')) {l l' : List Step} {a a' : Step} {data data' tgt r r' : Str}
    (h : CameIn L.cf (hapsOf ms) k E l a data tgt r) (h' : CameIn L.cf (hapsOf ms) k' E' l' a' data' tgt r') (ht : OneLine a.i.nowText) (ht' : OneLine a'.i.nowText)
    (hcol : E.H.gen r = E'.H.gen r' → r = r') (hslash : c!"/" ∉ E.H.gen r ∧ c!"/" ∉ E'.H.gen r') (hE : PlainEnv E) (hD : PlainDns E)
    (hp : ∀ q ∈ stepsOf k (hapsOf ms), q.PlainCmd ∧ q.PlainTls) :
    (envelope l).from_ = (envelope l').from_ ∧ (envelope l).rcpts = (envelope l').rcpts ∧ data = data' := by
  obtain ⟨rfl, -, rfl⟩ := C120_only hall hr hk hk' h h' ht ht' hcol hslash
  rw [hk] at hk'
  cases hk'
  have hl := h.life hr.parts.2.1 hk
  have hl' := h'.life hr.parts.2.1 hk
  obtain ⟨⟨m, hm⟩, h1, h2, n, h3⟩ := h
  obtain ⟨⟨m', hm'⟩, h1', h2', n', h3'⟩ := h'
  have sub : ∀ {l m : List Step} {a : Step}, stepsOf k (hapsOf ms) = l ++ a :: m → ∀ q ∈ l ++ [a], q.PlainCmd ∧ q.PlainTls := by
    intro l m a e q hq
    refine hp q ?_
    rw [e]
    rcases List.mem_append.1 hq with hq | hq
    · simp [hq]
    · simp [List.mem_singleton.1 hq]
  have b1 := C45_read_back hE hD hl (sub hm) (arrived_saves h1 h2 h3).1
  have b2 := C45_read_back hE hD hl' (sub hm') (arrived_saves h1' h2' h3').1
  rw [b1] at b2
  have b3 := Option.some.inj b2
  simp only [Prod.mk.injEq] at b3
  exact b3

/-- While a file is being written nothing is answered. -/
theorem saved_silent {cf : Conf} {E : Env} {s s' : Sess} {sh sh' : Shared} {i : Inp} {tgt r n : Str} {q : SavePc} {o : List Out}
    (h : sstep cf E s sh i = .ok (s', sh', o)) (hp : s.pc = .save q tgt r n) : replies o = [] := by
  cases q <;> simp only [sstep, hp, openStep, writeStep, syncStep, closeStep] at h <;> split at h <;> cases h <;> rfl

/-- Who does not write a file that is there will not write it. -/
theorem never_writes {cf : Conf} {k : Nat} {p : Str} : ∀ {h2 h1 : List Hap} {g g1 : Server}, Server.Runs cf (h2 ++ h1) g → Server.Runs cf h1 g1 →
    (∀ h g', Server.Runs cf h g' → h = h1 → (g'.sh.fs p).isSome = true ∧ ∀ E s, g'.conns k = some (E, s) → ¬ Writing s p) →
    (g.sh.fs p).isSome = true ∧ ∀ E s, g.conns k = some (E, s) → ¬ Writing s p := by
  intro h2
  induction h2 with
  | nil => intro h1 g g1 hr hr1 h; exact h _ _ hr rfl
  | cons x h2 ih =>
    intro h1 g g1 hr hr1 h
    cases hr with
    | @start _ g0 j E0 i s0 sh' o hr hn hk hs =>
      obtain ⟨a1, a2⟩ := ih hr hr1 h
      refine ⟨by simp only; rw [startSess_fs hs]; exact a1, fun E s hc => ?_⟩
      simp only at hc
      split at hc
      · cases hc
        exact not_writing_tls (startSess_init hs).1 _
      · exact a2 E s hc
    | @step _ g0 j E0 i s0 s1 sh' o hr hn hk hs =>
      obtain ⟨a1, a2⟩ := ih hr hr1 h
      refine ⟨sstep_keeps hs a1, fun E s hc hw => ?_⟩
      simp only at hc
      split at hc
      · rename_i hj
        subst hj
        cases hc
        rcases sstep_writing hs hw with h3 | ⟨h3, -⟩
        · exact a2 _ _ hk h3
        · rw [h3] at a1; cases a1
      · exact a2 E s hc hw

/-- **C120**, **C42** with `-save-hash all` for the whole program: from when a message that was to be saved is accepted, its file contains exactly its record, whatever
happens in other connections and later in this one, provided that file was not there when the program started, nothing went wrong with writing or closing it, and the
hash gives no `/` and differs for different records. -/
theorem C120_kept {L : Launch} (hall : L.cf.hashtype = b!"all") {ms : List Mark} {p : Program} (hr : Program.Runs L ms p) {h2 h1 : List Hap} {e0 : Hap} {k : Nat}
    {E : Env} {now : Int} {s s' : Sess} {sh sh' : Shared} {i : Inp} {o : List Out}
    (hh : hapsOf ms = h2 ++ ⟨k, E, now, .stepped s sh i s' sh' o⟩ :: h1 ++ [e0]) {l m : List Step} {a : Step} {data tgt r : Str}
    (hl : stepsOf k (h1 ++ [e0]) = l ++ a :: m) (ha : SavesTo L.cf E a data tgt r) (hm : Handling m) (hp : s.pc ≠ .ready) (hacc : .accepted ∈ replies o)
    (h0 : Hap.before e0 tgt = none) (hok : ¬ Trouble (hapsOf ms) tgt) (hslash : ∀ e ∈ hapsOf ms, ∀ x, c!"/" ∉ e.E.H.gen x)
    (hcol : ∀ E' t' r' n', Arrived L.cf (hapsOf ms) E' t' r' n' → E'.H.gen r' = E.H.gen r → r' = r) :
    ∃ f, p.srv.sh.fs tgt = some f ∧ f.content = r := by
  have hsr := hr.parts.2.1
  have hsr0 := hsr
  rw [hh] at hsr
  rw [hh] at hok hslash hcol
  have he : (.sess ⟨k, E, now, .stepped s sh i s' sh' o⟩ : Mark) ∈ ms := mem_hapsOf.1 (by rw [hh]; simp)
  have hx := (hr.hap he).2.prefix_
  rcases C42_all_partial hsr hl ha hm hp hacc hall h0 hok hslash hcol with h | ⟨k', E', s'', n, hc, hpc⟩
  · exact h
  exfalso
  by_cases hkk : k' = k
  · -- the file is there, so this connection does not write it again
    subst hkk
    have hsr' : Server.Runs L.cf (h2 ++ (⟨k', E, now, .stepped s sh i s' sh' o⟩ :: (h1 ++ [e0]))) p.srv := by simpa using hsr
    obtain ⟨g1, hr1, -⟩ := hsr'.split
    refine (never_writes hsr' hr1 ?_).2 _ _ hc ⟨_, _, _, hpc, by nofun⟩
    intro h g' hg' e
    subst e
    refine ⟨(C42_stored_partial (h2 := []) hg' hl ha hm hp hacc).1, fun E1 s1 hc1 hw => ?_⟩
    cases hg' with
    | @step _ g0 _ _ _ _ _ _ _ hr0 hn hk hs =>
      simp only [if_pos] at hc1
      cases hc1
      rcases sstep_writing hs hw with ⟨q, r1, n1, h3, -⟩ | ⟨-, -, r1, n1, h3⟩
      all_goals
        rw [saved_silent hs h3] at hacc
        cases hacc
  · -- another connection has another record
    obtain ⟨e, he', st, d, rfl, hst, b1, b2, b3⟩ := hsr0.arrived hc hpc
    obtain ⟨a1, a2, n', a3⟩ := ha
    have hx' := (hr.env hc).2.prefix_
    have := arrived_prefix a1 a2 a3 b1 b2 b3 (hx ▸ convId_blank _ _) (hx' ▸ convId_blank _ _)
    rw [hx, hx'] at this
    exact hkk (C99_distinct this).2.symm

/-- The text itself, without `/`. -/
def plainHashes : Hashes := ⟨fun x => x.filter (· != c!"/"), fun _ => .noParse⟩

/-- A message from a client, all at one moment. -/
def message (k : Nat) : List ProgAct :=
  [.stepped k { now := 5 }, .stepped k { now := 5 }, .stepped k { ev := .helo false b!"x", now := 5 }, .stepped k { ev := .mailfrom b!"a@example.com", now := 5 },
    .stepped k { ev := .rcptto b!"b@example.com", now := 5 }, .stepped k { ev := .data, now := 5 }, .stepped k { ev := .gotdata b!"hello", now := 5 }] ++
  List.replicate 4 (.stepped k { now := 5 }) ++ [.stepped k { now := 5 }]

/-- Two clients at the same address and port send the same message at the same time: two files, each with the record of its message. -/
example : (Program.demo ⟨demoConf, ⟨true, false⟩, 1, 7⟩ { demoEnv with H := plainHashes } 5
      ((List.replicate 2 ([.front (.accept 0 b!"192.0.2.9:25")] ++ (mainServes 0 4).map .front)).flatten ++
        [.began 1 b!"192.0.2.2:1234"] ++ records 1 4 ++ [.began 2 b!"192.0.2.2:1234"] ++ records 2 4 ++ message 1 ++ message 2)).map (fun x =>
      (demoConf.hashtype, [1, 2].map (fun k => answers (stepsOf k (hapsOf x.1))), match [1, 2].flatMap fun k => messages (stepsOf k (hapsOf x.1)) with
        | [(tgt, r), (tgt', r')] => decide (tgt ≠ tgt' ∧ afterLine r = afterLine r' ∧ x.2.srv.sh.fs tgt = some ⟨r, true⟩ ∧ x.2.srv.sh.fs tgt' = some ⟨r', true⟩)
        | _ => false)) = some (b!"all", [[[.accepted]], [[.accepted]]], true) := by
  decide +kernel

/-- A message once more in a connection. -/
def onceMore (k : Nat) (t : Str) : List Act :=
  ([.mailfrom b!"b@example.com", .rcptto b!"x@example.com", .data, .gotdata b!"hi\n"].map fun e => .inp k { ev := e, nowText := t }) ++
    List.replicate 5 (.inp k {})

/-- **C120**: only one connection can send two messages that share a file.  If it sends the same message twice within one second, both are accepted and there is
one file. -/
theorem C120_same_second : ∃ h g tgt r, Server.Runs demoConf h g ∧ demoConf.hashtype = b!"all" ∧ messages (stepsOf 1 h) = [(tgt, r), (tgt, r)] ∧
    answers (stepsOf 1 h) = [[.accepted], [.accepted]] := by
  have key : served (fun h _ => match messages (stepsOf 1 h) with
      | [(tgt, r), (tgt', r')] => decide (tgt' = tgt ∧ r' = r ∧ answers (stepsOf 1 h) = [[.accepted], [.accepted]])
      | _ => false) demoConf (session 1 demoEnvP 0 [.helo false b!"mail.example.com"] ++ onceMore 1 b!"12:00:00" ++ onceMore 1 b!"12:00:00") = some true := by
    decide +kernel
  unfold served at key
  generalize hd : serveAll _ _ = d at key
  cases d with
  | none => cases key
  | some x =>
    obtain ⟨h, g⟩ := x
    simp only [Option.map_some, Option.some.injEq] at key
    split at key
    · rename_i tgt r tgt' r' hm
      obtain ⟨rfl, rfl, h1⟩ := of_decide_eq_true key
      exact ⟨h, g, _, _, serveAll_runs hd, rfl, hm, h1⟩
    · cases key

end Sink
