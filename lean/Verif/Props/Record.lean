import Verif.Lemmas.Record
import Verif.Props.Session
import Verif.Spec.DemoSession

/-!
# Saved messages and the message log: names (C44), reading back (C45), log lines (C46); TLS names (C61)
-/

namespace Sink
open Spec

instance (ev : SEv) : Decidable (PlainArg ev) := by cases ev <;> (unfold PlainArg; infer_instance)

instance (st : Step) : Decidable st.PlainCmd :=
  decidable_of_iff (OneLine st.i.nowText ∧ ∀ ev ∈ st.event, PlainArg ev) Iff.rfl

/-- A step that takes a message. -/
theorem got_step {cf : Conf} {E : Env} {st : Step} {data : Str} (hok : st.Ok cf E) (hev : st.event = some (.gotdata data)) :
    st.post.trans = gotTrans E.H data st.i st.pre.trans ∧
    st.out = .count .messages :: (if cf.logf then [.msglog (logLine E.prefix_ st.post.trans)] else []) ∧
    ((st.pre.trans.savedir = [] ∧ st.post.pc = .decide st.post.trans.hash false) ∨
     (st.pre.trans.savedir ≠ [] ∧ ∃ n, saveName E.H cf.hashtype E.prefix_ st.post.trans = some n ∧
      st.post.pc = .save .open_ (st.pre.trans.savedir ++ b!"/" ++ n) (msgDetails E.H E.prefix_ st.post.trans).1 n)) := by
  obtain ⟨s, i, sh, s', sh', o⟩ := st
  unfold Step.event at hev
  split at hev
  · rename_i hp
    simp only at hp
    have hev2 : i.ev = .gotdata data := Option.some.inj hev
    have hd := sstep_did hok
    simp only at hd ⊢
    cases hd with
    | gotKeep _ he hsd ho =>
      rw [hev2] at he; cases he
      exact ⟨rfl, ho, .inl ⟨hsd, rfl⟩⟩
    | gotSave _ he hsd hn ho =>
      rw [hev2] at he; cases he
      exact ⟨rfl, ho, .inr ⟨hsd, _, hn, rfl⟩⟩
    | finish _ he _ => rw [hev2] at he; rcases he with ⟨he, _⟩ | ⟨he, _⟩ <;> cases he
    | tls hp' | drop hp' | connect hp' | save hp' | answerFail hp' | answerRef hp' | answerAcc hp' | closed hp' => rw [hp] at hp'; cases hp'
    | heloRef _ he | heloAcc _ he | mailRef _ he | mailAcc _ he | mailCount _ he | mailDrop _ he | rcptRef _ he | rcptAcc _ he
    | dataRef _ he | dataAcc _ he | tlserror _ he | other _ he => rw [hev2] at he; cases he
  · cases hev

theorem Spec.Saves.name {cf : Conf} {E : Env} {st : Step} {data n r : Str} (h : Saves cf E st data n r) :
    st.post.trans = gotTrans E.H data st.i st.pre.trans ∧ saveName E.H cf.hashtype E.prefix_ st.post.trans = some n ∧
    r = (msgDetails E.H E.prefix_ st.post.trans).1 := by
  obtain ⟨h1, -, h2⟩ := got_step h.ok h.ev
  obtain ⟨dir, hd⟩ := h.pc
  rcases h2 with ⟨-, h2⟩ | ⟨-, m, h3, h2⟩
  · rw [hd] at h2; cases h2
  · rw [hd] at h2
    injection h2 with _ _ h4 h5
    subst h5
    exact ⟨h1, h3, h4⟩

theorem gotTrans_hashes (H : Hashes) (arg : Str) (i : Inp) (t : Trans) :
    (gotTrans H arg i t).hash = H.gen arg ∧ (gotTrans H arg i t).bodyhash = (getHashes H arg).2 ∧ (gotTrans H arg i t).when_ = i.nowText := by
  unfold gotTrans
  dsimp only
  split <;> exact ⟨rfl, rfl, rfl⟩

/-- **C44.** With `-save-hash msg` the name is the hash of the data and of nothing else. -/
theorem C44_msg {cf : Conf} {E : Env} {st : Step} {data n r : Str} (h : Saves cf E st data n r) (ht : cf.hashtype = b!"msg") :
    n = E.H.gen data := by
  obtain ⟨h1, h2, -⟩ := h.name
  rw [ht, saveName, if_pos rfl, h1, (gotTrans_hashes _ _ _ _).1] at h2
  exact (Option.some.inj h2).symm

theorem metaText_same {t t' : Trans} (h : SameMessage t t') (hh : t.hash = t'.hash) (hb : t.bodyhash = t'.bodyhash) (hr : t.rip ≠ []) :
    metaText t = metaText t' := by
  have hr' := hr
  rw [h.rip] at hr'
  unfold metaText tlsText
  rw [if_neg hr, if_neg hr', h.rip, h.laddr, h.helo, h.rdns, h.from_, h.rcptto, h.data, h.tlson, h.cipher, h.tlsversion, h.servername,
    h.peername, h.tlsverified, hh, hb]

/-- **C44.** With `-save-hash full` two messages that agree in everything but the connection, the time and the client's port get
the same name.  (Without a client IP, when the address has no port that could be split off, the whole address is recorded.) -/
theorem C44_full {cf cf' : Conf} {E E' : Env} {st st' : Step} {data data' n n' r r' : Str} (h : Saves cf E st data n r)
    (h' : Saves cf' E' st' data' n' r') (hH : E.H = E'.H) (ht : cf.hashtype = b!"full") (ht' : cf'.hashtype = b!"full")
    (hs : SameMessage st.post.trans st'.post.trans) (hr : st.post.trans.rip ≠ []) : n = n' := by
  obtain ⟨h1, h2, -⟩ := h.name
  obtain ⟨h1', h2', -⟩ := h'.name
  have hd : data = data' := by
    have := hs.data
    rwa [h1, h1', gotTrans_data, gotTrans_data] at this
  have hm : metaText st.post.trans = metaText st'.post.trans := by
    refine metaText_same hs ?_ ?_ hr
    · rw [h1, h1', (gotTrans_hashes _ _ _ _).1, (gotTrans_hashes _ _ _ _).1, hd, hH]
    · rw [h1, h1', (gotTrans_hashes _ _ _ _).2.1, (gotTrans_hashes _ _ _ _).2.1, hd, hH]
  rw [ht, saveName, if_neg (by decide), if_pos rfl] at h2
  rw [ht', saveName, if_neg (by decide), if_pos rfl] at h2'
  have e1 := Option.some.inj h2
  have e2 := Option.some.inj h2'
  rw [← e1, ← e2]
  unfold msgDetails
  simp only [hm, hH]

/-- **C44.** With `-save-hash all` the name is the hash of the whole record: messages with different records share a name only
if the hash gives the same for both records. -/
theorem C44_all {cf : Conf} {E : Env} {st : Step} {data n r : Str} (h : Saves cf E st data n r) (ht : cf.hashtype = b!"all") :
    n = E.H.gen r := by
  obtain ⟨-, h2, h3⟩ := h.name
  rw [ht, saveName, if_neg (by decide), if_neg (by decide), if_pos rfl, ← h3] at h2
  exact (Option.some.inj h2).symm

theorem afterLine_line {l : Str} (hl : OneLine l) (s : Str) : afterLine (l ++ b!"\n" ++ s) = s := by
  unfold afterLine
  induction l with
  | nil => rfl
  | cons c l ih =>
    have h1 : (c != c!"\n") = true := by rw [bne_iff_ne]; exact fun h => hl (by simp [h])
    rw [List.cons_append, List.cons_append, List.dropWhile_cons, if_pos h1]
    exact ih fun h => hl (List.mem_cons_of_mem _ h)

theorem afterLine_record (H : Hashes) {prefix_ : Str} {t : Trans} (hp : OneLine prefix_) (hc : CleanTrans t) :
    afterLine (msgDetails H prefix_ t).1 = metaText t := by
  have : OneLine (b!"id " ++ prefix_ ++ b!" " ++ t.raddr ++ b!" " ++ t.when_) := by
    simp only [oneLine_append]
    exact ⟨⟨⟨⟨⟨by decide, hp⟩, by decide⟩, hc.raddr⟩, by decide⟩, hc.when_⟩
  exact afterLine_line this _

theorem Spec.Saves.clean {cf : Conf} {E : Env} (hE : PlainEnv E) {l : List Step} {st : Step} {data n r : Str}
    (hl : Life cf E l st.pre) (hp : ∀ q ∈ l ++ [st], q.PlainCmd) (h : Saves cf E st data n r) : CleanTrans st.post.trans := by
  rw [h.name.1]
  exact gotTrans_clean hE (hp st (by simp)).1 (life_clean hE hl fun q hq => hp q (by simp [hq]))

theorem Spec.Saves.names {cf : Conf} {E : Env} (hD : PlainDns E) {l : List Step} {st : Step} {data n r : Str}
    (hl : Life cf E l st.pre) (hp : ∀ q ∈ l ++ [st], q.PlainTls) (h : Saves cf E st data n r) : CleanNames st.post.trans := by
  have hst := hp st (by simp)
  rw [h.name.1]
  exact gotTrans_names hst.1 hst.2 (life_names hD hl fun q hq => hp q (by simp [hq]))

/-- **C44.** With `-save-hash full` the name is the hash of the record without its first line. -/
theorem C44_full_hash {cf : Conf} {E : Env} (hE : PlainEnv E) {l : List Step} {st : Step} {data n r : Str} (hl : Life cf E l st.pre)
    (hp : ∀ q ∈ l ++ [st], q.PlainCmd) (h : Saves cf E st data n r) (ht : cf.hashtype = b!"full") : n = E.H.gen (afterLine r) := by
  obtain ⟨-, h2, h3⟩ := h.name
  rw [ht, saveName, if_neg (by decide), if_pos rfl] at h2
  rw [h3, afterLine_record _ hE.pre (h.clean hE hl hp)]
  exact (Option.some.inj h2).symm

/-- **C45.** From a saved file a reader gets back the sender and the recipients accepted before the message, and the message,
whatever the message contains. -/
theorem C45_read_back {cf : Conf} {E : Env} (hE : PlainEnv E) (hD : PlainDns E) {l : List Step} {st : Step} {data n r : Str}
    (hl : Life cf E l st.pre) (hp : ∀ q ∈ l ++ [st], q.PlainCmd ∧ q.PlainTls) (h : Saves cf E st data n r) :
    readBack r = some ((envelope l).from_, (envelope l).rcpts, data) := by
  obtain ⟨h1, -, h3⟩ := h.name
  have hc := h.clean hE hl fun q hq => (hp q hq).1
  have hn := h.names hD hl fun q hq => (hp q hq).2
  rw [h3, readBack_record E.H hE.pre hc hn]
  obtain ⟨-, e2, e3⟩ := C33_rules_see hl
  have e4 := gotTrans_env E.H data st.i st.pre.trans
  rw [← h1] at e4
  have e5 : st.post.trans.from_ = st.pre.trans.from_ := congrArg Envelope.from_ e4
  have e6 : st.post.trans.rcptto = st.pre.trans.rcptto := congrArg Envelope.rcpts e4
  have e7 : st.pre.trans.rcptto = (envelope l).rcpts := (C33_rules_see hl).1
  rw [e5, e6, e3, e7, h1, gotTrans_data]

/-- **C44.** Messages with a different sender, recipients or data have different records, with and without the first line: so with
`full` and `all` they share a name only if the hash gives the same for two different texts. -/
theorem C44_distinct {cf cf' : Conf} {E E' : Env} (hE : PlainEnv E) (hD : PlainDns E) (hE' : PlainEnv E') (hD' : PlainDns E')
    {l l' : List Step} {st st' : Step} {data data' n n' r r' : Str} (hl : Life cf E l st.pre) (hl' : Life cf' E' l' st'.pre)
    (hp : ∀ q ∈ l ++ [st], q.PlainCmd ∧ q.PlainTls) (hp' : ∀ q ∈ l' ++ [st'], q.PlainCmd ∧ q.PlainTls)
    (h : Saves cf E st data n r) (h' : Saves cf' E' st' data' n' r')
    (hne : ((envelope l).from_, (envelope l).rcpts, data) ≠ ((envelope l').from_, (envelope l').rcpts, data')) :
    r ≠ r' ∧ afterLine r ≠ afterLine r' := by
  have hb := C45_read_back hE hD hl hp h
  have hb' := C45_read_back hE' hD' hl' hp' h'
  have hc := h.clean hE hl fun q hq => (hp q hq).1
  have hc' := h'.clean hE' hl' fun q hq => (hp' q hq).1
  have hn := h.names hD hl fun q hq => (hp q hq).2
  have hn' := h'.names hD' hl' fun q hq => (hp' q hq).2
  refine ⟨fun e => hne ?_, fun e => hne ?_⟩
  · rw [e] at hb
    exact Option.some.inj (hb.symm.trans hb')
  · have h3 := h.name.2.2
    have h3' := h'.name.2.2
    rw [h3, readBack_record E.H hE.pre hc hn] at hb
    rw [h3', readBack_record E'.H hE'.pre hc' hn'] at hb'
    rw [h3, h3', afterLine_record _ hE.pre hc, afterLine_record _ hE'.pre hc'] at e
    have m1 := readBack_meta hc hn
    rw [e, readBack_meta hc' hn'] at m1
    exact Option.some.inj ((hb.symm.trans m1.symm).trans hb')

theorem msglogs_mild {o : List Out} (h : Mild o) : msglogs o = [] := by
  unfold msglogs
  rw [List.filterMap_eq_nil_iff]
  intro x hx
  have := h x hx
  cases x <;> first | rfl | cases this

theorem msglogs_append (a b : List Out) : msglogs (a ++ b) = msglogs a ++ msglogs b := List.filterMap_append

theorem msglogs_writeLog (t : Trans) (s : Str) : msglogs (writeLog t s) = [] := msglogs_mild (mild_writeLog t s)

theorem msglogs_yakLog (cf : Conf) (E : Env) (i : Inp) (t : Trans) (w : Str) : msglogs (yakLog cf E i t w) = [] := by
  unfold yakLog; split <;> rfl

theorem msglogs_endStep (cf : Conf) (E : Env) (s : Sess) (sh : Shared) (i : Inp) : msglogs (endStep cf E s sh i).2.2 = [] := by
  have hl : ∀ p : Prop, [Decidable p] → ∀ c, msglogs (if p then [Out.count c] else []) = [] := by
    intro p _ c; split <;> rfl
  unfold endStep
  simp only
  split
  · simp only [msglogs_append, hl]
    split
    · simp only [msglogs_append, msglogs_writeLog, msglogs_yakLog]; rfl
    · rfl
  · split
    · simp only [msglogs_append, hl]
      split
      · simp only [msglogs_append, msglogs_writeLog, msglogs_yakLog]; rfl
      · rfl
    · split <;> exact hl _ _

/-- Only the arrival of a message writes to the message log. -/
theorem Did.msglogs {cf : Conf} {E : Env} {s s' : Sess} {sh sh' : Shared} {i : Inp} {o : List Out} (h : Did cf E s sh i s' sh' o)
    (hn : ∀ data, ¬ (s.pc = .ready ∧ i.ev = .gotdata data)) : msglogs o = [] := by
  cases h with
  | tls _ _ _ hm => exact msglogs_mild hm
  | drop _ hd _ hm => rw [msglogs_append, msglogs_mild hd.mild, msglogs_mild hm]; rfl
  | connect _ hd => exact msglogs_mild hd.mild
  | heloRef _ _ hd => exact msglogs_mild (.cons rfl hd.mild)
  | heloAcc _ _ hd _ hm => exact (msglogs_append _ _).trans (by rw [msglogs_mild hm]; exact (List.append_nil _).trans (msglogs_mild (.cons rfl hd.mild)))
  | mailRef _ _ hd => exact msglogs_mild (.cons rfl hd.mild)
  | mailAcc _ _ hd _ ho => rw [ho, msglogs_append]; exact (List.append_nil _).trans (msglogs_mild (.cons rfl hd.mild))
  | mailCount _ _ hd _ _ ho => rw [ho, msglogs_append]; exact (List.append_nil _).trans (msglogs_mild (.cons rfl hd.mild))
  | mailDrop _ _ hd _ _ ho =>
    rw [ho, msglogs_append, msglogs_append, msglogs_append, msglogs_writeLog]; exact (List.append_nil _).trans (msglogs_mild (.cons rfl hd.mild))
  | rcptRef _ _ hd => exact msglogs_mild (.cons rfl hd.mild)
  | rcptAcc _ _ hd ho => rw [ho, msglogs_append]; exact (List.append_nil _).trans (msglogs_mild (.cons rfl hd.mild))
  | dataRef _ _ hd => exact msglogs_mild (.cons rfl hd.mild)
  | dataAcc _ _ hd ho => rw [ho, msglogs_append]; exact (List.append_nil _).trans (msglogs_mild (.cons rfl hd.mild))
  | gotKeep hp he => exact absurd ⟨hp, he⟩ (hn _)
  | gotSave hp he => exact absurd ⟨hp, he⟩ (hn _)
  | tlserror | other | answerFail | closed => rfl
  | finish => exact msglogs_endStep cf E s sh i
  | save _ _ _ _ hm => exact msglogs_mild hm
  | answerRef _ hd => exact msglogs_mild hd.mild
  | answerAcc _ hd ho => rw [ho, msglogs_append]; exact (List.append_nil _).trans (msglogs_mild hd.mild)

/-- **C46.** With `-l`, a received message adds one line to the message log; nothing else does. -/
theorem C46_log_line {cf : Conf} {E : Env} (hE : PlainEnv E) (hlog : cf.logf = true) {l : List Step} {st : Step} (hl : Life cf E l st.pre)
    (hok : st.Ok cf E) (hp : ∀ q ∈ l ++ [st], q.PlainCmd) :
    ((∃ data, st.event = some (.gotdata data)) → ∃ line, msglogs st.out = [line] ∧ IsLine line) ∧
    ((∀ data, st.event ≠ some (.gotdata data)) → msglogs st.out = []) := by
  refine ⟨?_, ?_⟩
  · rintro ⟨data, hev⟩
    obtain ⟨h1, h2, -⟩ := got_step hok hev
    rw [h2, hlog, if_pos rfl]
    refine ⟨_, rfl, logLine_isLine hE.pre ?_⟩
    rw [h1]
    exact gotTrans_clean hE (hp st (by simp)).1 (life_clean hE hl fun q hq => hp q (by simp [hq]))
  · intro hn
    refine (sstep_did hok).msglogs fun data hd => hn data ?_
    unfold Step.event
    rw [if_pos hd.1, hd.2]

/-- **C46.** Over the life of a connection the message log gets as many lines as messages arrive. -/
theorem C46_count {cf : Conf} {E : Env} (hlog : cf.logf = true) {l : List Step} {s : Sess} (hl : Life cf E l s) :
    (l.flatMap fun st => msglogs st.out).length = (l.filter fun st => match st.event with | some (.gotdata _) => true | _ => false).length := by
  obtain ⟨sh0, i0, s0, sh1, o1, hst, hr⟩ := hl
  refine Spec.Run.ind (P := fun l _ => (l.flatMap fun st => msglogs st.out).length =
    (l.filter fun st => match st.event with | some (.gotdata _) => true | _ => false).length) hr rfl ?_
  intro l s1 s2 sh sh' i o _ ih hd hs
  rw [List.flatMap_append, List.filter_append, List.length_append, List.length_append, ih]
  congr 1
  rw [List.flatMap_singleton]
  by_cases hg : ∃ data, (⟨s1, i, sh, s2, sh', o⟩ : Step).event = some (.gotdata data)
  · obtain ⟨data, hev⟩ := hg
    have h2 := (got_step (st := ⟨s1, i, sh, s2, sh', o⟩) hs hev).2.1
    simp only [hlog, if_true] at h2
    rw [List.filter_cons, hev]
    show (msglogs o).length = 1
    rw [h2]
    rfl
  · have h0 := hd.msglogs fun data h => hg ⟨data, by unfold Step.event; rw [if_pos h.1, h.2]⟩
    rw [h0, List.filter_cons, if_neg]
    · rfl
    · intro h
      split at h
      · rename_i d hx; exact hg ⟨d, hx⟩
      · cases h

theorem hexDigit_inj : ∀ {a b : Nat}, a < 16 → b < 16 → hexDigit a = hexDigit b → a = b := by
  have h : ∀ a : Nat, a < 16 → ∀ b : Nat, b < 16 → hexDigit a = hexDigit b → a = b := by decide
  exact fun {a b} ha hb => h a ha b hb

theorem hex4_inj {v w : UInt16} (h : hex4 v = hex4 w) : v = w := by
  simp only [hex4, List.cons.injEq, and_true] at h
  obtain ⟨h1, h2, h3, h4⟩ := h
  have m : ∀ n : Nat, n % 16 < 16 := fun n => Nat.mod_lt _ (by decide)
  have e1 := hexDigit_inj (m _) (m _) h1
  have e2 := hexDigit_inj (m _) (m _) h2
  have e3 := hexDigit_inj (m _) (m _) h3
  have e4 := hexDigit_inj (m _) (m _) h4
  have hv := v.toNat_lt
  have hw := w.toNat_lt
  apply UInt16.toNat_inj.1
  omega

/-- **C61.** Different protocol versions have different names. -/
theorem C61_proto (v w : UInt16) (h : tlsProtoVersion v = tlsProtoVersion w) : v = w := by
  have key : ∀ (a b : Str), a.take 4 ≠ b!"tls-" → a ≠ b!"tls-0x" ++ b := fun a b h e => h (by rw [e]; rfl)
  unfold tlsProtoVersion at h
  repeat' split at h
  all_goals first
    | exact hex4_inj (List.append_cancel_left h)
    | exact absurd h (by decide)
    | exact absurd h (key _ _ (by decide))
    | exact absurd h.symm (key _ _ (by decide))
    | (rename_i h1 h2; first | exact h1.trans h2.symm | exact h2.symm.trans h1)
    | skip
  all_goals simp_all

example : tlsProtoVersion 0x0304 = b!"TLSv1.3" ∧ tlsProtoVersion 0x7f1c = b!"tls-0x7f1c" := by decide

/-- The names and records of the messages of a history. -/
def Spec.saved (l : List Step) : List (Str × Str) := l.filterMap fun st => match st.post.pc with
  | .save .open_ _ r n => some (n, r)
  | _ => none

/-- A hash that is text without newlines. -/
def lenHashes : Hashes := ⟨fun s => b!"len" ++ decDigits s.length, fun _ => .noParse⟩

/-- The client of `demoEnv` with this hash. -/
def demoEnvP : Env := { demoEnv with H := lenHashes }

/-- The conditions of C45 and C46 on the surroundings hold for it. -/
example : PlainEnv demoEnvP :=
  ⟨by decide, by decide, by decide, by decide, fun x => oneLine_append.2 ⟨(by decide : OneLine b!"len"), oneLine_decDigits _⟩⟩

example : PlainDns demoEnvP := by
  intro t ip ns h
  have h : (if ip = b!"192.0.2.2" then Except.ok [b!"www.example.com.", b!"mail.example.com.", b!"mx.example.com."] else Except.error (demoErr false)) =
    Except.ok ns := h
  split at h
  · cases h; decide
  · cases h

/-- A message with lines that look like the header of a record. -/
def trickyEvents : List SEv := [.helo false b!"mail.example.com", .mailfrom b!"a@example.com", .rcptto b!"x@example.com",
  .rcptto b!"> to <@example.com", .data, .gotdata b!"body\nfrom <z>\nto <y>\n"]

/-- It is read back as it was sent; `msg` names come from the data alone. -/
example : seen (fun l _ _ => (saved l).map fun x => decide (x.1 = b!"len21" ∧
      readBack x.2 = some (b!"a@example.com", [b!"x@example.com", b!"> to <@example.com"], b!"body\nfrom <z>\nto <y>\n")))
    (driveAll { demoConf with hashtype := b!"msg" } demoEnvP {} {} (events trickyEvents)) = .ok [true] := by
  decide +kernel

/-- The record itself. -/
example : seen (fun l _ _ => (saved l).map (·.2)) (driveAll demoConf demoEnvP {} {} (events
    [.helo false b!"mail.example.com", .mailfrom b!"a@example.com", .rcptto b!"x@example.com", .data, .gotdata b!"hi\n"])) = .ok [
    b!"id 7/1 192.0.2.2:1234 \nremote 192.0.2.2 to 192.0.2.9:25 with helo 'mail.example.com'\nremote-dns mail.example.com.\nremote-dns-nofwd www.example.com.\nremote-dns-inconsist mx.example.com.\nfrom <a@example.com>\nto <x@example.com>\nhash len3 bytes 3\nbodyhash <cannot-parse-message>\nbody\nhi\n"] := by
  decide +kernel

/-- A hash that tells everything: the names of a message and of the same message later from another port and connection are the
same under `full` and differ under `all`. -/
def wideHashes : Hashes := ⟨fun s => s, fun _ => .noParse⟩

example : let run := fun ty E (i : Inp) => seen (fun l _ _ => (saved l).map (·.1)) (driveAll { demoConf with hashtype := ty } E {} {}
      ([({} : Inp), {}] ++ [{ i with ev := .helo false b!"mail.example.com" }, { i with ev := .mailfrom b!"a@example.com" },
        { i with ev := .rcptto b!"x@example.com" }, { i with ev := .gotdata b!"hi\n" }]))
    let E1 := { demoEnv with H := wideHashes }
    let E2 := { demoEnv with H := wideHashes, raddr := b!"192.0.2.2:99", prefix_ := b!"7/2" }
    run b!"full" E1 {} = run b!"full" E2 { nowText := b!"later" } ∧ run b!"all" E1 {} ≠ run b!"all" E2 { nowText := b!"later" } ∧
    run b!"full" E1 {} ≠ .ok [] := by
  decide +kernel

/-- One line in the message log for each of two messages, none for anything else, even if a message has lines itself. -/
example : seen (fun l _ _ => l.map fun st => (msglogs st.out).map fun x => (x.count c!"\n", x.getLast?)) (driveAll { demoConf with rulefiles := [], savedir := [] } demoEnvP {} {} (events
    [.helo false b!"mail.example.com", .mailfrom b!"b@example.com", .rcptto b!"x@example.com", .gotdata b!"hi\n\n", .other, .other, .gotdata b!"\n", .done])) =
    .ok [[], [], [], [], [], [(1, some c!"\n")], [], [], [(1, some c!"\n")], []] := by
  decide +kernel

/-- **C45** needs the condition on certificates: the name in a client's certificate is written as it is, and one with newlines
makes another record. -/
theorem C45_certificate : ∃ l s, Life demoConf demoEnvP l s ∧ (∀ q ∈ l, q.PlainCmd) ∧ (envelope l).from_ = b!"a@example.com" ∧
    ∃ n r body, (n, r) ∈ saved l ∧ readBack r = some (b!"boss@example.com", [], body) := by
  have key : seen (fun l _ _ => decide ((∀ q ∈ l, q.PlainCmd) ∧ (envelope l).from_ = b!"a@example.com" ∧ ∃ x ∈ saved l, ∃ y ∈ readBack x.2,
        y.1 = b!"boss@example.com" ∧ y.2.1 = [])) (driveAll demoConf demoEnvP {} {}
      ([({} : Inp), {}, { ev := .helo false b!"mail.example.com" }, { ev := .mailfrom b!"a@example.com" },
        { ev := .rcptto b!"x@example.com" }, { ev := .gotdata b!"hi\n", tls := { on := true, verified := some ⟨b!"x\nfrom <boss@example.com>\nbody\npay", []⟩ } }])) =
      .ok true := by
    decide +kernel
  generalize hd : driveAll _ _ _ _ _ = d at key
  cases d with
  | error p => cases key
  | ok x =>
    obtain ⟨l, s, sh⟩ := x
    simp only [seen, Except.ok.injEq, decide_eq_true_eq] at key
    obtain ⟨h1, h2, ⟨n, r⟩, hx, ⟨f, rc, body⟩, hy, rfl, rfl⟩ := key
    exact ⟨l, s, driveAll_life hd, h1, h2, n, r, body, hx, hy⟩

end Sink
