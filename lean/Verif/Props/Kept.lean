import Verif.Props.Origin

/-!
# C42: messages that were accepted are kept, with `-save-hash msg` and `-save-hash full`

`C42_all_partial` (Props/Stored) is about names made from the whole record.  With the other two kinds of names messages share files on purpose; here is what
the file that an accepted message shares then holds.
-/

namespace Sink

open Spec

/-- What arrived did so on one of the connections. -/
theorem Server.Runs.came {cf : Conf} {h : List Hap} {g : Server} (hr : Server.Runs cf h g) : ∀ {E : Env} {tgt r n : Str}, Arrived cf h E tgt r n →
    ∃ k s l a data m, g.conns k = some (E, s) ∧ stepsOf k h = l ++ a :: m ∧ a.Ok cf E ∧ a.event = some (.gotdata data) ∧ a.post.pc = .save .open_ tgt r n := by
  induction hr with
  | init fs => rintro E tgt r n ⟨e, he, -⟩; cases he
  | @start h g j E0 i s0 sh' o hr hn hk hs ih =>
    rintro E tgt r n ⟨e, he, st, d, rfl, hst, hrest⟩
    rcases List.mem_cons.1 he with rfl | he
    · cases hst
    · obtain ⟨k, s, l, a, data, m, h1, h2, h3⟩ := ih ⟨e, he, st, d, rfl, hst, hrest⟩
      have hne : k ≠ j := by rintro rfl; rw [hk] at h1; cases h1
      exact ⟨k, s, l, a, data, m, by simp only; rw [if_neg hne]; exact h1, by rw [stepsOf, if_neg (Ne.symm hne)]; exact h2, h3⟩
  | @step h g j E0 i s0 s1 sh' o hr hn hk hs ih =>
    rintro E tgt r n ⟨e, he, st, d, rfl, hst, hrest⟩
    rcases List.mem_cons.1 he with rfl | he
    · cases hst
      exact ⟨j, s1, stepsOf j h, _, d, [], if_pos rfl, by rw [stepsOf, if_pos rfl], hrest⟩
    · obtain ⟨k, s, l, a, data, m, h1, h2, h3⟩ := ih ⟨e, he, st, d, rfl, hst, hrest⟩
      by_cases hkj : k = j
      · subst hkj
        rw [hk] at h1
        obtain ⟨h1, -⟩ := Prod.mk.inj (Option.some.inj h1)
        refine ⟨k, s1, l, a, data, m ++ [⟨s0, i, g.sh, s1, sh', o⟩], ?_, ?_, h3⟩
        · simp only [if_pos]; rw [h1]
        · rw [stepsOf, if_pos rfl, h2]; simp
      · exact ⟨k, s, l, a, data, m, by simp only; rw [if_neg hkj]; exact h1, by rw [stepsOf, if_neg (Ne.symm hkj)]; exact h2, h3⟩

/-- And the messages of a connection arrived. -/
theorem Server.Runs.arrived_step {cf : Conf} {h : List Hap} {g : Server} (hr : Server.Runs cf h g) : ∀ {k : Nat} {E : Env} {s : Sess} {a : Step} {data tgt r n : Str},
    g.conns k = some (E, s) → a ∈ stepsOf k h → a.Ok cf E → a.event = some (.gotdata data) → a.post.pc = .save .open_ tgt r n → Arrived cf h E tgt r n := by
  induction hr with
  | init fs => intro k E s a data tgt r n h; cases h
  | @start h g j E0 i s0 sh' o hr hn hk hs ih =>
    intro k E s a data tgt r n h1 h2 h3 h4 h5
    rw [stepsOf] at h2
    simp only at h1
    by_cases hkj : j = k
    · rw [if_pos hkj] at h2; cases h2
    · rw [if_neg hkj] at h2
      rw [if_neg (Ne.symm hkj)] at h1
      exact (ih h1 h2 h3 h4 h5).mono _
  | @step h g j E0 i s0 s1 sh' o hr hn hk hs ih =>
    intro k E s a data tgt r n h1 h2 h3 h4 h5
    rw [stepsOf] at h2
    simp only at h1
    by_cases hkj : j = k
    · subst hkj
      rw [if_pos rfl] at h1 h2
      cases h1
      rcases List.mem_append.1 h2 with h2 | h2
      · exact (ih hk h2 h3 h4 h5).mono _
      · rw [List.mem_singleton] at h2
        subst h2
        exact ⟨_, List.mem_cons_self, _, _, rfl, rfl, h3, h4, h5⟩
    · rw [if_neg hkj] at h2
      rw [if_neg (Ne.symm hkj)] at h1
      exact (ih h1 h2 h3 h4 h5).mono _

/-- What a message is saved under. -/
theorem arrived_saves {cf : Conf} {E : Env} {a : Step} {data tgt r n : Str} (h1 : a.Ok cf E) (h2 : a.event = some (.gotdata data))
    (h3 : a.post.pc = .save .open_ tgt r n) : Saves cf E a data n r ∧ ∃ dir, tgt = dir ++ b!"/" ++ n := by
  obtain ⟨-, -, h4⟩ := got_step h1 h2
  rcases h4 with ⟨-, h4⟩ | ⟨-, n', -, h4⟩
  · rw [h3] at h4; cases h4
  · rw [h3] at h4
    injection h4 with _ e1 e2 e3
    subst e3
    exact ⟨⟨h1, h2, a.pre.trans.savedir, by rw [h3, e1]⟩, _, e1⟩

/-- The record of a message ends with it. -/
theorem Spec.Saves.ends {cf : Conf} {E : Env} {a : Step} {data n r : Str} (h : Saves cf E a data n r) : b!"\nbody\n" ++ data <:+ r := by
  obtain ⟨h1, -, h3⟩ := h.name
  have hd : a.post.trans.data = data := by rw [h1, gotTrans_data]
  rw [h3]
  refine ⟨idLine E.prefix_ a.post.trans ++ (b!"remote " ++ (if a.post.trans.rip = [] then a.post.trans.raddr else a.post.trans.rip) ++ b!" to " ++
    a.post.trans.laddr ++ b!" with helo '" ++ a.post.trans.heloname ++ b!"'\n" ++
    dnsListText b!"remote-dns" a.post.trans.rdns.verified ++
    dnsListText b!"remote-dns-nofwd" a.post.trans.rdns.nofwd ++
    dnsListText b!"remote-dns-inconsist" a.post.trans.rdns.inconsist ++
    tlsText a.post.trans ++
    b!"from <" ++ a.post.trans.from_ ++ b!">\n" ++
    a.post.trans.rcptto.flatMap (fun a => b!"to <" ++ a ++ b!">\n") ++
    b!"hash " ++ a.post.trans.hash ++ b!" bytes " ++ decDigits a.post.trans.data.length ++ b!"\n" ++
    b!"bodyhash " ++ a.post.trans.bodyhash), ?_⟩
  unfold msgDetails metaText
  simp only [hd]
  simp only [List.append_assoc, show b!"\nbody\n" = b!"\n" ++ b!"body\n" from rfl]

/-- When a message that was to be saved is accepted, from then on the file of its name holds the record of a message that arrived in this run and was to be
saved in it, or some connection is just about to write such a record into it. -/
theorem kept {cf : Conf} {h2 h1 : List Hap} {e0 : Hap} {g : Server} {k : Nat} {E : Env} {now : Int} {s s' : Sess} {sh sh' : Shared}
    {i : Inp} {o : List Out} (hr : Server.Runs cf (h2 ++ ⟨k, E, now, .stepped s sh i s' sh' o⟩ :: h1 ++ [e0]) g) {l m : List Step} {a : Step}
    {data tgt r : Str} (hl : stepsOf k (h1 ++ [e0]) = l ++ a :: m) (ha : SavesTo cf E a data tgt r) (hm : Handling m) (hp : s.pc ≠ .ready)
    (hacc : .accepted ∈ replies o) (h0 : Hap.before e0 tgt = none)
    (hok : ¬ Trouble (h2 ++ ⟨k, E, now, .stepped s sh i s' sh' o⟩ :: h1 ++ [e0]) tgt) :
    ∃ E' r' n', Arrived cf (h2 ++ ⟨k, E, now, .stepped s sh i s' sh' o⟩ :: h1 ++ [e0]) E' tgt r' n' ∧
      ((∃ f, g.sh.fs tgt = some f ∧ f.content = r') ∨ ∃ k' E' s'', g.conns k' = some (E', s'') ∧ s''.pc = .save .write tgt r' n') := by
  have hr' : Server.Runs cf (h2 ++ ⟨k, E, now, .stepped s sh i s' sh' o⟩ :: (h1 ++ [e0])) g := by simpa using hr
  have hst := (C42_stored_partial hr' hl ha hm hp hacc).1
  rcases Server.Runs.contents h0 hr with h | h | h
  · rw [h] at hst; cases hst
  · exact absurd h hok
  · exact h

/-- **C42**, with `-save-hash msg`.  When a message that was to be saved is accepted, the file of its name holds a record that ends with this message from then
on, or some other connection is just about to write such a record into it, provided that file was not there when the server started, nothing went wrong with
writing or closing it, the hash gives no `/` and differs for different messages of this run.

Missing from the statement of C42: the conditions, in particular the one on failed writes; and the sender and the recipients in the file may be those of
another client that had sent the same message (`C42_shared`). -/
theorem C42_msg_partial {cf : Conf} {h2 h1 : List Hap} {e0 : Hap} {g : Server} {k : Nat} {E : Env} {now : Int} {s s' : Sess} {sh sh' : Shared}
    {i : Inp} {o : List Out} (hr : Server.Runs cf (h2 ++ ⟨k, E, now, .stepped s sh i s' sh' o⟩ :: h1 ++ [e0]) g) {l m : List Step} {a : Step}
    {data tgt r : Str} (hl : stepsOf k (h1 ++ [e0]) = l ++ a :: m) (ha : SavesTo cf E a data tgt r) (hm : Handling m) (hp : s.pc ≠ .ready)
    (hacc : .accepted ∈ replies o) (hmsg : cf.hashtype = b!"msg") (h0 : Hap.before e0 tgt = none)
    (hok : ¬ Trouble (h2 ++ ⟨k, E, now, .stepped s sh i s' sh' o⟩ :: h1 ++ [e0]) tgt)
    (hslash : ∀ e ∈ h2 ++ ⟨k, E, now, .stepped s sh i s' sh' o⟩ :: h1 ++ [e0], ∀ x, c!"/" ∉ e.E.H.gen x)
    (hcol : ∀ e ∈ h2 ++ ⟨k, E, now, .stepped s sh i s' sh' o⟩ :: h1 ++ [e0], ∀ st data', Hap.step e = some st → st.event = some (.gotdata data') →
      e.E.H.gen data' = E.H.gen data → data' = data) :
    (∃ f, g.sh.fs tgt = some f ∧ b!"\nbody\n" ++ data <:+ f.content) ∨
      ∃ k' E' s'' r' n, g.conns k' = some (E', s'') ∧ s''.pc = .save .write tgt r' n ∧ b!"\nbody\n" ++ data <:+ r' := by
  obtain ⟨E1, r', n', harr, h⟩ := kept hr hl ha hm hp hacc h0 hok
  obtain ⟨aok, aev, n, an⟩ := ha
  obtain ⟨asv, dir, ht⟩ := arrived_saves aok aev an
  have mE : (⟨k, E, now, .stepped s sh i s' sh' o⟩ : Hap) ∈ h2 ++ ⟨k, E, now, .stepped s sh i s' sh' o⟩ :: h1 ++ [e0] := by simp
  have hends : b!"\nbody\n" ++ data <:+ r' := by
    obtain ⟨e, he, st, d, rfl, hst, b1, b2, b3⟩ := harr
    obtain ⟨bsv, dir', ht'⟩ := arrived_saves b1 b2 b3
    have hn := C44_msg asv hmsg
    have hn' := C44_msg bsv hmsg
    have : d = data := by
      refine hcol e he st d hst b2 ?_
      rw [← hn, ← hn']
      refine basename_eq (d := dir') (d' := dir) ?_ ?_ (ht'.symm.trans ht)
      · rw [hn']; exact hslash e he _
      · rw [hn]; exact hslash _ mE _
    rw [← this]
    exact bsv.ends
  rcases h with ⟨f, h3, h4⟩ | ⟨k', E', s'', h3, h4⟩
  · exact .inl ⟨f, h3, h4 ▸ hends⟩
  · exact .inr ⟨k', E', s'', r', n', h3, h4, hends⟩

/-- **C42**, with `-save-hash full`.  When a message that was to be saved is accepted, the file of its name from then on holds a record that differs from its
own at most in the first line (so it has the same sender, recipients and message: C45), or some other connection is just about to write such a record into
it, provided that file was not there when the server started, nothing went wrong with writing or closing it, the hash gives no `/` and differs for different
texts that are hashed in this run, and nothing the clients said has newlines.

Missing from the statement of C42: the conditions, in particular the one on failed writes. -/
theorem C42_full_partial {cf : Conf} {h2 h1 : List Hap} {e0 : Hap} {g : Server} {k : Nat} {E : Env} {now : Int} {s s' : Sess} {sh sh' : Shared}
    {i : Inp} {o : List Out} (hr : Server.Runs cf (h2 ++ ⟨k, E, now, .stepped s sh i s' sh' o⟩ :: h1 ++ [e0]) g) {l m : List Step} {a : Step}
    {data tgt r : Str} (hl : stepsOf k (h1 ++ [e0]) = l ++ a :: m) (ha : SavesTo cf E a data tgt r) (hm : Handling m) (hp : s.pc ≠ .ready)
    (hacc : .accepted ∈ replies o) (hfull : cf.hashtype = b!"full") (h0 : Hap.before e0 tgt = none)
    (hE : ∀ k E s, g.conns k = some (E, s) → PlainEnv E)
    (hpl : ∀ k', ∀ q ∈ stepsOf k' (h2 ++ ⟨k, E, now, .stepped s sh i s' sh' o⟩ :: h1 ++ [e0]), q.PlainCmd)
    (hok : ¬ Trouble (h2 ++ ⟨k, E, now, .stepped s sh i s' sh' o⟩ :: h1 ++ [e0]) tgt)
    (hslash : ∀ e ∈ h2 ++ ⟨k, E, now, .stepped s sh i s' sh' o⟩ :: h1 ++ [e0], ∀ x, c!"/" ∉ e.E.H.gen x)
    (hcol : ∀ E' t' r' n', Arrived cf (h2 ++ ⟨k, E, now, .stepped s sh i s' sh' o⟩ :: h1 ++ [e0]) E' t' r' n' →
      E'.H.gen (afterLine r') = E.H.gen (afterLine r) → afterLine r' = afterLine r) :
    (∃ f, g.sh.fs tgt = some f ∧ afterLine f.content = afterLine r) ∨
      ∃ k' E' s'' r' n, g.conns k' = some (E', s'') ∧ s''.pc = .save .write tgt r' n ∧ afterLine r' = afterLine r := by
  obtain ⟨E1, r', n', harr, h⟩ := kept hr hl ha hm hp hacc h0 hok
  obtain ⟨aok, aev, n, an⟩ := ha
  have mE : (⟨k, E, now, .stepped s sh i s' sh' o⟩ : Hap) ∈ h2 ++ ⟨k, E, now, .stepped s sh i s' sh' o⟩ :: h1 ++ [e0] := by simp
  -- the message itself is among those that arrived
  have harrA : Arrived cf (h2 ++ ⟨k, E, now, .stepped s sh i s' sh' o⟩ :: h1 ++ [e0]) E tgt r n := by
    have hr' : Server.Runs cf (h2 ++ ⟨k, E, now, .stepped s sh i s' sh' o⟩ :: (h1 ++ [e0])) g := by simpa using hr
    obtain ⟨g1, hr1, -⟩ := hr'.split
    cases hr1 with
    | @step _ g0 _ _ i _ _ _ _ hr0 hn' hk hs =>
      obtain ⟨e, he, hx⟩ := hr0.arrived_step hk (by rw [hl]; simp) aok aev an
      exact ⟨e, by rcases List.mem_append.1 he with he | he <;> simp [he], hx⟩
  have name : ∀ {E2 : Env} {r2 n2 : Str}, Arrived cf (h2 ++ ⟨k, E, now, .stepped s sh i s' sh' o⟩ :: h1 ++ [e0]) E2 tgt r2 n2 →
      n2 = E2.H.gen (afterLine r2) ∧ (∃ dir, tgt = dir ++ b!"/" ++ n2) ∧ c!"/" ∉ n2 := by
    intro E2 r2 n2 hx
    obtain ⟨k', s2, l', a', data', m', h3, h4, h5, h6, h7⟩ := hr.came hx
    obtain ⟨sv, hdir⟩ := arrived_saves h5 h6 h7
    have hlife : Life cf E2 l' a'.pre := by
      obtain ⟨sh, i, s0, sh0, o, hst, hrun⟩ := hr.life.1 _ _ h3
      exact ⟨sh, i, s0, sh0, o, hst, (hrun.split h4).1⟩
    have hn := C44_full_hash (hE _ _ _ h3) hlife (fun q hq => hpl k' q (by
      rw [h4]
      rcases List.mem_append.1 hq with hq | hq
      · simp [hq]
      · simp [List.mem_singleton.1 hq])) sv hfull
    refine ⟨hn, hdir, ?_⟩
    obtain ⟨e, he, -, -, rfl, -⟩ := hx
    rw [hn]
    exact hslash e he _
  obtain ⟨hn, ⟨dir, ht⟩, hs1⟩ := name harrA
  obtain ⟨hn', ⟨dir', ht'⟩, hs2⟩ := name harr
  have hsame : afterLine r' = afterLine r := by
    refine hcol _ _ _ _ harr ?_
    rw [← hn, ← hn']
    exact basename_eq (d := dir') (d' := dir) hs2 hs1 (ht'.symm.trans ht)
  rcases h with ⟨f, h3, h4⟩ | ⟨k', E', s'', h3, h4⟩
  · exact .inl ⟨f, h3, by rw [h4, hsame]⟩
  · exact .inr ⟨k', E', s'', r', n', h3, h4, hsame⟩

/-- A message with this sender from connection `k`, with these results of opening, writing, syncing and closing the file. -/
def deliveryFrom (k : Nat) (E : Env) (sender : Str) (sys : List SysRes) : List Act :=
  session k E 0 [.helo false b!"mail.example.com", .mailfrom sender, .rcptto b!"x@example.com", .data, .gotdata b!"hi\n"] ++
    sys.map (fun r => .inp k { sys := r }) ++ [.inp k {}]

/-- **C42**, with `-save-hash msg`: of two messages that are accepted only the first is recorded with its sender. -/
theorem C42_shared : ∃ h g tgt r r', Server.Runs { demoConf with hashtype := b!"msg" } h g ∧ messages (stepsOf 1 h) = [(tgt, r)] ∧
    answers (stepsOf 1 h) = [[.accepted]] ∧ messages (stepsOf 2 h) = [(tgt, r')] ∧ answers (stepsOf 2 h) = [[.accepted]] ∧
    ((g.sh.fs tgt).bind fun f => readBack f.content) = some (b!"b@example.com", [b!"x@example.com"], b!"hi\n") ∧
    readBack r' = some (b!"c@example.com", [b!"x@example.com"], b!"hi\n") := by
  have key : served (fun h g => match messages (stepsOf 1 h), messages (stepsOf 2 h) with
      | [(tgt, _)], [(tgt', r')] => decide (tgt' = tgt ∧ answers (stepsOf 1 h) = [[.accepted]] ∧ answers (stepsOf 2 h) = [[.accepted]] ∧
          ((g.sh.fs tgt).bind fun f => readBack f.content) = some (b!"b@example.com", [b!"x@example.com"], b!"hi\n") ∧
          readBack r' = some (b!"c@example.com", [b!"x@example.com"], b!"hi\n"))
      | _, _ => false) { demoConf with hashtype := b!"msg" } (deliveryFrom 1 demoEnvP b!"b@example.com" [.ok, .ok, .ok, .ok] ++
        deliveryFrom 2 { demoEnvP with prefix_ := b!"7/2" } b!"c@example.com" [.ok]) = some true := by
    decide +kernel
  unfold served at key
  generalize hd : serveAll _ _ = d at key
  cases d with
  | none => cases key
  | some x =>
    obtain ⟨h, g⟩ := x
    simp only [Option.map_some, Option.some.injEq] at key
    split at key
    · rename_i tgt r tgt' r' hm hm'
      obtain ⟨rfl, h1, h2, h3⟩ := of_decide_eq_true key
      exact ⟨h, g, _, r, r', serveAll_runs hd, hm, h1, hm', h2, h3⟩
    · cases key

/-- **C42** is false in a third way, with `-save-hash full`: while one connection has made the file and not yet written to it, another with the same message finds
the file and accepts; then the disk is full.  The second client was told that its message was accepted before anything of it had been written, and
nothing of it ever is. -/
theorem C42_early : ∃ h g tgt r r', Server.Runs { demoConf with hashtype := b!"full" } h g ∧ messages (stepsOf 1 h) = [(tgt, r)] ∧
    messages (stepsOf 2 h) = [(tgt, r')] ∧ answers (stepsOf 2 h) = [[.accepted]] ∧ answers (stepsOf 1 h) = [[.deferred]] ∧
    (g.sh.fs tgt).map File.content = some [] := by
  have key : served (fun h g => match messages (stepsOf 1 h), messages (stepsOf 2 h) with
      | [(tgt, _)], [(tgt', _)] => decide (tgt' = tgt ∧ answers (stepsOf 2 h) = [[.accepted]] ∧ answers (stepsOf 1 h) = [[.deferred]] ∧
          (g.sh.fs tgt).map File.content = some [])
      | _, _ => false) { demoConf with hashtype := b!"full" }
        (session 1 demoEnvP 0 [.helo false b!"mail.example.com", .mailfrom b!"b@example.com", .rcptto b!"x@example.com", .data, .gotdata b!"hi\n"] ++
        [.inp 1 { sys := .ok }] ++ delivery 2 { demoEnvP with prefix_ := b!"7/2" } [.ok] ++
        [.inp 1 { sys := .failed 0 b!"disk full" }, .inp 1 { sys := .ok }, .inp 1 { sys := .failed 0 b!"disk full" }, .inp 1 {}]) = some true := by
    decide +kernel
  unfold served at key
  generalize hd : serveAll _ _ = d at key
  cases d with
  | none => cases key
  | some x =>
    obtain ⟨h, g⟩ := x
    simp only [Option.map_some, Option.some.injEq] at key
    split at key
    · rename_i tgt r tgt' r' hm hm'
      obtain ⟨rfl, h1, h2, h3⟩ := of_decide_eq_true key
      exact ⟨h, g, _, r, r', serveAll_runs hd, hm, hm', h1, h2, h3⟩
    · cases key

/-- `C42_full_partial` and `C42_msg_partial` are not empty: the same message twice, kept once, with either kind of name. -/
example : [b!"full", b!"msg"].all (fun ht => served (fun h g => match messages (stepsOf 1 h), messages (stepsOf 2 h) with
      | [(tgt, r)], [(tgt', r')] => decide (tgt' = tgt ∧ r' ≠ r ∧ afterLine r' = afterLine r ∧ answers (stepsOf 2 h) = [[.accepted]] ∧
          (g.sh.fs tgt).map File.content = some r)
      | _, _ => false) { demoConf with hashtype := ht } (delivery 1 demoEnvP [.ok, .ok, .ok, .ok] ++
        delivery 2 { demoEnvP with prefix_ := b!"7/2" } [.ok]) == some true) = true := by
  decide +kernel

end Sink
