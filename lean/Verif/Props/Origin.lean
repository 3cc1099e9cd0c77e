import Verif.Props.Order
import Verif.Props.Stored
import Verif.Props.Record

/-!
# C93: where saved files come from

C92 is about one connection.  Here it is about the files that are there after any run of the server with any number of connections.
-/

namespace Sink

open Spec

/-- In this history a message arrived in connection `k`, after its steps `l`, that was to be saved in `p` with contents `r`. -/
def Spec.CameIn (cf : Conf) (h : List Hap) (k : Nat) (E : Env) (l : List Step) (a : Step) (data p r : Str) : Prop :=
  (∃ m, stepsOf k h = l ++ a :: m) ∧ SavesTo cf E a data p r

theorem Spec.CameIn.began {cf : Conf} {h : List Hap} {k : Nat} {E : Env} {l : List Step} {a : Step} {data p r : Str} (hc : CameIn cf h k E l a data p r)
    {j : Nat} (hj : j ≠ k) {E' : Env} {t : Int} {x : What} : CameIn cf (⟨j, E', t, x⟩ :: h) k E l a data p r := by
  obtain ⟨⟨m, hm⟩, hs⟩ := hc
  refine ⟨⟨m, ?_⟩, hs⟩
  cases x <;> rw [stepsOf, if_neg hj, hm]

theorem Spec.CameIn.stepped {cf : Conf} {h : List Hap} {k : Nat} {E : Env} {l : List Step} {a : Step} {data p r : Str} (hc : CameIn cf h k E l a data p r)
    {E' : Env} {t : Int} {s s' : Sess} {sh sh' : Shared} {i : Inp} {o : List Out} {j : Nat} :
    CameIn cf (⟨j, E', t, .stepped s sh i s' sh' o⟩ :: h) k E l a data p r := by
  by_cases hj : j = k
  · obtain ⟨⟨m, hm⟩, hs⟩ := hc
    exact ⟨⟨m ++ [⟨s, i, sh, s', sh', o⟩], by rw [stepsOf, if_pos hj, hm]; simp⟩, hs⟩
  · exact hc.began hj

/-- What a connection is saving came in as a message. -/
theorem Server.Runs.saving {cf : Conf} {h : List Hap} {g : Server} (hr : Server.Runs cf h g) :
    ∀ {k E s q p r n}, g.conns k = some (E, s) → s.pc = .save q p r n → ∃ l a data, CameIn cf h k E l a data p r := by
  induction hr with
  | init fs => intro k E s q p r n h; cases h
  | @start h g j E0 i s0 sh' o hr hn hk hs ih =>
    intro k E s q p r n h1 hp
    simp only at h1
    split at h1
    · cases h1
      rw [(startSess_init hs).1] at hp; cases hp
    · rename_i hne
      obtain ⟨l, a, data, hc⟩ := ih h1 hp
      exact ⟨l, a, data, hc.began (Ne.symm hne)⟩
  | @step h g j E0 i s0 s1 sh' o hr hn hk hs ih =>
    intro k E s q p r n h1 hp
    simp only at h1
    split at h1
    · rename_i hkj
      subst hkj
      cases h1
      rcases (sstep_did hs).to_save hp with ⟨q', h2⟩ | ⟨rfl, data, hd⟩
      · obtain ⟨l, a, data, hc⟩ := ih hk h2
        exact ⟨l, a, data, hc.stepped⟩
      · exact ⟨stepsOf k h, ⟨s0, i, g.sh, s1, sh', o⟩, data, ⟨[], by rw [stepsOf, if_pos rfl]⟩, hs, hd, n, hp⟩
    · obtain ⟨l, a, data, hc⟩ := ih h1 hp
      exact ⟨l, a, data, hc.stepped⟩

/-- What is in a file that was not there at the beginning. -/
theorem new_origin {cf : Conf} {e : Hap} {p : Str} (h0 : Hap.before e p = none) : ∀ {h : List Hap} {g : Server}, Server.Runs cf (h ++ [e]) g →
    ∀ {f : File}, g.sh.fs p = some f → ∃ k E s l a data r, g.conns k = some (E, s) ∧ CameIn cf (h ++ [e]) k E l a data p r ∧ f.content <+: r := by
  intro h
  induction h with
  | nil =>
    intro g hr f hf
    cases hr with
    | @start _ g0 j E i s0 sh' o hr hn hk hs =>
      cases hr
      simp only at hf
      rw [startSess_fs hs] at hf
      exact absurd (h0.symm.trans hf) (by simp)
    | @step _ g0 j E i s0 s1 sh' o hr hn hk hs => cases hr; cases hk
  | cons x h ih =>
    intro g hr f hf
    cases hr with
    | @start _ g0 j E i s0 sh' o hr hn hk hs =>
      simp only at hf ⊢
      rw [startSess_fs hs] at hf
      obtain ⟨k, E', s, l, a, data, r, h1, h2, h3⟩ := ih hr hf
      have hne : k ≠ j := by rintro rfl; rw [hk] at h1; cases h1
      exact ⟨k, E', s, l, a, data, r, by rw [if_neg hne]; exact h1, h2.began (Ne.symm hne), h3⟩
    | @step _ g0 j E i s0 s1 sh' o hr hn hk hs =>
      simp only at hf ⊢
      -- the file had these contents, or more, before
      have old : ∀ f', g0.sh.fs p = some f' → f.content <+: f'.content → ∃ k E1 s l a data r, (if k = j then some (E, s1) else g0.conns k) = some (E1, s) ∧
          CameIn cf (⟨j, E, i.now, .stepped s0 g0.sh i s1 sh' o⟩ :: (h ++ [e])) k E1 l a data p r ∧ f.content <+: r := by
        intro f' h1 h2
        obtain ⟨k, E', s, l, a, data, r, h4, h5, h6⟩ := ih hr h1
        by_cases hkj : k = j
        · subst hkj
          rw [hk] at h4
          cases h4
          exact ⟨k, E, s1, l, a, data, r, if_pos rfl, h5.stepped, h2.trans h6⟩
        · exact ⟨k, E', s, l, a, data, r, by rw [if_neg hkj]; exact h4, h5.stepped, h2.trans h6⟩
      have same := fun (h1 : sh'.fs p = g0.sh.fs p) => old f (h1 ▸ hf) (List.prefix_refl _)
      by_cases hp : ∃ q r n, s0.pc = .save q p r n
      · obtain ⟨q, r, n, hp⟩ := hp
        obtain ⟨l, a, data, hc⟩ := hr.saving hk hp
        -- what is in it now is a beginning of the record that the connection is saving
        have mine : f.content <+: r → ∃ k E1 s l a data r, (if k = j then some (E, s1) else g0.conns k) = some (E1, s) ∧
            CameIn cf (⟨j, E, i.now, .stepped s0 g0.sh i s1 sh' o⟩ :: (h ++ [e])) k E1 l a data p r ∧ f.content <+: r :=
          fun h1 => ⟨j, E, s1, l, a, data, r, if_pos rfl, hc.stepped, h1⟩
        have hsv := sstep_saved hs hp
        cases hsv with
        | exists_ => exact same rfl
        | openFailed => exact same rfl
        | created => simp only [fs_set_self] at hf; cases hf; exact mine List.nil_prefix
        | written => simp only [fs_set_self] at hf; cases hf; exact mine (List.prefix_refl _)
        | writeFailed => simp only [fs_set_self] at hf; cases hf; exact mine (List.take_prefix _ _)
        | synced _ hf' => simp only [fs_set_self] at hf; cases hf; exact old _ hf' (List.prefix_refl _)
        | notSynced => exact same rfl
        | closed => exact same rfl
        | closeFailed _ hf' => simp only [fs_set_self] at hf; cases hf; exact old _ hf' (List.take_prefix _ _)
        | closeLost => exact same rfl
      · simp only [not_exists] at hp
        rcases sstep_fs hs p with e1 | ⟨q, r, n, e1, -⟩ | ⟨-, -, r, n, e1⟩
        · exact same e1
        · exact absurd e1 (hp _ _ _)
        · exact absurd e1 (hp _ _ _)

/-- **C93.** Every file there is was there when the server started, unchanged, or was not and now holds a beginning of the record of a message that came in on
some connection and was to be saved under that name. -/
theorem C93_origin {cf : Conf} {h : List Hap} {e : Hap} {g : Server} (hr : Server.Runs cf (h ++ [e]) g) {p : Str} {f : File} (hf : g.sh.fs p = some f) :
    Hap.before e p = some f ∨ (Hap.before e p = none ∧
      ∃ k E s l a data r, g.conns k = some (E, s) ∧ CameIn cf (h ++ [e]) k E l a data p r ∧ f.content <+: r) := by
  cases h0 : Hap.before e p with
  | some f0 => exact .inl (by rw [← C43_initial hr h0, hf])
  | none => exact .inr ⟨rfl, new_origin h0 hr hf⟩

/-- **C93.** If every client's commands come in order, each file that is new was made for a message for which the greeting, the sender, at least one recipient
and DATA had been accepted on the same connection. -/
theorem C93_passed {cf : Conf} {h : List Hap} {e : Hap} {g : Server} (hr : Server.Runs cf (h ++ [e]) g) (ho : ∀ k, Orderly (stepsOf k (h ++ [e])))
    {p : Str} {f : File} (hf : g.sh.fs p = some f) (hnew : Hap.before e p = none) :
    ∃ k E s l a data r, g.conns k = some (E, s) ∧ CameIn cf (h ++ [e]) k E l a data p r ∧ f.content <+: r ∧
      ∃ a hs b ms c ds, Complete l a hs b ms c ds := by
  obtain ⟨k, E, s, l, a, data, r, h1, h2, h3⟩ := new_origin hnew hr hf
  obtain ⟨m, hm⟩ := h2.1
  exact ⟨k, E, s, l, a, data, r, h1, h2, h3, C92_complete (hr.life.1 _ _ h1) (ho k) hm h2.2.2.1⟩

/-- **C93.** No new file comes from a client that was stalled, or from a connection that found the rules files broken. -/
theorem C93_welcome {o : BaseOpts} {cf : Conf} (hc : Built o cf) {h : List Hap} {e : Hap} {g : Server} (hr : Server.Runs cf (h ++ [e]) g)
    (ho : ∀ k, Orderly (stepsOf k (h ++ [e]))) {p : Str} {f : File} (hf : g.sh.fs p = some f) (hnew : Hap.before e p = none) :
    ∃ k E s l a data r, g.conns k = some (E, s) ∧ CameIn cf (h ++ [e]) k E l a data p r ∧ f.content <+: r ∧ s.stall = false ∧ ¬ Broken cf E := by
  obtain ⟨k, E, s, l, a, data, r, h1, h2, h3⟩ := new_origin hnew hr hf
  obtain ⟨m, hm⟩ := h2.1
  have hmem : a ∈ stepsOf k (h ++ [e]) := by rw [hm]; simp
  have hl := hr.life.1 _ _ h1
  refine ⟨k, E, s, l, a, data, r, h1, h2, h3, Bool.eq_false_iff.2 fun hb => ?_, fun hb => ?_⟩
  · exact (C92_stalled hc hl (ho k) hb a hmem).1 ⟨data, h2.2.2.1⟩
  · exact (C92_broken hc hb hl (ho k) a hmem).1 ⟨data, h2.2.2.1⟩

/-- **C93.** If all connections find the rules files broken, the files stay exactly as they were. -/
theorem C93_unchanged {o : BaseOpts} {cf : Conf} (hc : Built o cf) {h : List Hap} {e : Hap} {g : Server} (hr : Server.Runs cf (h ++ [e]) g)
    (ho : ∀ k, Orderly (stepsOf k (h ++ [e]))) (hb : ∀ k E s, g.conns k = some (E, s) → Broken cf E) : g.sh.fs = Hap.before e := by
  funext p
  cases h0 : Hap.before e p with
  | some f0 => exact C43_initial hr h0
  | none =>
    cases hf : g.sh.fs p with
    | none => rfl
    | some f =>
      obtain ⟨k, E, s, -, -, -, -, h1, -, -, -, h2⟩ := C93_welcome hc hr ho hf h0
      exact absurd (hb k E s h1) h2

/-- **C93.** What a new file holds is a beginning of a text from which a reader gets the sender and the recipients that were accepted on that connection for that
very transaction, and the message, if nothing the clients and the DNS said has newlines. -/
theorem C93_read {cf : Conf} {h : List Hap} {e : Hap} {g : Server} (hr : Server.Runs cf (h ++ [e]) g) (ho : ∀ k, Orderly (stepsOf k (h ++ [e])))
    (hE : ∀ k E s, g.conns k = some (E, s) → PlainEnv E ∧ PlainDns E) (hp : ∀ k, ∀ q ∈ stepsOf k (h ++ [e]), q.PlainCmd ∧ q.PlainTls)
    {p : Str} {f : File} (hf : g.sh.fs p = some f) (hnew : Hap.before e p = none) :
    ∃ k l a m data r, stepsOf k (h ++ [e]) = l ++ a :: m ∧ a.event = some (.gotdata data) ∧ f.content <+: r ∧
      ∃ x hs b ms y c ds, Complete l x hs b ms c ds ∧ ms.event = some (.mailfrom y) ∧ readBack r = some (y, c.filterMap Step.rcpt, data) := by
  obtain ⟨k, E, s, l, a, data, r, h1, ⟨⟨m, hm⟩, hok, hev, n, hn⟩, h3, x, hs, b, ms, c, ds, hC⟩ := C93_passed hr ho hf hnew
  have hsv : ∃ n', Saves cf E a data n' r := by
    obtain ⟨-, -, h4⟩ := got_step hok hev
    rcases h4 with ⟨-, h4⟩ | ⟨-, n', -, h4⟩
    · rw [hn] at h4; cases h4
    · have h5 := h4
      rw [hn] at h5
      injection h5 with _ e1 e2 e3
      exact ⟨n', hok, hev, _, by rw [h4, e2]⟩
  obtain ⟨n', hsv⟩ := hsv
  obtain ⟨⟨i, y, hy⟩, -⟩ := hC.helo
  obtain ⟨⟨z, hz⟩, -⟩ := hC.mail
  have hl := hr.life.1 _ _ h1
  have hlife : Life cf E l a.pre := by
    obtain ⟨sh, i, s0, sh0, o, hst, hrun⟩ := hl
    exact ⟨sh, i, s0, sh0, o, hst, (hrun.split hm).1⟩
  have hrd := C45_read_back (hE k E s h1).1 (hE k E s h1).2 hlife (fun q hq => hp k q (by
    rw [hm]
    rcases List.mem_append.1 hq with hq | hq
    · simp [hq]
    · simp [List.mem_singleton.1 hq])) hsv
  rw [hC.env i y z hy hz] at hrd
  exact ⟨k, l, a, m, data, r, hm, hev, h3, x, hs, b, ms, z, c, ds, hC, hz, hrd⟩

/-! ## Examples -/

/-- Two clients, one of them refused; one new file, which reads back as it should. -/
example : served (fun h g => ([1, 2].all fun k => orderly .start (stepsOf k h)) && (messages (stepsOf 2 h)).isEmpty &&
        decide (((messages (stepsOf 1 h)).map fun x => (g.sh.fs x.1).bind fun f => readBack f.content) = [some (b!"b@example.com", [b!"x@example.com"], b!"hi\n")]))
      demoConf (delivery 1 demoEnvP [.ok, .ok, .ok, .ok] ++ session 2 { demoEnvP with prefix_ := b!"7/2" } 0 [.helo false b!"mail.example.com", .mailfrom b!"b@example.com",
        .rcptto b!"bad@example.com", .done]) = some true := by
  decide +kernel

/-- Writing fails after five bytes: the file holds the beginning of the record. -/
example : served (fun h g => (messages (stepsOf 1 h)).map fun x => decide ((g.sh.fs x.1).map File.content = some (x.2.take 5)))
      demoConf (delivery 1 demoEnvP [.ok, .failed 5 b!"disk full", .ok, .ok]) = some [true] := by
  decide +kernel

/-- A session in order with a broken rules file. -/
example : served (fun h _ => orderly .start (stepsOf 1 h) && (messages (stepsOf 1 h)).isEmpty && (stepsOf 1 h).any fun st => decide (replies st.out = [.deferred]))
      { demoConf with rulefiles := [b!"/broken"] } (session 1 demoEnv 0 [.helo false b!"mail.example.com", .helo true b!"mail.example.com", .done]) = some true := by
  decide +kernel

end Sink
