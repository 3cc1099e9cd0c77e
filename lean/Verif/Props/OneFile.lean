import Verif.Props.Print
import Verif.Props.Inlined
import Verif.Props.Manual

/-!
# C123: one file can hold all the rules of a server

The rules made from the options (doc.go:748-775) could as well stand in a first rules file; and all rules together, printed as `Rule.String`
does, make one file that can be used instead of all options and files.
-/

namespace Sink
namespace Spec

/-- The server with these rules files and none of the options that make rules (`-nostdrules` and neither -M, -fromreject, -toaccept nor
-heloreject). -/
def onlyFiles (cf : Conf) (fns : List Str) : Conf := { cf with base := [], rulefiles := fns }

/-- The rules, one to a line. -/
def rulesText (rs : List Rule) : Str := rs.flatMap fun r => r.str ++ b!"\n"

end Spec
open Spec

theorem onlyFiles_built {o : BaseOpts} {cf : Conf} (h : Built o cf) (fns : List Str) : Built ⟨false, false, [], [], []⟩ (onlyFiles cf fns) :=
  ⟨⟨demoLib, fun _ _ => .notExist [], 5, show buildRules _ _ _ _ = .ok [] by decide +kernel⟩, h.stall⟩

theorem setupRules_same' {L : Lib} {fs : Files} {d : Nat} {st base base' : List Rule} {rf rf' : List Str}
    (h : ∀ rules, accumAll L fs d 0 base rf = .ok rules ↔ accumAll L fs d 0 base' rf' = .ok rules) {r : List Rule} {good : Bool} {w : Option Str}
    (hs : setupRules L fs d st base rf = .ok (r, good, w)) : ∃ w', setupRules L fs d st base' rf' = .ok (r, good, w') := by
  unfold setupRules at hs ⊢
  cases hx : accumAll L fs d 0 base rf with
  | ok rs =>
    rw [hx] at hs
    rw [(h rs).1 hx]
    cases hs
    exact ⟨none, rfl⟩
  | error e =>
    rw [hx] at hs
    obtain ⟨f, e⟩ := e
    cases e with
    | panic p => cases hs
    | err m =>
      cases hs
      obtain ⟨⟨r, good, w⟩, hT⟩ := setupRules_total L fs d st base' rf'
      unfold setupRules at hT
      cases hy : accumAll L fs d 0 base' rf' with
      | ok rs => rw [(h rs).2 hy] at hx; cases hx
      | error e =>
        rw [hy] at hT
        obtain ⟨f', e⟩ := e
        cases e with
        | panic p => cases hT
        | err m' => exact ⟨_, rfl⟩

theorem life_same' {cf : Conf} {E : Env} {base base' : List Rule} {rf rf' : List Str}
    (h : ∀ rules, accumAll E.W.lib E.fs E.fds 0 base rf = .ok rules ↔ accumAll E.W.lib E.fs E.fds 0 base' rf' = .ok rules)
    {l : List Step} {s : Sess} (hl : Life { cf with base := base, rulefiles := rf } E l s) : Life { cf with base := base', rulefiles := rf' } E l s := by
  obtain ⟨sh, i, s0, sh0, o, hs, hr⟩ := hl
  have hr' : Run { cf with base := base', rulefiles := rf' } E s0 l s := by
    induction hr with
    | nil => exact .nil _
    | snoc _ h1 ih => exact .snoc ih h1
  simp only [startSess] at hs
  cases hx : setupRules E.W.lib E.fs E.fds cf.stallall base rf with
  | error p => rw [hx] at hs; cases hs
  | ok x =>
    obtain ⟨r, good, w⟩ := x
    obtain ⟨w', hx'⟩ := setupRules_same' h hx
    rw [hx] at hs
    have key : ∃ o', startSess { cf with base := base', rulefiles := rf' } E sh i = .ok (s0, sh0, o') := by
      simp only [startSess]
      rw [hx']
      simp only [bind, Except.bind, pure, Except.pure] at hs ⊢
      have e : serverName { cf with base := base', rulefiles := rf' } E [] = serverName { cf with base := base, rulefiles := rf } E [] := rfl
      rw [e]
      cases hsn : serverName { cf with base := base, rulefiles := rf } E [] with
      | error p => rw [hsn] at hs; cases hs
      | ok y =>
        rw [hsn] at hs
        simp only [Except.ok.injEq, Prod.mk.injEq] at hs ⊢
        obtain ⟨rfl, rfl, -⟩ := hs
        exact ⟨_, rfl, rfl, rfl⟩
    obtain ⟨o', ho'⟩ := key
    exact ⟨sh, i, s0, sh0, o', ho', hr'⟩

theorem load_made {L : Lib} {fs : Files} {d : Nat} {path : List Nat} {f : Str} {rs : List Rule} (h : loadRules L fs d path f = .ok rs) :
    ∀ r ∈ rs, MadeRule L r := by
  cases d with
  | zero => cases h
  | succ d =>
    unfold loadRules at h
    cases hf : fs path f with
    | data b =>
      simp only [hf] at h
      cases hp : parseWith L (fun i f => loadRules L fs d (i :: path) f) b with
      | ok rs' =>
        rw [hp] at h
        cases h
        exact parse_made (d := d) (path := path) hp
      | error e => rw [hp] at h; cases e <;> cases h
    | _ => simp only [hf] at h; cases h

theorem accumAll_made {L : Lib} {fs : Files} {d : Nat} : ∀ {fns : List Str} {i : Nat} {base rs : List Rule}, (∀ r ∈ base, MadeRule L r) →
    accumAll L fs d i base fns = .ok rs → ∀ r ∈ rs, MadeRule L r := by
  intro fns
  induction fns with
  | nil => intro i base rs hb h; cases h; exact hb
  | cons f fns ih =>
    intro i base rs hb h
    unfold accumAll accumRules at h
    split at h
    · rename_i r hr
      split at hr
      · cases hr; exact ih hb h
      · cases hx : loadRules L fs d [i] f with
        | ok rs' =>
          rw [hx] at hr
          cases hr
          refine ih ?_ h
          intro r hr
          rcases List.mem_append.1 hr with hr | hr
          · exact hb r hr
          · exact load_made hx r hr
        | error e => rw [hx] at hr; cases hr
    · cases h

theorem printed_parses {L : Lib} {rs : List Rule} (hm : ∀ r ∈ rs, MadeRule L r) (hp : ∀ r ∈ rs, PlainRule r)
    (load : Nat → Str → Except Fail (List Rule)) : parseWith L load (rulesText rs) = .ok rs := by
  have hl := rules_lex hm hp
  rw [← tokens_eq_toksFrom] at hl
  obtain ⟨pre, last, hx, -⟩ := C01_lex_total (rs.flatMap fun r => r.str ++ b!"\n")
  simp only [tokens, hx, Except.map, Except.ok.injEq] at hl
  refine (C06_file_iff _ _ _ _).mpr ⟨_, hx, (rules_file hm hp 0).tv ?_⟩
  rw [SameTv, hl, map_mkI_tv]

section
variable {o : BaseOpts} {cf : Conf} {E : Env} {fs : Files} {d : Nat}

/-- **C123.** What the options say, written in a rules file that comes before the others, and the options left out: no connection notices. -/
theorem C123_options (hfs : ∀ p q f, E.fs p f = E.fs q f) (hd : E.fds = d + 1) (hb : buildRules E.W.lib E.fs d o = .ok cf.base) {g : Str} (hg : g ≠ [])
    (ht : E.fs [0] g = .data (buildText o)) (l : List Step) (s : Sess) : Life cf E l s ↔ Life (onlyFiles cf (g :: cf.rulefiles)) E l s := by
  have hl : loadRules E.W.lib E.fs E.fds [0] g = .ok cf.base := by
    unfold buildRules parse at hb
    rw [parse_at hfs] at hb
    rw [hd]
    unfold loadRules
    simp only [ht, parse_at hfs, hb]
  have key : ∀ rules, accumAll E.W.lib E.fs E.fds 0 cf.base cf.rulefiles = .ok rules ↔
      accumAll E.W.lib E.fs E.fds 0 [] (g :: cf.rulefiles) = .ok rules := by
    intro rules
    conv => rhs; unfold accumAll accumRules
    rw [if_neg hg, hl]
    simp only [List.nil_append]
    rw [accumAll_steady hfs (i := 0) (j := 0 + 1)]
  exact ⟨fun h => life_same' (cf := cf) key h, fun h => life_same' (cf := cf) (fun r => (key r).symm) h⟩

/-- **C123.** All the rules of a server, from its options and from its rules files with what these include, printed one to a line: a server with
only this file serves every connection in the same way. -/
theorem C123_printed (hb : buildRules E.W.lib fs d o = .ok cf.base) {rss : List (List Rule)}
    (hr : FilesGive E.W.lib E.fs E.fds 0 cf.rulefiles rss) (hp : ∀ r ∈ cf.base ++ rss.flatten, PlainRule r) (hfd : E.fds ≠ 0) {g : Str} (hg : g ≠ [])
    (ht : E.fs [0] g = .data (rulesText (cf.base ++ rss.flatten))) (l : List Step) (s : Sess) : Life cf E l s ↔ Life (onlyFiles cf [g]) E l s := by
  have ha : accumAll E.W.lib E.fs E.fds 0 cf.base cf.rulefiles = .ok (cf.base ++ rss.flatten) := accumAll_iff.2 ⟨rss, hr, rfl⟩
  have hm := accumAll_made (parse_made hb) ha
  have hn : accumAll E.W.lib E.fs E.fds 0 [] [g] = .ok (cf.base ++ rss.flatten) := by
    obtain ⟨d', hd'⟩ := Nat.exists_eq_succ_of_ne_zero hfd
    rw [hd']
    unfold accumAll accumRules
    rw [if_neg hg]
    unfold loadRules
    simp only [ht, printed_parses hm hp]
    rfl
  have key : ∀ rules, accumAll E.W.lib E.fs E.fds 0 cf.base cf.rulefiles = .ok rules ↔ accumAll E.W.lib E.fs E.fds 0 [] [g] = .ok rules := by
    intro rules; rw [ha, hn]
  exact ⟨fun h => life_same' (cf := cf) key h, fun h => life_same' (cf := cf) (fun r => (key r).symm) h⟩

end

/-! ## A server with options, a file and an included file -/

def oneOpts : BaseOpts := ⟨true, false, [], b!"/ok", []⟩
def oneBase : List Rule := documentedRules true false none (some b!"/ok") none
def oneConf : Conf := { demoConf with base := oneBase, rulefiles := [b!"/m"], smtplog := true }
/-- What all its rules look like when printed. -/
def oneText : Str :=
  b!"reject from-has bad\nreject to-has bad\nreject helo-has none\nreject not to file:/ok\n@helo accept host .example.com\nstall ( from a@ to b@ )\naccept all with note \"hm\"\n"
def oneEnv : Env :=
  { demoEnv with fs := fun _ => tbl (.notExist b!"no such file") [(b!"/m", .data b!"@helo accept host .example.com\n# or\ninclude /n\naccept all \\\n with note \"hm\"\n"),
      (b!"/n", .data b!"stall from a@ to b@\n"), (b!"/g", .data oneText), (b!"/h", .data (buildText oneOpts))] }

def oneRules : List (List Rule) :=
  [[ruleOf .helo .accept [⟨.matchN .host b!".example.com", {}⟩], ruleOf .any .stall [⟨.andL [.matchN .from_ b!"a@", .matchN .to b!"b@"], {}⟩],
    ruleOf .any .accept [⟨.all, { note := some b!"hm" }⟩]]]

example : buildRules oneEnv.W.lib oneEnv.fs 9 oneOpts = .ok oneConf.base ∧
    accumAll oneEnv.W.lib oneEnv.fs oneEnv.fds 0 oneConf.base oneConf.rulefiles = .ok (oneConf.base ++ oneRules.flatten) ∧
    rulesText (oneConf.base ++ oneRules.flatten) = oneText ∧ oneEnv.fs [0] b!"/g" = .data oneText ∧ oneEnv.fs [0] b!"/h" = .data (buildText oneOpts) := by
  decide +kernel

/-- They can all be printed. -/
example : ∀ r ∈ oneConf.base ++ oneRules.flatten, PlainRule r := by
  have h1 : PlainWord b!"file:/ok" ∧ PlainWord b!".example.com" ∧ PlainWord b!"a@" ∧ PlainWord b!"b@" := by decide +kernel
  have h2 : PlainValue (some b!"hm") := fun v h => by cases h; exact ⟨by decide, .plain (by decide) (by decide) (.plain (by decide) (by decide) .nil)⟩
  have h0 : PlainValue none := fun v h => by cases h
  intro r hr c hc
  simp only [oneConf, oneBase, documentedRules, oneRules, ruleOf, List.mem_append, List.flatten_cons, List.flatten_nil, List.append_nil, if_true,
    Option.toList, List.map_cons, List.map_nil, List.mem_cons, List.not_mem_nil, or_false, Bool.false_eq_true, if_false] at hr
  rcases hr with ((rfl | rfl | rfl) | rfl) | rfl | rfl | rfl <;>
    (rw [List.mem_singleton.1 hc]; refine ⟨?_, ?_, ?_, ?_⟩ <;> first | exact h0 | exact h2 | simp [PlainExpr, PlainExprs, h1])

/-- The three servers answer alike: a@ may not write to b@, and recipients and senders that look bad are refused, as the options have it. -/
example : ∀ cf ∈ [oneConf, onlyFiles oneConf [b!"/h", b!"/m"], onlyFiles oneConf [b!"/g"]],
    (seen (fun l _ _ => (l.drop 2).map fun st => replies st.out) (driveAll cf oneEnv {} {} (events (manualMail b!"a@example.com" b!"b@example.com")))) =
      .ok [[], [.accepted], [.deferred], [.accepted]] ∧
    (seen (fun l _ _ => (l.drop 2).map fun st => replies st.out) (driveAll cf oneEnv {} {} (events (manualMail b!"x@example.com" b!"y")))) =
      .ok [[], [.accepted], [.rejected], [.accepted]] ∧
    (seen (fun l _ _ => (l.drop 2).map fun st => replies st.out) (driveAll cf oneEnv {} {} (events [.helo false b!"me", .mailfrom b!"x"]))) =
      .ok [[], [.rejected]] := by
  decide +kernel

end Sink
