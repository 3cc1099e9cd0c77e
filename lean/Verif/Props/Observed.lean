import Verif.Props.Origin
import Verif.Props.Server
import Verif.Props.NoYak
import Verif.Props.Logger
import Verif.Props.Build

/-!
# Observations

Witnesses for remarks in DESIGN.md that are not about one of the properties: what the code does in particular cases.
-/

namespace Sink

open Spec

/-- The number of RSETs counted for these events. -/
def rsetsOf (evs : List SEv) : Option Nat := served (fun h _ => (outs h).count (.count .rsets)) demoConfY (session 0 demoEnv 1 evs)

/-- A transaction given up by another MAIL FROM is counted; one given up by EHLO is not. -/
theorem observed_ehlo : rsetsOf [.helo false b!"me.example.com", .mailfrom b!"a@example.com", .mailfrom b!"a@example.com"] = some 1 ∧
    rsetsOf [.helo false b!"me.example.com", .mailfrom b!"a@example.com", .helo false b!"me.example.com", .mailfrom b!"a@example.com"] = some 0 := by
  decide +kernel

/-- A client that is dropped when it connects. -/
def dropEnv : Env := { demoEnv with fs := fun _ => tbl (.notExist b!"no such file") [(b!"/rules", .data b!"@connect reject all\n")] }

/-- A session dropped at connect is in no statistic of ended sessions and leaves no record of the client. -/
theorem observed_drop : served (fun h g => ((stepsOf 0 h).getLast?.map fun st => decide (st.post.pc = .closed), (outs h).count (.count .abandons),
    (outs h).count (.count .refuseds), recorded g dropEnv.rip)) demoConfY (session 0 dropEnv 1 []) = some (some true, 0, 0, none) := by
  decide +kernel

/-- All messages are rejected once they have been received, as with `-M`. -/
def lateEnv : Env := { demoEnvP with fs := fun _ => tbl (.notExist b!"no such file") [(b!"/rules", .data b!"@message reject all\n")] }

/-- A message is saved, and counted under `messages`, before the rules reject it. -/
theorem observed_late : served (fun h g => ((messages (stepsOf 1 h)).map fun x => decide (g.sh.fs x.1 = some ⟨x.2, true⟩), answers (stepsOf 1 h),
    (outs h).count (.count .messages))) demoConf (delivery 1 lateEnv [.ok, .ok, .ok, .ok]) = some ([true], [[.rejected]], 1) := by
  decide +kernel

/-- `smtpLogger.Write` says it wrote nine bytes when it was given six. -/
theorem observed_logger : ((newLogger b!"7/1").write (fun _ => .ok) b!"hello\n").1 = 9 ∧ b!"hello\n".length = 6 := by
  decide +kernel

/-- The answer to `MAIL FROM:<u@example.com>` with `-nostdrules -fromreject f`. -/
def withFromreject (f : Str) : Option (Except Panic (List (List Verdict))) :=
  match buildRules demoEnv.W.lib demoEnv.fs 10 ⟨false, false, f, [], []⟩ with
  | .ok rs => some (seen (fun l _ _ => (l.drop 3).map fun st => replies st.out) (driveAll { demoConf with base := rs, rulefiles := [] } demoEnv {} {} (events
      [.helo false b!"me.example.com", .mailfrom b!"u@example.com"])))
  | .error _ => none

/-- A file name with blanks is read as more of the rule: `-fromreject '/bad or all'` rejects a sender that `-fromreject /bad` lets pass. -/
theorem observed_blank : withFromreject b!"/bad" = some (.ok [[.accepted]]) ∧ withFromreject b!"/bad or all" = some (.ok [[.rejected]]) := by
  decide +kernel

/-- What becomes of a text of rules: the number of rules, or nothing if it is refused. -/
def ruleCount (text : Str) : Option Nat := (parse demoLib (fun _ _ => .notExist []) 5 [] text).toOption.map List.length

/-- The second rule of the manual (doc.go:314) and its explanation (doc.go:318) are both refused; with another `to` it is a rule. -/
theorem observed_or : ruleCount b!"reject from info@fbi.gov to joe@example.com or jim@example.org" = none ∧
    ruleCount b!"reject from info@fbi.gov (to joe@example.com or jim@example.org)" = none ∧
    ruleCount b!"reject from info@fbi.gov to joe@example.com or to jim@example.org" = some 1 := by
  decide +kernel

/-- The compact form in the manual (doc.go:370-371) has a dot after the closing quote, and is refused for it. -/
theorem observed_dot : ruleCount b!"set-with from @a.b with message \"Hi there\";\n\t all with message \"You are here\"." = none ∧
    ruleCount b!"set-with from @a.b with message \"Hi there\";\n\t all with message \"You are here\"" = some 1 := by
  decide +kernel

end Sink
