import Verif.Model.Session

/-!
# The statistics page (sinksmtp.go:28-44, 1364-1438)

`setupExpvars` gives the numbers names.  The page at `/debug/vars` shows them under these names.

Simplifications: a variable stands for where its value is kept; how values are turned into JSON is left out.  The code gives maps by
pointer; it changes none after it gave it away, except `times` and `iptimes`, which are in `Model/Accept.lean`.
-/

namespace Sink

/-- The tables of counters by name, sinksmtp.go:326-356. -/
inductive HitTable
  | dbl | sbl | loc
  deriving DecidableEq, Repr

/-- An `expvar.Var`. -/
inductive Var
  /-- a member of `events` -/
  | int (x : Counter)
  /-- `events.connections` -/
  | connections
  /-- `expvar.Func(notls.Stats)` or `expvar.Func(yakkers.Stats)` -/
  | ipTable (yak : Bool)
  | hits (t : HitTable)
  | times
  | iptimes
  | num (n : Int)
  | text (s : Str)
  | map (m : List (Str × Var))

/-- `expvar.Map`. -/
abbrev VarMap := List (Str × Var)

/-- `m.Set(key, v)`. -/
def VarMap.set (m : VarMap) (k : Str) (v : Var) : VarMap := (k, v) :: m.filter fun e => e.1 != k

/-- `setupExpvars`, sinksmtp.go:1366-1438. -/
def setupExpvars (manyIps : Bool) (pid : Int) (now : Str) : VarMap :=
  let m : VarMap := []
  let m := m.set b!"notls" (.ipTable false)
  let m := m.set b!"yakkers" (.ipTable true)
  let stats : VarMap := []
  let stats := stats.set b!"sizes" (.map m)
  let stats := stats.set b!"dnsbl_hits" (.hits .dbl)
  let stats := stats.set b!"sbl_hits" (.hits .sbl)
  let stats := if manyIps then (stats.set b!"connects_to" (.hits .loc)).set b!"lasts_to" .iptimes else stats
  let evts : VarMap := []
  let evts := evts.set b!"connections" .connections
  let evts := evts.set b!"tls_errors" (.int .tlserrs)
  let evts := evts.set b!"yakkers" (.int .yakkers)
  let evts := evts.set b!"notls_conns" (.int .notlscnt)
  let evts := evts.set b!"rules_errors" (.int .ruleserr)
  let evts := evts.set b!"yakker_adds" (.int .yakads)
  let evts := evts.set b!"yakker_forces" (.int .yakforces)
  let evts := evts.set b!"rsetdrops" (.int .rsetdrops)
  let evts := evts.set b!"abandons" (.int .abandons)
  let evts := evts.set b!"refuseds" (.int .refuseds)
  let stats := stats.set b!"events" (.map evts)
  let cmds : VarMap := []
  let cmds := cmds.set b!"ehlo" (.int .ehlo)
  let cmds := cmds.set b!"mailfrom" (.int .mailfrom)
  let cmds := cmds.set b!"rcptto" (.int .rcptto)
  let cmds := cmds.set b!"data" (.int .data)
  let cmds := cmds.set b!"starttls" (.int .starttls)
  let mailevts : VarMap := []
  let mailevts := mailevts.set b!"commands" (.map cmds)
  let goodevts : VarMap := []
  let goodevts := goodevts.set b!"ehlo" (.int .ehloAccept)
  let goodevts := goodevts.set b!"mailfrom" (.int .mailfromAccept)
  let goodevts := goodevts.set b!"rcptto" (.int .rcpttoAccept)
  let goodevts := goodevts.set b!"data" (.int .dataAccept)
  let goodevts := goodevts.set b!"messages" (.int .messages)
  let mailevts := mailevts.set b!"accepted" (.map goodevts)
  let mailevts := mailevts.set b!"ehlo_tlson" (.int .tlson)
  let mailevts := mailevts.set b!"quits" (.int .quits)
  let mailevts := mailevts.set b!"aborts" (.int .aborts)
  let mailevts := mailevts.set b!"rsets" (.int .rsets)
  let stats := stats.set b!"smtpcounts" (.map mailevts)
  let stats := stats.set b!"pid" (.num pid)
  let stats := stats.set b!"startTime" (.text now)
  let stats := stats.set b!"last" .times
  stats

/-- What is found by following names. -/
def Var.at : Var → List Str → Option Var
  | v, [] => some v
  | .map m, k :: p => (m.lookup k).bind fun v => v.at p
  | _, _ :: _ => none

end Sink
