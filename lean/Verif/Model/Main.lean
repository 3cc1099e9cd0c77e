import Verif.Model.Session

/-!
# Starting the server (sinksmtp.go:1527-1704)

`flag.Parse` has already made the options from the command line.  `start` follows `main` up to the point where connections
are accepted; it gives the settings that `process` then works with.

`-S`, `-pprof` and `-statsperip` have no part in this; see `Model/Flags.lean`, also for `flag.Parse`.  What opening the log files and creating the test file leave behind is in `Model/Boot.lean`.
-/

namespace Sink

/-- The options, sinksmtp.go:1528-1558; the arguments are the addresses to listen on. -/
structure CmdOpts where
  args : List Str
  failgotdata : Bool := false     -- -M
  srvname : Str := []             -- -helo
  smtplog : Str := []
  dnlog : Str := []
  logfile : Str := []             -- -l
  savedir : Str := []             -- -d
  force : Bool := false           -- -force-receive
  hashtype : Str := b!"all"       -- -save-hash
  certfile : Str := []            -- -c
  keyfile : Str := []             -- -k
  fromreject : Str := []
  toaccept : Str := []
  heloreject : Str := []
  rfiles : Str := []              -- -r
  dncount : Int := 0
  dndur : Int := 8 * 3600 * 1000000000
  minphase : Str := b!"helo"
  nostdrules : Bool := false
  connfile : Str := []            -- -conncfg

/-- The outside world when the server starts.  The functions to `Option Str` give the error, if any: of opening a log file, of
creating the test file, of opening a rules file, of listening on an address. -/
structure StartEnv where
  lib : Lib
  fs : Files
  fds : Nat
  pairs : PairOracle
  openLog : Str → Option Str
  create : Str → Option Str
  conn : FileRead
  openRules : Str → Option Str
  listen : Str → Option Str

/-- Why the server does not start: the usage message, `die` with a message, a panic. -/
inductive Stop
  | usage
  | die (msg : Str)
  | panic (p : Panic)
  deriving DecidableEq, Repr

/-- `if cond { ... return }` -/
def stopIf (cond : Prop) [Decidable cond] (s : Stop) : Except Stop Unit := if cond then .error s else .ok ()

/-- `if cond { die(msg) }` -/
def dieIf (cond : Prop) [Decidable cond] (msg : Str) : Except Stop Unit := stopIf cond (.die msg)

/-- The checks of the option values, sinksmtp.go:1563-1592. -/
def checkOpts (o : CmdOpts) : Except Stop Unit := do
  stopIf (o.args = []) .usage
  dieIf (o.savedir = [] ∧ ¬ (o.force = true ∨ o.failgotdata = true))
    b!"I refuse to accept email without either a -d savedir or --force-receive\n"
  dieIf (o.hashtype = b!"msg" ∧ o.logfile = []) b!"-save-hash=msg requires a -l right now\n"
  dieIf (¬ (o.hashtype = b!"msg" ∨ o.hashtype = b!"full" ∨ o.hashtype = b!"all"))
    (b!"bad option for -save-hash: '" ++ o.hashtype ++ b!"'. Only msg, full, and all are valid.\n")
  dieIf (o.dncount > 0 ∧ o.smtplog = []) b!"-dncount requires -smtplog\n"
  dieIf (o.dncount > 0 ∧ o.dndur < 1000000000) b!"-dndur is too small; must be at least one second\n"
  dieIf (o.dnlog ≠ [] ∧ o.dncount = 0) b!"-dnlog requires -dncount"

/-- The certificates, sinksmtp.go:1594-1606. -/
def startCerts (P : PairOracle) (o : CmdOpts) : Except Stop (List TlsCert) :=
  if o.certfile ≠ [] ∧ o.keyfile ≠ [] then
    match loadCerts P o.certfile o.keyfile with
    | .ok c => .ok c
    | .error e => .error (.die (b!"error loading TLS cert(s) from " ++ o.certfile ++ b!" & " ++ o.keyfile ++ b!": " ++ e ++ b!"\n"))
  else if o.certfile ≠ [] then .error (.die b!"certfile specified without keyfile\n")
  else if o.keyfile ≠ [] then .error (.die b!"keyfile specified without certfile\n")
  else .ok []

/-- `openlogfile`, sinksmtp.go:1289-1298: whether there is a log. -/
def openlogfile (V : StartEnv) (fname : Str) : Except Str Bool :=
  if fname = [] then .ok false
  else if fname = b!"-" then .ok true
  else match V.openLog fname with
    | none => .ok true
    | some e => .error e

/-- An error makes the program `die` with `msg` around it. -/
def orDie {α : Type} (x : Except Str α) (msg : Str → Str) : Except Stop α :=
  match x with
  | .ok a => .ok a
  | .error e => .error (.die (msg e))

/-- `Parse` fails: `die`, or the panic. -/
def orDieF {α : Type} (x : Except Fail α) (msg : Str → Str) : Except Stop α :=
  match x with
  | .ok a => .ok a
  | .error (.err e) => .error (.die (msg e))
  | .error (.panic p) => .error (.panic p)

/-- The first error of a loop over names, sinksmtp.go:1644-1650, 1697-1704. -/
def tryAll (f : Str → Option Str) (msg : Str → Str → Str) : List Str → Except Stop Unit
  | [] => .ok ()
  | n :: ns => match f n with
    | some e => .error (.die (msg n e))
    | none => tryAll f msg ns

/-- The options `buildRules` looks at, sinksmtp.go:1635. -/
def CmdOpts.base (o : CmdOpts) : BaseOpts := ⟨!o.nostdrules, o.failgotdata, o.fromreject, o.toaccept, o.heloreject⟩

/-- The names of the rules files, sinksmtp.go:1643-1644. -/
def ruleNames (o : CmdOpts) : List Str := if o.rfiles = [] then [] else splitOn c!"," o.rfiles

/-- Trying to load the rules, sinksmtp.go:1652-1663. -/
def tryRules (V : StartEnv) (stall base : List Rule) (names : List Str) : Except Stop Unit :=
  match setupRules V.lib V.fs V.fds stall base names with
  | .error p => .error (.panic p)
  | .ok (_, good, _) => dieIf (good = false) b!"not continuing when there are problems in the rules files.\n"

/-- The rules and rules files, sinksmtp.go:1635-1663: the base rules, the stall rules, the names of the files. -/
def startRules (V : StartEnv) (o : CmdOpts) : Except Stop (List Rule × List Rule × List Str) := do
  let base ← orDieF (buildRules V.lib V.fs V.fds o.base) fun e =>
    b!"error parsing autogenerated rules:\n\t" ++ e ++ b!"\nrules:\n" ++ buildText o.base
  let stall ← orDieF (stallRules V.lib V.fs V.fds) fun e => b!"error parsing autogenerated nil rules:\n\t" ++ e ++ b!"\n"
  dieIf (stall = []) b!"error parsing autogenerated nil rules:\n\t<nil>\n"
  tryAll V.openRules (fun n e => b!"cannot open rules file " ++ n ++ b!": " ++ e ++ b!"\n") (ruleNames o)
  tryRules V stall base (ruleNames o)
  return (base, stall, ruleNames o)

/-- The `switch` on `minphase`, sinksmtp.go:1665-1673. -/
def startPhase (m : Str) : Except Stop Str :=
  if m = b!"ehlo" then .ok b!"helo"
  else if m ∈ [b!"from", b!"to", b!"data", b!"message", b!"accepted", b!"helo"] then .ok m
  else .error (.die (b!"invalid -minphase '" ++ m ++ b!"': must be helo/ehlo, from, to, data, message, or accepted\n"))

/-- The test file, sinksmtp.go:1621-1629. -/
def startDir (V : StartEnv) (o : CmdOpts) : Except Stop Unit :=
  if o.savedir = [] then .ok ()
  else match V.create (o.savedir ++ b!"/.wecanmake") with
    | some e => .error (.die (b!"cannot create test file in savedir '" ++ o.savedir ++ b!"': " ++ e ++ b!"\n"))
    | none => .ok ()

/-- The connection parameters are only checked, sinksmtp.go:1631-1636. -/
def startConn (V : StartEnv) (o : CmdOpts) : Except Stop Unit :=
  if o.connfile = [] then .ok ()
  else match loadConnFile V.pairs V.conn with
    | .error e => .error (.die (b!"cannot load per-connection config information from '" ++ o.connfile ++ b!"': " ++ e ++ b!"\n"))
    | .ok _ => .ok ()

/-- `main` up to the loop that accepts connections, sinksmtp.go:1561-1704. -/
def start (V : StartEnv) (o : CmdOpts) : Except Stop Conf := do
  checkOpts o
  let certs ← startCerts V.pairs o
  let slog ← orDie (openlogfile V o.smtplog) fun e => b!"error opening SMTP log file '" ++ o.smtplog ++ b!"': " ++ e ++ b!"\n"
  let log ← orDie (openlogfile V o.logfile) fun e => b!"error opening logfile '" ++ o.logfile ++ b!"': " ++ e ++ b!"\n"
  let dnlog ← orDie (openlogfile V o.dnlog) fun e =>
    b!"Error opening do-nothing client log file '" ++ o.dnlog ++ b!"': " ++ e ++ b!"\n"
  startDir V o
  startConn V o
  let (base, stall, names) ← startRules V o
  let minphase ← startPhase o.minphase
  tryAll V.listen (fun n e => b!"error listening to tcp!" ++ n ++ b!": " ++ e ++ b!"\n") o.args
  return { yakCount := o.dncount, yakTimeout := o.dndur, minphase := minphase, savedir := o.savedir, hashtype := o.hashtype,
           smtplog := slog, dnlog := dnlog, logf := log, srvname := o.srvname, connfile := o.connfile, rulefiles := names,
           base := base, stallall := stall, certs := certs }

end Sink
