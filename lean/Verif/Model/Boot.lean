import Verif.Model.Main

/-!
# What starting the server does to files (sinksmtp.go:1289-1298, 1604-1629)

`boot` is `start` (`Model/Main.lean`) with the files as a state.  A file is a name and contents; links, directories and permissions are not
modelled, and neither is what other programs do at the same time.  What is read (rules, lists, certificates, connection parameters) is as in
`start`: it does not depend on this state.
-/

namespace Sink

/-- The files: contents by name. -/
abbrev Disk := Str → Option Str

def Disk.put (d : Disk) (p : Str) (x : Option Str) : Disk := fun q => if q = p then x else d q

/-- A part of `main`: it changes files, and goes on or stops. -/
def BootM (α : Type) := Disk → Disk × Except Stop α

instance : Monad BootM where
  pure a := fun d => (d, .ok a)
  bind x f := fun d => match x d with
    | (d', .ok a) => f a d'
    | (d', .error e) => (d', .error e)

/-- What changes no files. -/
def BootM.of {α : Type} (x : Except Stop α) : BootM α := fun d => (d, x)

/-- `openlogfile`, sinksmtp.go:1289-1298: `O_APPEND|O_CREATE` makes an empty file if there is none. -/
def bootLog (V : StartEnv) (fname : Str) (msg : Str → Str) : BootM Bool := fun d =>
  (if fname = [] ∨ fname = b!"-" ∨ V.openLog fname ≠ none ∨ d fname ≠ none then d else d.put fname (some []),
   orDie (openlogfile V fname) msg)

/-- The test file, sinksmtp.go:1621-1629: `os.Create` empties a file that is there; the error of `os.Remove` is ignored.  `rm` tells whether
it succeeds. -/
def bootDir (V : StartEnv) (rm : Bool) (o : CmdOpts) : BootM Unit := fun d =>
  (if o.savedir = [] ∨ V.create (o.savedir ++ b!"/.wecanmake") ≠ none then d
   else if rm then (d.put (o.savedir ++ b!"/.wecanmake") (some [])).put (o.savedir ++ b!"/.wecanmake") none
   else d.put (o.savedir ++ b!"/.wecanmake") (some []),
   startDir V o)

/-- `main` up to the loop that accepts connections, sinksmtp.go:1561-1704. -/
def boot (V : StartEnv) (rm : Bool) (o : CmdOpts) : BootM Conf := do
  .of (checkOpts o)
  let certs ← .of (startCerts V.pairs o)
  let slog ← bootLog V o.smtplog fun e => b!"error opening SMTP log file '" ++ o.smtplog ++ b!"': " ++ e ++ b!"\n"
  let log ← bootLog V o.logfile fun e => b!"error opening logfile '" ++ o.logfile ++ b!"': " ++ e ++ b!"\n"
  let dnlog ← bootLog V o.dnlog fun e => b!"Error opening do-nothing client log file '" ++ o.dnlog ++ b!"': " ++ e ++ b!"\n"
  bootDir V rm o
  .of (startConn V o)
  let (base, stall, names) ← .of (startRules V o)
  let minphase ← .of (startPhase o.minphase)
  .of (tryAll V.listen (fun n e => b!"error listening to tcp!" ++ n ++ b!": " ++ e ++ b!"\n") o.args)
  return { yakCount := o.dncount, yakTimeout := o.dndur, minphase := minphase, savedir := o.savedir, hashtype := o.hashtype,
           smtplog := slog, dnlog := dnlog, logf := log, srvname := o.srvname, connfile := o.connfile, rulefiles := names,
           base := base, stallall := stall, certs := certs }

end Sink
