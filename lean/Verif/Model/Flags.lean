import Verif.Model.Main
import Verif.Model.Accept
import Verif.Model.Greet

/-!
# The command line (sinksmtp.go:1527-1562, 1679-1680)

The options as `main` defines them, and `flag.Parse` of the Go library (written from memory of its documentation and source; it is not
in the repository).  How numbers and durations are written is left open (`ArgLib`).
-/

namespace Sink

/-- `strconv.ParseInt` as `flag.IntVar` uses it, and `time.ParseDuration` (in nanoseconds). -/
structure ArgLib where
  int : Str → Option Int
  dur : Str → Option Int

/-- The variables the options are stored in: those of `Model/Main.lean` and the three that it leaves out. -/
structure CmdLine where
  o : CmdOpts
  slow : Bool := false        -- -S
  pprof : Str := []
  statsperip : Bool := false

/-- What `flag.BoolVar`, `StringVar`, `IntVar`, `DurationVar` are given: where to put the value. -/
inductive Flag
  | bool (set : CmdLine → Bool → CmdLine)
  | str (set : CmdLine → Str → CmdLine)
  | int (set : CmdLine → Int → CmdLine)
  | dur (set : CmdLine → Int → CmdLine)

/-- The definitions of the options, sinksmtp.go:1535-1558.  The default values are those of `CmdOpts` and `CmdLine`. -/
def flags : List (Str × Flag) := [
  (b!"M", .bool fun c b => { c with o.failgotdata := b }),
  (b!"S", .bool fun c b => { c with slow := b }),
  (b!"helo", .str fun c s => { c with o.srvname := s }),
  (b!"smtplog", .str fun c s => { c with o.smtplog := s }),
  (b!"dnlog", .str fun c s => { c with o.dnlog := s }),
  (b!"l", .str fun c s => { c with o.logfile := s }),
  (b!"d", .str fun c s => { c with o.savedir := s }),
  (b!"force-receive", .bool fun c b => { c with o.force := b }),
  (b!"save-hash", .str fun c s => { c with o.hashtype := s }),
  (b!"c", .str fun c s => { c with o.certfile := s }),
  (b!"k", .str fun c s => { c with o.keyfile := s }),
  (b!"fromreject", .str fun c s => { c with o.fromreject := s }),
  (b!"toaccept", .str fun c s => { c with o.toaccept := s }),
  (b!"heloreject", .str fun c s => { c with o.heloreject := s }),
  (b!"r", .str fun c s => { c with o.rfiles := s }),
  (b!"dncount", .int fun c n => { c with o.dncount := n }),
  (b!"dndur", .dur fun c n => { c with o.dndur := n }),
  (b!"minphase", .str fun c s => { c with o.minphase := s }),
  (b!"nostdrules", .bool fun c b => { c with o.nostdrules := b }),
  (b!"pprof", .str fun c s => { c with pprof := s }),
  (b!"conncfg", .str fun c s => { c with o.connfile := s }),
  (b!"statsperip", .bool fun c b => { c with statsperip := b })]

/-- `strconv.ParseBool`. -/
def parseBool (s : Str) : Option Bool :=
  if s ∈ [b!"1", b!"t", b!"T", b!"TRUE", b!"true", b!"True"] then some true
  else if s ∈ [b!"0", b!"f", b!"F", b!"FALSE", b!"false", b!"False"] then some false
  else none

/-- `flag.Value.Set`. -/
def Flag.set (P : ArgLib) (f : Flag) (c : CmdLine) (v : Str) : Option CmdLine :=
  match f with
  | .bool g => (parseBool v).map (g c)
  | .str g => some (g c v)
  | .int g => (P.int v).map (g c)
  | .dur g => (P.dur v).map (g c)

/-- `IsBoolFlag`. -/
def Flag.isBool : Flag → Bool
  | .bool _ => true
  | _ => false

/-- Why `flag.Parse` ends the program. -/
inductive FlagErr
  | badSyntax (s : Str)
  | undefined (name : Str)
  | help
  | badValue (name v : Str)
  | needsArg (name : Str)
  deriving DecidableEq, Repr

/-- An argument as `parseOne` of package flag looks at it: no option, the end of the options, not well formed, or a name and, after
`=`, a value. -/
inductive Word
  | plain
  | dashes
  | bad
  | flag (name : Str) (value : Option Str)
  deriving DecidableEq, Repr

/-- `parseOne` after the dashes. -/
def wordName (name : Str) : Word :=
  match name with
  | [] => .bad
  | x :: t =>
    if x = c!"-" ∨ x = c!"=" then .bad
    else match (x :: t).dropWhile (· != c!"=") with
      | [] => .flag (x :: t) none
      | _ :: v => .flag ((x :: t).takeWhile (· != c!"=")) (some v)

/-- The first part of `parseOne`. -/
def wordOf (s : Str) : Word :=
  match s with
  | a :: b :: r =>
    if a ≠ c!"-" then .plain
    else if b = c!"-" then (if r = [] then .dashes else wordName r)
    else wordName (b :: r)
  | _ => .plain

/-- `flag.Parse`, with what was set so far; what is left are the arguments. -/
def parseArgs (P : ArgLib) : List Str → CmdLine → Except FlagErr CmdLine
  | [], c => .ok { c with o.args := [] }
  | s :: rest, c =>
    match wordOf s with
    | .plain => .ok { c with o.args := s :: rest }
    | .dashes => .ok { c with o.args := rest }
    | .bad => .error (.badSyntax s)
    | .flag name v =>
      match flags.lookup name with
      | none => .error (if name = b!"help" ∨ name = b!"h" then .help else .undefined name)
      | some f =>
        match v with
        | some v => match f.set P c v with
          | some c => parseArgs P rest c
          | none => .error (.badValue name v)
        | none =>
          if f.isBool then match f.set P c b!"true" with
            | some c => parseArgs P rest c
            | none => .error (.badValue name b!"true")
          else match rest with
            | [] => .error (.needsArg name)
            | v :: rest => match f.set P c v with
              | some c => parseArgs P rest c
              | none => .error (.badValue name v)

/-- The values before `flag.Parse`. -/
def CmdLine.init : CmdLine := { o := { args := [] } }

/-- The command line without the name of the program. -/
def cmdLine (P : ArgLib) (args : List Str) : Except FlagErr CmdLine := parseArgs P args .init

/-- `pprofserv != ""` and `manyIps`, sinksmtp.go:1679-1680. -/
def CmdLine.stat (c : CmdLine) : StatConf := ⟨decide (c.pprof ≠ []), decide (c.o.args.length > 1) || c.statsperip⟩

end Sink
