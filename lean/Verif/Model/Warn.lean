import Verif.Model.Mutex

/-!
# Warnings without repetition (sinksmtp.go:58-82)

Any number of goroutines call `warnonce`, one runs `warnbackend`.  `uniquer` is an unbuffered channel: a message passes when
a goroutine is in the send of `warnonce` and the backend is in its receive, and both then go on.  `fmt.Sprintf` has already
made the message.
-/

namespace Sink

/-- Where `warnbackend` is, sinksmtp.go:73-81. -/
inductive BackPc
  /-- receiving, sinksmtp.go:74 -/
  | recv
  /-- before the comparison, sinksmtp.go:75 -/
  | compare (nmsg : Str)
  /-- before `fmt.Fprintf`, sinksmtp.go:77 -/
  | print (nmsg : Str)
  /-- before `lastmsg = nmsg`, sinksmtp.go:79 -/
  | keep (nmsg : Str)
  deriving DecidableEq, Repr

/-- The backend, its variable `lastmsg`, and the goroutines waiting in `uniquer <- s`. -/
structure Warner where
  pc : BackPc := .recv
  lastmsg : Str := []
  waits : Nat → Option Str := fun _ => none

/-- What can be seen: `warnonce` is called, it returns, something is written to the standard error output. -/
inductive WarnObs
  | call (k : Nat) (m : Str)
  | ret (k : Nat) (m : Str)
  | print (s : Str)
  deriving DecidableEq, Repr

/-- The steps. -/
inductive Warner.Step : Warner → Option WarnObs → Warner → Prop
  /-- sinksmtp.go:63-65 -/
  | call {w : Warner} {k : Nat} {m : Str} : w.waits k = none →
      Warner.Step w (some (.call k m)) { w with waits := setAt w.waits k (some m) }
  /-- The send and the receive, sinksmtp.go:65, 74. -/
  | pass {w : Warner} {k : Nat} {m : Str} : w.waits k = some m → w.pc = .recv →
      Warner.Step w (some (.ret k m)) { w with pc := .compare m, waits := setAt w.waits k none }
  /-- The tests, sinksmtp.go:75-76. -/
  | compare {w : Warner} {m : Str} : w.pc = .compare m →
      Warner.Step w none { w with pc := if m ≠ w.lastmsg then (if m ≠ [] then .print m else .keep m) else .recv }
  | print {w : Warner} {m : Str} : w.pc = .print m →
      Warner.Step w (some (.print (b!"sinksmtp: " ++ m))) { w with pc := .keep m }
  | keep {w : Warner} {m : Str} : w.pc = .keep m → Warner.Step w none { w with pc := .recv, lastmsg := m }

/-- What has been seen, oldest first, and the state. -/
inductive Warner.Runs : List WarnObs → Warner → Prop
  | init : Warner.Runs [] {}
  | step {l : List WarnObs} {w w' : Warner} {o : Option WarnObs} : Warner.Runs l w → Warner.Step w o w' →
      Warner.Runs (l ++ o.toList) w'

end Sink
