import Verif.Model.Parse

/-!
# The outside world

Everything the code asks the operating system, the DNS or the Go runtime.  Answers may change over time: each external
call is recorded in a trace, and the length of the trace so far is the time at which the answer is taken.  `World.Static`
says that answers do not change.
-/

namespace Sink

/-- An error of package net as `isTemporary` sees it (mxresolve.go:56-63) and as it prints. -/
structure DnsErr where
  isDNSError : Bool
  temporary : Bool
  err : Str
  text : Str
  deriving DecidableEq, Repr

/-- `net.MX`. -/
structure MX where
  host : Str
  pref : Nat
  deriving DecidableEq, Repr

/-- External calls, in the order made (newest first in a `Trace`). -/
inductive Ev
  | openFile (f : Str)
  | lookupIP (n : Str)
  | lookupMX (n : Str)
  | lookupAddr (n : Str)
  | lookupTXT (n : Str)
  | mapIter
  | warn (m : Str)
  deriving DecidableEq, Repr

abbrev Trace := List Ev

/-- The outside world: arbitrary answers, indexed by time. -/
structure World where
  lib : Lib
  files : Nat → Str → FileRead
  lookupIP : Nat → Str → Except DnsErr (List IP)
  lookupMX : Nat → Str → Except DnsErr (List MX)
  lookupAddr : Nat → Str → Except DnsErr (List Str)
  lookupTXT : Nat → Str → Except DnsErr (List Str)
  /-- `net.IP.String`. -/
  ipStr : IP → Str
  /-- The order in which `range` visits the keys of a map: any permutation. -/
  mapOrder : Nat → List Str → List Str
  mapOrder_perm : ∀ n l, (mapOrder n l).Perm l

/-- The world does not change. -/
structure World.Static (W : World) : Prop where
  files : ∀ n f, W.files n f = W.files 0 f
  lookupIP : ∀ n h, W.lookupIP n h = W.lookupIP 0 h
  lookupMX : ∀ n h, W.lookupMX n h = W.lookupMX 0 h
  lookupAddr : ∀ n h, W.lookupAddr n h = W.lookupAddr 0 h
  lookupTXT : ∀ n h, W.lookupTXT n h = W.lookupTXT 0 h

end Sink
