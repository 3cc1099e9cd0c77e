import Verif.Model.Mutex

/-!
# Accepting connections, and the times of the last events (sinksmtp.go:1236-1246, 1433-1474, 1693-1717)

One goroutine per address listened on runs `listener`; `main` takes connections from them over an unbuffered channel and starts a
goroutine running `process` for each.  `main` and these goroutines call `updateTimeOf`.  Any interleaving of single steps is a run.

Simplifications: of `process` only the number, the local address and the calls of `updateTimeOf` are here (the rest is
`Model/Session.lean`), and it may call it at any time; a time is a number (the code formats it); several senders wait for the channel in
no particular order (Go serves them in order of arrival); `expvar.Map` and `expvar.String` have atomic `Get` and `Set`, as the
documentation of the package says, and memory is otherwise sequentially consistent.
-/

namespace Sink

/-- A connection: its place among all connections `Accept` ever returned, and `nc.LocalAddr().String()`. -/
structure Conn where
  id : Nat
  laddr : Str
  deriving DecidableEq, Repr

/-- The first arguments of the calls of `updateTimeOf`, sinksmtp.go:917, 924, 1167, 1222, 1714. -/
inductive Kind
  | connection | yakker | regular | message | reachedMinphase
  deriving DecidableEq, Repr

/-- Where a call of `updateTimeOf` is.  Maps are numbered, 0 is `times`; so are the `expvar.String` objects. -/
inductive UpdPc
  /-- before `stats.Get("last")`, sinksmtp.go:1455 -/
  | stats
  /-- before `time.Now()` in `updateOneTime` for map `m`, sinksmtp.go:1442 -/
  | now (m : Nat)
  /-- before `mp.Get`, sinksmtp.go:1443 -/
  | get (m : Nat) (t : Int)
  /-- before `mp.Set` of a new string, sinksmtp.go:1445-1447 -/
  | create (m : Nat) (t : Int)
  /-- before `e.Set`, sinksmtp.go:1451 -/
  | store (m x : Nat) (t : Int)
  /-- before the first `iptimes.Get`, sinksmtp.go:1463 -/
  | ip
  /-- before `iptimes.Set`, sinksmtp.go:1465-1466 -/
  | ipSet
  /-- before the second `iptimes.Get`, sinksmtp.go:1467 -/
  | ipGet
  | ret
  deriving DecidableEq, Repr

/-- A call of `updateTimeOf`.  `n` is only there to tell calls apart. -/
structure TimeCall where
  n : Nat
  kind : Kind
  laddr : Str
  pc : UpdPc := .stats
  deriving DecidableEq, Repr

/-- `times`, `iptimes` and the objects in them, sinksmtp.go:31-32: the strings by key of each map, the values of the strings (`none`
is the empty string), the map of each address; how many maps and strings there are. -/
structure Times where
  maps : Nat → Kind → Option Nat
  cells : Nat → Option Int
  iptimes : Str → Option Nat
  nmaps : Nat
  ncells : Nat

/-- After `setupExpvars`, sinksmtp.go:1433-1437: `times` has an empty string for connections. -/
def Times.setup : Times :=
  { maps := fun m k => if m = 0 ∧ k = .connection then some 0 else none
    cells := fun _ => none, iptimes := fun _ => none, nmaps := 1, ncells := 1 }

/-- Whether the statistics are served (`-pprof`), and `manyIps`, sinksmtp.go:1679-1682. -/
structure StatConf where
  pprof : Bool
  manyIps : Bool
  deriving DecidableEq, Repr

/-- After the update of map `m`, sinksmtp.go:1459-1462, 1473-1474. -/
def TimeCall.after (sc : StatConf) (u : TimeCall) (m : Nat) : UpdPc := if m = 0 ∧ sc.manyIps = true ∧ u.laddr ≠ [] then .ip else .ret

/-- Change the value of a function at one place. -/
def putAt {α β : Type} [DecidableEq α] (f : α → β) (a : α) (b : β) : α → β := fun j => if j = a then b else f j

/-- `mp.Set(what, &t)` with a new string, sinksmtp.go:1445-1447. -/
def Times.newCell (T : Times) (m : Nat) (k : Kind) (t : Int) : Times :=
  { T with maps := putAt T.maps m (putAt (T.maps m) k (some T.ncells)), cells := putAt T.cells T.ncells (some t), ncells := T.ncells + 1 }

/-- One step of `updateTimeOf`, sinksmtp.go:1441-1474.  `stats` has the entry "last" iff `setupExpvars` ran. -/
def updStep (sc : StatConf) (clock : Int) (T : Times) (u : TimeCall) : Times × UpdPc :=
  match u.pc with
  | .stats => (T, if sc.pprof then .now 0 else .ret)
  | .now m => (T, .get m clock)
  | .get m t =>
    (T, match T.maps m u.kind with
        | none => .create m t
        | some x => .store m x t)
  | .create m t => (T.newCell m u.kind t, u.after sc m)
  | .store m x t => ({ T with cells := putAt T.cells x (some t) }, u.after sc m)
  | .ip =>
    (T, match T.iptimes u.laddr with
        | none => .ipSet
        | some m => .now m)
  | .ipSet => ({ T with iptimes := putAt T.iptimes u.laddr (some T.nmaps), nmaps := T.nmaps + 1 }, .ipGet)
  | .ipGet =>
    (T, match T.iptimes u.laddr with
        | none => .ret
        | some m => .now m)
  | .ret => (T, .ret)

/-- Where `main` is, sinksmtp.go:1712-1716. -/
inductive MainPc
  /-- before the receive -/
  | recv
  /-- before `events.connections.Add(1)` -/
  | count (c : Conn)
  /-- before the call of `updateTimeOf` -/
  | time (c : Conn)
  /-- in it -/
  | timing (c : Conn)
  /-- before the `go` statement -/
  | go_ (c : Conn)
  /-- before `cid++` -/
  | next
  deriving DecidableEq, Repr

/-- What can be observed: `Accept` returns a connection or an error, `process` begins, `updateTimeOf` is called by `main` (0) or by
`process` number `k`, it looks at the clock for `times` or for the map of the address, it returns. -/
inductive FrontObs
  | accept (j : Nat) (c : Conn)
  | fail (j : Nat)
  | start (k : Nat) (c : Conn)
  | call (n k : Nat) (what : Kind) (laddr : Str)
  | clock (n : Nat) (perIp : Bool) (t : Int)
  | ret (n : Nat)
  deriving DecidableEq, Repr

/-- The state: the listeners (what they are about to send), `main`, `cid`, the counter, the local addresses of the sessions that
were started, the calls of `updateTimeOf` going on, the statistics, the clock, how many connections were accepted and calls made. -/
structure Front where
  lis : Nat → Option Conn := fun _ => none
  main : MainPc := .recv
  cid : Nat := 1
  connections : Nat := 0
  procs : Nat → Option Str := fun _ => none
  upd : Nat → Option TimeCall := fun _ => none
  times : Times
  clock : Int
  accepted : Nat := 0
  calls : Nat := 0

/-- What a step of `updateTimeOf` shows. -/
def TimeCall.sees (clock : Int) (u : TimeCall) : Option FrontObs :=
  match u.pc with
  | .now m => some (.clock u.n (decide (m ≠ 0)) clock)
  | _ => none

/-- One step of one goroutine, or the passing of time. -/
inductive Front.Step (sc : StatConf) : Front → Option FrontObs → Front → Prop
  | tick {s : Front} {t : Int} : s.clock ≤ t → Front.Step sc s none { s with clock := t }
  /-- sinksmtp.go:1240 -/
  | accept {s : Front} {j : Nat} {laddr : Str} : s.lis j = none →
      Front.Step sc s (some (.accept j ⟨s.accepted, laddr⟩)) { s with lis := putAt s.lis j (some ⟨s.accepted, laddr⟩), accepted := s.accepted + 1 }
  /-- sinksmtp.go:1241: errors are ignored. -/
  | fail {s : Front} {j : Nat} : s.lis j = none → Front.Step sc s (some (.fail j)) s
  /-- The send, sinksmtp.go:1242, and the receive, sinksmtp.go:1712. -/
  | pass {s : Front} {j : Nat} {c : Conn} : s.lis j = some c → s.main = .recv →
      Front.Step sc s none { s with lis := putAt s.lis j none, main := .count c }
  /-- sinksmtp.go:1713 -/
  | count {s : Front} {c : Conn} : s.main = .count c → Front.Step sc s none { s with main := .time c, connections := s.connections + 1 }
  /-- sinksmtp.go:1714 -/
  | time {s : Front} {c : Conn} : s.main = .time c →
      Front.Step sc s (some (.call s.calls 0 .connection c.laddr))
        { s with main := .timing c, upd := putAt s.upd 0 (some { n := s.calls, kind := .connection, laddr := c.laddr }), calls := s.calls + 1 }
  | timed {s : Front} {c : Conn} {u : TimeCall} : s.main = .timing c → s.upd 0 = some u → u.pc = .ret →
      Front.Step sc s (some (.ret u.n)) { s with main := .go_ c, upd := putAt s.upd 0 none }
  /-- sinksmtp.go:1715 -/
  | go_ {s : Front} {c : Conn} : s.main = .go_ c →
      Front.Step sc s (some (.start s.cid c)) { s with main := .next, procs := putAt s.procs s.cid (some c.laddr) }
  /-- sinksmtp.go:1716 -/
  | next {s : Front} : s.main = .next → Front.Step sc s none { s with main := .recv, cid := s.cid + 1 }
  /-- `process` calls `updateTimeOf`, sinksmtp.go:917, 924, 1167, 1222. -/
  | call {s : Front} {k : Nat} {laddr : Str} {what : Kind} : s.procs k = some laddr → s.upd k = none → what ≠ .connection →
      Front.Step sc s (some (.call s.calls k what laddr))
        { s with upd := putAt s.upd k (some { n := s.calls, kind := what, laddr := laddr }), calls := s.calls + 1 }
  | upd {s : Front} {k : Nat} {u : TimeCall} : s.upd k = some u → u.pc ≠ .ret →
      Front.Step sc s (u.sees s.clock)
        { s with times := (updStep sc s.clock s.times u).1, upd := putAt s.upd k (some { u with pc := (updStep sc s.clock s.times u).2 }) }
  | ret {s : Front} {k : Nat} {u : TimeCall} : s.procs k ≠ none → s.upd k = some u → u.pc = .ret →
      Front.Step sc s (some (.ret u.n)) { s with upd := putAt s.upd k none }

/-- What has been observed, oldest first, and the state. -/
inductive Front.Runs (sc : StatConf) : List FrontObs → Front → Prop
  | init (t : Int) : Front.Runs sc [] { times := .setup, clock := t }
  | step {l : List FrontObs} {s s' : Front} {o : Option FrontObs} : Front.Runs sc l s → Front.Step sc s o s' →
      Front.Runs sc (l ++ o.toList) s'

end Sink
