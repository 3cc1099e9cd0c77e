import Verif.Model.Flags
import Verif.Model.Server
import Verif.Model.Logger
import Verif.Model.HostPort

/-!
# The whole program (sinksmtp.go:871-890, 1527-1717)

The parts put together: the command line and the start (`Model/Flags.lean`, `Model/Main.lean`), accepting connections and recording times
(`Model/Accept.lean`), and the sessions (`Model/Server.lean`).  `process` number `k` runs because `main` started it, knows the addresses of its connection and
its own prefix, and calls `updateTimeOf` where `Model/Greet.lean` says it does.  There is one clock.

Simplification: the calls of `updateTimeOf` in a step of `Model/Session.lean` come after the step.  What follows them in the same step in the code is private to the
connection, or a counter, or a log.
-/

namespace Sink

/-- What `main` has settled when it begins to accept connections: the settings, what statistics are kept, the number of addresses listened on, `os.Getpid()`. -/
structure Launch where
  cf : Conf
  stat : StatConf
  addrs : Nat
  pid : Nat

/-- `main` up to the loop that accepts connections, sinksmtp.go:1527-1704; `none` is a program that has ended. -/
def launch (P : ArgLib) (V : StartEnv) (pid : Nat) (args : List Str) : Option Launch :=
  match cmdLine P args with
  | .error _ => none
  | .ok c => match start V c.o with
    | .error _ => none
    | .ok cf => some ⟨cf, c.stat, c.o.args.length, pid⟩

/-- The state: listeners, `main` and the statistics; the sessions; the calls of `updateTimeOf` that each `process` is still to make before it goes on. -/
structure Program where
  front : Front
  srv : Server
  due : Nat → List Kind := fun _ => []

/-- What can be observed. -/
inductive Mark
  | front (o : FrontObs)
  | sess (e : Hap)

/-- The addresses and the prefix `process` number `k` works with, sinksmtp.go:881-888, 1715. -/
structure Env.Of (E : Env) (pid k : Nat) (laddr : Str) : Prop where
  laddr : E.laddr = laddr
  rip : E.rip = hostOf E.raddr
  lip : E.lip = hostOf E.laddr
  prefix_ : E.prefix_ = convId pid k

/-- A step of the program. -/
inductive Program.Step (L : Launch) : Program → Option Mark → Program → Prop
  /-- The listeners (one for each address, sinksmtp.go:1697-1704), `main`, a step in `updateTimeOf`, or time passes. -/
  | front {p : Program} {o : Option FrontObs} {f : Front} : Front.Step L.stat p.front o f →
      (∀ n k w a, o = some (.call n k w a) → w = .connection) → (∀ j c, o = some (.accept j c) → j < L.addrs) →
      Program.Step L p (o.map .front) { p with front := f }
  /-- `process` calls `updateTimeOf`, sinksmtp.go:917, 924, 1167, 1222. -/
  | call {p : Program} {k : Nat} {w : Kind} {ws : List Kind} {n : Nat} {a : Str} {f : Front} : p.due k = w :: ws →
      Front.Step L.stat p.front (some (.call n k w a)) f →
      Program.Step L p (some (.front (.call n k w a))) { p with front := f, due := putAt p.due k ws }
  /-- `process` begins, sinksmtp.go:871-965. -/
  | began {p : Program} {k : Nat} {a : Str} {E : Env} {i : Inp} {s : Sess} {sh' : Shared} {out : List Out} : p.front.procs k = some a →
      p.srv.conns k = none → E.Of L.pid k a → i.now = p.front.clock → startSess L.cf E p.srv.sh i = .ok (s, sh', out) →
      Program.Step L p (some (.sess ⟨k, E, i.now, .began p.srv.sh s sh' out⟩))
        { p with srv := ⟨sh', putAt p.srv.conns k (some (E, s))⟩, due := putAt p.due k [startTime s] }
  /-- `process` goes on when the calls of `updateTimeOf` have returned. -/
  | stepped {p : Program} {k : Nat} {E : Env} {i : Inp} {s s' : Sess} {sh' : Shared} {out : List Out} : p.srv.conns k = some (E, s) →
      p.due k = [] → p.front.upd k = none → i.now = p.front.clock → sstep L.cf E s p.srv.sh i = .ok (s', sh', out) →
      Program.Step L p (some (.sess ⟨k, E, i.now, .stepped s p.srv.sh i s' sh' out⟩))
        { p with srv := ⟨sh', putAt p.srv.conns k (some (E, s'))⟩, due := putAt p.due k (stepTime L.cf s i) }

/-- What has been observed, oldest first, and the state. -/
inductive Program.Runs (L : Launch) : List Mark → Program → Prop
  | init (t : Int) (fs : FS) : Program.Runs L [] { front := { times := .setup, clock := t }, srv := ⟨{ fs := fs }, fun _ => none⟩ }
  | step {l : List Mark} {p p' : Program} {o : Option Mark} : Program.Runs L l p → Program.Step L p o p' → Program.Runs L (l ++ o.toList) p'

end Sink
