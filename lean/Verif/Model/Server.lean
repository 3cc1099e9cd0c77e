import Verif.Model.Session

/-!
# The server: any number of connections over the same tables (sinksmtp.go:200-208, 1706-1717)

`main` starts one goroutine running `process` for every connection.  Here a state of the server has the shared tables and
the state of every connection; one step is the beginning of a connection or one step of some connection, so that every
interleaving of the atomic steps of `Model/Session.lean` is a run.  The clock never runs backwards (Go's `time.Now` and
`time.Since` use the monotonic clock; the tables read it while they are locked).
-/

namespace Sink

/-- `yakkers`, `notls` and the file system, and what is going on in each connection, by `cid`. -/
structure Server where
  sh : Shared
  conns : Nat → Option (Env × Sess)

/-- Something that happened to a connection: `sh`, `sh'` are the tables before and after. -/
inductive What
  | began (sh : Shared) (s : Sess) (sh' : Shared) (out : List Out)
  | stepped (pre : Sess) (sh : Shared) (i : Inp) (post : Sess) (sh' : Shared) (out : List Out)

/-- An entry of the history of the server. -/
structure Hap where
  k : Nat
  E : Env
  now : Int
  what : What

/-- The server started with some files and nothing in the tables; its history, newest first, and its state.
sinksmtp.go:1711-1717: each connection gets a new number. -/
inductive Server.Runs (cf : Conf) : List Hap → Server → Prop
  | init (fs : FS) : Server.Runs cf [] ⟨{ fs := fs }, fun _ => none⟩
  | start {h : List Hap} {g : Server} {k : Nat} {E : Env} {i : Inp} {s : Sess} {sh' : Shared} {o : List Out} :
      Server.Runs cf h g → (∀ e ∈ h, e.now ≤ i.now) → g.conns k = none → startSess cf E g.sh i = .ok (s, sh', o) →
      Server.Runs cf (⟨k, E, i.now, .began g.sh s sh' o⟩ :: h) ⟨sh', fun j => if j = k then some (E, s) else g.conns j⟩
  | step {h : List Hap} {g : Server} {k : Nat} {E : Env} {i : Inp} {s s' : Sess} {sh' : Shared} {o : List Out} :
      Server.Runs cf h g → (∀ e ∈ h, e.now ≤ i.now) → g.conns k = some (E, s) → sstep cf E s g.sh i = .ok (s', sh', o) →
      Server.Runs cf (⟨k, E, i.now, .stepped s g.sh i s' sh' o⟩ :: h) ⟨sh', fun j => if j = k then some (E, s') else g.conns j⟩

end Sink
