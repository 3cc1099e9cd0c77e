import Verif.Model.Bytes

/-!
# The IP tables `yakkers` and `notls` (sinksmtp.go:206-323)

Each operation is modelled as one function of the table; `Model/Mutex.lean` splits the operations into the single
memory accesses between `Lock` and `Unlock`.  Times are integers (nanoseconds).  Simplification: an operation reads the
clock once (`time.Since` and `time.Now` in the same critical section give the same time).
-/

namespace Sink

/-- `ipEnt`, sinksmtp.go:210-213. -/
structure IpEnt where
  when_ : Int
  count : Int
  deriving DecidableEq, Repr

/-- The counters of `ipMap.stats`, sinksmtp.go:217-223, without `Size`, which is computed on demand. -/
structure IpStats where
  adds : Nat := 0
  addsNew : Nat := 0
  addsExpired : Nat := 0
  dels : Nat := 0
  sets : Nat := 0
  lookup : Nat := 0
  lookupHit : Nat := 0
  lookupExpired : Nat := 0
  deriving DecidableEq, Repr

/-- `ipMap`, sinksmtp.go:214-224.  The Go map is an association list; the most recent binding of a key comes first and
`IpMap.put`, `IpMap.erase` keep at most one binding for each key. -/
structure IpMap where
  ips : List (Str × IpEnt) := []
  stats : IpStats := {}
  deriving DecidableEq, Repr

/-- `i.ips[ip]`; `none` is nil. -/
def IpMap.get (m : IpMap) (ip : Str) : Option IpEnt := m.ips.lookup ip

/-- `delete(i.ips, ip)`. -/
def IpMap.erase (m : IpMap) (ip : Str) : IpMap := { m with ips := m.ips.filter (fun e => e.1 != ip) }

/-- `i.ips[ip] = t`, and writing through the pointer `t`. -/
def IpMap.put (m : IpMap) (ip : Str) (e : IpEnt) : IpMap := { m with ips := (ip, e) :: (m.erase ip).ips }

/-- The `switch` shared by `Add` and `Set`, sinksmtp.go:240-248 and 266-274: the entry to work on and the statistics. -/
def IpMap.fresh (m : IpMap) (ip : Str) (ttl now : Int) : IpEnt × IpStats :=
  match m.get ip with
  | none => (⟨0, 0⟩, { m.stats with addsNew := m.stats.addsNew + 1 })
  | some t =>
    if now - t.when_ ≥ ttl then ({ t with count := 0 }, { m.stats with addsExpired := m.stats.addsExpired + 1 })
    else (t, m.stats)

/-- `Add`, sinksmtp.go:233-254. -/
def IpMap.add (m : IpMap) (ip : Str) (ttl now : Int) : Int × IpMap :=
  if ip = [] then (0, m)
  else
    let m := { m with stats := { m.stats with adds := m.stats.adds + 1 } }
    let (t, st) := m.fresh ip ttl now
    let t : IpEnt := ⟨now, t.count + 1⟩
    (t.count, { m.put ip t with stats := st })

/-- `Set`, sinksmtp.go:258-280. -/
def IpMap.set (m : IpMap) (ip : Str) (ttl : Int) (cnt : Int) (now : Int) : Int × IpMap :=
  if ip = [] then (0, m)
  else
    let m := { m with stats := { m.stats with sets := m.stats.sets + 1 } }
    let (t, st) := m.fresh ip ttl now
    (t.count, { m.put ip ⟨now, cnt⟩ with stats := st })

/-- `Del`, sinksmtp.go:282-294. -/
def IpMap.del (m : IpMap) (ip : Str) : IpMap :=
  if ip = [] then m
  else if (m.get ip).isSome then { m.erase ip with stats := { m.stats with dels := m.stats.dels + 1 } }
  else m

/-- `Lookup`, sinksmtp.go:295-315. -/
def IpMap.lookup (m : IpMap) (ip : Str) (ttl now : Int) : (Bool × Int) × IpMap :=
  let m := { m with stats := { m.stats with lookup := m.stats.lookup + 1 } }
  match m.get ip with
  | none => ((false, 0), m)
  | some t =>
    if now - t.when_ < ttl then
      ((true, t.count), { m with stats := { m.stats with lookupHit := m.stats.lookupHit + 1 } })
    else
      ((false, 0), { m.erase ip with stats := { m.stats with lookupExpired := m.stats.lookupExpired + 1 } })

/-- `Stats`, sinksmtp.go:318-323: the counters and the size. -/
def IpMap.statsOf (m : IpMap) : IpStats × Nat := (m.stats, m.ips.length)

end Sink
