import Verif.Model.IpMap

/-!
# Objects with a mutex, used by many goroutines at once

`ipMap` (sinksmtp.go:206-323) and `dnsblCounts` (sinksmtp.go:325-356) are used by all connections at once; every method takes the
mutex of the object.  Here their methods are programs of single memory accesses, and any number of goroutines run them, one
instruction at a time in any order.  Time passes between any two instructions.

Simplifications: memory is sequentially consistent (Go promises that for programs without data races; that there are none is part
of C54); the mutex is not fair; a goroutine leaves a method only at its end.
-/

namespace Sink

/-- An instruction: `Lock`, `Unlock`, or an access to the memory `M` of the object and the local variables `V`, with the time. -/
inductive Instr (M V : Type)
  | lock
  | unlock
  | act (f : Int → M → V → M × V)

/-- The methods: for each call the initial values of the local variables and the code. -/
structure Prog (Op M V : Type) where
  init : Op → V
  code : Op → List (Instr M V)

/-- A goroutine in a call: what was called, the code it still has to run, its local variables. -/
structure Thread (Op M V : Type) where
  op : Op
  code : List (Instr M V)
  loc : V

/-- The object, the owner of its mutex, the goroutines, the clock. -/
structure Sys (Op M V : Type) where
  mem : M
  holder : Option Nat
  thr : Nat → Option (Thread Op M V)
  clock : Int

/-- What can be observed: calls, returns with the local variables (the result is among them), the passing of time. -/
inductive Obs (Op V : Type)
  | call (k : Nat) (op : Op)
  | ret (k : Nat) (op : Op) (v : V)
  | tick (t : Int)
  deriving DecidableEq

/-- Change one place. -/
def setAt {α : Type} (f : Nat → α) (k : Nat) (x : α) : Nat → α := fun j => if j = k then x else f j

/-- One instruction of one goroutine, a call, a return, or the passing of time. -/
inductive Sys.Step {Op M V : Type} (P : Prog Op M V) : Sys Op M V → Option (Obs Op V) → Sys Op M V → Prop
  | call {s k op} : s.thr k = none → Sys.Step P s (some (.call k op)) { s with thr := setAt s.thr k (some ⟨op, P.code op, P.init op⟩) }
  | lock {s k op c v} : s.thr k = some ⟨op, .lock :: c, v⟩ → s.holder = none →
      Sys.Step P s none { s with holder := some k, thr := setAt s.thr k (some ⟨op, c, v⟩) }
  | act {s k op f c v} : s.thr k = some ⟨op, .act f :: c, v⟩ →
      Sys.Step P s none { s with mem := (f s.clock s.mem v).1, thr := setAt s.thr k (some ⟨op, c, (f s.clock s.mem v).2⟩) }
  | unlock {s k op c v} : s.thr k = some ⟨op, .unlock :: c, v⟩ → s.holder ≠ none →
      Sys.Step P s none { s with holder := none, thr := setAt s.thr k (some ⟨op, c, v⟩) }
  | ret {s k op v} : s.thr k = some ⟨op, [], v⟩ → Sys.Step P s (some (.ret k op v)) { s with thr := setAt s.thr k none }
  | tick {s t} : s.clock ≤ t → Sys.Step P s (some (.tick t)) { s with clock := t }

/-- Everything that can happen, from an object with memory `m` that nobody uses; the observations oldest first. -/
inductive Sys.Runs {Op M V : Type} (P : Prog Op M V) (m : M) (t0 : Int) : List (Obs Op V) → Sys Op M V → Prop
  | init : Sys.Runs P m t0 [] ⟨m, none, fun _ => none, t0⟩
  | step {l s o s'} : Sys.Runs P m t0 l s → Sys.Step P s o s' → Sys.Runs P m t0 (l ++ o.toList) s'

/-! ## The methods of `ipMap` -/

/-- Calls of the methods of `ipMap`. -/
inductive IpCall
  | add (ip : Str) (ttl : Int)
  | set (ip : Str) (ttl cnt : Int)
  | del (ip : Str)
  | lookup (ip : Str) (ttl : Int)
  | stats
  deriving DecidableEq, Repr

/-- The local variables of the methods: whether `t` is nil, the values of conditions, the result. -/
structure IpLoc where
  isNil : Bool := false
  cond : Bool := false
  hit : Bool := false
  cnt : Int := 0
  stats : Option (IpStats × Nat) := none
  deriving DecidableEq, Repr

/-- Write through the pointer `t` to the entry of `ip`.  `t` is never used after the entry was taken out of the map. -/
def IpMap.upd (m : IpMap) (ip : Str) (f : IpEnt → IpEnt) : IpMap :=
  match m.get ip with
  | some e => m.put ip (f e)
  | none => m

/-- Change the statistics. -/
def IpMap.count (m : IpMap) (f : IpStats → IpStats) : IpMap := { m with stats := f m.stats }

/-- An access that changes memory only. -/
def wr {M V : Type} (f : Int → M → V → M) : Instr M V := .act fun now m v => (f now m v, v)

/-- An access that changes local variables only. -/
def rd {M V : Type} (f : Int → M → V → V) : Instr M V := .act fun now m v => (m, f now m v)

/-- The `switch` of `Add` and `Set`, with the line before it, sinksmtp.go:239-248 and 264-274. -/
def ipSwitch (ip : Str) (ttl : Int) : List (Instr IpMap IpLoc) :=
  [rd fun _ m v => { v with isNil := (m.get ip).isNone },
   wr fun _ m v => if v.isNil then m.put ip ⟨0, 0⟩ else m,
   wr fun _ m v => if v.isNil then m.count fun s => { s with addsNew := s.addsNew + 1 } else m,
   rd fun now m v => { v with cond := !v.isNil && ((m.get ip).map fun e => decide (now - e.when_ ≥ ttl)).getD false },
   wr fun _ m v => if v.cond then m.upd ip fun e => { e with count := 0 } else m,
   wr fun _ m v => if v.cond then m.count fun s => { s with addsExpired := s.addsExpired + 1 } else m]

/-- The code of the methods, sinksmtp.go:233-323. -/
def ipCode : IpCall → List (Instr IpMap IpLoc)
  | .add ip ttl => if ip = [] then [] else
    [.lock, wr fun _ m _ => m.count fun s => { s with adds := s.adds + 1 }] ++ ipSwitch ip ttl ++
    [wr fun _ m _ => m.upd ip fun e => { e with count := e.count + 1 },
     wr fun now m _ => m.upd ip fun e => { e with when_ := now },
     rd fun _ m v => { v with cnt := ((m.get ip).map IpEnt.count).getD 0 },
     .unlock]
  | .set ip ttl cnt => if ip = [] then [] else
    [.lock, wr fun _ m _ => m.count fun s => { s with sets := s.sets + 1 }] ++ ipSwitch ip ttl ++
    [wr fun now m _ => m.upd ip fun e => { e with when_ := now },
     rd fun _ m v => { v with cnt := ((m.get ip).map IpEnt.count).getD 0 },
     wr fun _ m _ => m.upd ip fun e => { e with count := cnt },
     .unlock]
  | .del ip => if ip = [] then [] else
    [.lock,
     rd fun _ m v => { v with cond := (m.get ip).isSome },
     wr fun _ m v => if v.cond then m.count fun s => { s with dels := s.dels + 1 } else m,
     wr fun _ m v => if v.cond then m.erase ip else m,
     .unlock]
  | .lookup ip ttl =>
    [.lock,
     rd fun _ m v => { v with isNil := (m.get ip).isNone },
     wr fun _ m _ => m.count fun s => { s with lookup := s.lookup + 1 },
     rd fun now m v => { v with cond := !v.isNil && ((m.get ip).map fun e => decide (now - e.when_ < ttl)).getD false },
     wr fun _ m v => if v.cond then m.count fun s => { s with lookupHit := s.lookupHit + 1 } else m,
     rd fun _ m v => if v.cond then { v with hit := true, cnt := ((m.get ip).map IpEnt.count).getD 0 } else v,
     wr fun _ m v => if !v.isNil && !v.cond then m.count fun s => { s with lookupExpired := s.lookupExpired + 1 } else m,
     wr fun _ m v => if !v.isNil && !v.cond then m.erase ip else m,
     .unlock]
  | .stats => [.lock, rd fun _ m v => { v with stats := some m.statsOf }, .unlock]

/-- `ipMap` as an object with a mutex. -/
def ipProg : Prog IpCall IpMap IpLoc := ⟨fun _ => {}, ipCode⟩

/-! ## The methods of `dnsblCounts` -/

/-- Calls of the methods of `dnsblCounts`. -/
inductive DcCall
  | add (dbls : List Str)
  | stats
  deriving DecidableEq, Repr

/-- `dnsblCounts.dbls`, sinksmtp.go:326-329; a missing key reads as 0. -/
abbrev DcMap := Str → UInt64

/-- The local variables of the methods: `t` and the copy. -/
structure DcLoc where
  t : UInt64 := 0
  nm : Option DcMap := none

/-- The code of the methods, sinksmtp.go:335-356.  The loop that copies the map is one instruction; missing keys and keys with
value 0 are the same. -/
def dcCode : DcCall → List (Instr DcMap DcLoc)
  | .add dbls => if dbls = [] then [] else
    .lock :: dbls.flatMap (fun d =>
      [rd fun _ m v => { v with t := m d },
       rd fun _ _ v => { v with t := v.t + 1 },
       wr fun _ m v => fun x => if x = d then v.t else m x]) ++ [.unlock]
  | .stats => [.lock, rd fun _ m v => { v with nm := some m }, .unlock]

/-- `dnsblCounts` as an object with a mutex. -/
def dcProg : Prog DcCall DcMap DcLoc := ⟨fun _ => {}, dcCode⟩

end Sink
