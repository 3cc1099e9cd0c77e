import Verif.Model.Mutex
import Verif.Spec.IpMap

/-!
# Calls that happen one at a time

An object whose calls take effect at one moment, each between its call and its return.
-/

namespace Sink.Spec

/-- A call that took effect: who, what, the first and last time it read, the result. -/
structure Fired (Op V : Type) where
  k : Nat
  op : Op
  s : Int
  t : Int
  v : V

/-- The object; the goroutines in a call, each with its result once the call took effect; the calls that took effect, newest first;
the time of the last of these; the clock. -/
structure ASys (Op M V : Type) where
  mem : M
  thr : Nat → Option (Op × Option V)
  hist : List (Fired Op V)
  last : Int
  clock : Int

/-- One call, return or effect.  `D op s t m m' v`: the effect of `op` between times `s` and `t` on memory `m`. -/
inductive ASys.Step {Op M V : Type} (D : Op → Int → Int → M → M → V → Prop) : ASys Op M V → Option (Obs Op V) → ASys Op M V → Prop
  | call {a k op} : a.thr k = none → ASys.Step D a (some (.call k op)) { a with thr := setAt a.thr k (some (op, none)) }
  | fire {a k op s t m' v} : a.thr k = some (op, none) → a.last ≤ s → s ≤ t → t ≤ a.clock → D op s t a.mem m' v →
      ASys.Step D a none ⟨m', setAt a.thr k (some (op, some v)), ⟨k, op, s, t, v⟩ :: a.hist, t, a.clock⟩
  | ret {a k op v} : a.thr k = some (op, some v) → ASys.Step D a (some (.ret k op v)) { a with thr := setAt a.thr k none }
  | tick {a t} : a.clock ≤ t → ASys.Step D a (some (.tick t)) { a with clock := t }

/-- Everything that can be observed of it. -/
inductive ASys.Runs {Op M V : Type} (D : Op → Int → Int → M → M → V → Prop) (m : M) (t0 : Int) : List (Obs Op V) → ASys Op M V → Prop
  | init : ASys.Runs D m t0 [] ⟨m, fun _ => none, [], t0, t0⟩
  | step {l a o a'} : ASys.Runs D m t0 l a → ASys.Step D a o a' → ASys.Runs D m t0 (l ++ o.toList) a'

/-! ## The IP tables -/

/-- The count on record for `ip` at time `now`. -/
def onRecord (m : IpMap) (ip : Str) (ttl now : Int) : Option Int :=
  match m.get ip with
  | some e => if now - e.when_ < ttl then some e.count else none
  | none => none

/-- There is a record, but it is too old. -/
def stale (m : IpMap) (ip : Str) (ttl now : Int) : Bool := (m.get ip).isSome && (onRecord m ip ttl now).isNone

/-- 1 if so. -/
def one (b : Bool) : Nat := if b then 1 else 0

/-- At most one record for an address. -/
def Distinct (m : IpMap) : Prop := (m.ips.map Prod.fst).Nodup

/-- What a call does to an IP table. -/
def IpDoes : IpCall → Int → Int → IpMap → IpMap → IpLoc → Prop
  | .add ip ttl, s, t, m, m', v =>
    if ip = [] then m' = m ∧ v.cnt = 0 else
    v.cnt = (onRecord m ip ttl s).getD 0 + 1 ∧ (∀ a, m'.get a = if a = ip then some ⟨t, v.cnt⟩ else m.get a) ∧ (Distinct m → Distinct m') ∧
    m'.stats = { m.stats with adds := m.stats.adds + 1, addsNew := m.stats.addsNew + one (m.get ip).isNone,
                              addsExpired := m.stats.addsExpired + one (stale m ip ttl s) }
  | .set ip ttl n, s, t, m, m', v =>
    if ip = [] then m' = m ∧ v.cnt = 0 else
    v.cnt = (onRecord m ip ttl s).getD 0 ∧ (∀ a, m'.get a = if a = ip then some ⟨t, n⟩ else m.get a) ∧ (Distinct m → Distinct m') ∧
    m'.stats = { m.stats with sets := m.stats.sets + 1, addsNew := m.stats.addsNew + one (m.get ip).isNone,
                              addsExpired := m.stats.addsExpired + one (stale m ip ttl s) }
  | .del ip, _, _, m, m', _ =>
    if ip = [] then m' = m else
    (∀ a, m'.get a = if a = ip then none else m.get a) ∧ (Distinct m → Distinct m') ∧
    m'.stats = { m.stats with dels := m.stats.dels + one (m.get ip).isSome }
  | .lookup ip ttl, s, _, m, m', v =>
    v.hit = (onRecord m ip ttl s).isSome ∧ v.cnt = (onRecord m ip ttl s).getD 0 ∧
    (∀ a, m'.get a = if a = ip ∧ onRecord m ip ttl s = none then none else m.get a) ∧ (Distinct m → Distinct m') ∧
    m'.stats = { m.stats with lookup := m.stats.lookup + 1, lookupHit := m.stats.lookupHit + one (onRecord m ip ttl s).isSome,
                              lookupExpired := m.stats.lookupExpired + one (stale m ip ttl s) }
  | .stats, _, _, m, m', v => m' = m ∧ ∃ keys : List Str, (Distinct m → keys.Nodup) ∧ (∀ a, a ∈ keys ↔ (m.get a).isSome = true) ∧
      v.stats = some (m.stats, keys.length)

/-- What was done to the record of `ip`, newest first, with the times of the calls. -/
def opsOn (ip : Str) (h : List (Fired IpCall IpLoc)) : List (Int × Int × IpOp) :=
  h.filterMap fun f => match f.op with
    | .add a _ => if a = ip then some (f.s, f.t, .add) else none
    | .set a _ n => if a = ip then some (f.s, f.t, .set n) else none
    | .del a => if a = ip then some (f.s, f.t, .del) else none
    | .lookup _ _ => none
    | .stats => none

/-- The count recorded at time `now`: as `value`, with two times for each call, the one at which it looked at the record before and the
one it left in the record. -/
def value2 (ttl : Int) : Int → List (Int × Int × IpOp) → Option Int
  | _, [] => none
  | now, (s, t, .add) :: h => if now - t < ttl then some ((value2 ttl s h).getD 0 + 1) else none
  | now, (_, t, .set n) :: _ => if now - t < ttl then some n else none
  | _, (_, _, .del) :: _ => none

/-- All calls use the same `ttl`, and an address. -/
def Uses (ttl : Int) : IpCall → Prop
  | .add ip x => x = ttl ∧ ip ≠ []
  | .set ip x _ => x = ttl ∧ ip ≠ []
  | .lookup ip x => x = ttl ∧ ip ≠ []
  | .del ip => ip ≠ []
  | .stats => True

/-! ## The counters -/

/-- What a call does to the counters. -/
def DcDoes : DcCall → Int → Int → DcMap → DcMap → DcLoc → Prop
  | .add dbls, _, _, m, m', _ => ∀ x, m' x = m x + UInt64.ofNat (dbls.count x)
  | .stats, _, _, m, m', v => m' = m ∧ v.nm = some m

/-- How often a name was reported. -/
def reported (x : Str) (h : List (Fired DcCall DcLoc)) : Nat :=
  (h.map fun f => match f.op with
    | .add dbls => dbls.count x
    | .stats => 0).sum

end Sink.Spec
