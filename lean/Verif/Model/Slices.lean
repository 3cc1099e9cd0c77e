import Verif.Model.Mutex

/-!
# Rule lists as Go slices (sinksmtp.go:152-189)

`Model/Setup.lean` treats lists of rules as values.  Here they are slices: a reference to an array, with a length; the array may
be longer (its capacity), and `append` writes into the unused part if the new elements fit.  All connections start from the same
slice `baserules`.  Rules are pointers to objects that are not changed after parsing, so an element is `α`.  `append` is one step
(it copies machine words; the order in which several are copied is not modelled).
-/

namespace Sink

/-- A slice: the array, and the length. -/
structure Sl where
  arr : Nat
  len : Nat
  deriving DecidableEq, Repr

/-- The arrays there are; cells not yet used are `none`.  `next` is the next unused address. -/
structure Heap (α : Type) where
  cells : Nat → List (Option α)
  next : Nat

/-- The elements of a slice. -/
def Heap.get {α : Type} (H : Heap α) (s : Sl) : List (Option α) := (H.cells s.arr).take s.len

/-- The unused part of the array. -/
def Heap.spare {α : Type} (H : Heap α) (s : Sl) : Nat := (H.cells s.arr).length - s.len

/-- `append(s, xs...)`: in place if there is room, otherwise a new array, with room for `more` others (Go's growth policy, any
number here). -/
def Heap.append {α : Type} (H : Heap α) (s : Sl) (xs : List α) (more : Nat) : Heap α × Sl :=
  if s.len + xs.length ≤ (H.cells s.arr).length then
    ({ H with cells := setAt H.cells s.arr ((H.cells s.arr).take s.len ++ xs.map some ++ (H.cells s.arr).drop (s.len + xs.length)) },
      { s with len := s.len + xs.length })
  else ({ cells := setAt H.cells H.next (H.get s ++ xs.map some ++ List.replicate more none), next := H.next + 1 }, ⟨H.next, s.len + xs.length⟩)

/-- What happens to the rules of connection `k` in `setupRules`. -/
inductive RuleEv (α : Type)
  /-- sinksmtp.go:171 -/
  | begin (k : Nat)
  /-- A file with these rules was loaded, sinksmtp.go:157-158. -/
  | load (k : Nat) (rules : List α)
  /-- A file could not be loaded: `loadRules` returns no rules with an error (sinksmtp.go:138-147), so the `append` of line 158
  does nothing, and the rules of the connection become `stallall`, sinksmtp.go:188. -/
  | fail (k : Nat)
  deriving DecidableEq, Repr

/-- The heap and the slices of the connections. -/
structure RuleSys (α : Type) where
  heap : Heap α
  conns : Nat → Option Sl

/-- The history, newest first, and the state: `base` and `stall` are the slices `baserules` and `stallall`. -/
inductive RuleSys.Runs {α : Type} (H0 : Heap α) (base stall : Sl) : List (RuleEv α) → RuleSys α → Prop
  | init : RuleSys.Runs H0 base stall [] ⟨H0, fun _ => none⟩
  | begin {h g k} : RuleSys.Runs H0 base stall h g → g.conns k = none →
      RuleSys.Runs H0 base stall (.begin k :: h) { g with conns := setAt g.conns k (some base) }
  | load {h g k s rules more} : RuleSys.Runs H0 base stall h g → g.conns k = some s → s ≠ stall →
      RuleSys.Runs H0 base stall (.load k rules :: h)
        ⟨(g.heap.append s rules more).1, setAt g.conns k (some (g.heap.append s rules more).2)⟩
  | fail {h g k s} : RuleSys.Runs H0 base stall h g → g.conns k = some s → s ≠ stall →
      RuleSys.Runs H0 base stall (.fail k :: h) { g with conns := setAt g.conns k (some stall) }

end Sink
