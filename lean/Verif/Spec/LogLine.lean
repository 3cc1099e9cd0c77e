import Verif.Spec.Meta

/-!
# Reading a line of the message log

A reader that knows the format of the log, not the code that writes it.
-/

namespace Sink.Spec

/-- The text up to `d`, and what comes after `d`. -/
def upTo (d : Byte) (s : Str) : Str × Str := (s.takeWhile (· != d), (s.dropWhile (· != d)).drop 1)

/-- Addresses, each in brackets after a space, and what follows. -/
def addrList : Nat → Str → List Str × Str
  | 0, s => ([], s)
  | n + 1, s =>
    match after b!" <" s with
    | none => ([], s)
    | some x => let r := addrList n (upTo c!">" x).2; ((upTo c!">" x).1 :: r.1, r.2)

/-- What is in a line of the message log. -/
structure Logged where
  time : Str
  id : Str
  client : Str
  sender : Str
  rcpts : List Str
  size : Nat
  hash : Str
  bodyhash : Str
  here : Str
  helo : Str
  tls : Option (Nat × Nat)
  deriving DecidableEq, Repr

/-- The end of the line, after `helo '`: a name that ends in a quote, or a name, a quote and two numbers of four digits. -/
def readHelo (s : Str) : Option (Str × Option (Nat × Nat)) :=
  if s.getLast? = some c!"'" then some (s.dropLast, none) else do
    let t ← after b!"' tls:cipher 0x" (s.drop (s.length - 36))
    let c ← numberOf 16 0 (word t).1
    let y ← after b!" tls:proto 0x" (word t).2
    let v ← numberOf 16 0 y
    return (s.take (s.length - 36), some (c, v))

/-- Read a line. -/
def readLog (line : Str) : Option Logged := do
  let t := upTo c!"[" line.dropLast
  let i := upTo c!"]" t.2
  let a ← after b!" from " i.2
  let f ← after b!" / <" (word a).2
  let s := upTo c!">" f
  let x ← after b!" to" s.2
  let r := addrList x.length x
  let m ← after b!": message " r.2
  let n ← numberOf 10 0 (word m).1
  let h ← after b!" bytes hash " (word m).2
  let b ← after b!" body " (word h).2
  let l ← after b!" | local " (word b).2
  let q ← after b!" helo '" (word l).2
  let e ← readHelo q
  return ⟨t.1.dropLast, i.1, (word a).1, s.1, r.1, n, (word h).1, (word b).1, (word l).1, e.1, e.2⟩

end Sink.Spec
