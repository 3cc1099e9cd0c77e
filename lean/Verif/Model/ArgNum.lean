import Verif.Model.Flags

/-!
# Numbers and durations on the command line (sinksmtp.go:1550-1551)

`strconv.ParseInt(s, 0, 64)`, which `flag.IntVar` uses for -dncount, and `time.ParseDuration`, which `flag.DurationVar` uses for -dndur.
Both are of the Go library and written from memory of its documentation and source; they are not in the repository.  Errors are all the
same here, because `flag.Parse` ends the program for any of them.  What a fraction of a unit comes to is computed by the library with
floating point numbers; this is left open (`frac`).
-/

namespace Sink

/-- `c | ('x' - 'X')` -/
def lowLetter (c : UInt8) : UInt8 := c ||| 0x20

/-- The digits of `ParseUint`: the digits, and the letters in both cases. -/
def digitVal (c : UInt8) : Option Nat :=
  if c!"0" ≤ c ∧ c ≤ c!"9" then some (c.toNat - 48)
  else if c!"a" ≤ lowLetter c ∧ lowLetter c ≤ c!"z" then some ((lowLetter c).toNat - 97 + 10)
  else none

/-- The beginning of `ParseUint` for base 0: the base, and what is left. -/
def numBase (s : Str) : Nat × Str :=
  match s with
  | x :: r =>
    if x ≠ c!"0" then (10, s)
    else match r with
      | y :: z :: t =>
        if lowLetter y = c!"b" then (2, z :: t)
        else if lowLetter y = c!"o" then (8, z :: t)
        else if lowLetter y = c!"x" then (16, z :: t)
        else (8, r)
      | _ => (8, r)
  | [] => (10, [])

/-- The loop of `ParseUint`; underscores are passed over here.  `n` stays below 2^64, or it is an error. -/
def numLoop (base : Nat) : Str → Nat → Option Nat
  | [], n => some n
  | c :: s, n =>
    if c = c!"_" then numLoop base s n
    else match digitVal c with
      | none => none
      | some d =>
        if d ≥ base then none
        else if n * base + d ≥ 2 ^ 64 then none
        else numLoop base s (n * base + d)

/-- What `underscoreOK` saw last: the beginning, a digit or the prefix, an underscore, something else. -/
inductive Saw
  | begin | digit | under | other
  deriving DecidableEq, Repr

/-- The loop of `underscoreOK`. -/
def underLoop (hex : Bool) : Str → Saw → Bool
  | [], saw => saw ≠ .under
  | c :: s, saw =>
    if (c!"0" ≤ c ∧ c ≤ c!"9") ∨ (hex = true ∧ c!"a" ≤ lowLetter c ∧ lowLetter c ≤ c!"f") then underLoop hex s .digit
    else if c = c!"_" then (if saw ≠ .digit then false else underLoop hex s .under)
    else if saw = .under then false
    else underLoop hex s .other

/-- `underscoreOK` after the sign (`ParseInt` has removed it already). -/
def underscoreOK (s : Str) : Bool :=
  match s with
  | x :: y :: r =>
    if x = c!"0" ∧ (lowLetter y = c!"b" ∨ lowLetter y = c!"o" ∨ lowLetter y = c!"x") then underLoop (lowLetter y == c!"x") r .digit
    else underLoop false s .begin
  | _ => underLoop false s .begin

/-- `strconv.ParseUint(s, 0, 64)` -/
def parseUint (s : Str) : Option Nat :=
  if s = [] then none
  else match numLoop (numBase s).1 (numBase s).2 0 with
    | none => none
    | some n => if c!"_" ∈ (numBase s).2 ∧ underscoreOK s = false then none else some n

/-- The sign in `ParseInt` and `ParseDuration`: whether it is a minus, and the rest. -/
def signOf (s : Str) : Bool × Str :=
  match s with
  | x :: r => if x = c!"-" then (true, r) else if x = c!"+" then (false, r) else (false, s)
  | [] => (false, [])

/-- `strconv.ParseInt(s, 0, 64)` -/
def parseInt (s : Str) : Option Int :=
  match parseUint (signOf s).2 with
  | none => none
  | some n =>
    if (signOf s).1 = false ∧ n ≥ 2 ^ 63 then none
    else if (signOf s).1 = true ∧ n > 2 ^ 63 then none
    else some (if (signOf s).1 then -n else n)

/-- `unitMap` of package time, in nanoseconds. -/
def unitNs : List (Str × Nat) := [
  (b!"ns", 1),
  (b!"us", 1000),
  ([0xc2, 0xb5] ++ b!"s", 1000),   -- U+00B5
  ([0xce, 0xbc] ++ b!"s", 1000),   -- U+03BC
  (b!"ms", 1000000),
  (b!"s", 1000000000),
  (b!"m", 60000000000),
  (b!"h", 3600000000000)]

/-- `'0' <= c && c <= '9'` -/
def isDec (c : UInt8) : Bool := c!"0" ≤ c ∧ c ≤ c!"9"

/-- A unit goes on until a point or a digit. -/
def unitChar (c : UInt8) : Bool := c != c!"." && !isDec c

/-- `leadingInt`: the number, `none` if it is above 2^63, and the rest.  (In that case the library returns at once.) -/
def leadingInt : Str → Nat → Option Nat × Str
  | [], x => (some x, [])
  | c :: s, x =>
    if isDec c = false then (some x, c :: s)
    else if x > 2 ^ 63 / 10 then (none, [])
    else if x * 10 + (c.toNat - 48) > 2 ^ 63 then (none, [])
    else leadingInt s (x * 10 + (c.toNat - 48))

/-- One number with its unit, the body of the loop of `ParseDuration`: its length in nanoseconds and the rest.  `frac` is
`uint64(float64(f) * (float64(unit) / scale))` for the digits after the point. -/
def durPart (frac : Str → Nat → Nat) (s : Str) : Option (Nat × Str) :=
  match s with
  | [] => none
  | x :: _ =>
    if x ≠ c!"." ∧ isDec x = false then none
    else match leadingInt s 0 with
      | (none, _) => none
      | (some v, s1) =>
        let pre := decide (s1.length ≠ s.length)
        let point := s1.head? = some c!"."
        let f := if point then s1.tail.takeWhile isDec else []
        let s2 := if point then s1.tail.dropWhile isDec else s1
        if pre = false ∧ f = [] then none
        else
          let u := s2.takeWhile unitChar
          let s3 := s2.dropWhile unitChar
          if u = [] then none
          else match unitNs.lookup u with
            | none => none
            | some unit =>
              if v > 2 ^ 63 / unit then none
              else
                let w := v * unit + (if f = [] then 0 else frac f unit)
                if w > 2 ^ 63 then none else some (w, s3)

/-- The loop of `ParseDuration`; every round takes at least one byte, so `k` = length is enough. -/
def durLoop (frac : Str → Nat → Nat) : Nat → Str → Nat → Option Nat
  | _, [], d => some d
  | 0, _ :: _, _ => none
  | k + 1, c :: s, d =>
    match durPart frac (c :: s) with
    | none => none
    | some (w, rest) => if d + w > 2 ^ 63 then none else durLoop frac k rest (d + w)

/-- `time.ParseDuration`, in nanoseconds. -/
def parseDuration (frac : Str → Nat → Nat) (s : Str) : Option Int :=
  if (signOf s).2 = b!"0" then some 0
  else if (signOf s).2 = [] then none
  else match durLoop frac (signOf s).2.length (signOf s).2 0 with
    | none => none
    | some d =>
      if (signOf s).1 then some (-d)
      else if d > 2 ^ 63 - 1 then none
      else some d

/-- How the options of the program read numbers and durations. -/
def goArgs (frac : Str → Nat → Nat) : ArgLib := ⟨parseInt, parseDuration frac⟩

end Sink
