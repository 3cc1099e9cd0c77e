/-!
# Byte strings and the parts of Go's `strings` package the code uses

A Go `string` is a sequence of bytes: `Str := List UInt8`.  The functions below model the standard library
functions named in their comments, on bytes, exactly as the code uses them.
-/

namespace Sink

abbrev Byte := UInt8
abbrev Str := List UInt8

deriving instance DecidableEq for Except

open Lean in
/-- `b!"text"` is the byte list of a literal. -/
syntax:max (name := bytesLit) "b!" noWs str : term
open Lean in
macro_rules
  | `(b!$s:str) => do
    let elems := (s.getString.toUTF8.toList.map fun b => (quote b.toNat : TSyntax `term)).toArray
    `(([$elems,*] : List UInt8))

open Lean in
/-- `c!"x"` is the byte of a one-character literal. -/
syntax:max (name := byteLit) "c!" noWs str : term
open Lean in
macro_rules
  | `(c!$s:str) => do
    let n : TSyntax `term := quote ((s.getString.toUTF8.toList.map UInt8.toNat).headD 0)
    `(($n : UInt8))

/-- `strings.IndexByte(s, c)`; `none` is Go's `-1`. -/
def indexByte (s : Str) (c : Byte) : Option Nat := s.findIdx? (· == c)

/-- `strings.HasPrefix(s, p)`. -/
def hasPrefix (s p : Str) : Bool := p.isPrefixOf s

/-- `strings.Contains(s, sub)`: some tail of `s` starts with `sub`. -/
def contains : Str → Str → Bool
  | [], sub => sub.isEmpty
  | c :: s, sub => hasPrefix (c :: s) sub || contains s sub

/-- The bytes 'A'..'Z' are mapped to 'a'..'z', everything else is unchanged (Go `strings.ToLower`, ASCII path). -/
def lowerByte (c : Byte) : Byte := if 65 ≤ c ∧ c ≤ 90 then c + 32 else c

/-- All bytes are below `utf8.RuneSelf`. -/
def isASCII (s : Str) : Bool := s.all (· < 128)

/-- `strings.ToLower`.  On ASCII strings this is bytewise; on strings with a non-ASCII byte Go maps runes with
`unicode.ToLower`, which is the parameter `u` (an unconstrained oracle: see `World.lowerU`). -/
def toLower (u : Str → Str) (s : Str) : Str := if isASCII s then s.map lowerByte else u s

/-- The encodings of the runes for which `unicode.IsSpace` holds: ASCII \t \n \v \f \r space, U+0085, U+00A0,
U+1680, U+2000..U+200A, U+2028, U+2029, U+202F, U+205F, U+3000. -/
def spaceSeqs : List Str :=
  [[9], [10], [11], [12], [13], [32], [0xC2, 0x85], [0xC2, 0xA0], [0xE1, 0x9A, 0x80],
   [0xE2, 0x80, 0x80], [0xE2, 0x80, 0x81], [0xE2, 0x80, 0x82], [0xE2, 0x80, 0x83], [0xE2, 0x80, 0x84],
   [0xE2, 0x80, 0x85], [0xE2, 0x80, 0x86], [0xE2, 0x80, 0x87], [0xE2, 0x80, 0x88], [0xE2, 0x80, 0x89],
   [0xE2, 0x80, 0x8A], [0xE2, 0x80, 0xA8], [0xE2, 0x80, 0xA9], [0xE2, 0x80, 0xAF], [0xE2, 0x81, 0x9F],
   [0xE3, 0x80, 0x80]]

/-- Length of the white space rune at the start of `s`, if any. -/
def spaceAt (s : Str) : Option Nat := (spaceSeqs.find? (fun q => hasPrefix s q)).map List.length

/-- Drop leading white space runes (`strings.TrimLeftFunc(s, unicode.IsSpace)`), `n` bounds the number of rounds. -/
def trimLeftN : Nat → Str → Str
  | 0, s => s
  | n + 1, s => match spaceAt s with
    | some k => trimLeftN n (s.drop k)
    | none => s

/-- Length of the white space rune at the end of `s`, if any (`utf8.DecodeLastRuneInString`). -/
def spaceAtEnd (s : Str) : Option Nat := (spaceSeqs.find? (fun q => q.isSuffixOf s)).map List.length

/-- Drop trailing white space runes, `n` bounds the number of rounds. -/
def trimRightN : Nat → Str → Str
  | 0, s => s
  | n + 1, s => match spaceAtEnd s with
    | some k => trimRightN n (s.take (s.length - k))
    | none => s

/-- `strings.TrimSpace`. -/
def trimSpace (s : Str) : Str :=
  let t := trimLeftN s.length s
  trimRightN t.length t

/-- `strings.Split(s, sep)` for a one-byte separator: always at least one piece. -/
def splitOn (sep : Byte) : Str → List Str
  | [] => [[]]
  | c :: s =>
    if c = sep then [] :: splitOn sep s
    else match splitOn sep s with
      | [] => [[c]]            -- not reachable: `splitOn` never returns `[]`
      | w :: ws => (c :: w) :: ws

/-- `strings.Join(parts, sep)`. -/
def join (sep : Str) : List Str → Str
  | [] => []
  | [w] => w
  | w :: ws => w ++ sep ++ join sep ws

/-- Decimal digits, most significant first; `k` bounds the number of digits. -/
def decDigitsN : Nat → Nat → Str
  | 0, _ => []
  | k + 1, n => if n < 10 then [48 + UInt8.ofNat n] else decDigitsN k (n / 10) ++ [48 + UInt8.ofNat (n % 10)]

/-- Decimal digits of a natural number (`%d`). -/
def decDigits (n : Nat) : Str := decDigitsN (n + 1) n

/-- Bytewise lexicographic order on Go strings, as used by `sort.Strings`. -/
def strLe : Str → Str → Bool
  | [], _ => true
  | _ :: _, [] => false
  | a :: s, b :: t => if a < b then true else if b < a then false else strLe s t

/-- Insert into a sorted list. -/
def insertStr (a : Str) : List Str → List Str
  | [] => [a]
  | b :: l => if strLe a b then a :: b :: l else b :: insertStr a l

/-- `sort.Strings`.  An insertion sort stands for Go's sort: the sorted sequence of strings is unique. -/
def sortStrs : List Str → List Str
  | [] => []
  | a :: l => insertStr a (sortStrs l)

end Sink
