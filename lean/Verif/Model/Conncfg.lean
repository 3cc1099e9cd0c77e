import Verif.Model.Lists
import Verif.Model.Setup

/-!
# Connection parameters (conncfg.go, sinksmtp.go:1251-1269)

A certificate is an opaque value made from a certificate file and a key file by `tls.LoadX509KeyPair`, which is an
oracle.
-/

namespace Sink

/-- `tls.Certificate`, opaque: the pair of file names it was loaded from stands for it. -/
structure TlsCert where
  cert : Str
  key : Str
  deriving DecidableEq, Repr

/-- `tls.LoadX509KeyPair(cert, key)`: the error text, if it fails. -/
abbrev PairOracle := Str → Str → Option Str

/-- The loop of `loadCerts`, sinksmtp.go:1258-1267.  `many` is `len(clist) > 1`. -/
def loadPairs (P : PairOracle) (many : Bool) : List Str → List Str → Except Str (List TlsCert)
  | [], _ => .ok []
  | _ :: _, [] => .ok []   -- not reachable: the lists have the same length
  | c :: cs, k :: ks => match P c k with
    | some e => .error (if many then b!"while loading " ++ c ++ b!" & " ++ k ++ b!": " ++ e else e)
    | none => match loadPairs P many cs ks with
      | .ok r => .ok (⟨c, k⟩ :: r)
      | .error e => .error e

/-- `loadCerts`, sinksmtp.go:1251-1269. -/
def loadCerts (P : PairOracle) (certs keys : Str) : Except Str (List TlsCert) :=
  let clist := splitOn c!"," certs
  let klist := splitOn c!"," keys
  if clist.length ≠ klist.length then .error b!"Different number of certificates and keys"
  else loadPairs P (clist.length > 1) clist klist

/-- `perDest`, conncfg.go:16-22. -/
structure PerDest where
  local_ : Str
  myname : Str
  certs : List TlsCert
  deriving DecidableEq, Repr

/-- One test of `destMap.find`, conncfg.go:36-45.  `net.IP(nil).Equal(nil)` is true: both unparsable is a match. -/
def PerDest.matches (L : Lib) (las lip : Str) (de : PerDest) : Bool :=
  de.local_ == b!"*" || de.local_ == las || L.parseIP lip == L.parseIP de.local_ ||
  match L.parseCIDR de.local_, L.parseIP lip with
  | some n, some ip => n.contains ip
  | _, _ => false

/-- `destMap.find`, conncfg.go:27-49, for a non-nil map; `lip` is the host part of `las` (`net.SplitHostPort`). -/
def findDest (L : Lib) (las lip : Str) (d : List PerDest) : Option PerDest := d.find? (PerDest.matches L las lip)

/-- `strings.Fields`: maximal runs without white space, for text `s`; `n` bounds the number of rounds, `w` is the word
being read, reversed. -/
def fieldsN : Nat → Str → Str → List Str
  | 0, w, _ => if w = [] then [] else [w.reverse]
  | n + 1, w, s => match s with
    | [] => if w = [] then [] else [w.reverse]
    | c :: r => match spaceAt s with
      | some k => (if w = [] then [] else [w.reverse]) ++ fieldsN n [] (s.drop k)
      | none => fieldsN n (c :: w) r

/-- `strings.Fields`. -/
def fields (s : Str) : List Str := fieldsN (s.length + 1) [] s

/-- `strings.SplitN(s, "=", 2)` with two parts, or `none` for one. -/
def splitEq (s : Str) : Option (Str × Str) :=
  match indexByte s c!"=" with
  | none => none
  | some i => some (s.take i, s.drop (i + 1))

/-- The variables `host`, `cert`, `key`, conncfg.go:60. -/
structure ConnKV where
  host : Str := []
  cert : Str := []
  key : Str := []
  deriving DecidableEq, Repr

/-- The loop over the settings of a line, conncfg.go:87-102. -/
def connFields (lnum : Nat) : List Str → ConnKV → Except Str ConnKV
  | [], kv => .ok kv
  | s :: ss, kv => match splitEq s with
    | none => .error (b!"field has no = in line " ++ decDigits lnum)
    | some (k, v) =>
      if k = b!"hostname" then connFields lnum ss { kv with host := v }
      else if k = b!"cert" then connFields lnum ss { kv with cert := v }
      else if k = b!"key" then connFields lnum ss { kv with key := v }
      else .error (b!"unrecognized key '" ++ k ++ b!"' in line " ++ decDigits lnum)

/-- The certificates of a line, conncfg.go:106-117. -/
def connCerts (P : PairOracle) (lnum : Nat) (kv : ConnKV) : Except Str (List TlsCert) :=
  if kv.cert ≠ [] ∧ kv.key ≠ [] then
    match loadCerts P kv.cert kv.key with
    | .ok c => .ok c
    | .error e => .error (b!"error loading TLS cert(s) and key(s) from line " ++ decDigits lnum ++ b!": " ++ e)
  else if kv.cert ≠ [] then .error (b!"certificate without key on line " ++ decDigits lnum)
  else if kv.key ≠ [] then .error (b!"key without certificate on line " ++ decDigits lnum)
  else .ok []

/-- One line of `readConnFile`, conncfg.go:71-118; `none` for a blank line or a comment. -/
def connLine (P : PairOracle) (lnum : Nat) (line : Str) : Except Str (Option PerDest) :=
  let line := trimSpace line
  if line = [] ∨ line.head? = some c!"#" then .ok none
  else match fields line with
    | [] => .ok none   -- not reachable: the line is not blank
    | l0 :: rest =>
      if rest.length > 3 then .error (b!"too many fields in line " ++ decDigits lnum)
      else match connFields lnum rest {} with
        | .error e => .error e
        | .ok kv => match connCerts P lnum kv with
          | .error e => .error e
          | .ok certs => .ok (some ⟨l0, kv.host, certs⟩)

/-- The loop of `readConnFile`, conncfg.go:59-119; `n` lines were read before. -/
def connLines (P : PairOracle) : Nat → List Str → Except Str (List PerDest)
  | _, [] => .ok []
  | n, l :: ls => match connLine P (n + 1) l with
    | .error e => .error e
    | .ok none => connLines P (n + 1) ls
    | .ok (some d) => match connLines P (n + 1) ls with
      | .error e => .error e
      | .ok ds => .ok (d :: ds)

/-- `loadConnFile`, conncfg.go:122-129, with `readConnFile`, conncfg.go:55-120: the unterminated rest of the file is
dropped (conncfg.go:63-65).  A read error in the middle is `FileRead.readErr`: the lines before it are then still checked, so
the error reported may be another one, but there is an error in both cases. -/
def loadConnFile (P : PairOracle) (f : FileRead) : Except Str (List PerDest) :=
  match f with
  | .notExist m | .openErr m | .readErr m => .error m
  | .data b => connLines P 0 (readLines b).1

end Sink
