import Verif.Spec.Record

/-!
# Reading the metadata of saved messages back

A reader that knows the format of doc.go, not the code that writes it.
-/

namespace Sink.Spec

/-- The text after `p` in a text that begins with `p`. -/
def after (p s : Str) : Option Str := if p.isPrefixOf s then some (s.drop p.length) else none

/-- The first word of a text, and the rest from the space on. -/
def word (s : Str) : Str × Str := (s.takeWhile (· != c!" "), s.dropWhile (· != c!" "))

/-- The words of a text: the parts between spaces. -/
def wordsOf : Str → List Str
  | [] => [[]]
  | c :: s => if c = c!" " then [] :: wordsOf s else
    match wordsOf s with
    | [] => [[c]]
    | w :: ws => (c :: w) :: ws

/-- The value of a decimal or small hexadecimal digit. -/
def digitOf (c : Byte) : Option Nat :=
  if 48 ≤ c.toNat ∧ c.toNat ≤ 57 then some (c.toNat - 48)
  else if 97 ≤ c.toNat ∧ c.toNat ≤ 102 then some (c.toNat - 87) else none

/-- The value of a number written in some base. -/
def numberOf (base : Nat) : Nat → Str → Option Nat
  | acc, [] => some acc
  | acc, c :: s => (digitOf c).bind fun d => numberOf base (acc * base + d) s

/-- The names of the protocols. -/
def protocols : List (Str × Nat) :=
  [(b!"SSLv3", 0x0300), (b!"TLSv1.0", 0x0301), (b!"TLSv1.1", 0x0302), (b!"TLSv1.2", 0x0303), (b!"TLSv1.3", 0x0304)]

/-- The number of the protocol of this name. -/
def protocolOf (s : Str) : Option Nat :=
  match protocols.lookup s with
  | some v => some v
  | none => (after b!"tls-0x" s).bind (numberOf 16 0)

/-- The text in quotes after `tag`, if that comes next, and what follows. -/
def quoted (tag s : Str) : Str × Str :=
  match after tag s with
  | some x => (x.takeWhile (· != c!"'"), (x.dropWhile (· != c!"'")).drop 1)
  | none => ([], s)

/-- What is said about TLS: numbers of cipher and protocol, the server name asked for, the name in the certificate of the client
and whether it was verified.  Empty names if there are none. -/
structure TlsSaid where
  cipher : Nat
  version : Nat
  server : Str
  client : Str
  verified : Bool
  deriving DecidableEq, Repr

/-- What follows the name of the cipher, if there is one. -/
def skipName (s : Str) : Str :=
  match after b!" name " s with
  | some y => (word y).2
  | none => s

/-- The rest of the line `tls on cipher 0x`. -/
def readTls (s : Str) : Option TlsSaid := do
  let c ← numberOf 16 0 (word s).1
  let x ← after b!" proto " (skipName (word s).2)
  let p ← protocolOf (word x).1
  let sn := quoted b!" server-name '" (word x).2
  let cn := quoted b!" client-name '" sn.2
  return ⟨c, p, sn.1, cn.1, decide (cn.2 = b!" client-name-verified")⟩

/-- All but the sender, the recipients and the message. -/
structure SavedMeta where
  id : Str
  addr : Str
  time : Str
  client : Str
  here : Str
  helo : Str
  verified : List Str
  nofwd : List Str
  inconsist : List Str
  tls : Option TlsSaid
  hash : Str
  size : Nat
  bodyhash : Str
  deriving DecidableEq, Repr

/-- The rest of the first line that begins with `p`. -/
def lineAfter (lines : List Str) (p : Str) : Option Str := lines.findSome? (after p)

/-- What is said about TLS, if anything is; no result if it cannot be read. -/
def tlsOf : Option Str → Option (Option TlsSaid)
  | none => some none
  | some t => (readTls t).map some

/-- The metadata of a saved message. -/
def readMeta (file : Str) : Option SavedMeta := do
  let f ← splitBody [] file
  let idl ← lineAfter f.1 b!"id "
  let x ← after b!" " (word idl).2
  let time ← after b!" " (word x).2
  let rl ← lineAfter f.1 b!"remote "
  let y ← after b!" to " (word rl).2
  let h ← after b!" with helo '" (word y).2
  let hl ← lineAfter f.1 b!"hash "
  let sz ← after b!" bytes " (word hl).2
  let size ← numberOf 10 0 sz
  let bh ← lineAfter f.1 b!"bodyhash "
  let tls ← tlsOf (lineAfter f.1 b!"tls on cipher 0x")
  return {
    id := (word idl).1, addr := (word x).1, time := time, client := (word rl).1, here := (word y).1, helo := h.dropLast
    verified := ((lineAfter f.1 b!"remote-dns ").map wordsOf).getD []
    nofwd := ((lineAfter f.1 b!"remote-dns-nofwd ").map wordsOf).getD []
    inconsist := ((lineAfter f.1 b!"remote-dns-inconsist ").map wordsOf).getD []
    tls := tls, hash := (word hl).1, size := size, bodyhash := bh }

/-- The certificate of the client known when a message arrives: the name in it and whether it was verified. -/
def Step.certificate (st : Step) : Option (Str × Bool) :=
  match st.event with
  | some (.gotdata _) =>
    match st.i.tls.verified, st.i.tls.peer with
    | some x, _ => some (tlsName x, true)
    | none, some x => some (tlsName x, st.i.tls.verifyErr.isNone)
    | none, none => none
  | _ => none

/-- The last one of a history. -/
def certificateOf (l : List Step) : Str × Bool := ((l.filterMap Step.certificate).getLast?).getD ([], false)

/-- No spaces in the text. -/
def OneWord (s : Str) : Prop := c!" " ∉ s

/-- Addresses, the connection's prefix and hashes have no spaces. -/
structure WordEnv (E : Env) : Prop where
  pre : OneWord E.prefix_
  raddr : OneWord E.raddr
  laddr : OneWord E.laddr
  rip : OneWord E.rip
  gen : ∀ x, OneWord (E.H.gen x)

/-- Neither have names from the DNS. -/
def WordDns (E : Env) : Prop := ∀ t ip ns, E.W.lookupAddr t ip = .ok ns → ∀ n ∈ ns, OneWord n

/-- No single quotes in the names from TLS. -/
def Step.NoQuotes (st : Step) : Prop :=
  c!"'" ∉ st.i.tls.servername ∧ ∀ x, st.i.tls.verified = some x ∨ st.i.tls.peer = some x → c!"'" ∉ tlsName x

end Sink.Spec
