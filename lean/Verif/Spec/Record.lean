import Verif.Spec.Session

/-!
# Reading saved messages and the message log back

A reader that knows the format of doc.go, not the code that writes it.
-/

namespace Sink.Spec

/-- The text has no newline in it. -/
def OneLine (s : Str) : Prop := c!"\n" ∉ s

/-- The lines of a file before the first line that is exactly `body`, and all of the file after that line. `cur` is the
current line so far, reversed. -/
def splitBody (cur : Str) : Str → Option (List Str × Str)
  | [] => none
  | c :: s =>
    if c = c!"\n" then
      if cur.reverse = b!"body" then some ([], s) else (splitBody [] s).map fun x => (cur.reverse :: x.1, x.2)
    else splitBody (c :: cur) s

/-- The text between `tag <` and `>` of a line of this form. -/
def angled (tag l : Str) : Option Str :=
  if (tag ++ b!" <").isPrefixOf l ∧ l.getLast? = some c!">" then some (l.drop (tag.length + 2)).dropLast else none

/-- Sender, recipients and body of a saved message. -/
def readBack (file : Str) : Option (Str × List Str × Str) := do
  let (lines, body) ← splitBody [] file
  let f ← lines.findSome? (angled b!"from")
  return (f, lines.filterMap (angled b!"to"), body)

/-- One line of a file, with its newline. -/
def IsLine (s : Str) : Prop := ∃ l, OneLine l ∧ s = l ++ b!"\n"

/-- What the message log got. -/
def msglogs (o : List Out) : List Str := o.filterMap fun x => match x with | .msglog s => some s | _ => none

/-- The argument of a command has no newline. -/
def PlainArg : SEv → Prop
  | .helo _ a | .mailfrom a | .rcptto a => OneLine a
  | _ => True

/-- Commands have no newline in their arguments (the smtpd library reads commands by lines), nor has the time as text. -/
def Step.PlainCmd (st : Step) : Prop := OneLine st.i.nowText ∧ ∀ ev, st.event = some ev → PlainArg ev

/-- Neither have the names from TLS: the server name asked for and the names in certificates of the client. -/
def Step.PlainTls (st : Step) : Prop :=
  OneLine st.i.tls.servername ∧ ∀ x, st.i.tls.verified = some x ∨ st.i.tls.peer = some x → OneLine (tlsName x)

/-- The addresses, the connection's prefix `pid/cid` and hashes (hexadecimal text) have no newlines. -/
structure PlainEnv (E : Env) : Prop where
  pre : OneLine E.prefix_
  raddr : OneLine E.raddr
  laddr : OneLine E.laddr
  rip : OneLine E.rip
  gen : ∀ x, OneLine (E.H.gen x)

/-- Names from reverse DNS lookups have no newlines. -/
def PlainDns (E : Env) : Prop := ∀ t ip ns, E.W.lookupAddr t ip = .ok ns → ∀ n ∈ ns, OneLine n

/-- A message with this data arrives and is going to be saved under the name `n` (in some directory) with contents `r`. -/
structure Saves (cf : Conf) (E : Env) (st : Step) (data n r : Str) : Prop where
  ok : st.Ok cf E
  ev : st.event = some (.gotdata data)
  pc : ∃ dir, st.post.pc = .save .open_ (dir ++ b!"/" ++ n) r n

/-- The same message from the same place: everything recorded about them agrees, except the connection's prefix, the time and
the address with the client's port. -/
structure SameMessage (t t' : Trans) : Prop where
  rip : t.rip = t'.rip
  laddr : t.laddr = t'.laddr
  helo : t.heloname = t'.heloname
  rdns : t.rdns = t'.rdns
  from_ : t.from_ = t'.from_
  rcptto : t.rcptto = t'.rcptto
  data : t.data = t'.data
  tlson : t.tlson = t'.tlson
  cipher : t.cipher = t'.cipher
  tlsversion : t.tlsversion = t'.tlsversion
  servername : t.servername = t'.servername
  peername : t.peername = t'.peername
  tlsverified : t.tlsverified = t'.tlsverified

/-- A text without its first line. -/
def afterLine (s : Str) : Str := (s.dropWhile (· != c!"\n")).drop 1

end Sink.Spec
