import Verif.Model.Session
import Verif.Model.IpText

/-!
# Addresses of connections as text (Go's package net; sinksmtp.go:883-888, 940, conncfg.go:31-33)

`process` asks the connection for its two addresses as text and takes the part before the port with `net.SplitHostPort`.
Elsewhere in the model the texts and these parts are separate inputs (`Env`).  Here is what package net does, written from memory of it (its source was not at hand):
`TCPAddr.String`, `JoinHostPort`, `SplitHostPort`, and `IP.String` for IPv4.  The text of IPv6 addresses stays arbitrary.
-/

namespace Sink

/-- `last(s, c)` of package net: the place of the last `c`. -/
def lastByte (s : Str) (c : Byte) : Option Nat := (s.reverse.findIdx? (· == c)).map fun i => s.length - 1 - i

/-- The end of `SplitHostPort`: `j`, `k` and `i` as there. -/
def splitRest (s host : Str) (j k i : Nat) : Option (Str × Str) :=
  if c!"[" ∈ s.drop j then none
  else if c!"]" ∈ s.drop k then none
  else some (host, s.drop (i + 1))

/-- `net.SplitHostPort`; an error is `none`. -/
def splitHostPort (s : Str) : Option (Str × Str) :=
  match lastByte s c!":" with
  | none => none
  | some i =>
    if s.head? = some c!"[" then
      match indexByte s c!"]" with
      | none => none
      | some e =>
        if e + 1 = s.length then none
        else if e + 1 = i then splitRest s ((s.take e).drop 1) 1 (e + 1) i
        else none
    else if c!":" ∈ s.take i then none
    else splitRest s (s.take i) 0 0 i

/-- `host, _, _ = net.SplitHostPort(s)`: empty if there was an error. -/
def hostOf (s : Str) : Str := match splitHostPort s with
  | some (h, _) => h
  | none => []

/-- `net.JoinHostPort`. -/
def joinHostPort (host port : Str) : Str :=
  if c!":" ∈ host then b!"[" ++ host ++ b!"]:" ++ port else host ++ b!":" ++ port

/-- `TCPAddr.String`, for an address with text `ip`. -/
def tcpText (ip zone : Str) (port : Nat) : Str :=
  joinHostPort (if zone ≠ [] then ip ++ b!"%" ++ zone else ip) (decDigits port)

/-- `IP.String` for IPv4. -/
def ipv4Text (a b c d : Nat) : Str := decDigits a ++ b!"." ++ decDigits b ++ b!"." ++ decDigits c ++ b!"." ++ decDigits d

/-- What `process` knows about the ends of the connection, sinksmtp.go:883-888. -/
def Env.ends (E : Env) (raddr laddr : Str) : Env :=
  { E with raddr := raddr, laddr := laddr, rip := hostOf raddr, lip := hostOf laddr }

end Sink
