import Verif.Model.Net
import Verif.Model.Lex

/-!
# Pattern matching (rules.go:284-387)
-/

namespace Sink

/-- `sDotIter.Next`, rules.go:293-305: the returned string and the new `p`. -/
def sDotNext (s : Str) (p : Nat) : Str × Nat :=
  if s.length ≤ p then ([], p)
  else match indexByte (s.drop (p + 1)) c!"." with
    | none => ([], p)
    | some idx => (s.drop (p + idx + 1), p + idx + 1)

/-- The loop of `matchAddress`, rules.go:333-340: at most `n` iterations. -/
def addrLoop (dom pat : Str) : Nat → Nat → Option Bool
  | 0, _ => none
  | n + 1, p =>
    let r := sDotNext dom p
    let ts := c!"@" :: r.1
    if ts = pat then some true
    else if ts ≠ [c!"@"] then addrLoop dom pat n r.2
    else some false

/-- `matchAddress`, rules.go:310-344. -/
def matchAddress (L : Lib) (addr pat : Str) : Except Panic Bool :=
  let addr := L.lower addr
  if (addr = [] ∧ pat = b!"<>") ∨ addr = pat then .ok true
  else match indexByte addr c!"@" with
    | none => if addr = [] then .ok false else .ok (addr ++ b!"@" == pat)
    | some idx =>
      if idx = 0 ∨ idx = addr.length - 1 then .ok false
      else
        let domain := addr.drop idx
        if addr.take (idx + 1) = pat ∨ domain = pat then .ok true
        else match addrLoop (domain.drop 1) pat (domain.length + 1) 0 with
          | none => .error .fuel
          | some true => .ok true
          | some false => .ok (b!"@." ++ domain.drop 1 == pat)

/-- The loop of `matchHost`, rules.go:358-364. -/
def hostLoop (host pat : Str) : Nat → Nat → Option Bool
  | 0, _ => none
  | n + 1, p =>
    let r := sDotNext host p
    if r.1 = [] then some false
    else if r.1 = pat then some true
    else hostLoop host pat n r.2

/-- The second part of `matchHost`, rules.go:355-364. -/
def matchHost2 (host pat : Str) : Except Panic Bool :=
  if host = pat ∨ c!"." :: host = pat then .ok true
  else match hostLoop host pat (host.length + 1) 0 with
    | none => .error .fuel
    | some b => .ok b

/-- `matchHost`, rules.go:350-365.  `host[len(host)-1]` panics on an empty host, `pat[len(pat)-1]` on an empty pattern. -/
def matchHost (L : Lib) (host pat : Str) : Except Panic Bool :=
  let host := L.lower host
  match host.getLast? with
  | none => .error .index
  | some c =>
    if c = c!"." then
      match pat.getLast? with
      | none => .error .index
      | some d => matchHost2 (if d ≠ c!"." then host.dropLast else host) pat
    else matchHost2 host pat

/-- `net.IP.Equal` on possibly nil addresses. -/
def ipEqual : Option IP → Option IP → Bool
  | some a, some b => a == b
  | none, none => true
  | _, _ => false

/-- `matchIp`, rules.go:370-387.  `Contains(nil)` is false. -/
def matchIp (L : Lib) (rip cidr : Str) : Bool :=
  if ipEqual (L.parseIP rip) (L.parseIP cidr) then true
  else match L.parseCIDR cidr with
    | none => false
    | some ipn => match L.parseIP rip with
      | some ip => ipn.contains ip
      | none => false

/-- `matchFromHost`, rnodes.go:410-412. -/
def matchFromHost (L : Lib) (addr host : Str) : Except Panic Bool := matchAddress L addr (c!"@" :: host)

end Sink
