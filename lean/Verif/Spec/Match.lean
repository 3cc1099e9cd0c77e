import Mathlib.Data.List.Forall2
import Verif.Model.Net

/-!
# What address, host and IP patterns mean (doc.go, "Matching")

Written without reference to the matching code.
-/

namespace Sink.Spec

/-- `t` is the whole of `d` or what follows one of its dots. -/
def TailOf (t d : Str) : Prop := t = d ∨ ∃ x, d = x ++ c!"." :: t

/-- `a` is `l@d` with a non-empty local part and domain; the local part ends at the first `@`. -/
def IsAddr (a l d : Str) : Prop := a = l ++ c!"@" :: d ∧ c!"@" ∉ l ∧ l ≠ [] ∧ d ≠ []

/-- The lower-cased address `a` matches the pattern. -/
inductive AddrMatch : (a pat : Str) → Prop
  | self (a) : AddrMatch a a
  | null : AddrMatch [] b!"<>"
  | name {a} : a ≠ [] → c!"@" ∉ a → AddrMatch a (a ++ b!"@")
  | local_ {a l d} : IsAddr a l d → AddrMatch a (l ++ b!"@")
  | domain {a l d} : IsAddr a l d → AddrMatch a (b!"@" ++ d)
  | any {a l d} : IsAddr a l d → AddrMatch a b!"@"
  | tail {a l d t} : IsAddr a l d → TailOf t d → AddrMatch a (b!"@." ++ t)

/-- The host name as compared: one trailing dot is dropped unless the pattern has one. -/
def stripFor (h pat : Str) : Str := if h.getLast? = some c!"." ∧ pat.getLast? ≠ some c!"." then h.dropLast else h

/-- The lower-cased host name `h` matches the pattern. -/
def HostMatch (h pat : Str) : Prop :=
  pat = stripFor h pat ∨ ∃ t, TailOf t (stripFor h pat) ∧ pat = b!"." ++ t

/-- The address lies in the block: same family, equal leading bits. -/
def InBlock : IPNet → IP → Prop
  | .v4 b n, .v4 a => ∀ i < n, b.getMsbD i = a.getMsbD i
  | .v6 b n, .v6 a => ∀ i < n, b.getMsbD i = a.getMsbD i
  | _, _ => False

/-- The pattern text denotes the address or a block containing it. -/
def IpMatch (L : Lib) (ip : IP) (pat : Str) : Prop :=
  L.parseIP pat = some ip ∨ ∃ net, L.parseCIDR pat = some net ∧ InBlock net ip

/-- Same text up to the case of ASCII letters. -/
def CaseEqB (a b : Byte) : Prop := a = b ∨ (65 ≤ a ∧ a ≤ 90 ∧ b = a + 32) ∨ (65 ≤ b ∧ b ≤ 90 ∧ a = b + 32)
def CaseEq (s t : Str) : Prop := List.Forall₂ CaseEqB s t

/-- All bytes below 128. -/
def Ascii (s : Str) : Prop := ∀ b ∈ s, b < 128

/-- `b` is made of the newline-terminated `lines` and the unterminated `rest`. -/
def Text (b : Str) (lines : List Str) (rest : Str) : Prop :=
  b = (lines.map (· ++ b!"\n")).flatten ++ rest ∧ (∀ l ∈ lines, c!"\n" ∉ l) ∧ c!"\n" ∉ rest

/-- `t` is `s` without the white space around it. -/
def Trimmed (s t : Str) : Prop :=
  ∃ pre post : List Str, (∀ q ∈ pre, q ∈ spaceSeqs) ∧ (∀ q ∈ post, q ∈ spaceSeqs) ∧
    s = pre.flatten ++ t ++ post.flatten ∧ (∀ q ∈ spaceSeqs, ¬ q <+: t) ∧ (∀ q ∈ spaceSeqs, ¬ q <:+ t)

/-- The entries of a pattern file with these lines. -/
inductive Entries (L : Lib) : List Str → List Str → Prop
  | nil : Entries L [] []
  | skip {l t ls es} : Trimmed l t → (t = [] ∨ t.head? = some c!"#") → Entries L ls es → Entries L (l :: ls) es
  | keep {l t ls es} : Trimmed l t → t ≠ [] → t.head? ≠ some c!"#" → Entries L ls es →
      Entries L (l :: ls) (L.lower t :: es)

end Sink.Spec
