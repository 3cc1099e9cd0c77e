import Verif.Model.Lex

/-!
# Rules and expressions: data types and printing (rnodes.go)
-/

namespace Sink

/-- `Phase`, rnodes.go:14-25. -/
inductive Phase
  | any | connect | helo | mfrom | rto | data | message
  deriving DecidableEq, Repr

/-- The integer value of a phase constant, rnodes.go:16-25. -/
def Phase.num : Phase → Nat
  | .any => 0 | .connect => 1 | .helo => 2 | .mfrom => 3 | .rto => 4 | .data => 5 | .message => 6

instance : LT Phase := ⟨fun a b => a.num < b.num⟩
instance : LE Phase := ⟨fun a b => a.num ≤ b.num⟩
instance (a b : Phase) : Decidable (a < b) := inferInstanceAs (Decidable (a.num < b.num))
instance (a b : Phase) : Decidable (a ≤ b) := inferInstanceAs (Decidable (a.num ≤ b.num))

/-- `Phase.String`, rnodes.go:27-35. -/
def Phase.str : Phase → Str
  | .any => b!"@any" | .connect => b!"@connect" | .helo => b!"@helo" | .mfrom => b!"@from"
  | .rto => b!"@to" | .data => b!"@data" | .message => b!"@message"

/-- `Action`, rnodes.go:39-48. -/
inductive Action
  | error | noresult | accept | stall | reject
  deriving DecidableEq, Repr

/-- The integer value of an action constant, rnodes.go:42-48. -/
def Action.num : Action → Nat
  | .error => 0 | .noresult => 1 | .accept => 2 | .stall => 3 | .reject => 4

instance : LT Action := ⟨fun a b => a.num < b.num⟩
instance : LE Action := ⟨fun a b => a.num ≤ b.num⟩
instance (a b : Action) : Decidable (a < b) := inferInstanceAs (Decidable (a.num < b.num))
instance (a b : Action) : Decidable (a ≤ b) := inferInstanceAs (Decidable (a.num ≤ b.num))

/-- `Action.String`, rnodes.go:50-57. -/
def Action.str : Action → Str
  | .error => b!"ERROR" | .noresult => b!"set-with" | .accept => b!"accept"
  | .stall => b!"stall" | .reject => b!"reject"

/-- `Option` (a uint64 bit set), rnodes.go:61. -/
abbrev Opts := BitVec 64

/-- The option constants, rnodes.go:63-103.  `oZero` has iota 0, so `oHelo` is `1 << 1`. -/
def oZero : Opts := 0#64
def oHelo : Opts := 0x2#64
def oEhlo : Opts := 0x4#64
def oNone : Opts := 0x8#64
def oBogus : Opts := 0x10#64
def oNodots : Opts := 0x20#64
def oBareip : Opts := 0x40#64
def oProperip : Opts := 0x80#64
def oMyip : Opts := 0x100#64
def oRemip : Opts := 0x200#64
def oOtherip : Opts := 0x400#64
def oNodns : Opts := 0x800#64
def oInconsist : Opts := 0x1000#64
def oNofwd : Opts := 0x2000#64
def oGood : Opts := 0x4000#64
def oExists : Opts := 0x8000#64
def oUnqualified : Opts := 0x10000#64
def oRoute : Opts := 0x20000#64
def oQuoted : Opts := 0x40000#64
def oNoat : Opts := 0x80000#64
def oGarbage : Opts := 0x100000#64
def oDomainValid : Opts := 0x200000#64
def oDomainInvalid : Opts := 0x400000#64
def oDomainTempfail : Opts := 0x800000#64
def oHost : Opts := 0x1000000#64
def oFrom : Opts := 0x2000000#64
def oBad : Opts := oUnqualified ||| oRoute ||| oNoat ||| oGarbage
def oIp : Opts := oBareip ||| oProperip
def oAny : Opts := oHost ||| oEhlo ||| oFrom

/-- Which `MatchN` constructor built the node (its `what`, matcher and getter), rnodes.go:352-390, 423-428. -/
inductive MKind
  | helo | host | from_ | to | ip | sourceFrom
  deriving DecidableEq, Repr

/-- `MatchN.what`. -/
def MKind.str : MKind → Str
  | .helo => b!"helo" | .host => b!"host" | .from_ => b!"from" | .to => b!"to" | .ip => b!"ip"
  | .sourceFrom => b!"source_from"

/-- Which `OptionN` constructor built the node, rnodes.go:568-588. -/
inductive OKind
  | dns | heloHas | fromHas | toHas
  deriving DecidableEq, Repr

/-- `OptionN.what`. -/
def OKind.str : OKind → Str
  | .dns => b!"dns" | .heloHas => b!"helo-has" | .fromHas => b!"from-has" | .toHas => b!"to-has"

/-- `Expr` nodes, rnodes.go:201-204, 209-211, 231-233, 243-245, 264, 274-276, 290-292, 322-329, 395-398, 437-440, 504-508.
Function fields of `MatchN`/`OptionN` become the kinds above; `matchSource`'s three inner nodes are determined by its
argument (rnodes.go:414-430). -/
inductive Expr
  | andL (nodes : List Expr)
  | notN (node : Expr)
  | orN (left right : Expr)
  | all
  | tls (on : Bool)
  | dnsbl (domain : Str)
  | matchN (what : MKind) (arg : Str)
  | source (arg : Str)
  | dbl (src : Opts) (domain : Str)
  | optN (what : OKind) (opts : Opts)
  deriving Repr

/-- `RClause.withs`, a map with keys among the five with keywords (rparse.go:484-522); `none` is an absent key. -/
structure Withs where
  message : Option Str := none
  note : Option Str := none
  savedir : Option Str := none
  tlsOpt : Option Str := none
  makeYakker : Option Str := none
  deriving DecidableEq, Repr

/-- `len(rc.withs) == 0`. -/
def Withs.isEmpty (w : Withs) : Bool := w == {}

/-- `RClause`, rnodes.go:110-113. -/
structure RClause where
  expr : Expr
  withs : Withs
  deriving Repr

/-- `Rule`, rnodes.go:117-127. -/
structure Rule where
  clauses : List RClause
  result : Action
  requires : Phase
  deferto : Phase
  deriving Repr

/-! ## Decidable equality (for concrete examples) -/

mutual
def Expr.beq : Expr → Expr → Bool
  | .andL a, .andL b => Expr.beqL a b
  | .notN a, .notN b => Expr.beq a b
  | .orN a b, .orN c d => Expr.beq a c && Expr.beq b d
  | .all, .all => true
  | .tls a, .tls b => a == b
  | .dnsbl a, .dnsbl b => a == b
  | .matchN a b, .matchN c d => a == c && b == d
  | .source a, .source b => a == b
  | .dbl a b, .dbl c d => a == c && b == d
  | .optN a b, .optN c d => a == c && b == d
  | _, _ => false
def Expr.beqL : List Expr → List Expr → Bool
  | [], [] => true
  | a :: l, b :: m => Expr.beq a b && Expr.beqL l m
  | _, _ => false
end

mutual
theorem Expr.beq_iff : ∀ a b : Expr, Expr.beq a b = true ↔ a = b
  | .andL a, b => by cases b <;> simp [Expr.beq, Expr.beqL_iff a]
  | .notN a, b => by cases b <;> simp [Expr.beq, Expr.beq_iff a]
  | .orN a b, c => by cases c <;> simp [Expr.beq, Expr.beq_iff a, Expr.beq_iff b]
  | .all, b => by cases b <;> simp [Expr.beq]
  | .tls _, b => by cases b <;> simp [Expr.beq]
  | .dnsbl _, b => by cases b <;> simp [Expr.beq]
  | .matchN _ _, b => by cases b <;> simp [Expr.beq]
  | .source _, b => by cases b <;> simp [Expr.beq]
  | .dbl _ _, b => by cases b <;> simp [Expr.beq]
  | .optN _ _, b => by cases b <;> simp [Expr.beq]
theorem Expr.beqL_iff : ∀ a b : List Expr, Expr.beqL a b = true ↔ a = b
  | [], b => by cases b <;> simp [Expr.beqL]
  | a :: l, b => by cases b <;> simp [Expr.beqL, Expr.beq_iff a, Expr.beqL_iff l]
end

instance : DecidableEq Expr := fun a b => decidable_of_iff _ (Expr.beq_iff a b)

deriving instance DecidableEq for RClause
deriving instance DecidableEq for Rule

/-! ## Printing -/

/-- Option words: `revMap` (rnodes.go:547-565), i.e. the inverse of `heloMap`, `dnsMap`, `addrMap`, `dblMap` through the
keyword names, with the `oHelo`/`oEhlo` repair.  Listed in one fixed order; the code sorts the result, so the order of
the Go map does not matter. -/
def revMap : List (Opts × Str) := [
  (oHelo, b!"helo"), (oEhlo, b!"ehlo"), (oNone, b!"none"), (oNodots, b!"nodots"), (oBareip, b!"bareip"),
  (oProperip, b!"properip"), (oMyip, b!"myip"), (oRemip, b!"remip"), (oOtherip, b!"otherip"), (oIp, b!"ip"),
  (oBogus, b!"bogus"), (oNodns, b!"nodns"), (oInconsist, b!"inconsistent"), (oNofwd, b!"noforward"),
  (oGood, b!"good"), (oExists, b!"exists"), (oUnqualified, b!"unqualified"), (oRoute, b!"route"),
  (oQuoted, b!"quoted"), (oNoat, b!"noat"), (oGarbage, b!"garbage"), (oBad, b!"bad"), (oDomainValid, b!"resolves"),
  (oDomainInvalid, b!"baddom"), (oDomainTempfail, b!"unknown"), (oHost, b!"host"), (oFrom, b!"from"), (oAny, b!"any")]

/-- The words `Option.String` collects before sorting, rnodes.go:514-532. -/
def optWords (opts : Opts) : List Str :=
  let (l, opts) := if opts &&& oBad = oBad then ([b!"bad"], opts - oBad) else ([], opts)
  let (l, opts) := if opts &&& oIp = oIp then (l ++ [b!"ip"], opts - oIp) else (l, opts)
  let (l, opts) := if opts &&& oAny = oAny then (l ++ [b!"any"], opts - oAny) else (l, opts)
  l ++ (revMap.filter (fun (k, _) => k &&& opts = k)).map (·.2)

/-- `Option.String`, rnodes.go:514-538. -/
def optStr (opts : Opts) : Str := join b!"," (sortStrs (optWords opts))

mutual
/-- `Expr.String`, rnodes.go:222-228, 238-240, 247-249, 266-268, 278-284, 294-296, 331-333, 400-402, 442-444, 540-542. -/
def Expr.str : Expr → Str
  | .andL ns => b!"( " ++ join b!" " (Expr.strs ns) ++ b!" )"
  | .notN e => b!"not " ++ e.str
  | .orN l r => b!"( " ++ l.str ++ b!" or " ++ r.str ++ b!" )"
  | .all => b!"all"
  | .tls on => if on then b!"tls on" else b!"tls off"
  | .dnsbl d => b!"dnsbl " ++ d
  | .matchN k a => k.str ++ b!" " ++ a
  | .source a => b!"source " ++ a
  | .dbl s d => b!"dbl " ++ optStr s ++ b!" " ++ d
  | .optN k o => k.str ++ b!" " ++ optStr o
/-- The printed nodes of an `AndL`, rnodes.go:223-226. -/
def Expr.strs : List Expr → List Str
  | [] => []
  | e :: l => e.str :: Expr.strs l
end

/-- One with option, rnodes.go:172-176. -/
def withStr (k : Str) : Option Str → Str
  | none => []
  | some [] => b!" " ++ k
  | some v => b!" " ++ k ++ b!" \"" ++ v ++ b!"\""

/-- The with options in sorted key order (make-yakker, message, note, savedir, tls-opt), rnodes.go:166-177. -/
def Withs.str (w : Withs) : Str :=
  withStr b!"make-yakker" w.makeYakker ++ withStr b!"message" w.message ++ withStr b!"note" w.note ++
    withStr b!"savedir" w.savedir ++ withStr b!"tls-opt" w.tlsOpt

/-- `(*RClause).String`, rnodes.go:164-182. -/
def RClause.str (c : RClause) : Str :=
  c.expr.str ++ (if c.withs.str = [] then [] else b!" with" ++ c.withs.str)

/-- `(*Rule).String`, rnodes.go:187-197. -/
def Rule.str (r : Rule) : Str :=
  let body := r.result.str ++ b!" " ++ join b!"; " (r.clauses.map RClause.str)
  if r.deferto ≠ .any then r.deferto.str ++ b!" " ++ body else body

end Sink
