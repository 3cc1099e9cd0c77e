import Verif.Model.Parse

/-!
# The lexer goroutine (rlex.go:304-345, 364-371; rparse.go:699-711)

`Parse` starts a goroutine that runs the lexer and sends the items on an unbuffered channel; the parser receives them with
`nextItem` and in the end drains the channel.  The parser is any deterministic receiver: from the items received so far it
decides whether it wants another one (`more`), so that every point at which parsing can stop is covered.
-/

namespace Sink

/-- Where the lexer goroutine is. -/
inductive LexPc
  /-- before calling a state function, rlex.go:326-327 -/
  | run (f : LexFn) (s : LexSt)
  /-- in a state function: items still to be sent, then the next state function, rlex.go:305-322 -/
  | send (its : List Item) (next : Option LexFn) (s : LexSt)
  /-- before `close(l.items)`, rlex.go:329 -/
  | closing
  | done

/-- Where `Parse` is. -/
inductive ParsePc
  /-- receiving, rlex.go:334-337 -/
  | next
  /-- parsing with the items it has -/
  | work
  /-- in `drain`, rlex.go:341-346 -/
  | drain
  /-- `Parse` has returned -/
  | done
  deriving DecidableEq, Repr

/-- The two goroutines and the items the parser has received. -/
structure Pipe where
  lx : LexPc
  ps : ParsePc
  got : List Item

/-- `lex(input)` has just started the goroutine and `Parse` asks for its first item. -/
def newPipe (input : Str) : Pipe := ⟨.run .lineStart ⟨input, 0⟩, .next, []⟩

/-- The steps. -/
inductive Pipe.Step (more : List Item → Bool) : Pipe → Pipe → Prop
  | run {p f s o} : p.lx = .run f s → lexStep f s = .ok o → Pipe.Step more p { p with lx := .send o.items o.next o.st }
  | goOn {p f s} : p.lx = .send [] (some f) s → Pipe.Step more p { p with lx := .run f s }
  | stop {p s} : p.lx = .send [] none s → Pipe.Step more p { p with lx := .closing }
  | close {p} : p.lx = .closing → Pipe.Step more p { p with lx := .done }
  /-- An item passes. -/
  | pass {p x its n s} : p.lx = .send (x :: its) n s → p.ps = .next →
      Pipe.Step more p { lx := .send its n s, ps := .work, got := p.got ++ [x] }
  /-- Receiving from the closed channel gives the zero item. -/
  | zero {p} : p.lx = .done → p.ps = .next → Pipe.Step more p { p with ps := .work, got := p.got ++ [Item.zero] }
  | ask {p} : p.ps = .work → more p.got = true → Pipe.Step more p { p with ps := .next }
  | enough {p} : p.ps = .work → more p.got = false → Pipe.Step more p { p with ps := .drain }
  /-- `drain` receives an item and forgets it. -/
  | drop {p x its n s} : p.lx = .send (x :: its) n s → p.ps = .drain → Pipe.Step more p { p with lx := .send its n s }
  /-- The channel is closed: `drain` ends and `Parse` returns. -/
  | ret {p} : p.lx = .done → p.ps = .drain → Pipe.Step more p { p with ps := .done }

/-- `n` steps of a parse of `input`. -/
inductive Pipe.Runs (more : List Item → Bool) (input : Str) : Nat → Pipe → Prop
  | init : Pipe.Runs more input 0 (newPipe input)
  | step {n p p'} : Pipe.Runs more input n p → Pipe.Step more p p' → Pipe.Runs more input (n + 1) p'

end Sink
