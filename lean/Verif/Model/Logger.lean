import Verif.Model.Bytes

/-!
# The SMTP log (sinksmtp.go:364-388, 924-930)

`bufio.Writer` is part of Go's library; `BufW.write` and `BufW.flush` follow its code as remembered (bufio/bufio.go, `Writer.Write`,
`Writer.Flush`), because the property is about the writes it makes.  The file is an oracle: for each `Write` call on it, in
order, whether the call succeeded, or failed after some number of bytes.  A file (`os.File`) never writes less than asked
without an error.
-/

namespace Sink

/-- The outcome of a `Write` call on the log file: all written, or an error after `n` bytes. -/
inductive WRes
  | ok
  | fail (n : Nat)
  deriving DecidableEq, Repr

/-- The number of bytes such a call says it has written. -/
def WRes.count (b : Str) : WRes → Nat
  | .ok => b.length
  | .fail n => min n b.length

/-- `bufio.Writer`: size, contents of the buffer, whether there was an error; with the calls it has made on the file, and what
the file will do. -/
structure BufW where
  size : Nat
  buf : Str := []
  err : Bool := false
  calls : List (Str × WRes) := []
  deriving DecidableEq, Repr

/-- `b.wr.Write(p)`; `O` is the outcome of the n-th call. -/
def BufW.raw (O : Nat → WRes) (w : BufW) (p : Str) : WRes × BufW :=
  (O w.calls.length, { w with calls := w.calls ++ [(p, O w.calls.length)] })

/-- `Writer.Flush`: whether it succeeded. -/
def BufW.flush (O : Nat → WRes) (w : BufW) : Bool × BufW :=
  if w.err then (false, w)
  else if w.buf = [] then (true, w)
  else match w.raw O w.buf with
    | (.ok, w') => (true, { w' with buf := [] })
    | (.fail n, w') => (false, { w' with buf := w.buf.drop n, err := true })

/-- The loop of `Writer.Write`: what is left of `p`, and the number of bytes taken so far.  `fuel` bounds the number of rounds;
there are at most two. -/
def BufW.loop (O : Nat → WRes) : Nat → BufW → Str → Nat → Str × Nat × BufW
  | 0, w, p, nn => (p, nn, w)
  | fuel + 1, w, p, nn =>
    if p.length > w.size - w.buf.length ∧ w.err = false then
      if w.buf = [] then
        match w.raw O p with
        | (.ok, w') => BufW.loop O fuel w' [] (nn + p.length)
        | (.fail n, w') => BufW.loop O fuel { w' with err := true } (p.drop n) (nn + (WRes.fail n).count p)
      else
        let n := w.size - w.buf.length
        let (_, w') := BufW.flush O { w with buf := w.buf ++ p.take n }
        BufW.loop O fuel w' (p.drop n) (nn + n)
    else (p, nn, w)

/-- `Writer.Write`: the number of bytes, whether it succeeded. -/
def BufW.write (O : Nat → WRes) (w : BufW) (p : Str) : Nat × Bool × BufW :=
  match BufW.loop O 3 w p 0 with
  | (p', nn, w') => if w'.err then (nn, false, w') else (nn + p'.length, true, { w' with buf := w'.buf ++ p' })

/-- The prefix of connection `cid` in the process `pid`, `fmt.Sprintf("%d/%d", os.Getpid(), cid)`, sinksmtp.go:886. -/
def convId (pid cid : Nat) : Str := decDigits pid ++ b!"/" ++ decDigits cid

/-- `smtpLogger`, sinksmtp.go:364-367. -/
structure Logger where
  prefix_ : Str
  writer : BufW

/-- A new logger, sinksmtp.go:925-927. -/
def newLogger (prefix_ : Str) : Logger := ⟨prefix_, { size := 8 * 1024 }⟩

/-- `smtpLogger.Write`, sinksmtp.go:369-388: the number of bytes, whether it succeeded. -/
def Logger.write (O : Nat → WRes) (l : Logger) (b : Str) : Nat × Bool × Logger :=
  let buf := l.prefix_ ++ b
  match l.writer.write O buf with
  | (n, true, w) => match w.flush O with
    | (ok, w) => (n, ok, { l with writer := w })
  | (n, false, w) => (n, false, { l with writer := w })

/-- What one connection's `Write` call did: the connection, the record, the calls on the file and their outcomes, the
result. -/
structure LogHap where
  k : Nat
  rec_ : Str
  calls : List (Str × WRes)
  n : Nat
  ok : Bool
  deriving DecidableEq, Repr

/-- Any number of connections write to the same file, opened with `O_APPEND` (sinksmtp.go:1289-1298), each with its own
logger; `pre k` is the prefix of connection `k`.  The history, newest first.  Each call on the file appends at its end as a
whole, so the calls are what matters, and their order. -/
inductive LogRuns (pre : Nat → Str) : List LogHap → (Nat → Logger) → Prop
  | init : LogRuns pre [] fun k => newLogger (pre k)
  | write {h : List LogHap} {ls : Nat → Logger} {k : Nat} {b : Str} {O : Nat → WRes} {n : Nat} {ok : Bool} {l' : Logger} :
      LogRuns pre h ls → (ls k).write O b = (n, ok, l') →
      LogRuns pre (⟨k, b, l'.writer.calls.drop (ls k).writer.calls.length, n, ok⟩ :: h) fun j => if j = k then l' else ls j

end Sink
