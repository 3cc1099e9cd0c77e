import Verif.Model.World

/-!
# Pattern files (sinksmtp.go:84-131)
-/

namespace Sink

/-- Successive `ReadString('\n')` results: complete lines with their newline, and the unterminated rest (returned
together with `io.EOF`). -/
def readLines : Str → List Str × Str
  | [] => ([], [])
  | c :: r =>
    let (ls, rest) := readLines r
    if c = c!"\n" then ([c] :: ls, rest)
    else match ls with
      | [] => ([], c :: rest)
      | l :: ls => ((c :: l) :: ls, rest)

/-- One iteration of `readList`, sinksmtp.go:98-104. -/
def listLine (L : Lib) (line : Str) : Option Str :=
  let line := trimSpace line
  if line = [] ∨ line.head? = some c!"#" then none else some (L.lower line)

/-- `readList`, sinksmtp.go:88-107, without read errors (those are `FileRead.readErr`): the unterminated rest is
dropped, because `err` is `io.EOF` for it (sinksmtp.go:92-95). -/
def readList (L : Lib) (b : Str) : List Str := (readLines b).1.filterMap (listLine L)

/-- `loadList`, sinksmtp.go:109-131; nil and the empty list are not distinguished (the only caller looks at the
length, rules.go:146-150). -/
def loadList (W : World) (fname : Str) (t : Trace) : List Str × Trace :=
  if fname = [] then ([], t)
  else
    let t' := .openFile fname :: t
    match W.files t.length fname with
    | .notExist _ => ([], t')
    | .openErr m => ([], .warn (b!"error opening " ++ fname ++ b!": " ++ m ++ b!"\n") :: t')
    | .readErr m => ([], .warn (b!"Problem loading addr list " ++ fname ++ b!": " ++ m ++ b!"\n") :: t')
    | .data b => (readList W.lib b, t')

end Sink
