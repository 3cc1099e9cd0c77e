import Verif.Model.Flags

/-!
# What a command line means (doc.go:16-148, and the documentation of package flag)
-/

namespace Sink.Spec

/-- Options that are on or off. -/
def switches : List Str := [b!"S", b!"force-receive", b!"M", b!"nostdrules", b!"statsperip"]

/-- Options with a text; -dnlog is not in the manual, only in the list of options the program prints. -/
def texts : List Str := [b!"helo", b!"c", b!"k", b!"conncfg", b!"l", b!"smtplog", b!"dnlog", b!"d", b!"save-hash", b!"r", b!"minphase", b!"pprof",
  b!"fromreject", b!"toaccept", b!"heloreject"]

/-- Ways to say yes, and to say no. -/
def yes : List Str := [b!"true", b!"True", b!"TRUE", b!"T", b!"t", b!"1"]
def no : List Str := [b!"false", b!"False", b!"FALSE", b!"F", b!"f", b!"0"]

/-- `v` can be given to the option `n`. -/
def Allows (P : ArgLib) (n v : Str) : Prop :=
  (n ∈ switches ∧ (v ∈ yes ∨ v ∈ no)) ∨ n ∈ texts ∨ (n = b!"dncount" ∧ (P.int v).isSome) ∨ (n = b!"dndur" ∧ (P.dur v).isSome)

/-- Options begin with one dash or two. -/
def Dash (d : Str) : Prop := d = b!"-" ∨ d = b!"--"

/-- The arguments `args` give the options in `l` their values, and `r` is left. -/
inductive Reads (P : ArgLib) : List Str → List (Str × Str) → List Str → Prop
  | none : Reads P [] [] []
  /-- The first argument that is no option ends the options. -/
  | stop {a args} : a.head? ≠ some c!"-" ∨ a = b!"-" → Reads P (a :: args) [] (a :: args)
  /-- So does `--`. -/
  | dashes {args} : Reads P (b!"--" :: args) [] args
  /-- `-name=value` -/
  | equals {d n v args l r} : Dash d → Allows P n v → Reads P args l r → Reads P ((d ++ n ++ b!"=" ++ v) :: args) ((n, v) :: l) r
  /-- `-name` is yes for switches. -/
  | switch {d n args l r} : Dash d → n ∈ switches → Reads P args l r → Reads P ((d ++ n) :: args) ((n, b!"true") :: l) r
  /-- `-name value` for the others -/
  | next {d n v args l r} : Dash d → n ∉ switches → Allows P n v → Reads P args l r → Reads P ((d ++ n) :: v :: args) ((n, v) :: l) r

/-- The value given to an option: the last one. -/
def lastOf (l : List (Str × Str)) (n : Str) : Option Str := (l.reverse.find? fun x => x.1 = n).map (·.2)

/-- A switch is on. -/
def On (l : List (Str × Str)) (n : Str) : Prop := ∃ v ∈ yes, lastOf l n = some v

end Sink.Spec
