import Verif.Spec.Server

/-!
# What the clients of one address see of a server
-/

namespace Sink.Spec

/-- An entry of the history without the shared tables: which connection, when, its state before and after, what it was
given and what it did. -/
structure Seen where
  k : Nat
  E : Env
  now : Int
  /-- `none` for the beginning of a connection -/
  input : Option (Sess × Inp)
  state : Sess
  out : List Out

def _root_.Sink.Hap.seen (e : Hap) : Seen :=
  match e.what with
  | .began _ s _ o => ⟨e.k, e.E, e.now, none, s, o⟩
  | .stepped s _ i s' _ o => ⟨e.k, e.E, e.now, some (s, i), s', o⟩

/-- The part of a history that concerns the clients at address `ip`. -/
def seenBy (ip : Str) (h : List Hap) : List Seen := (h.filter fun e => decide (e.E.rip = ip)).map Hap.seen

/-- The file a session is creating. -/
def fileOf (s : Sess) : Option Str :=
  match s.pc with
  | .save _ tgt _ _ => some tgt
  | _ => none

/-- The file the step is about. -/
def _root_.Sink.Hap.file (e : Hap) : Option Str :=
  match e.what with
  | .began _ _ _ _ => none
  | .stepped s _ _ _ _ _ => fileOf s

/-- The record a session is saving. -/
def recordOf (s : Sess) : Option Str :=
  match s.pc with
  | .save _ _ r _ => some r
  | _ => none

/-- The record the step is about. -/
def _root_.Sink.Hap.record (e : Hap) : Option Str :=
  match e.what with
  | .began _ _ _ _ => none
  | .stepped s _ _ _ _ _ => recordOf s

/-- No file that a client at `ip` wants to create is touched on behalf of a client at another address. -/
def FilesApart (ip : Str) (h : List Hap) : Prop :=
  ∀ e ∈ h, e.E.rip = ip → ∀ p, e.file = some p → ∀ e' ∈ h, e'.E.rip ≠ ip → e'.file ≠ some p

/-- The files at the start of the server. -/
def filesAtStart : List Hap → Server → FS
  | [], g => g.sh.fs
  | [e], _ => match e.what with
    | .began sh _ _ _ => sh.fs
    | .stepped _ sh _ _ _ _ => sh.fs
  | _ :: e :: h, g => filesAtStart (e :: h) g

end Sink.Spec
