import Verif.Spec.Server
import Verif.Spec.Record

/-!
# What happens to files
-/

namespace Sink.Spec

/-- The files before something happened. -/
def Hap.before (e : Hap) : FS := match e.what with
  | .began sh _ _ _ => sh.fs
  | .stepped _ sh _ _ _ _ => sh.fs

/-- The files after something happened. -/
def Hap.after (e : Hap) : FS := match e.what with
  | .began _ _ sh' _ => sh'.fs
  | .stepped _ _ _ _ sh' _ => sh'.fs

/-- A message with this data arrives and is going to be saved in `tgt` with contents `r`. -/
def SavesTo (cf : Conf) (E : Env) (st : Step) (data tgt r : Str) : Prop :=
  st.Ok cf E ∧ st.event = some (.gotdata data) ∧ ∃ n, st.post.pc = .save .open_ tgt r n

/-- The steps of handling a message: none of them takes a new event. -/
def Handling (m : List Step) : Prop := ∀ q ∈ m, q.pre.pc ≠ .ready

/-- The file could not be opened, for another reason than that there is one of that name. -/
def OpenFailed (q : Step) : Prop := ∃ tgt r n, q.pre.pc = .save .open_ tgt r n ∧ q.i.sys ≠ .ok

/-- Opening found a file of that name. -/
def Found (tgt : Str) (q : Step) : Prop := ∃ r n f, q.pre.pc = .save .open_ tgt r n ∧ q.sh.fs tgt = some f ∧ q.i.sys = .ok

/-- Writing failed. -/
def WriteFailed (q : Step) : Prop := ∃ tgt r n, q.pre.pc = .save .write tgt r n ∧ q.i.sys ≠ .ok

/-- Syncing failed. -/
def SyncFailed (q : Step) : Prop := ∃ tgt r n, q.pre.pc = .save .sync tgt r n ∧ q.i.sys ≠ .ok

/-- Closing failed. -/
def CloseFailed (q : Step) : Prop := ∃ tgt r n, q.pre.pc = .save .close tgt r n ∧ q.i.sys ≠ .ok

/-- What happened as a step of a connection. -/
def Hap.step (e : Hap) : Option Step := match e.what with
  | .began _ _ _ _ => none
  | .stepped s sh i s' sh' o => some ⟨s, i, sh, s', sh', o⟩

/-- In this history a message arrived that was to be saved in `tgt` with contents `r`, under the name `n`. -/
def Arrived (cf : Conf) (h : List Hap) (E : Env) (tgt r n : Str) : Prop :=
  ∃ e ∈ h, ∃ st data, e.E = E ∧ Hap.step e = some st ∧ st.Ok cf E ∧ st.event = some (.gotdata data) ∧ st.post.pc = .save .open_ tgt r n

/-- In this history writing or closing `tgt` failed. -/
def Trouble (h : List Hap) (tgt : Str) : Prop :=
  ∃ e ∈ h, ∃ st q r n, Hap.step e = some st ∧ st.pre.pc = .save q tgt r n ∧ (q = .write ∨ q = .close) ∧ st.i.sys ≠ .ok

/-- The files and contents of the messages to be saved in a history. -/
def messages (l : List Step) : List (Str × Str) := l.filterMap fun st => match st.post.pc with
  | .save .open_ tgt r _ => some (tgt, r)
  | _ => none

/-- The answers to messages in a history. -/
def answers (l : List Step) : List (List Verdict) := l.filterMap fun st => match st.pre.pc with
  | .decide _ _ => some (replies st.out)
  | _ => none

end Sink.Spec
