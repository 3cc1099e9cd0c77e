import Verif.Spec.DemoWorld
import Verif.Spec.Session

/-!
# A concrete connection for examples

Used in `example`s and for counterexamples only.
-/

namespace Sink
open Spec

/-- Not a hash, but enough to see what goes into it. -/
def demoHashes : Hashes := ⟨fun s => b!"#" ++ s.take 8, fun d => if d.head? = some c!"!" then .noParse else .body (d.drop 2)⟩

/-- A client at 192.0.2.2. -/
def demoEnv : Env where
  W := demoWorld
  H := demoHashes
  fs := fun _ => tbl (.notExist b!"no such file") [
    (b!"/rules", .data b!"reject to bad@ with savedir \"/junk\"\nset-with from a@ with savedir \"/ab\"\n"),
    (b!"/broken", .data b!"reject to\n")]
  fds := 10
  pairs := fun _ _ => none
  raddr := b!"192.0.2.2:1234"
  laddr := b!"192.0.2.9:25"
  rip := b!"192.0.2.2"
  lip := b!"192.0.2.9"
  prefix_ := b!"7/1"

/-- A settings example: `-d /mail -l log -r /rules` with the standard rules. -/
def demoConf : Conf where
  savedir := b!"/mail"
  logf := true
  rulefiles := [b!"/rules"]
  base := [⟨[⟨.optN .fromHas (oBad ||| oRoute), {}⟩], .reject, .mfrom, .any⟩,
     ⟨[⟨.optN .toHas (oBad ||| oRoute), {}⟩], .reject, .rto, .any⟩,
     ⟨[⟨.optN .heloHas oNone, {}⟩], .reject, .helo, .any⟩]
  stallall := [⟨[⟨.all, {}⟩], .stall, .any, .any⟩]
  srvname := b!"here"

/-- Run a connection through a list of inputs, alone. -/
def drive (cf : Conf) (E : Env) : Sess → Shared → List Inp → Except Panic (List Step × Sess × Shared)
  | s, sh, [] => .ok ([], s, sh)
  | s, sh, i :: is => match sstep cf E s sh i with
    | .error p => .error p
    | .ok (s', sh', o) => match drive cf E s' sh' is with
      | .error p => .error p
      | .ok (l, r) => .ok (⟨s, i, sh, s', sh', o⟩ :: l, r)

/-- From the beginning. -/
def driveAll (cf : Conf) (E : Env) (sh : Shared) (i0 : Inp) (is : List Inp) : Except Panic (List Step × Sess × Shared) :=
  match startSess cf E sh i0 with
  | .error p => .error p
  | .ok (s, sh', _) => drive cf E s sh' is

theorem Spec.Run.cons {cf : Conf} {E : Env} {s s1 s2 : Sess} {sh sh' : Shared} {i : Inp} {o : List Out} {l : List Step}
    (h : sstep cf E s sh i = .ok (s1, sh', o)) (hr : Run cf E s1 l s2) : Run cf E s (⟨s, i, sh, s1, sh', o⟩ :: l) s2 := by
  induction hr with
  | nil => exact .snoc (.nil s) h
  | snoc _ hs ih => exact .snoc ih hs

theorem drive_run {cf : Conf} {E : Env} : ∀ {is : List Inp} {s : Sess} {sh : Shared} {l : List Step} {s' : Sess} {sh' : Shared},
    drive cf E s sh is = .ok (l, s', sh') → Run cf E s l s' := by
  intro is
  induction is with
  | nil => intro s sh l s' sh' h; cases h; exact .nil _
  | cons i is ih =>
    intro s sh l s' sh' h
    rw [drive] at h
    split at h
    · cases h
    · rename_i hs
      split at h
      · cases h
      · rename_i hd
        cases h
        exact .cons hs (ih hd)

theorem driveAll_life {cf : Conf} {E : Env} {sh sh' : Shared} {i0 : Inp} {is : List Inp} {l : List Step} {s : Sess}
    (h : driveAll cf E sh i0 is = .ok (l, s, sh')) : Life cf E l s := by
  unfold driveAll at h
  split at h
  · cases h
  · rename_i hs
    exact ⟨_, _, _, _, _, hs, drive_run h⟩

/-- Part of the outcome of `driveAll`. -/
def seen {α : Type} (f : List Step → Sess → Shared → α) : Except Panic (List Step × Sess × Shared) → Except Panic α
  | .error p => .error p
  | .ok (l, s, sh) => .ok (f l s sh)

/-- Events as inputs, after the two steps of setting up. -/
def events (evs : List SEv) : List Inp := {} :: {} :: evs.map fun e => { ev := e }

end Sink
