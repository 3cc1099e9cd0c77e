import Verif.Model.Logger
import Mathlib.Data.List.Forall2

/-!
# C58: every SMTP log record is written in one piece
-/

namespace Sink
namespace Spec

/-- What a history, newest first, has put into the file. -/
def logFile : List LogHap → Str
  | [] => []
  | e :: h => logFile h ++ (e.calls.map fun c => c.1.take (c.2.count c.1)).flatten

/-- Connection `k` has seen a write fail. -/
def LogBroken (k : Nat) (h : List LogHap) : Prop := ∃ e ∈ h, e.k = k ∧ ∃ c ∈ e.calls, c.2 ≠ .ok

end Spec
open Spec

/-- One `Write` on a logger in order. -/
theorem logger_write (O : Nat → WRes) (l : Logger) (b : Str) (hb : l.writer.buf = []) (he : l.writer.err = false)
    (hp : l.prefix_ ++ b ≠ []) :
    ∃ r n l', l.write O b = (n, decide (r = WRes.ok), l') ∧ l'.prefix_ = l.prefix_ ∧ l'.writer.size = l.writer.size ∧
      l'.writer.calls = l.writer.calls ++ [(l.prefix_ ++ b, r)] ∧
      (r = .ok → n = (l.prefix_ ++ b).length ∧ l'.writer.buf = [] ∧ l'.writer.err = false) ∧ (r ≠ .ok → l'.writer.err = true) := by
  obtain ⟨p, w⟩ := l
  obtain ⟨size, buf, err, calls⟩ := w
  simp only at hb he hp
  subst hb he
  refine ⟨O calls.length, ?_⟩
  generalize hq : p ++ b = q at hp ⊢
  by_cases hl : q.length > size
  · cases ho : O calls.length with
    | ok =>
      simp [Logger.write, BufW.write, BufW.loop, BufW.raw, hq, hl, ho, BufW.flush]
    | fail n =>
      simp [Logger.write, BufW.write, BufW.loop, BufW.raw, hq, hl, ho, BufW.flush]
  · cases ho : O calls.length with
    | ok =>
      simp [Logger.write, BufW.write, BufW.loop, BufW.raw, hq, hl, ho, BufW.flush, hp]
    | fail n =>
      simp [Logger.write, BufW.write, BufW.loop, BufW.raw, hq, hl, ho, BufW.flush, hp]

/-- A logger that has seen an error does nothing more. -/
theorem logger_broken (O : Nat → WRes) (l : Logger) (b : Str) (he : l.writer.err = true) : l.write O b = (0, false, l) := by
  simp [Logger.write, BufW.write, BufW.loop, he]

/-- The state of the loggers. -/
theorem LogRuns.state {pre : Nat → Str} {h : List LogHap} {ls : Nat → Logger} (hr : LogRuns pre h ls) (hpre : ∀ k, pre k ≠ []) (k : Nat) :
    (ls k).prefix_ = pre k ∧
    ((¬ LogBroken k h ∧ (ls k).writer.buf = [] ∧ (ls k).writer.err = false) ∨ (LogBroken k h ∧ (ls k).writer.err = true)) := by
  induction hr with
  | init => exact ⟨rfl, .inl ⟨(by rintro ⟨e, h, _⟩; cases h), rfl, rfl⟩⟩
  | @write h ls j b O n ok l' _ hw ih =>
    have other : ∀ (e : LogHap) (k : Nat), e.k ≠ k → (LogBroken k (e :: h) ↔ LogBroken k h) := by
      intro e k hk
      constructor
      · rintro ⟨x, hx, h1, h2⟩
        rcases List.mem_cons.1 hx with rfl | hx
        · exact absurd h1 hk
        · exact ⟨x, hx, h1, h2⟩
      · rintro ⟨x, hx, h1⟩; exact ⟨x, List.mem_cons_of_mem _ hx, h1⟩
    by_cases hk : k = j
    · subst hk
      simp only [if_true]
      rcases ih with ⟨h1, ⟨h2, h3, h4⟩ | ⟨h2, h3⟩⟩
      · obtain ⟨r, n', l'', g1, g2, g3, g4, g5, g6⟩ := logger_write O (ls k) b h3 h4 (by rw [h1]; simp [hpre k])
        rw [hw] at g1
        cases g1
        refine ⟨by rw [g2, h1], ?_⟩
        rw [g4]
        simp only [List.drop_left]
        by_cases hro : r = .ok
        · refine .inl ⟨?_, (g5 hro).2⟩
          rintro ⟨x, hx, hx1, c, hc, hx2⟩
          rcases List.mem_cons.1 hx with rfl | hx
          · simp only [List.mem_singleton] at hc
            subst hc
            exact hx2 hro
          · exact h2 ⟨x, hx, hx1, c, hc, hx2⟩
        · exact .inr ⟨⟨_, List.mem_cons_self, rfl, _, List.mem_singleton.2 rfl, hro⟩, g6 hro⟩
      · rw [logger_broken O (ls k) b h3] at hw
        cases hw
        refine ⟨h1, .inr ⟨?_, h3⟩⟩
        obtain ⟨x, hx, hx1⟩ := h2
        exact ⟨x, List.mem_cons_of_mem _ hx, hx1⟩
    · simp only [if_neg hk]
      rw [other _ k (fun h => hk h.symm)]
      exact ih

/-- **C58.** In every interleaving of the writes of any number of connections, with any file errors: each record of any size is
given to the file in exactly one call, as the prefix of the connection followed by the record, and the result says whether that
call succeeded; except that a connection that has seen an error makes no more calls and says so. -/
theorem C58_once {pre : Nat → Str} (hpre : ∀ k, pre k ≠ []) {h newer older : List LogHap} {ls : Nat → Logger} {e : LogHap}
    (hr : LogRuns pre h ls) (hh : h = newer ++ e :: older) :
    (∃ r, e.calls = [(pre e.k ++ e.rec_, r)] ∧ e.ok = decide (r = WRes.ok) ∧ (e.ok = true → e.n = (pre e.k ++ e.rec_).length) ∧
      ¬ LogBroken e.k older) ∨
    (e.calls = [] ∧ e.ok = false ∧ LogBroken e.k older) := by
  induction hr generalizing newer with
  | init => cases newer <;> cases hh
  | @write h0 ls0 j b O n ok l' hr0 hw ih =>
    cases newer with
    | cons x newer =>
      injection hh with _ hh
      exact ih hh
    | nil =>
      injection hh with h1 h2
      subst h1 h2
      obtain ⟨h1, ⟨h2, h3, h4⟩ | ⟨h2, h3⟩⟩ := hr0.state hpre j
      · obtain ⟨r, n', l'', g1, g2, g3, g4, g5, g6⟩ := logger_write O (ls0 j) b h3 h4 (by rw [h1]; simp [hpre j])
        rw [hw] at g1
        cases g1
        refine .inl ⟨r, ?_, rfl, ?_, h2⟩
        · simp only [g4, List.drop_left, h1]
        · intro hr
          simp only [decide_eq_true_eq] at hr
          simp only [(g5 hr).1, h1]
      · rw [logger_broken O (ls0 j) b h3] at hw
        cases hw
        exact .inr ⟨by simp, rfl, h2⟩

/-- **C58.** If no write fails the file is exactly the records with their prefixes, one after another, in the order of the
calls. -/
theorem C58_file {pre : Nat → Str} (hpre : ∀ k, pre k ≠ []) {h : List LogHap} {ls : Nat → Logger} (hr : LogRuns pre h ls)
    (hok : ∀ e ∈ h, e.ok = true) : logFile h = (h.reverse.map fun e => pre e.k ++ e.rec_).flatten := by
  have key : ∀ older newer, h = newer ++ older → logFile older = (older.reverse.map fun e => pre e.k ++ e.rec_).flatten := by
    intro older
    induction older with
    | nil => intro _ _; rfl
    | cons e older ih =>
      intro newer hh
      have := C58_once hpre hr hh
      rcases this with ⟨r, h1, h2, _⟩ | ⟨_, h2, _⟩
      · rw [hok e (by rw [hh]; simp)] at h2
        have hro : r = .ok := by simpa using h2.symm
        rw [logFile, ih (newer ++ [e]) (by rw [hh]; simp), h1, hro]
        simp [WRes.count, ← List.length_append]
      · rw [hok e (by rw [hh]; simp)] at h2
        cases h2
  exact key h [] rfl

/-- **C58.** Whatever fails, the file is made of whole records, and parts of records only where a write failed: what a record
leaves in the file is nothing, a beginning of the prefixed record, or all of it if the call succeeded. -/
theorem C58_parts {pre : Nat → Str} (hpre : ∀ k, pre k ≠ []) {h : List LogHap} {ls : Nat → Logger} (hr : LogRuns pre h ls) :
    ∃ parts : List Str, logFile h = parts.flatten ∧ parts.length = h.length ∧
      ∀ i (hi : i < h.reverse.length) (hp : i < parts.length),
        parts[i] <+: pre h.reverse[i].k ++ h.reverse[i].rec_ ∧
        (h.reverse[i].ok = true → parts[i] = pre h.reverse[i].k ++ h.reverse[i].rec_) := by
  have key : ∀ older newer, h = newer ++ older → ∃ parts : List Str, logFile older = parts.flatten ∧
      List.Forall₂ (fun (p : Str) (e : LogHap) => p <+: pre e.k ++ e.rec_ ∧ (e.ok = true → p = pre e.k ++ e.rec_)) parts older.reverse := by
    intro older
    induction older with
    | nil => intro _ _; exact ⟨[], rfl, .nil⟩
    | cons e older ih =>
      intro newer hh
      obtain ⟨ps, h1, h2⟩ := ih (newer ++ [e]) (by rw [hh]; simp)
      rw [List.reverse_cons]
      rcases C58_once hpre hr hh with ⟨r, g1, g2, _⟩ | ⟨g1, g2, _⟩
      · refine ⟨ps ++ [(pre e.k ++ e.rec_).take (r.count (pre e.k ++ e.rec_))], ?_, ?_⟩
        · rw [logFile, h1, g1]; simp
        · refine List.rel_append h2 (.cons ⟨List.take_prefix _ _, fun ho => ?_⟩ .nil)
          rw [ho] at g2
          have hro : r = .ok := by simpa using g2.symm
          rw [hro]
          simp [WRes.count, ← List.length_append]
      · refine ⟨ps ++ [[]], ?_, ?_⟩
        · rw [logFile, h1, g1]; simp
        · refine List.rel_append h2 (.cons ⟨List.nil_prefix, fun ho => ?_⟩ .nil)
          rw [ho] at g2
          cases g2
  obtain ⟨ps, h1, h2⟩ := key h [] rfl
  refine ⟨ps, h1, by simpa using h2.length_eq, fun i hi hp => ?_⟩
  exact (List.forall₂_iff_get.1 h2).2 i hp hi

/-- A long record: more than the buffer, one call. -/
example : ((newLogger b!"7/1").write (fun _ => .ok) (List.replicate 10000 c!"x")).2.2.writer.calls.map (fun c => c.1.length) = [10003] := by
  decide +kernel
/-- A record of the size of the buffer. -/
example : ((newLogger b!"7/1").write (fun _ => .ok) (List.replicate 8189 c!"x")).2.2.writer.calls.map (fun c => c.1.length) = [8192] := by
  decide +kernel
/-- Two connections, one write failing after five bytes. -/
example : logFile [⟨2, b!" b\n", [(b!"7/2 b\n", .ok)], 6, true⟩, ⟨1, b!" c\n", [], 0, false⟩, ⟨1, b!" a\n", [(b!"7/1 a\n", .fail 4)], 4, false⟩] =
    b!"7/1 7/2 b\n" := by decide
example : ∃ ls, LogRuns (fun k => if k = 1 then b!"7/1" else b!"7/2")
    [⟨1, b!" c\n", [], 0, false⟩, ⟨2, b!" b\n", [(b!"7/2 b\n", .ok)], 6, true⟩, ⟨1, b!" a\n", [(b!"7/1 a\n", .fail 4)], 6, false⟩] ls :=
  ⟨_, ((LogRuns.init.write (k := 1) (b := b!" a\n") (O := fun _ => .fail 4) rfl).write (k := 2) (b := b!" b\n") (O := fun _ => .ok) rfl).write
    (k := 1) (b := b!" c\n") (O := fun _ => .ok) rfl⟩

end Sink
