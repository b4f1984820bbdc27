import Verif.Proofs.Retry
import Verif.Props.Interrupt
import Mathlib.Data.List.Nodup

/-!
C99: indexing that fails on the GPU is done again on the CPU.
-/

namespace NextPlaid.Props

open NextPlaid.Spec
open NextPlaid.Interrupt

variable {α : Type}

theorem Toy.again_over (s : State α) (chunks : List (List α)) (hf : s.shared.flag = false) (hd : s.shared.depth = 0) :
    Retry.again s chunks = (start chunks).over s.shared.docs s.shared.rows := by
  unfold Retry.again State.over Interrupt.over start
  rcases hs : s.shared with ⟨f, d, x, y⟩
  rw [hs] at hf hd
  simp only at hf hd
  subst hf hd
  simp

/-- **C99, what a second attempt comes to.**  If the first attempt failed, whatever the reason, all its threads have ended, and the second returns normally and
Ctrl+C was not pressed, then the index and the database have what the first has left there, and after it all units. -/
theorem C99_again (p p' : Setup α) (chunks : List (List α)) (as as' : List Act) (s s' : State α) (hr : Run p as (start chunks) s)
    (hx : AllEnded s) (hr' : Run p' as' (Retry.again s chunks) s') (b : Bool) (hm : s'.main = .ret (some b)) (hf0 : s.shared.flag = false)
    (hf : s'.shared.flag = false) : s'.shared.docs = s.shared.docs ++ chunks.flatten ∧ s'.shared.rows = s.shared.rows ++ chunks.flatten := by
  have hd := (C97_sections p chunks as s hr).2 hx
  rw [Toy.again_over s chunks hf0 hd] at hr'
  obtain ⟨s0, h0, rfl⟩ := run_over p' _ _ hr' _ rfl
  have := C97_complete p' chunks as' s0 h0 b hm hf
  exact ⟨by simp [State.over, Interrupt.over, this.2.1], by simp [State.over, Interrupt.over, this.2.2]⟩

/-- **C99, the good case.**  If the first attempt has written nothing before it failed, all units are there once. -/
theorem C99_clean_partial (p p' : Setup α) (chunks : List (List α)) (as as' : List Act) (s s' : State α) (hr : Run p as (start chunks) s)
    (hx : AllEnded s) (hw : s.shared.docs = [] ∧ s.shared.rows = []) (hr' : Run p' as' (Retry.again s chunks) s') (b : Bool) (hm : s'.main = .ret (some b))
    (hf0 : s.shared.flag = false) (hf : s'.shared.flag = false) : s'.shared.docs = chunks.flatten ∧ s'.shared.rows = chunks.flatten := by
  have := C99_again p p' chunks as as' s s' hr hx hr' b hm hf0 hf
  rw [hw.1, hw.2] at this
  exact this

/-- **C99, the bad case.**  Whatever has a row after the first attempt has two after the second, if the units are distinct. -/
theorem C99_twice [DecidableEq α] (p p' : Setup α) (chunks : List (List α)) (hn : chunks.flatten.Nodup) (as as' : List Act) (s s' : State α)
    (hr : Run p as (start chunks) s) (hx : AllEnded s) (hr' : Run p' as' (Retry.again s chunks) s') (b : Bool) (hm : s'.main = .ret (some b))
    (hf0 : s.shared.flag = false) (hf : s'.shared.flag = false) (u : α) (hu : u ∈ s.shared.rows) : s'.shared.rows.count u = 2 := by
  have h := (C99_again p p' chunks as as' s s' hr hx hr' b hm hf0 hf).2
  have hp := C97_in_order p chunks as s hr
  have h1 : s.shared.rows.count u = 1 := List.count_eq_one_of_mem (hp.sublist.nodup hn) hu
  have h2 : chunks.flatten.count u = 1 := List.count_eq_one_of_mem hn (hp.subset hu)
  rw [h, List.count_append, h1, h2]

namespace ToyRetry

/-- The first two chunks are written while the third is on the GPU, where it fails: out of memory. -/
def first : List Act := (List.replicate 12 [Act.main, .cell 0, .cell 1, .cell 2, .cell 3, .cell 4]).flatten ++ [.fail 1] ++ ToyInterrupt.calm

def failed : State Nat := ToyInterrupt.greedy ToyInterrupt.setup first (start ToyInterrupt.chunks)

def finished : State Nat := ToyInterrupt.greedy ToyInterrupt.setup ToyInterrupt.calm (Retry.again failed ToyInterrupt.chunks)

example : failed.main = .ret none ∧ failed.shared.docs = [1, 2] ∧ failed.shared.rows = [1, 2] ∧ failed.shared.flag = false := by decide +kernel

/-- The encoder fails, the index thread begins to write what it has, and the tokenizer finds the encoder gone. -/
def overlap : List Act :=
  [.main, .main, .cell 0, .cell 0, .cell 1, .cell 1, .cell 1, .cell 1, .cell 1, .cell 2, .cell 2, .cell 3,
    .main, .main, .cell 0, .cell 0, .main, .main, .cell 0, .cell 0, .main, .main, .cell 1,
    .fail 1, .cell 2, .cell 3, .cell 0, .cell 0, .main, .main]

def midway : State Nat := (ToyInterrupt.exec ToyInterrupt.setup overlap (start ToyInterrupt.chunks)).getD (start [])

end ToyRetry

/-- **C99, refuted: transparent.**  One failure of the encoder, no Ctrl+C: the second attempt succeeds, and a unit is in the index and in the database twice. -/
theorem C99_duplicates : ∃ (p : Setup Nat) (chunks : List (List Nat)) (as as' : List Act) (s s' : State Nat), chunks.flatten.Nodup ∧
    Run p as (start chunks) s ∧ s.main = .ret none ∧ AllEnded s ∧ Run p as' (Retry.again s chunks) s' ∧ s'.main = .ret (some false) ∧
    s'.shared.flag = false ∧ s'.shared.docs.count 1 = 2 ∧ s'.shared.rows.count 1 = 2 := by
  obtain ⟨as, hr⟩ := ToyInterrupt.greedy_run ToyInterrupt.setup ToyRetry.first (start ToyInterrupt.chunks)
  obtain ⟨as', hr'⟩ := ToyInterrupt.greedy_run ToyInterrupt.setup ToyInterrupt.calm (Retry.again ToyRetry.failed ToyInterrupt.chunks)
  refine ⟨ToyInterrupt.setup, ToyInterrupt.chunks, as, as', ToyRetry.failed, ToyRetry.finished, by decide, hr, by decide +kernel, ?_, hr', by decide +kernel,
    by decide +kernel, by decide +kernel, by decide +kernel⟩
  have : (ToyRetry.failed.cells.all fun c => c.isEnded) = true := by decide +kernel
  exact List.all_eq_true.mp this

/-- **C99, refuted: one after the other.**  The first attempt can return its error, so that the second begins, while a thread of the first is still inside a write
to the index. -/
theorem C99_overlap : ∃ (p : Setup Nat) (chunks : List (List Nat)) (as : List Act) (s : State Nat), Run p as (start chunks) s ∧
    .signal ∉ as ∧ (as.filter fun a => decide (∃ i ∈ List.range 5, a = .fail i)).length = 1 ∧ s.main = .ret none ∧ Writing s := by
  have h : ToyInterrupt.exec ToyInterrupt.setup ToyRetry.overlap (start ToyInterrupt.chunks) = some ToyRetry.midway := by decide +kernel
  refine ⟨ToyInterrupt.setup, ToyInterrupt.chunks, ToyRetry.overlap, ToyRetry.midway, ToyInterrupt.exec_run _ _ _ _ h, by decide, by decide, by decide +kernel, ?_⟩
  have : (ToyRetry.midway.cells.any fun c => c.phase == .writing) = true := by decide +kernel
  obtain ⟨c, hc, he⟩ := List.any_eq_true.mp this
  exact ⟨c, hc, by simpa using he⟩

end NextPlaid.Props
