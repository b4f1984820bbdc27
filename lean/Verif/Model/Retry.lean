import Verif.Model.Interrupt

/-!
Model of the second attempt of `run_encoding_pipeline`, /repo/colgrep/src/index/mod.rs:1381-1433: the run on the GPU has returned an error, and the same units
are run again, with a model on the CPU, over what is in the index by then.
-/

namespace NextPlaid.Retry

open NextPlaid.Interrupt

variable {α : Type}

/-- The second call of `run_chunk_pipeline`: new threads and channels; the index, the database, the flag and the counter are as the first has left them.
Threads of the first that still run are left out: see `C99_overlap`. -/
def again (s : State α) (chunks : List (List α)) : State α := { start chunks with shared := s.shared }

end NextPlaid.Retry
