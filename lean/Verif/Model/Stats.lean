import Verif.Model.Colgrep

/-!
Model of the counting of searches and of the format version of an index, over `Model.Colgrep`: /repo/colgrep/src/index/state.rs:66-114,
/repo/colgrep/src/commands/search.rs:1639-1644, /repo/colgrep/src/commands/stats.rs:80-111 (`reset-stats`, for one index) and the routing by the format,
/repo/colgrep/src/index/mod.rs:1646-1672.  Counting a search takes no lock.
-/

namespace NextPlaid.Stats

open NextPlaid.Colgrep

variable {P C U H : Type} [DecidableEq P] [DecidableEq H]

/-- `INDEX_FORMAT_VERSION`: /repo/colgrep/src/index/state.rs:15. -/
def current : Nat := 2

/-- The directory of an index, with the `index_format_version` of its state.json. -/
structure Kept (P U H : Type) where
  dir : Persist P U H := {}
  format : Nat := 0
  deriving DecidableEq

/-- `IndexState::save`: every save stamps the present format. /repo/colgrep/src/index/state.rs:83-104. -/
def save (st : State P H) (k : Kept P U H) : Kept P U H := ⟨{ k.dir with state := st }, current⟩

/-- `increment_search_count`: /repo/colgrep/src/index/state.rs:107-109; the counter has 64 bits and is not bounded here. -/
def increment (st : State P H) : State P H := { st with searches := st.searches + 1 }

/-- `reset_search_count`: /repo/colgrep/src/index/state.rs:112-114. -/
def zero (st : State P H) : State P H := { st with searches := 0 }

/-- The end of a search: /repo/colgrep/src/commands/search.rs:1639-1644.  What is read is `seen`; `now` is what is there when it is saved, later.  A state
that cannot be read, and then is not saved, is not modelled. -/
def countAt (seen now : Kept P U H) : Kept P U H := save (increment seen.dir.state) now

/-- The same if nothing happens in between. -/
def count (k : Kept P U H) : Kept P U H := countAt k k

/-- `reset-stats` for this index: /repo/colgrep/src/commands/stats.rs:98-106. -/
def reset (k : Kept P U H) : Kept P U H := save (zero k.dir.state) k

/-- `format_mismatch`: /repo/colgrep/src/index/mod.rs:1654-1656. -/
def mismatch (k : Kept P U H) : Bool := k.dir.vec.isSome && decide (k.dir.state.files ≠ []) && decide (k.format ≠ current)

/-- `run_indexing` without `force`, /repo/colgrep/src/index/mod.rs:1628-1728, with its routing by the format.  Simplified: the format of the state.json that a
run which ends leaves is the present one also if the run did not save it because it had nothing to do and no file is recorded. -/
def run (L : Lang P C U H) (disk : Disk P C) (stop : Stop) (k : Kept P U H) : Except (Halt P U H) (Kept P U H) :=
  if mismatch k then (rebuild L disk stop ⟨k.dir, []⟩).map fun l => ⟨l.now, current⟩
  else (index L disk stop ⟨k.dir, []⟩).map fun l => ⟨l.now, current⟩

/-- What is done with an index. -/
inductive Event (P C : Type)
  /-- an indexing run that comes to its end, with the files as they are then -/
  | run (disk : Disk P C)
  /-- a search -/
  | search
  /-- `reset-stats` -/
  | reset

/-- One after the other. -/
def history (L : Lang P C U H) : List (Event P C) → Kept P U H → Except (Halt P U H) (Kept P U H)
  | [], k => .ok k
  | .run disk :: es, k => (run L disk .never k).bind (history L es)
  | .search :: es, k => history L es (count k)
  | .reset :: es, k => history L es (reset k)

end NextPlaid.Stats
