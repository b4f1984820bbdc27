import Verif.Model.Server
import Verif.Spec.Store

/-!
Specification of the server's operations on one index: a list of pairs (document, metadata row), with interruptions.
-/

namespace NextPlaid.Spec
open NextPlaid NextPlaid.Index NextPlaid.Db NextPlaid.Server

variable {E : Env} {S : Sql} {T : TextEnv S}

/-- The newest `max` elements of a list, oldest first. -/
def newest {α : Type} (max : Option Nat) (l : List α) : List α :=
  match max with
  | none => l
  | some m => l.drop (l.length - m)

/-- The type a column was declared with. -/
def declaredType (db : Option (Tables S)) (col : String) : S.Ty :=
  match db with
  | none => S.text
  | some t => (((t.thinCols ++ t.fatCols).find? fun c => c.1 == col).map (·.2)).getD S.text

/-- The pairs that a deletion by condition leaves: those whose metadata, read back from columns with types `ty`, does not
satisfy the condition.  A condition the validator refuses removes nothing. -/
def remaining {α : Type} (ty : String → S.Ty) (rows : List (α × Item S)) (c : Cond S) : List (α × Item S) :=
  (rows.zipIdx.filter fun p =>
    !(c.valid && c.holds (p.2 : Int) fun col => S.cell (ty col) (p.1.2.value col))).map (·.1)

/-- The index holds the documents of the pairs and the metadata store their rows, at the same positions.  (An index
without documents cannot be opened.) -/
def Paired (s : Store E T) (rows : List (List E.Row × Item S)) : Prop :=
  Shows s.db (rows.map (·.2)) ∧ count s.db = rows.length ∧
  (rows ≠ [] → ∃ x, load s.disk = .ok x ∧ Holds x (rows.map (·.1)))

/-- Histories of the server on one index, with the list of pairs that should be there once the repair has run.
Every document has at least one token.
* `updated`, `refused`: a batch that succeeds, a batch that fails (for example because of its metadata).
* `stopped`: the process is killed in a batch, at a moment when its directory is `s'`.  The index has been populated
  before and the batch does not exceed the document limit.
* `deleted`: a batch of deletions.
* `deleteStopped`: the process is killed in a deletion whose documents are the last ones.
* `changed`: a conditional update of metadata. -/
inductive Served : Store E T → List (List E.Row × Item S) → Prop
  | start : Served {} []
  | updated {s rows docs items cfg tk max tr ids} : Served s rows → docs ≠ [] → items.length = docs.length →
      (∀ d ∈ docs, d ≠ []) → 0 < cfg.batchSize → processBatch s docs items cfg tk max = (tr, .ok ids) →
      Served (final s tr) (newest max (rows ++ docs.zip items))
  | refused {s rows docs items cfg tk max tr e} : Served s rows → docs ≠ [] → items.length = docs.length →
      (∀ d ∈ docs, d ≠ []) → 0 < cfg.batchSize → max ≠ some 0 → processBatch s docs items cfg tk max = (tr, .error e) →
      Served (final s tr) rows
  | stopped {s rows docs items cfg tk max s'} : Served s rows → docs ≠ [] → items.length = docs.length →
      (∀ d ∈ docs, d ≠ []) → 0 < cfg.batchSize → rows ≠ [] →
      newest max (rows ++ docs.zip items) = rows ++ docs.zip items →
      s' ∈ (processBatch s docs items cfg tk max).1 →
      Served s' (if count s'.db ≤ rows.length then rows else rows ++ docs.zip items)
  | deleted {s rows} (conds : List (Cond S)) : Served s rows →
      Served (final s (processDeleteBatch s conds).1) (conds.foldl (remaining (declaredType s.db)) rows)
  | deleteStopped {s rows c k s'} : Served s rows → remaining (declaredType s.db) rows c = rows.take k →
      s' ∈ (processDeleteBatch s [c]).1 →
      Served s' (if s'.disk.metadata.map (·.numDocs) = some rows.length then rows
        else remaining (declaredType s.db) rows c)
  | changed {s rows all valid sat upd s' n} : Served s rows → get id s.db none none = .ok all →
      s.change valid sat upd = (s', .ok n) →
      Served s' (List.zipWith (fun r p => (p.1, if sat r && !upd.isEmpty then overwrite upd p.2 else p.2)) all rows)

end NextPlaid.Spec
