import Verif.Model.Basic

/-!
Model of the indexing of a project by colgrep: /repo/colgrep/src/index/mod.rs lines 96-162 (deleting files), 821-1060
(pipeline, parsing), 1464-1728 (repair and routing), 2060-2320 (first build), 2325-2443 (full rebuild), 2446-2688
(incremental update) and 2947-3050 (plan); /repo/colgrep/src/index/state.rs.

A document of the index is represented by the file and the code unit it was made from.  The vector index and the metadata
database are two lists of documents: position is document id, as proved in C23, C32 and C45.  What is not modelled: the
text index, progress output, the confirmation prompt, the language filter (callers pass none), files that cannot be read
for another reason than their encoding, seeding from another worktree, the format version, the callers recorded in a code
unit.  A write of the state file, of the index and of the database is one step each; a process may be killed between any
two of them.  The two threads that write the index and the database are modelled with one of their interleavings.
-/

namespace NextPlaid.Colgrep

/-- What the indexer is given: the content hash, the parser (`none`: the file is not UTF-8 text), the orders in which paths are
taken and units are encoded, and `BUILD_CHECKPOINT_UNITS`. -/
structure Lang (P C U H : Type) where
  hash : C → H
  parse : P → C → Option (List U)
  sortPaths : List P → List P
  /-- `prepare_units_for_encoding`, mod.rs:421-457; see `Model.Pipeline` -/
  arrange : List (P × U) → List (P × U)
  checkpoint : Nat

/-- What is assumed of the orders. -/
structure Lang.Lawful {P C U H : Type} (L : Lang P C U H) : Prop where
  sortPaths : ∀ l, (L.sortPaths l).Perm l
  arrange : ∀ l, (L.arrange l).Perm l

/-- A file on disk; `stat` is its modification time and size; `scanned`: `scan_files` (mod.rs:2690-2748) returns it, that is, it
is not ignored, not too large and of a known language. -/
structure File (C : Type) where
  content : C
  stat : Nat × Nat
  scanned : Bool

/-- The project directory. -/
abbrev Disk (P C : Type) := List (P × File C)

/-- state.rs:38-50 `FileInfo`. -/
structure Info (H : Type) where
  hash : H
  stat : Nat × Nat
  deriving DecidableEq

/-- state.rs:17-36 `IndexState`. -/
structure State (P H : Type) where
  files : List (P × Info H) := []
  ignored : List P := []
  searches : Nat := 0
  dirty : Bool := false
  deriving DecidableEq

/-- What is on disk in the index directory: state.json; the vector index, if it has a metadata.json; the metadata database, if
it exists; the marker of an unfinished build. -/
structure Persist (P U H : Type) where
  state : State P H := {}
  vec : Option (List (P × U)) := none
  db : Option (List (P × U)) := none
  building : Bool := false
  deriving DecidableEq

/-- The index directory now, and at all earlier moments (newest first). -/
structure Log (P U H : Type) where
  now : Persist P U H := {}
  past : List (Persist P U H) := []
  deriving DecidableEq

/-- When the user interrupts: not at all, while files are parsed, or when this many units have been encoded. -/
inductive Stop where
  | never
  | parsing
  | after (units : Nat)
  deriving DecidableEq

/-- How a run ended before its end. -/
inductive Halt (P U H : Type) where
  | interrupted (l : Log P U H)
  | failed (l : Log P U H)
  deriving DecidableEq

def Halt.log {P U H : Type} : Halt P U H → Log P U H
  | .interrupted l => l
  | .failed l => l

variable {P C U H : Type} [DecidableEq P] [DecidableEq H]

/-! ### Maps -/

def get {β : Type} (m : List (P × β)) (p : P) : Option β := (m.find? fun e => e.1 = p).map (·.2)

def put {β : Type} (m : List (P × β)) (p : P) (v : β) : List (P × β) := (p, v) :: m.filter fun e => e.1 ≠ p

def del {β : Type} (m : List (P × β)) (ps : List P) : List (P × β) := m.filter fun e => e.1 ∉ ps

/-! ### The store -/

/-- One write. -/
def write (l : Log P U H) (f : Persist P U H → Persist P U H) : Log P U H := ⟨f l.now, l.now :: l.past⟩

def saveState (l : Log P U H) (st : State P H) : Log P U H := write l fun d => { d with state := st }

/-- The elements whose positions are not listed. -/
def removeAt {α : Type} (ids : List Nat) (l : List α) : List α := (l.zipIdx.filter fun x => x.2 ∉ ids).map (·.1)

/-- The ids of the documents of some files: mod.rs:107-118. -/
def idsOf (files : List P) (rows : List (P × U)) : List Nat := (rows.zipIdx.filter fun x => x.1.1 ∈ files).map (·.2)

/-- `delete_files_from_index_inner`, mod.rs:96-162: first the vector index, then the database.  Without a database there are
no ids; without an index the deletion fails. -/
def deleteFiles (files : List P) (l : Log P U H) : Except (Halt P U H) (Log P U H) :=
  match l.now.db with
  | none => .ok l
  | some rows =>
    if idsOf files rows = [] then .ok l
    else match l.now.vec with
      | none => .error (.failed l)
      | some v => .ok (write (write l fun d => { d with vec := some (removeAt (idsOf files rows) v) })
          fun d => { d with db := some (removeAt (idsOf files rows) rows) })

/-- The pipeline, mod.rs:588-737, 741-769 and 821-869, writes some documents.  An existing index is appended to before the
database; a first index is written after the rows (mod.rs:613-703), which fail if their ids are taken. -/
def append (docs : List (P × U)) (l : Log P U H) : Except (Halt P U H) (Log P U H) :=
  if docs = [] then .ok l
  else match l.now.vec with
    | some v => .ok (write (write l fun d => { d with vec := some (v ++ docs) }) fun d => { d with db := some (d.db.getD [] ++ docs) })
    | none =>
      if l.now.db.getD [] = [] then .ok (write (write l fun d => { d with db := some docs }) fun d => { d with vec := some docs })
      else .error (.failed l)

/-- `run_encoding_pipeline` with an interruption: what was encoded is written, and the run ends.  The second component of the
result is what is left of the stop. -/
def encode (L : Lang P C U H) (units : List (P × U)) (stop : Stop) (l : Log P U H) : Except (Halt P U H) (Log P U H × Stop) :=
  match stop with
  | .after n =>
    if n ≤ units.length then
      match append ((L.arrange units).take n) l with
      | .ok l' => .error (.interrupted l')
      | .error h => .error h
    else match append (L.arrange units) l with
      | .ok l' => .ok (l', .after (n - units.length))
      | .error h => .error h
  | s =>
    match append (L.arrange units) l with
    | .ok l' => .ok (l', s)
    | .error h => .error h

/-- `repair_index_db_sync`, mod.rs:1553-1612: the longer of the two is cut to the length of the other. -/
def repair (l : Log P U H) : Log P U H :=
  match l.now.vec, l.now.db with
  | some v, some rows =>
    if v.length = rows.length then l
    else if v.length < rows.length then write l fun d => { d with db := some (rows.take v.length) }
    else write l fun d => { d with vec := some (v.take rows.length) }
  | _, _ => l

/-! ### Parsing -/

/-- `parse_files_parallel`, mod.rs:977-1048, without interruption. -/
def parseAll (L : Lang P C U H) (files : List (P × File C)) : List (P × File C × Option (List U)) :=
  files.map fun e => (e.1, e.2, L.parse e.1 e.2.content)

/-- The units of the files that could be parsed. -/
def unitsOf (parsed : List (P × File C × Option (List U))) : List (P × U) :=
  parsed.flatMap fun e => (e.2.2.getD []).map fun u => (e.1, u)

def infoOf (L : Lang P C U H) (f : File C) : Info H := ⟨L.hash f.content, f.stat⟩

/-- The files that were skipped. -/
def skippedOf (parsed : List (P × File C × Option (List U))) : List P :=
  (parsed.filter fun e => e.2.2.isNone).map (·.1)

/-- The files that could be parsed, with what is recorded for them. -/
def recordsOf (L : Lang P C U H) (parsed : List (P × File C × Option (List U))) : List (P × Info H) :=
  (parsed.filter fun e => e.2.2.isSome).map fun e => (e.1, infoOf L e.2.1)

def putAll {β : Type} (m : List (P × β)) (es : List (P × β)) : List (P × β) := es.foldl (fun m e => put m e.1 e.2) m

/-! ### The plan -/

/-- `UpdatePlan`, mod.rs:340-351. -/
structure Plan (P C : Type) where
  added : List (P × File C)
  changed : List (P × File C)
  deleted : List P
  touched : List (P × File C)

/-- What becomes of a scanned file, mod.rs:2960-3017. -/
inductive Class where
  | skipped | same | touched | changed | added
  deriving DecidableEq

def classify (L : Lang P C U H) (st : State P H) (e : P × File C) : Class :=
  if e.1 ∈ st.ignored then .skipped
  else match get st.files e.1 with
    | none => .added
    | some info =>
      if info.stat = e.2.stat then .same
      else if info.hash = L.hash e.2.content then .touched
      else .changed

def scan (disk : Disk P C) : List (P × File C) := disk.filter fun e => e.2.scanned

/-- `compute_update_plan`, mod.rs:2948-3027. -/
def computePlan (L : Lang P C U H) (disk : Disk P C) (st : State P H) : Plan P C :=
  { added := (scan disk).filter fun e => classify L st e = .added
    changed := (scan disk).filter fun e => classify L st e = .changed
    touched := (scan disk).filter fun e => classify L st e = .touched
    deleted := (st.files.map (·.1)).filter fun p => p ∉ (scan disk).map (·.1) }

/-- The new records of touched files. -/
def touchedInfos (L : Lang P C U H) (plan : Plan P C) : List (P × Info H) := plan.touched.map fun e => (e.1, infoOf L e.2)

/-! ### Runs -/

/-- The files in the database that are not on disk: mod.rs:3032-3049. -/
def orphans (disk : Disk P C) (rows : List (P × U)) : List P :=
  (rows.map (·.1)).filter fun p => p ∉ disk.map (·.1)

/-- `state.dirty = ...`. -/
def marked (st : State P H) (b : Bool) : State P H := { st with dirty := b }

/-- The state with the stat of touched files brought up to date, mod.rs:2509-2513. -/
def touchedState (L : Lang P C U H) (st : State P H) (plan : Plan P C) : State P H :=
  { st with files := putAll st.files (touchedInfos L plan) }

/-- The files of the plan, parsed: mod.rs:2560-2606. -/
def planParsed (L : Lang P C U H) (st : State P H) (plan : Plan P C) : List (P × File C × Option (List U)) :=
  parseAll L ((plan.added ++ plan.changed).filter fun e => e.1 ∉ st.ignored)

/-- The state at the end of the update, mod.rs:2509-2606 and 2676: deleted files, files that are not on disk and skipped files are
forgotten, parsed files are recorded. -/
def planState (L : Lang P C U H) (disk : Disk P C) (st : State P H) (plan : Plan P C) : State P H :=
  let files := (del (touchedState L st plan).files plan.deleted).filter fun e => e.1 ∈ disk.map (·.1)
  { st with
    files := putAll (del files (skippedOf (planParsed L st plan))) (recordsOf L (planParsed L st plan))
    ignored := st.ignored ++ skippedOf (planParsed L st plan)
    dirty := false }

/-- A deletion whose failure is not reported, mod.rs:2628. -/
def tryDelete (files : List P) (l : Log P U H) : Log P U H :=
  match deleteFiles files l with
  | .ok l => l
  | .error h => h.log

/-- The check after parsing, mod.rs:2611-2616. -/
def checkStop (stop : Stop) (l : Log P U H) : Except (Halt P U H) (Log P U H) :=
  if stop = .parsing then .error (.interrupted l) else .ok l

/-- The old documents of changed files are deleted if there are new units, mod.rs:2632-2680. -/
def deleteChanged (units : List (P × U)) (changed : List P) (l : Log P U H) : Except (Halt P U H) (Log P U H) :=
  if units = [] then .ok l else deleteFiles changed l

/-- Steps 1 to 3 of `incremental_update`, mod.rs:2509-2688, from the moment there is something to do. -/
def applyPlan (L : Lang P C U H) (disk : Disk P C) (st : State P H) (plan : Plan P C) (stop : Stop) (l : Log P U H) :
    Except (Halt P U H) (Log P U H) := do
  let l1 := if plan.deleted ≠ [] ∨ plan.changed ≠ [] ∨ plan.added ≠ [] then saveState l (marked (touchedState L st plan) true) else l
  let l2 ← deleteFiles plan.deleted l1
  let parsed := planParsed L st plan
  let l3 ← checkStop stop l2
  let l4 := tryDelete ((skippedOf parsed).filter fun p => p ∈ plan.changed.map (·.1)) l3
  let l5 ← deleteChanged (unitsOf parsed) (plan.changed.map (·.1)) l4
  let r ← encode L (unitsOf parsed) stop l5
  .ok (saveState r.1 (planState L disk st plan))

/-- `incremental_update`, mod.rs:2446-2688. -/
def incremental (L : Lang P C U H) (disk : Disk P C) (st : State P H) (stop : Stop) (l : Log P U H) : Except (Halt P U H) (Log P U H) := do
  let plan := computePlan L disk st
  let l1 := if st.dirty then repair l else l
  let gone := if plan.deleted ≠ [] ∨ (0 < st.searches ∧ st.searches % 50 = 0) then orphans disk (l1.now.db.getD []) else []
  let l2 ← deleteFiles gone l1
  if plan.added = [] ∧ plan.changed = [] ∧ plan.deleted = [] ∧ gone = [] then
    .ok (if plan.touched ≠ [] ∨ st.dirty then
        saveState l2 (marked (touchedState L st plan) false)
      else l2)
  else applyPlan L disk st plan stop l2

/-- `full_rebuild`, mod.rs:2325-2443.  The new index is built beside the old one; the two renames that replace it are two
steps, and the state is saved afterwards.  An interruption leaves the old index. -/
def rebuild (L : Lang P C U H) (disk : Disk P C) (stop : Stop) (l : Log P U H) : Except (Halt P U H) (Log P U H) :=
  let parsed := parseAll L (scan disk)
  let l0 := if l.now.building then write l fun d => { d with building := false } else l
  let st : State P H := { files := putAll [] (recordsOf L parsed), ignored := skippedOf parsed }
  let halted := match stop with
    | .never => false
    | .parsing => true
    | .after n => decide (n ≤ (unitsOf parsed).length)
  if halted then .error (.interrupted l0)
  else
    let l1 := if l.now.vec.isSome ∨ l.now.db.isSome then write l0 fun d => { d with vec := none, db := none } else l0
    let l2 := if unitsOf parsed = [] then l1
      else write l1 fun d => { d with vec := some (L.arrange (unitsOf parsed)), db := some (L.arrange (unitsOf parsed)) }
    .ok (saveState l2 st)

/-- The batches of a first build, mod.rs:2198-2230: files are taken in order; a batch is full when it holds at least
`checkpoint` units. -/
def batches (checkpoint : Nat) (units : P → List (P × U)) : (files batch : List P) → (pending : List (P × U)) → List (List P)
  | [], batch, pending => if pending = [] then [] else [batch]
  | f :: files, batch, pending =>
    if checkpoint ≤ (pending ++ units f).length then (batch ++ [f]) :: batches checkpoint units files [] []
    else batches checkpoint units files (batch ++ [f]) (pending ++ units f)

/-- The loop over batches with `flush_build_batch`, mod.rs:2198-2270 and 2290-2320. -/
def flush (L : Lang P C U H) (units : P → List (P × U)) (records : List (P × Info H)) :
    (bs : List (List P)) → State P H → Stop → Log P U H → Except (Halt P U H) (Log P U H × State P H)
  | [], st, _, l => .ok (l, st)
  | b :: bs, st, stop, l =>
    match deleteFiles b l with
    | .error h => .error h
    | .ok l1 =>
      match encode L (b.flatMap units) stop l1 with
      | .error (.interrupted l2) => .error (.interrupted (saveState l2 (marked st false)))
      | .error (.failed l2) => .error (.failed l2)
      | .ok (l2, stop') =>
        let st' := { st with files := putAll st.files (records.filter fun e => e.1 ∈ b), dirty := false }
        flush L units records bs st' stop' (saveState l2 st')

/-- The recorded files that are no longer scanned, mod.rs:2083-2090. -/
def staleFiles (disk : Disk P C) (st : State P H) : List P :=
  (st.files.map (·.1)).filter fun p => p ∉ (scan disk).map (·.1)

/-- The state without them. -/
def withoutStale (disk : Disk P C) (st : State P H) : State P H := { st with files := del st.files (staleFiles disk st) }

/-- The files that still need work, parsed: mod.rs:2096-2138. -/
def buildParsed (L : Lang P C U H) (disk : Disk P C) (st : State P H) : List (P × File C × Option (List U)) :=
  parseAll L ((scan disk).filter fun e => (get st.files e.1).isNone ∧ e.1 ∉ st.ignored)

/-- The state with the skipped files. -/
def withSkipped (st : State P H) (skipped : List P) : State P H := { st with ignored := st.ignored ++ skipped }

/-- The check after parsing, mod.rs:2139-2147: the state is saved. -/
def checkBuild (stop : Stop) (st : State P H) (l : Log P U H) : Except (Halt P U H) (Log P U H) :=
  if stop = .parsing then .error (.interrupted (saveState l (marked st false))) else .ok l

/-- The units by file, mod.rs:2160-2169. -/
def unitsFor (parsed : List (P × File C × Option (List U))) (p : P) : List (P × U) := (unitsOf parsed).filter fun d => d.1 = p

/-- The files without units are recorded, mod.rs:2180-2196. -/
def recordEmpty (empty : List (P × Info H)) (st : State P H) (l : Log P U H) : Log P U H × State P H :=
  if empty = [] then (l, st)
  else
    let st' := { st with files := putAll st.files empty, dirty := false }
    (saveState l st', st')

/-- `build_resumable`, mod.rs:2060-2290. -/
def build (L : Lang P C U H) (disk : Disk P C) (stop : Stop) (l : Log P U H) : Except (Halt P U H) (Log P U H) := do
  let l1 := repair (write l fun d => { d with building := true })
  let l2 ← deleteFiles (staleFiles disk l.now.state) l1
  let st1 := withoutStale disk l.now.state
  let parsed := buildParsed L disk st1
  let st2 := withSkipped st1 (skippedOf parsed)
  let l3 ← checkBuild stop st2 l2
  let records := recordsOf L parsed
  let r0 := recordEmpty (records.filter fun e => unitsFor parsed e.1 = []) st2 l3
  let ordered := L.sortPaths ((records.filter fun e => unitsFor parsed e.1 ≠ []).map (·.1))
  let r ← flush L (unitsFor parsed) records (batches L.checkpoint (unitsFor parsed) ordered [] []) r0.2 stop r0.1
  .ok (write (saveState r.1 (marked r.2 false)) fun d => { d with building := false })

/-- `reconstruct_state_from_filtering_db`, mod.rs:1464-1500: the files of the database that are on disk, with what they are now. -/
def reconstruct (L : Lang P C U H) (disk : Disk P C) (rows : List (P × U)) : State P H :=
  { files := putAll [] ((disk.filter fun e => e.1 ∈ rows.map (·.1)).map fun e => (e.1, infoOf L e.2)) }

/-- `reconcile_document_counts`, mod.rs:1512-1548: rows beyond the index are deleted. -/
def reconcile (l : Log P U H) : Log P U H :=
  match l.now.vec, l.now.db with
  | some v, some rows => if v.length < rows.length then write l fun d => { d with db := some (rows.take v.length) } else l
  | _, _ => l

/-- `run_indexing`, mod.rs:1628-1728, without `force` (a forced run is `rebuild`). -/
def index (L : Lang P C U H) (disk : Disk P C) (stop : Stop) (l : Log P U H) : Except (Halt P U H) (Log P U H) :=
  if l.now.building ∨ l.now.vec.isNone then build L disk stop l
  else match l.now.db with
    | none => rebuild L disk stop l
    | some rows =>
      if l.now.state.files = [] then
        if rows = [] then rebuild L disk stop l
        else
          let st := reconstruct L disk rows
          incremental L disk st stop (reconcile (saveState l st))
      else incremental L disk l.now.state stop (reconcile l)

end NextPlaid.Colgrep
