import Verif.Model.Colgrep

/-!
Model of `IndexBuilder::index_specific_files`, /repo/colgrep/src/index/mod.rs:1752-1951, which brings the index up to date for the files it is
given.  A call starts from the files it accepts, with what is in them: those that exist, are inside the project and are not ignored (see
`Scan.specific`, C52).  Not modelled: files of unknown language, which add nothing and are not recorded; a file that changes between the moments at
which its hash is computed; a Ctrl+C when some but not all files are parsed; the model and the text index.
-/

namespace NextPlaid.Colgrep

variable {P C U H : Type} [DecidableEq P] [DecidableEq H]

/-- `UpdateStats`: mod.rs:327-333; `deleted` and `skipped` are always 0 here. -/
structure Counts where
  added : Nat := 0
  changed : Nat := 0
  unchanged : Nat := 0
  deriving DecidableEq

/-- The recorded hash of a file: /repo/colgrep/src/index/state.rs:38-50. -/
def hashOf (st : State P H) (p : P) : Option H := (get st.files p).map (·.hash)

/-- What becomes of a file that was given: mod.rs:1819-1832. -/
inductive Kind where
  | added | changed | unchanged
  deriving DecidableEq

def kindOf (L : Lang P C U H) (st : State P H) (e : P × File C) : Kind := match get st.files e.1 with
  | some info => if info.hash = L.hash e.2.content then .unchanged else .changed
  | none => .added

/-- The files of a kind: mod.rs:1785-1833. -/
def ofKind (L : Lang P C U H) (st : State P H) (given : List (P × File C)) (k : Kind) : List (P × File C) :=
  given.filter fun e => kindOf L st e = k

/-- `files_to_index`: mod.rs:1835-1840. -/
def chosen (L : Lang P C U H) (st : State P H) (given : List (P × File C)) : List (P × File C) :=
  (ofKind L st given .added ++ ofKind L st given .changed).filter fun e => e.1 ∉ st.ignored

/-- `new_state`: mod.rs:1853-1878. -/
def chosenState (L : Lang P C U H) (st : State P H) (given : List (P × File C)) : State P H :=
  { st with
    files := putAll st.files (recordsOf L (parseAll L (chosen L st given)))
    ignored := st.ignored ++ skippedOf (parseAll L (chosen L st given)) }

/-- The new documents are written: mod.rs:1910-1943.  The old documents of changed files go first; the state is saved at the end. -/
def writeChosen (L : Lang P C U H) (given : List (P × File C)) (stop : Stop) (l : Log P U H) : Except (Halt P U H) (Log P U H) := do
  let l1 ← deleteFiles ((ofKind L l.now.state given .changed).map (·.1)) l
  let r ← encode L (unitsOf (parseAll L (chosen L l.now.state given))) stop l1
  .ok (saveState r.1 (chosenState L l.now.state given))

/-- `index_specific_files`: mod.rs:1752-1951. -/
def indexSpecific (L : Lang P C U H) (given : List (P × File C)) (stop : Stop) (l : Log P U H) : Except (Halt P U H) (Log P U H × Counts) :=
  let unchanged := (ofKind L l.now.state given .unchanged).length
  if chosen L l.now.state given = [] ∨ stop = .parsing ∨ unitsOf (parseAll L (chosen L l.now.state given)) = [] then
    .ok (l, { unchanged := unchanged })
  else match writeChosen L given stop l with
    | .error h => .error h
    | .ok l' => .ok (l',
        { added := (ofKind L l.now.state given .added).length, changed := (ofKind L l.now.state given .changed).length, unchanged := unchanged })

end NextPlaid.Colgrep
