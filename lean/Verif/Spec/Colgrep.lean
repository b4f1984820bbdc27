import Verif.Model.Colgrep

/-! What it means that the index of a project is up to date (C49, C50), in terms of the project's files and the documents. -/

namespace NextPlaid.Spec

open NextPlaid.Colgrep (File)

/-- The index holds, for every file of the project that was not skipped, exactly the units of its present content, and nothing
else; row `i` of the database describes document `i` of the index. -/
structure UpToDate {P C U : Type} [DecidableEq P] (parse : P → C → Option (List U)) (disk : List (P × File C)) (skipped : List P)
    (index rows : List (P × U)) : Prop where
  aligned : index = rows
  complete : ∀ p f, (p, f) ∈ disk → f.scanned = true → p ∉ skipped →
    ∃ units, parse p f.content = some units ∧ ((index.filter fun d => d.1 = p).map (·.2)).Perm units
  nothing_else : ∀ d ∈ index, ∃ f, (d.1, f) ∈ disk ∧ f.scanned = true ∧ d.1 ∉ skipped

/-- The files as they are at a run, compared with those at earlier runs.  Paths are distinct; a file whose time and size are those
of an earlier run has the content of that run; a file with code does not lose all its code, and one without code gains none. -/
structure Calm {P C U : Type} (parse : P → C → Option (List U)) (before : List (List (P × File C))) (last disk : List (P × File C)) : Prop where
  names : (disk.map (·.1)).Nodup
  honest : ∀ d0 ∈ before, ∀ p f0 f, (p, f0) ∈ d0 → (p, f) ∈ disk → f0.stat = f.stat → f0.content = f.content
  code : ∀ p f0 f, (p, f0) ∈ last → (p, f) ∈ disk → f0.scanned = true → f.scanned = true → f0.content ≠ f.content →
    parse p f0.content ≠ some [] ∧ parse p f.content ≠ some []

/-- The same for a sequence of runs. -/
def CalmFrom {P C U : Type} (parse : P → C → Option (List U)) : List (List (P × File C)) → List (P × File C) → List (List (P × File C)) → Prop
  | _, _, [] => True
  | before, last, disk :: disks => Calm parse before last disk ∧ CalmFrom parse (disk :: before) disk disks

end NextPlaid.Spec
