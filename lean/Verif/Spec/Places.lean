import Verif.Model.Places

/-!
Which index a command may use and change.
-/

namespace NextPlaid.Spec

open NextPlaid.Places

/-- The project is on record in this directory, for this model. -/
def Recorded (s : Store) (dir : Text) (q : Path) (m : Text) : Prop := ∃ d, (dir, d) ∈ s ∧ d.project = some (q, some m)

/-- `p` lies below `q`, at `rel`. -/
def LiesBelow (p q rel : Path) : Prop := p = q ++ rel ∧ rel ≠ []

/-- There is an index of this very directory and model. -/
def HasIndex (s : Store) (p : Path) (m : Text) : Prop := ∃ n d, (n, d) ∈ s ∧ d.complete = true ∧ d.holds = some (p, m)

/-- The nearest project on record above `p`. -/
def NearestAbove (s : Store) (p : Path) (m : Text) (dir : Text) (q rel : Path) : Prop :=
  Recorded s dir q m ∧ LiesBelow p q rel ∧ ∀ dir' q' rel', Recorded s dir' q' m → LiesBelow p q' rel' → q'.length ≤ q.length

/-- Nothing above `p` is on record. -/
def NothingAbove (s : Store) (p : Path) (m : Text) : Prop := ∀ dir q rel, Recorded s dir q m → ¬ LiesBelow p q rel

/-- `p` is not below the directory the command was called from. -/
def Elsewhere (p : Path) (cwd : Option Path) : Prop := ∃ c, cwd = some c ∧ ∀ rel, p ≠ c ++ rel

/-- The project to be searched for `p`, and the part of it: its own index comes first, then the nearest project above it (for directories
below the current one), then a new index. -/
inductive Chosen (s : Store) (cwd : Option Path) (p : Path) (m : Text) : Path → Option Path → Prop
  | own : HasIndex s p m → Chosen s cwd p m p none
  | above (dir q rel) : ¬ HasIndex s p m → ¬ Elsewhere p cwd → NearestAbove s p m dir q rel → Chosen s cwd p m q (some rel)
  | elsewhere : ¬ HasIndex s p m → Elsewhere p cwd → Chosen s cwd p m p none
  | new : ¬ HasIndex s p m → NothingAbove s p m → Chosen s cwd p m p none

/-- The commands that use the indices. -/
inductive Order
  | search (cwd : Option Path) (p : Path) (m : Text) (o : Option Outcome)
  | init (p : Path) (m : Text) (o : Outcome)
  | clear (p : Path) (m : Text)
  | clearAll

/-- The store after a command. -/
def obey (name : Path → Text → Text) (s : Store) : Order → Store
  | .search cwd p m o => (search name s cwd p m o).1
  | .init p m o => Places.init name s p m o
  | .clear p m => clear name s p m
  | .clearAll => clearAll s

/-- The directory belongs to this project and model: it is on record or has its vectors. -/
def BelongsTo (d : Dir) (q : Path) (m : Text) : Prop := d.holds = some (q, m) ∨ d.project = some (q, some m)

/-- Directories are where their projects say. -/
def InPlace (name : Path → Text → Text) (s : Store) : Prop := (s.map (·.1)).Nodup ∧ ∀ n d, (n, d) ∈ s →
  (∀ q m, BelongsTo d q m → n = name q m) ∧ (∀ q, d.project ≠ some (q, none)) ∧ (d.complete = true → d.holds ≠ none)

/-- No directory of another project or model has the name that `p`, or a directory above it, gets for this model. -/
def NoClash (name : Path → Text → Text) (s : Store) (p : Path) (m : Text) : Prop :=
  ∀ n d q m' r, (n, d) ∈ s → BelongsTo d q m' → r <+: p → name r m = name q m' → q = r ∧ m' = m

end NextPlaid.Spec
