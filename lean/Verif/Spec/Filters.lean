import Verif.Spec.Include

/-! What the restrictions of a search mean (C53). -/

namespace NextPlaid.Spec

/-- The path is in, or somewhere below, the directory; the empty path names the project itself. -/
def Below (dir path : List Char) : Prop := dir = [] ∨ ∃ rest, path = dir ++ '/' :: rest

/-- The restrictions of a search: a directory, the units that contain a text, patterns of files to include, a single file, patterns
of files and of directories to exclude. -/
structure Wanted where
  subdir : Option (List Char)
  text : Option (List Int)
  included : List (List Seg)
  file : Option (List Char)
  exclude : List (List Char)
  excludeDirs : List (List Char)

/-- The code unit `id` of a file meets all of the restrictions. -/
def Admits (w : Wanted) (id : Int) (file : List Char) : Prop :=
  (∀ d, w.subdir = some d → Below d file) ∧
  (∀ ids, w.text = some ids → id ∈ ids) ∧
  (w.included ≠ [] → ∃ segs ∈ w.included, SelectsOne segs file) ∧
  (∀ f, w.file = some f → file = f) ∧
  (∀ p ∈ w.exclude, ¬ Selects p file) ∧
  ∀ p ∈ w.excludeDirs, ¬ InDir p file

/-- The text begins with another one, letters of ASCII in either case. -/
def BeginsLike (start text : List Char) : Prop := start.map Char.toLower <+: text.map Char.toLower

end NextPlaid.Spec
