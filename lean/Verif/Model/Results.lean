import Verif.Model.Ranking
import Mathlib.Data.List.Lex
import Mathlib.Data.String.Basic

/-!
Model of how colgrep turns rankings into the list it shows: hybrid search and collapse by file (/repo/colgrep/src/index/mod.rs),
merge, deterministic order and cut (/repo/colgrep/src/commands/search.rs).
-/

namespace NextPlaid.Rank

open NextPlaid.Fusion

/-- Stable insertion sort; `Vec::sort_by` is stable. -/
def insertBy {A : Type} (le : A → A → Bool) (a : A) : List A → List A
  | [] => [a]
  | b :: l => if le a b then a :: b :: l else b :: insertBy le a l

def sortBy {A : Type} (le : A → A → Bool) : List A → List A
  | [] => []
  | a :: l => insertBy le a (sortBy le l)

section
variable {K : Type} [LinearOrder K]

/-- Best score first: /repo/colgrep/src/index/mod.rs:4267-4271. -/
def byScore (a b : Hit K) : Bool := decide (b.score ≤ a.score)

/-- `cmp_results_deterministic` is not `Greater`: best score first, then file, line and last line.  Paths are compared as text here,
component by component in the code.  /repo/colgrep/src/commands/search.rs:472-482. -/
def inOrder (a b : Hit K) : Bool :=
  decide (b.score < a.score) || decide (b.score = a.score) &&
    (decide (a.unit.file < b.unit.file) || decide (a.unit.file = b.unit.file) &&
      (decide (a.unit.line < b.unit.line) || decide (a.unit.line = b.unit.line) && decide (a.unit.endLine ≤ b.unit.endLine)))

/-- The lines of another unit are added to those of a result. -/
def widen (a b : Hit K) : Hit K :=
  ⟨{ a.unit with line := min a.unit.line b.unit.line, endLine := max a.unit.endLine b.unit.endLine }, a.score⟩

/-- One result in `collapse_by_file`; the index in `by_file` is the place of the result with that file. -/
def collapseOne (k : Nat) (out : List (Hit K)) (h : Hit K) : List (Hit K) :=
  if out.any (fun l => l.unit.file = h.unit.file) then out.map fun l => if l.unit.file = h.unit.file then widen l h else l
  else if k ≤ out.length then out
  else out ++ [h]

/-- `collapse_by_file`: /repo/colgrep/src/index/mod.rs:4394-4415. -/
def collapse (k : Nat) (hits : List (Hit K)) : List (Hit K) := hits.foldl (collapseOne k) []

/-- Each id with its row, which is taken out of the map: /repo/colgrep/src/index/mod.rs:4191-4221.  Rows that cannot be read as a
code unit are left out here. -/
def pairUp : List (Int × K) → List CodeUnit → List (Hit K)
  | [], _ => []
  | (id, s) :: l, rows => match rows.find? fun u => u.id = id with
    | some u => ⟨u, s⟩ :: pairUp l (rows.filter fun u => u.id ≠ id)
    | none => pairUp l rows

/-- `search_with_embedding` behind the search: the rows found, in the order of the ids, are paired with the scores by position.
/repo/colgrep/src/index/mod.rs:4057-4070. -/
def zipUp (found : List (Int × K)) (rows : List CodeUnit) : List (Hit K) :=
  ((found.filterMap fun p => rows.find? fun u => u.id = p.1).zip (found.map (·.2))).map fun p => ⟨p.1, p.2⟩

/-- One result of the merge by file: /repo/colgrep/src/commands/search.rs:1605-1617. -/
def mergeOne (m : List (Hit K)) (h : Hit K) : List (Hit K) :=
  if m.any (fun l => l.unit.file = h.unit.file) then
    m.map fun l => if l.unit.file = h.unit.file then (if l.score < h.score then widen h l else widen l h) else l
  else m ++ [h]

/-- The merge by file: /repo/colgrep/src/commands/search.rs:1601-1625. -/
def merge (a b : List (Hit K)) : List (Hit K) := (a ++ b).foldl mergeOne []

end

/-- How many candidates hybrid search asks for: /repo/colgrep/src/index/mod.rs:4111-4114. -/
def fetchK (topK numDocs : Nat) : Nat := min (max (topK * 20) 200) (max numDocs topK)

section
variable {K : Type} [Field K] [LinearOrder K] [IsStrictOrderedRing K] (r : Rounding K) (g : Signals K)

/-- The orders in which the hash maps of one run are read. -/
structure Orders (K : Type) where
  fuse : List (Int × K) → List (Int × K)
  files : List (Tally K) → List (Tally K)
  merged : List (Hit K) → List (Hit K)

/-- The candidates of hybrid search, from the two rankings: /repo/colgrep/src/index/mod.rs:4167-4184.  The absence of keyword results is
the empty list; the number of documents is that of the rows. -/
def candidates (o : Orders K) (numDocs : Nat) (alpha : K) (topK : Nat) (sem kw : List (Int × K)) : List (Int × K) :=
  if kw = [] then sem
  else fuseRelative r o.fuse (sem.map (·.1)) (sem.map (·.2)) (kw.map (·.1)) (kw.map (·.2)) alpha (fetchK topK numDocs)

/-- The candidates with their final scores: /repo/colgrep/src/index/mod.rs:4187-4262. -/
def pool (o : Orders K) (rows : List CodeUnit) (query : List Char) (alpha : K) (topK : Nat) (sem kw : List (Int × K)) : List (Hit K) :=
  rerank r g o.files query (pairUp (candidates r o rows.length alpha topK sem kw) rows)

/-- `search_hybrid_with_embedding` from the two rankings on: /repo/colgrep/src/index/mod.rs:4167-4275. -/
def hybrid (o : Orders K) (rows : List CodeUnit) (query : List Char) (alpha : K) (topK : Nat) (sem kw : List (Int × K)) : List (Hit K) :=
  collapse topK (sortBy byScore (pool r g o rows query alpha topK sem kw))

/-- How many results of one path are asked for: /repo/colgrep/src/commands/search.rs:1493. -/
def searchTopK (codeOnly : Bool) (k : Nat) : Nat := if codeOnly then k * 4 else k * 3

/-- One path with hybrid search and without `-e`: the two searches, the merge and the order.
/repo/colgrep/src/commands/search.rs:1526-1642.  `sem`, `kw`: all of the index; `sem'`, `kw'`: the units that contain the query. -/
def onePath (o : Orders K) (rows : List CodeUnit) (query : List Char) (alpha : K) (topK : Nat) (sem kw sem' kw' : List (Int × K)) :
    List (Hit K) :=
  sortBy inOrder (o.merged (merge (hybrid r g o rows query alpha topK sem kw) (hybrid r g o rows query alpha topK sem' kw')))

/-- One path with hybrid search and `-e`: /repo/colgrep/src/commands/search.rs:1507-1525, 1642. -/
def onePathText (o : Orders K) (rows : List CodeUnit) (query : List Char) (alpha : K) (topK : Nat) (sem kw : List (Int × K)) :
    List (Hit K) := sortBy inOrder (hybrid r g o rows query alpha topK sem kw)

omit [Field K] [IsStrictOrderedRing K] in
/-- The results of all paths: /repo/colgrep/src/commands/search.rs:609-624. -/
def shown (codeOnly : Bool) (k : Nat) (paths : List (List (Hit K))) : List (Hit K) :=
  ((sortBy inOrder paths.flatten).filter fun h => !(codeOnly && h.unit.isText)).take k

end

end NextPlaid.Rank
