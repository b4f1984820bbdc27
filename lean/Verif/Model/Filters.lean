import Verif.Model.Include

/-!
Model of how `colgrep` restricts a search: the subdirectory, text, include, file and exclude filters of `search_single_path`, and
how they are combined.
-/

namespace NextPlaid.Globs

/-- SQLite's `text LIKE pattern` without an escape character: `%` any characters, `_` one character, letters of ASCII in either
case.  The limit on the length of the pattern (50000 bytes) is left out. -/
def like : List Char → List Char → Bool
  | [], s => s.isEmpty
  | c :: p, s =>
    if c = '%' then s.tails.any (like p)
    else match s with
      | [] => false
      | d :: t => (c = '_' || c.toLower = d.toLower) && like p t

/-- `Searcher::filter_by_path_prefix`.  colgrep/src/index/mod.rs:3751-3763. -/
def filterPrefix (rows : List Row) (dir : List Char) : List Int :=
  (rows.filter fun row => like (dir ++ ['%']) row.file).map (·.id)

/-- `Searcher::filter_by_files`.  colgrep/src/index/mod.rs:3855-3875. -/
def filterFiles (rows : List Row) (files : List (List Char)) : List Int :=
  if files = [] then [] else (rows.filter fun row => row.file ∈ files).map (·.id)

/-- One pattern of `should_search_from_root`: it starts with `**/`, the component behind that has no `*` and is not the name of
anything in the subdirectory.  colgrep/src/scoring.rs:15-31. -/
def escapesBy (inSubdir : List Char → Bool) (pattern : List Char) : Bool :=
  if anyDir.isPrefixOf pattern then
    let name := (pattern.drop 3).takeWhile (· ≠ '/')
    !name.contains '*' && !inSubdir name
  else false

/-- `should_search_from_root`; `inSubdir name` tells whether the subdirectory has something of that name.  colgrep/src/scoring.rs:10-34. -/
def escapes (inSubdir : List Char → Bool) (patterns : List (List Char)) : Bool := patterns.any (escapesBy inSubdir)

/-- The restrictions of a search.  `text` holds the ids found by `-e` (the search for text is not modelled), `file` the path of a
file given instead of a directory, relative to the project. -/
structure Request where
  subdir : Option (List Char)
  text : Option (List Int)
  included : List (List Char)
  file : Option (List Char)
  exclude : List (List Char)
  excludeDirs : List (List Char)

/-- A filter whose ids are kept in their own order.  colgrep/src/commands/search.rs:1371-1384, 1403-1414, 1431-1442. -/
def narrow (sofar : Option (List Int)) (ids : List Int) : Option (List Int) := match sofar with
  | some have_ => some (ids.filter fun i => i ∈ have_)
  | none => some ids

/-- A filter whose ids are put in a set first; `order` is the order in which the set is read.
colgrep/src/commands/search.rs:1447-1458, 1463-1474. -/
def narrowBySet (order : List Int → List Int) (sofar : Option (List Int)) (ids : List Int) : Option (List Int) := match sofar with
  | some have_ => some (have_.filter fun i => i ∈ ids)
  | none => some (order ids)

/-- A search that goes on, or one that ends here without results. -/
abbrev Step := Option (Option (List Int))

/-- The subdirectory.  colgrep/src/commands/search.rs:1338-1350. -/
def stepSubdir (rows : List Row) (dir : Option (List Char)) : Step := match dir with
  | none => some none
  | some d => if filterPrefix rows d = [] then none else some (some (filterPrefix rows d))

/-- `-e`.  colgrep/src/commands/search.rs:1353-1385. -/
def stepText (text : Option (List Int)) (sofar : Option (List Int)) : Step := match text with
  | none => some sofar
  | some ids => if ids = [] then none else some (narrow sofar ids)

/-- `--include`; the list of files from the file system is always absent.  colgrep/src/commands/search.rs:1389-1415. -/
def stepInclude (rows : List Row) (patterns : List (List Char)) (sofar : Option (List Int)) : Step :=
  if patterns = [] then some sofar else some (narrow sofar (filterInclude rows patterns))

/-- A file instead of a directory.  colgrep/src/commands/search.rs:1418-1443. -/
def stepFile (rows : List Row) (file : Option (List Char)) (sofar : Option (List Int)) : Step := match file with
  | none => some sofar
  | some f => if filterFiles rows [f] = [] then none else some (narrow sofar (filterFiles rows [f]))

/-- `--exclude`.  colgrep/src/commands/search.rs:1446-1459. -/
def stepExclude (order : List Int → List Int) (rows : List Row) (patterns : List (List Char)) (sofar : Option (List Int)) : Step :=
  if patterns = [] then some sofar else some (narrowBySet order sofar (filterExclude rows patterns))

/-- `--exclude-dir`.  colgrep/src/commands/search.rs:1462-1475. -/
def stepExcludeDirs (order : List Int → List Int) (rows : List Row) (dirs : List (List Char)) (sofar : Option (List Int)) : Step :=
  if dirs = [] then some sofar else some (narrowBySet order sofar (filterExcludeDirs rows dirs))

/-- Nothing left.  colgrep/src/commands/search.rs:1478-1485. -/
def stepEnd (sofar : Option (List Int)) : Step := match sofar with
  | some [] => none
  | s => some s

/-- The subset of the index that is searched: `none` if the search ends without results, `some none` if all of the index is
searched.  colgrep/src/commands/search.rs:1097-1110, 1333-1489. -/
def subset (order : List Int → List Int) (inSubdir : List Char → Bool) (rows : List Row) (rq : Request) : Step := do
  let s1 ← stepSubdir rows (if escapes inSubdir rq.included then none else rq.subdir)
  let s2 ← stepText rq.text s1
  let s3 ← stepInclude rows rq.included s2
  let s4 ← stepFile rows rq.file s3
  let s5 ← stepExclude order rows rq.exclude s4
  let s6 ← stepExcludeDirs order rows rq.excludeDirs s5
  stepEnd s6

end NextPlaid.Globs
