import Verif.Model.Fusion
import Verif.Model.TextQuery

/-!
Model of the ranking signals of colgrep, /repo/colgrep/src/ranking.rs: path penalty, stem boost, definition boost and file coherence.

Numbers are as in the model of fusion: exact arithmetic in an ordered field followed by a rounding.
-/

namespace NextPlaid.Rank

open NextPlaid.Fusion

/-- What the search uses of a code unit.  /repo/colgrep/src/parser/types.rs.  `isDef`: a function, method, class or constant;
`isText`: the language is a text format (`is_text_format`). -/
structure CodeUnit where
  id : Int
  file : List Char
  line : Nat
  endLine : Nat
  name : List Char
  isDef : Bool
  isText : Bool
  deriving DecidableEq, Repr

/-- `SearchResult`. -/
structure Hit (K : Type) where
  unit : CodeUnit
  score : K
  deriving DecidableEq, Repr

/-- The constants (which may be set in the environment), the three regular expressions for paths, and `to_lowercase`. -/
structure Signals (K : Type) where
  strong : K
  moderate : K
  mild : K
  stemFrac : K
  prefixFrac : K
  defFrac : K
  cohFrac : K
  isTest : List Char → Bool
  isCompat : List Char → Bool
  isExample : List Char → Bool
  lower : List Char → List Char
  stopwords : List (List Char)
  pluralSnake : Bool

/-- `Path::file_name` of a path that ends with a normal component. -/
def fileName (path : List Char) : List Char := (path.reverse.takeWhile (· ≠ '/')).reverse

/-- `Path::file_stem`: the file name without its last extension; a `.` at the start is none. -/
def fileStem (path : List Char) : List Char :=
  let name := fileName path
  let before := (name.reverse.dropWhile (· ≠ '.')).tail.reverse
  if name = ['.', '.'] ∨ before = [] then name else before

/-- The name of a declaration stub of TypeScript. -/
def dts : List Char := ['.', 'd', '.', 't', 's']

/-- `__init__.py` and `package-info.java`. -/
def barrels : List (List Char) := ["__init__.py".toList, "package-info.java".toList]

section
variable {K : Type} [Field K] [LinearOrder K] [IsStrictOrderedRing K] (r : Rounding K) (g : Signals K)

/-- `penalty *= x` under a condition. -/
def times (cond : Bool) (x p : K) : K := if cond then r.rnd (p * x) else p

/-- `file_path_penalty`: /repo/colgrep/src/ranking.rs:127-154. -/
def penalty (file : List Char) : K :=
  let path := file.map fun c => if c = '\\' then '/' else c
  times r (barrels.contains (fileName path)) g.moderate
    (times r (dts.isSuffixOf path) g.mild
      (times r (g.isExample path) g.strong
        (times r (g.isCompat path) g.strong
          (times r (g.isTest path) g.strong 1))))

/-- The words that turn the penalty off. -/
def testWords : List (List Char) := ["test".toList, "spec".toList, "benchmark".toList]

/-- `str::contains`. -/
def containsText (w : List Char) : List Char → Bool
  | [] => w.isEmpty
  | c :: cs => w.isPrefixOf (c :: cs) || containsText w cs

/-- `should_apply_path_penalty`: /repo/colgrep/src/ranking.rs:159-162. -/
def penalise (query : List Char) : Bool := !(testWords.any fun w => containsText w (g.lower query))

/-- The penalty on one result: /repo/colgrep/src/index/mod.rs:4211-4214. -/
def penalised (query : List Char) (h : Hit K) : Hit K :=
  ⟨h.unit, if penalise g query then r.rnd (h.score * penalty r g h.unit.file) else h.score⟩

/-- The greatest score; `items.iter().map(score).fold(NEG_INFINITY, f32::max)`, which the first one replaces. -/
def maxScore : List (Hit K) → K
  | [] => 0
  | h :: hs => hs.foldl (fun m x => max m x.score) h.score

/-- `normalize` of the stem boost: the token, without `_`, and without a final `s`.  /repo/colgrep/src/ranking.rs:310-322. -/
def variants (t : List Char) : List (List Char) :=
  if g.pluralSnake then
    let stripped := t.filter (· ≠ '_')
    t :: ((if stripped ≠ t then [stripped] else []) ++ if t.getLast? = some 's' ∧ 1 < t.length then [t.dropLast] else [])
  else [t]

/-- Tokens are of ASCII, so that bytes and characters agree.  /repo/colgrep/src/ranking.rs:330-334. -/
def sameToken (q t : List Char) : Bool := (variants g t).any fun sv => (variants g q).any fun qv => decide (sv = qv)

/-- /repo/colgrep/src/ranking.rs:335-344. -/
def prefixToken (q t : List Char) : Bool := (variants g t).any fun sv => (variants g q).any fun qv =>
  if sv.length ≤ qv.length then 3 ≤ sv.length && sv.isPrefixOf qv else 3 ≤ qv.length && qv.isPrefixOf sv

/-- The tokens of the query that the stem boost looks at: /repo/colgrep/src/ranking.rs:283-296. -/
def stemQuery (query : List Char) : List (List Char) := (Text.tokenizeIdentifiers query).filter fun t => !g.stopwords.contains t

/-- The tokens of the stem of a file: /repo/colgrep/src/ranking.rs:301-308. -/
def stemTokens (file : List Char) : List (List Char) := Text.tokenizeIdentifiers (g.lower (fileStem file))

/-- The loop over the tokens of the query, whose order does not matter: /repo/colgrep/src/ranking.rs:324-356. -/
def stemBoosted (query : List Char) (best : K) (h : Hit K) : Hit K :=
  let qs := stemQuery g query
  let ts := stemTokens g h.unit.file
  if qs.any (fun q => ts.any fun t => sameToken g q t) then ⟨h.unit, r.rnd (h.score + r.rnd (best * g.stemFrac))⟩
  else if qs.any (fun q => ts.any fun t => prefixToken g q t) then ⟨h.unit, r.rnd (h.score + r.rnd (best * g.prefixFrac))⟩
  else h

/-- `apply_path_stem_boost`: /repo/colgrep/src/ranking.rs:268-358. -/
def stemBoost (query : List Char) (hits : List (Hit K)) : List (Hit K) :=
  if maxScore hits ≤ 0 ∨ stemQuery g query = [] then hits else hits.map (stemBoosted r g query (maxScore hits))

/-- A query word names the unit: /repo/colgrep/src/ranking.rs:217-227. -/
def defines (query : List Char) (u : CodeUnit) : Bool :=
  u.isDef && (Text.tokenizeIdentifiers (g.lower u.name)).any fun t => (Text.tokenizeIdentifiers query).contains t

/-- `apply_definition_boost`: /repo/colgrep/src/ranking.rs:191-231. -/
def defBoost (query : List Char) (hits : List (Hit K)) : List (Hit K) :=
  if maxScore hits ≤ 0 then hits
  else hits.map fun h => if defines g query h.unit then ⟨h.unit, r.rnd (h.score + r.rnd (maxScore hits * g.defFrac))⟩ else h

/-- What is kept for a file: the sum of its scores, and the place and score of its best unit. -/
structure Tally (K : Type) where
  file : List Char
  sum : K
  top : Nat
  best : K

/-- One unit: /repo/colgrep/src/ranking.rs:408-420. -/
def tallyOne (m : List (Tally K)) (e : Hit K × Nat) : List (Tally K) :=
  if m.any (fun t => t.file = e.1.unit.file) then
    m.map fun t =>
      if t.file = e.1.unit.file then
        ⟨t.file, r.rnd (t.sum + e.1.score), if t.best < e.1.score then e.2 else t.top, if t.best < e.1.score then e.1.score else t.best⟩
      else t
  else m ++ [⟨e.1.unit.file, e.1.score, e.2, e.1.score⟩]

/-- All units: /repo/colgrep/src/ranking.rs:405-420. -/
def tallies (hits : List (Hit K)) : List (Tally K) := hits.zipIdx.foldl (tallyOne r) []

/-- The greatest sum of a file: /repo/colgrep/src/ranking.rs:422-425. -/
def maxSum : List (Tally K) → K
  | [] => 0
  | t :: ts => ts.foldl (fun m x => max m x.sum) t.sum

/-- One update: /repo/colgrep/src/ranking.rs:431-437. -/
def lift (boost total : K) (hits : List (Hit K)) (t : Tally K) : List (Hit K) :=
  hits.modify t.top fun h => ⟨h.unit, r.rnd (t.best + r.rnd (r.rnd (boost * t.sum) / total))⟩

/-- `apply_file_coherence_boost`; `order` is the order in which the hash map is read: /repo/colgrep/src/ranking.rs:389-442. -/
def cohBoost (order : List (Tally K) → List (Tally K)) (hits : List (Hit K)) : List (Hit K) :=
  if maxScore hits ≤ 0 ∨ maxSum (tallies r hits) ≤ 0 then hits
  else (order (tallies r hits)).foldl (lift r (r.rnd (maxScore hits * g.cohFrac)) (maxSum (tallies r hits))) hits

/-- All signals, in order: /repo/colgrep/src/index/mod.rs:4203-4262. -/
def rerank (order : List (Tally K) → List (Tally K)) (query : List Char) (hits : List (Hit K)) : List (Hit K) :=
  cohBoost r g order (defBoost r g query (stemBoost r g query (hits.map (penalised r g query))))

end

end NextPlaid.Rank
