import Verif.Model.Ere
import Verif.Model.Globs
import Verif.Model.Results
import Verif.Model.Units

/-!
Model of what `colgrep` prints for the results of a search: /repo/colgrep/src/display.rs and the output half of `cmd_search`,
/repo/colgrep/src/commands/search.rs:627-960, with `PatternMatcher`, lines 26-231.

The engine of regular expressions, `to_lowercase`, the syntax highlighter and the scores of `find_representative_lines` are
parameters.  `--json` and the messages on standard error are left out.
-/

namespace NextPlaid.Display

open NextPlaid.Units (Text lines trim slice)
open NextPlaid.Rank NextPlaid.Fusion

/-- What is used of other crates.  `compile`: `fancy_regex::Regex::new` with `is_match` (a failed match counts as none);
`lower`: `to_lowercase`. -/
structure Engine where
  compile : Text → Option (Text → Bool)
  lower : Text → Text

/-- `PatternKind`; a regular expression keeps its source.  /repo/colgrep/src/commands/search.rs:31-39. -/
inductive Kind
  | regex (source : Text) (hit : Text → Bool)
  | literal (needle : Text)

/-- `PatternMatcher`: /repo/colgrep/src/commands/search.rs:26-29. -/
structure Matcher where
  kind : Kind
  caseSensitive : Bool

/-- The flags of `-e`.  `extended` is `effective_extended_regexp`: /repo/colgrep/src/commands/search.rs:628. -/
structure TextFlags where
  extended : Bool
  fixed : Bool
  word : Bool
  caseSensitive : Bool
  deriving DecidableEq

/-- `\b{}\b`. -/
def wordy (p : Text) : Text := ['\\', 'b'] ++ p ++ ['\\', 'b']

/-- `case_prefix`: /repo/colgrep/src/commands/search.rs:55. -/
def casePrefix (caseSensitive : Bool) : Text := if caseSensitive then [] else ['(', '?', 'i', ')']

/-- The source of the regular expression of a pattern, if one is used.  /repo/colgrep/src/commands/search.rs:54, 64-71, 82-84. -/
def source (f : TextFlags) (pattern : Text) : Option Text :=
  if f.extended ∧ ¬ f.fixed then
    some (casePrefix f.caseSensitive ++ if f.word then wordy (Ere.toEre pattern) else Ere.toEre pattern)
  else if f.word then some (casePrefix f.caseSensitive ++ wordy (Globs.escape pattern))
  else none

/-- `literal_needle`: /repo/colgrep/src/commands/search.rs:56-62. -/
def needle (e : Engine) (f : TextFlags) (pattern : Text) : Text := if f.caseSensitive then pattern else e.lower pattern

/-- `PatternMatcher::new`: /repo/colgrep/src/commands/search.rs:47-101. -/
def newMatcher (e : Engine) (f : TextFlags) (pattern : Text) : Matcher :=
  ⟨match source f pattern with
    | none => .literal (needle e f pattern)
    | some src => match e.compile src with
      | some hit => .regex src hit
      | none => .literal (needle e f pattern), f.caseSensitive⟩

/-- The test for a text in a line: /repo/colgrep/src/commands/search.rs:111-117, 161-166, 213-218. -/
def holds (e : Engine) (caseSensitive : Bool) (needle line : Text) : Bool :=
  if caseSensitive then containsText needle line else containsText needle (e.lower line)

/-- `line_matches`: /repo/colgrep/src/commands/search.rs:104-119. -/
def Matcher.hits (e : Engine) (m : Matcher) (line : Text) : Bool := match m.kind with
  | .regex _ hit => hit line
  | .literal needle => holds e m.caseSensitive needle line

/-- The lines that pass a test, with their indices. -/
def scan (test : Text → Bool) (ls : List Text) : List (Nat × Text) :=
  (ls.zipIdx.filter fun p => test p.1).map fun p => (p.2, p.1)

/-- The lines that match: `find_matches_in_unit` with `literal_fallback`, and `find_matches_in_file`, which do the same to the lines
of a unit and of a file.  /repo/colgrep/src/commands/search.rs:123-230. -/
def Matcher.find (e : Engine) (m : Matcher) (ls : List Text) : List (Nat × Text) := match m.kind with
  | .literal _ => scan (m.hits e) ls
  | .regex src _ =>
    if scan (m.hits e) ls = [] then scan (holds e m.caseSensitive (if m.caseSensitive then src else e.lower src)) ls
    else scan (m.hits e) ls

/-- `usize::MAX + 1`. -/
def usize : Nat := 2 ^ 64

/-- One round of the loop that merges overlapping ranges; the last range is at the head here.
/repo/colgrep/src/display.rs:411-422. -/
def mergeRange (merged : List (Nat × Nat)) (r : Nat × Nat) : List (Nat × Nat) := match merged with
  | [] => [r]
  | last :: rest => if r.1 ≤ last.2 then (last.1, max last.2 r.2) :: rest else r :: last :: rest

/-- From the beginning, with the limit; `signature_line + max_lines` wraps around in a release build.
/repo/colgrep/src/display.rs:376-380, 390-394. -/
def fromStart (unitStart unitEnd maxLines : Nat) : List (Nat × Nat) :=
  [(unitStart - 1, min unitEnd ((unitStart - 1 + maxLines) % usize))]

/-- A match with its context: /repo/colgrep/src/display.rs:398-407. -/
def around (unitStart unitEnd half line : Nat) : Nat × Nat :=
  (max (line - 1 - half) (unitStart - 1), min (line - 1 + half + 1) unitEnd)

/-- The first line of the unit is always shown: /repo/colgrep/src/display.rs:426-434. -/
def withSignature (sig : Nat) (merged : List (Nat × Nat)) : List (Nat × Nat) := match merged with
  | [] => []
  | first :: rest => if sig < first.1 then (sig, min (sig + 2) first.1) :: first :: rest else first :: rest

/-- The matches inside the unit, sorted: /repo/colgrep/src/display.rs:383-388. -/
def inUnit (unitStart unitEnd : Nat) (matched : List Nat) : List Nat :=
  sortBy (fun a b => decide (a ≤ b)) (matched.filter fun l => decide (unitStart ≤ l) && decide (l ≤ unitEnd))

/-- `calc_display_ranges` with `include_signature`, which all callers set.  Lines are counted from 1 in the matches and from 0 in the
ranges.  /repo/colgrep/src/display.rs:366-437. -/
def calcRanges (matched : List Nat) (unitStart unitEnd half maxLines : Nat) : List (Nat × Nat) :=
  if inUnit unitStart unitEnd matched = [] then fromStart unitStart unitEnd maxLines
  else withSignature (unitStart - 1)
    (((inUnit unitStart unitEnd matched).map (around unitStart unitEnd half)).foldl mergeRange []).reverse

/-- `ESC [ 0 m`. -/
def reset : Text := [Char.ofNat 27, '[', '0', 'm']

def ellipsis : Text := ['.', '.', '.']

/-- The loop of `truncate_ansi_string`; `seq`, inside an escape sequence; `room`, how many visible characters may follow.
/repo/colgrep/src/display.rs:441-470. -/
def truncateAnsi (seq : Bool) (room : Nat) : Text → Text
  | [] => []
  | c :: cs =>
    if seq then c :: truncateAnsi (decide (c ≠ 'm')) room cs
    else if c = Char.ofNat 27 then c :: truncateAnsi true room cs
    else if room = 0 then reset ++ ellipsis
    else c :: truncateAnsi false (room - 1) cs

/-- `truncate_plain`: /repo/colgrep/src/display.rs:473-480. -/
def truncatePlain (s : Text) (width : Nat) : Text := if s.length ≤ width then s else s.take width ++ ellipsis

/-- `MAX_LINE_WIDTH`: /repo/colgrep/src/display.rs:13. -/
def maxLineWidth : Nat := 400

/-- What is printed.  The padding of line numbers is left out. -/
inductive Out
  | path (p : Text)
  | hitLine (p : Text) (n : Nat) (t : Text)
  | span (p : Text) (a b : Nat)
  | file (p : Text)
  | code (n : Nat) (t : Text)
  | dots
  | blank
  | nothing (query : Text)
  deriving DecidableEq, Repr

/-- The lines of one range, numbered: without colours (`paint` is `none`) or with the highlighter's text for each line, its newline
taken away.  /repo/colgrep/src/display.rs:497-504, 545-566. -/
def printLines (paint : Option (List Text → List Text)) (first : Nat) (ls : List Text) : List Out := match paint with
  | none => ls.zipIdx.map fun p => .code (first + p.2 + 1) (truncatePlain p.1 maxLineWidth)
  | some f => (f ls).zipIdx.map fun p => .code (first + p.2 + 1) (truncateAnsi false maxLineWidth p.1 ++ reset)

/-- `print_plain_ranges` and `print_highlighted_ranges`: /repo/colgrep/src/display.rs:485-573. -/
def printRanges (paint : Option (List Text → List Text)) (ls : List Text) (unitEnd : Nat) : List (Nat × Nat) → Res (List Out)
  | [] => .ok []
  | r :: rest =>
    if ls.length ≤ min r.1 ls.length then printRanges paint ls unitEnd rest
    else
      (slice ls (min r.1 ls.length) (min r.2 ls.length)).bind fun shown =>
      (printRanges paint ls unitEnd rest).bind fun more =>
      .ok (printLines paint (min r.1 ls.length) shown ++
        (if rest ≠ [] ∨ min r.2 ls.length < unitEnd then [.dots] else []) ++ more)

/-- `print_highlighted_content`: /repo/colgrep/src/display.rs:576-641. -/
def printContent (paint : Option (List Text → List Text)) (ls : List Text) (start maxLines last : Nat) : Res (List Out) :=
  (slice ls start (min last (min (start + maxLines) (usize - 1)))).bind fun shown =>
  .ok (printLines paint start shown ++ if min last (min (start + maxLines) (usize - 1)) < last then [.dots] else [])

section
variable {K : Type} [Field K] [LinearOrder K]

/-- The scores of `find_representative_lines` for a query: `none` if the query has no tokens; of a window of lines and of one line.
The scoring itself, /repo/colgrep/src/display.rs:134-289, is not modelled.  `eps`, `factor`, `low`: 0.01, 0.8 and 0.3. -/
structure Scoring (K : Type) where
  tokens : Bool
  window : List Text → K
  line : Text → K
  eps : K
  factor : K
  low : K
  r : Rounding K

/-- One window: /repo/colgrep/src/display.rs:310-328. -/
def bestOne (s : Scoring K) (ls : List Text) (size start : Nat) (st : K × List Nat) (i : Nat) : K × List Nat :=
  if s.r.rnd (st.1 + s.eps) < s.window ((ls.drop i).take size) then
    (s.window ((ls.drop i).take size), [start + (i + size / 2)])
  else if |s.r.rnd (s.window ((ls.drop i).take size) - st.1)| < s.eps ∧ 0 < s.window ((ls.drop i).take size) then
    (st.1, if start + (i + size / 2) ∈ st.2 then st.2 else st.2 ++ [start + (i + size / 2)])
  else st

/-- The windows: /repo/colgrep/src/display.rs:306-328. -/
def bestWindows (s : Scoring K) (ls : List Text) (start : Nat) : K × List Nat :=
  (List.range (ls.length - min 3 ls.length + 1)).foldl (bestOne s ls (min 3 ls.length) start) (0, [])

/-- The best single line: /repo/colgrep/src/display.rs:331-344. -/
def bestLine (s : Scoring K) (ls : List Text) (start : Nat) : Option (Nat × K) :=
  (sortBy (fun a b => decide (b.2 ≤ a.2))
    ((ls.zipIdx.map fun p => (start + p.2, s.line p.1)).filter fun p => decide (0 < p.2))).head?

/-- The best single line is put in front: /repo/colgrep/src/display.rs:347-351. -/
def preferLine (s : Scoring K) (best : Option (Nat × K)) (score : K) (centres : List Nat) : List Nat := match best with
  | none => centres
  | some b => if s.r.rnd (score * s.factor) < b.2 ∧ b.1 ∉ centres then b.1 :: centres else centres

/-- `find_representative_lines`: /repo/colgrep/src/display.rs:294-361. -/
def representative (s : Scoring K) (ls : List Text) (start : Nat) : List Nat :=
  if s.tokens = false ∨ ls = [] then []
  else if (bestWindows s ls start).1 < s.low then []
  else (preferLine s (bestLine s ls start) (bestWindows s ls start).1 (bestWindows s ls start).2).take 3

end

/-- The options of the output.  `verbose` as resolved at /repo/colgrep/src/commands/search.rs:649-653. -/
structure Options where
  filesOnly : Bool
  verbose : Bool
  showContent : Bool
  contextLines : Nat
  query : Text
  pattern : Option Text
  flags : TextFlags
  paint : Option (List Text → List Text)

/-- The files as they can be read now, the text of each unit (by id; a collapsed result keeps the unit of its leader), and
`display_path`. -/
structure World where
  read : Text → Option Text
  text : Int → Text
  display : Text → Text

/-- The first occurrence of each. -/
def firsts : List Text → List Text
  | [] => []
  | a :: l => a :: (firsts l).filter (· ≠ a)

section
variable {K : Type} [Field K] [LinearOrder K] (e : Engine) (w : World) (o : Options) (s : Scoring K)

/-- The matcher of a query without `-e`: /repo/colgrep/src/commands/search.rs:747. -/
def queryMatcher : Matcher := newMatcher e ⟨false, true, false, o.flags.caseSensitive⟩ o.query

/-- The numbers of the matching lines of a unit: /repo/colgrep/src/commands/search.rs:123-143. -/
def matchedLines (m : Matcher) (u : CodeUnit) : List Nat := (m.find e (lines (w.text u.id))).map fun p => u.line + p.1

/-- The number of lines allowed: /repo/colgrep/src/commands/search.rs:772-776 for code, 872 for documents. -/
def maxLines (u : CodeUnit) : Nat :=
  if o.showContent then (if u.isText then 250 else usize - 1) else o.contextLines

/-- One result: /repo/colgrep/src/commands/search.rs:768-856 for code, 869-953 for documents. -/
def showUnit (u : CodeUnit) : Res (List Out) := match w.read u.file with
  | none => .ok []
  | some content =>
    let ls := lines content
    let last := min u.endLine ls.length
    let half := o.contextLines / 2
    match o.pattern with
    | some p =>
      printRanges o.paint ls last (calcRanges (matchedLines e w (newMatcher e o.flags p) u) u.line last half (maxLines o u))
    | none =>
      if matchedLines e w (queryMatcher e o) u ≠ [] then
        printRanges o.paint ls last (calcRanges (matchedLines e w (queryMatcher e o) u) u.line last half (maxLines o u))
      else if representative s (lines (w.text u.id)) u.line ≠ [] then
        printRanges o.paint ls last (calcRanges (representative s (lines (w.text u.id)) u.line) u.line last half (maxLines o u))
      else if u.line - 1 < ls.length then printContent o.paint ls (u.line - 1) (maxLines o u) last
      else .ok []

/-- The outputs of a list of results one after the other; a panic ends the program. -/
def concat : List (Res (List Out)) → Res (List Out)
  | [] => .ok []
  | a :: l => a.bind fun x => (concat l).bind fun y => .ok (x ++ y)

/-- `group_results_by_file`: /repo/colgrep/src/display.rs:646-670. -/
def groupByFile (us : List CodeUnit) : List (Text × List CodeUnit) :=
  (firsts (us.map (·.file))).map fun f => (f, sortBy (fun a b => decide (a.line ≤ b.line)) (us.filter fun u => u.file = f))

/-- One file: /repo/colgrep/src/commands/search.rs:764-859, 865-956. -/
def showFile (g : Text × List CodeUnit) : Res (List Out) :=
  (concat (g.2.map (showUnit e w o s))).bind fun x => .ok (.file (w.display g.1) :: x ++ [.blank])

/-- Verbose output: code first, then documents.  /repo/colgrep/src/commands/search.rs:731-958. -/
def verboseOut (us : List CodeUnit) : Res (List Out) :=
  concat ((groupByFile (us.filter fun u => !u.isText) ++ groupByFile (us.filter fun u => u.isText)).map (showFile e w o s))

/-- The text of a line in compact output: /repo/colgrep/src/commands/search.rs:704-711. -/
def compactText (l : Text) : Text := (trim l).take 120 ++ if 120 < (trim l).length then ellipsis else []

/-- Compact output of one file with `-e`: /repo/colgrep/src/commands/search.rs:689-714. -/
def compactFile (m : Matcher) (f : Text) : List Out := match w.read f with
  | none => []
  | some content => (m.find e (lines content)).map fun p => .hitLine (w.display f) (p.1 + 1) (compactText p.2)

/-- Compact output: /repo/colgrep/src/commands/search.rs:658-730. -/
def compactOut (us : List CodeUnit) : List Out := match o.pattern with
  | some p => (firsts (us.map (·.file))).flatMap (compactFile e w (newMatcher e o.flags p))
  | none => us.map fun u => .span (w.display u.file) u.line u.endLine

/-- The output of `cmd_search` for the results it has chosen: /repo/colgrep/src/commands/search.rs:631-959. -/
def output (us : List CodeUnit) : Res (List Out) :=
  if o.filesOnly then .ok ((firsts (us.map fun u => w.display u.file)).map .path)
  else if us = [] then .ok [.nothing o.query]
  else if o.verbose then verboseOut e w o s us
  else .ok (compactOut e w o us)

end

end NextPlaid.Display
