import Verif.Proofs.Display4
import Verif.Model.Double

/-!
C66: what `colgrep` prints for its results is a faithful excerpt of the files.
-/

namespace NextPlaid.Props

open NextPlaid.Display NextPlaid.Spec
open NextPlaid.Units (Text lines joinNl)
open NextPlaid.Rank (CodeUnit containsText Hit collapse)
open NextPlaid.Fusion

/-! ### A concrete file for the examples -/

namespace DisplayExample

/-- Ten lines; the unit 7 is lines 2 to 9, and line 6 contains `needle`. -/
def source : List Text := ["import x", "def f():", "  a", "  b", "  c", "  the needle", "  d", "  e", "  f", "g"].map String.toList

def file : Text := "f.py".toList

@[reducible] def engine : Engine := ⟨fun s => some fun l => containsText s l, fun t => t⟩

@[reducible] def world : World :=
  ⟨fun f => if f = file then some (joinNl source) else none,
   fun id => if id = 7 then joinNl ((source.drop 1).take 8) else if id = 3 then joinNl ((source.drop 8).take 2) else [], fun f => f⟩

@[reducible] def unit : CodeUnit := ⟨7, file, 2, 9, "f".toList, true, false⟩

@[reducible] def options : Options := ⟨false, true, false, 3, "needle".toList, some "needle".toList, ⟨true, false, false, true⟩, none⟩

@[reducible] def scoring : Scoring ℚ := ⟨false, fun _ => 0, fun _ => 0, 0, 0, 0, single⟩

theorem read : lines (joinNl source) = source := by decide +kernel

theorem current : Current world unit source := by
  refine ⟨⟨joinNl source, rfl, read.symm⟩, by decide, by decide, by decide, by decide +kernel⟩

theorem marked (l : Text) (h : "needle".toList <:+: l) (f : TextFlags) (hf : f = ⟨true, false, false, true⟩) (ls : List Text) :
    Marked engine f "needle".toList ls l := by
  subst hf
  left
  have : Display.source ⟨true, false, false, true⟩ "needle".toList = some "needle".toList := by decide +kernel
  unfold LineMatches
  rw [this]
  exact (Rank.containsText_iff _ _).2 h

theorem hit : UnitMatch engine world options.flags "needle".toList unit source 6 :=
  ⟨by decide, by decide, "  the needle".toList, by decide, marked _ ⟨"  the ".toList, [], by decide⟩ _ rfl _⟩

end DisplayExample

open DisplayExample (engine world unit options scoring)

section
variable {K : Type} [Field K] [LinearOrder K] {e : Engine} {w : World} {o : Options} {s : Scoring K}

/-! ### One result -/

/-- Whatever is printed for a result is an excerpt of the lines of its range, as the file is now: every line with its own number, in
order, with `...` wherever lines are left out between or after lines, beginning with the first line.  Each line is printed as it is or
cut after 400 characters (not counting colours).  The file may have changed in any way since it was indexed. -/
theorem C66_excerpt {u : CodeUnit} {content : Text} {out : List Out} (hr : w.read u.file = some content)
    (hp : ∀ f, o.paint = some f → OnlyColours f) (h1 : 1 ≤ u.line) (h2 : u.line ≤ u.endLine) (hm : Moderate o (lines content))
    (h : showUnit e w o s u = .ok out) : Excerpt o.paint (lines content) u.line (min u.endLine (lines content).length) out := by
  rcases showUnit_cases (e := e) (s := s) hr hp h1 h2 hm with ⟨out', h3, h4⟩ | ⟨h3, _⟩
  · rw [h] at h3
    obtain rfl := Except.ok.inj h3
    exact h4
  · rw [h] at h3; simp at h3

example : (showUnit engine world options scoring unit).toOption = some
    [.code 2 "def f():".toList, .code 3 "  a".toList, .dots, .code 5 "  c".toList, .code 6 "  the needle".toList,
     .code 7 "  d".toList, .dots] := by decide +kernel

/-- With `-e`, when the file is as it was indexed: the lines of the unit that match are shown, with half of the lines asked for on each
side, and the first line of the unit.  Nothing else is shown, except possibly the second line of the unit. -/
theorem C66_pattern {u : CodeUnit} {file : List Text} {p : Text} (hc : Current w u file) (hf : ∀ f, o.paint = some f → OnlyColours f)
    (hp : o.pattern = some p) (hx : ∃ n, UnitMatch e w o.flags p u file n) :
    ∃ out, showUnit e w o s u = .ok out ∧ Excerpt o.paint file u.line u.endLine out ∧
      ShowsAround (o.contextLines / 2) u.line u.endLine (UnitMatch e w o.flags p u file) out :=
  showUnit_pattern hc hf hp hx

example : ∃ out, showUnit engine world options scoring unit = .ok out ∧ Excerpt none DisplayExample.source 2 9 out ∧
    ShowsAround 1 2 9 (UnitMatch engine world options.flags "needle".toList unit DisplayExample.source) out :=
  C66_pattern (o := options) DisplayExample.current (by simp) rfl ⟨6, DisplayExample.hit⟩

/-- With `-e`, when no line of the unit matches: the first lines are shown, as many as asked for.  With `-c` this holds for documents and
for units that begin at the first line of their file; for others see `C66_content_crash_refuted`. -/
theorem C66_pattern_elsewhere_partial {u : CodeUnit} {file : List Text} {p : Text} (hc : Current w u file)
    (hf : ∀ f, o.paint = some f → OnlyColours f) (hm : Moderate o file) (hp : o.pattern = some p)
    (hx : ¬ ∃ n, UnitMatch e w o.flags p u file n) (hno : o.showContent = false ∨ u.isText = true ∨ u.line = 1) :
    ∃ out, showUnit e w o s u = .ok out ∧ Excerpt o.paint file u.line u.endLine out ∧ ShowsFirst o u u.line u.endLine out :=
  showUnit_pattern_none hc hf hm hp hx hno

example : (showUnit engine world { options with pattern := some "absent".toList } scoring unit).toOption = some
    [.code 2 "def f():".toList, .code 3 "  a".toList, .code 4 "  b".toList, .dots] := by decide +kernel

/-- Without `-e`, when lines of the unit contain the query: as with `-e`. -/
theorem C66_query {u : CodeUnit} {file : List Text} (hc : Current w u file) (hf : ∀ f, o.paint = some f → OnlyColours f)
    (hp : o.pattern = none) (hx : ∃ n, UnitQuery e o u file n) :
    ∃ out, showUnit e w o s u = .ok out ∧ Excerpt o.paint file u.line u.endLine out ∧
      ShowsAround (o.contextLines / 2) u.line u.endLine (UnitQuery e o u file) out :=
  showUnit_query hc hf hp hx

example : ∃ out, showUnit engine world { options with pattern := none } scoring unit = .ok out ∧
    Excerpt none DisplayExample.source 2 9 out ∧ ShowsAround 1 2 9 (UnitQuery engine options unit DisplayExample.source) out :=
  C66_query (o := { options with pattern := none }) DisplayExample.current (by simp) rfl
    ⟨6, by decide, by decide, "  the needle".toList, by decide, ⟨"  the ".toList, [], by decide⟩⟩

/-- Without `-e`, when no line of the unit contains the query: the first lines are shown, as many as asked for (all of a unit of code
with `-c`), or the lines around one, two or three lines of the unit, whatever the scores of lines are. -/
theorem C66_query_elsewhere {u : CodeUnit} {file : List Text} (hc : Current w u file) (hf : ∀ f, o.paint = some f → OnlyColours f)
    (hm : Moderate o file) (hp : o.pattern = none) (hx : ¬ ∃ n, UnitQuery e o u file n) :
    ∃ out, showUnit e w o s u = .ok out ∧ Excerpt o.paint file u.line u.endLine out ∧
      (ShowsFirst o u u.line u.endLine out ∨ ∃ c : List Nat, c ≠ [] ∧ c.length ≤ 3 ∧ c.Nodup ∧
        (∀ n ∈ c, u.line ≤ n ∧ n ≤ u.endLine) ∧ ShowsAround (o.contextLines / 2) u.line u.endLine (· ∈ c) out) :=
  showUnit_query_none hc hf hm hp hx

/-- All of the unit with `-c`; around line 7 when it scores best. -/
example : (showUnit engine world { options with pattern := none, query := "absent".toList, showContent := true } scoring unit).toOption =
    some ((((DisplayExample.source.drop 1).take 8).zipIdx 2).map fun p => .code p.2 p.1) ∧
    (showUnit engine world { options with pattern := none, query := "absent".toList } (⟨true,
      fun ls => if ls.head? = some "  the needle".toList then 1 else 0, fun _ => 0, 1 / 100, 4 / 5, 3 / 10, ⟨id⟩⟩ : Scoring ℚ) unit).toOption =
    some [.code 2 "def f():".toList, .code 3 "  a".toList, .dots, .code 6 "  the needle".toList, .code 7 "  d".toList,
      .code 8 "  e".toList, .dots] := by decide +kernel

/-! ### No crash -/

/-- Showing a result does not crash, except with `-c` for units of code that do not begin at the first line; and not for those either
if the file is as it was indexed and, with `-e`, a line of the unit matches. -/
theorem C66_no_crash_partial {u : CodeUnit} {content : Text} (hr : w.read u.file = some content)
    (hp : ∀ f, o.paint = some f → OnlyColours f) (h1 : 1 ≤ u.line) (h2 : u.line ≤ u.endLine) (hm : Moderate o (lines content))
    (h : o.showContent = false ∨ u.isText = true ∨ u.line = 1 ∨
      (Current w u (lines content) ∧ ∀ p, o.pattern = some p → ∃ n, UnitMatch e w o.flags p u (lines content) n)) :
    ∃ out, showUnit e w o s u = .ok out := by
  rcases showUnit_cases (e := e) (s := s) hr hp h1 h2 hm with ⟨out, h3, _⟩ | ⟨_, h4, h5, h6, h7⟩
  · exact ⟨out, h3⟩
  · rcases h with h | h | h | ⟨hc, hx⟩
    · rw [h] at h4; simp at h4
    · rw [h] at h5; simp at h5
    · omega
    · cases hq : o.pattern with
      | some p =>
        obtain ⟨out, h8, _⟩ := showUnit_pattern (s := s) hc hp hq (hx p hq)
        exact ⟨out, h8⟩
      | none =>
        by_cases hu : ∃ n, UnitQuery e o u (lines content) n
        · obtain ⟨out, h8, _⟩ := showUnit_query (s := s) hc hp hq hu
          exact ⟨out, h8⟩
        · obtain ⟨out, h8, _⟩ := showUnit_query_none (s := s) hc hp hm hq hu
          exact ⟨out, h8⟩

/-- The file is readable, its text in memory is shorter than 2⁶⁴, and the unit is lines 2 to 9: shown without a crash. -/
example : ∃ out, showUnit engine world { options with showContent := true } scoring unit = .ok out :=
  C66_no_crash_partial (content := joinNl DisplayExample.source) rfl (by simp) (by decide) (by decide)
    (by rw [DisplayExample.read]; unfold Moderate; decide)
    (.inr (.inr (.inr ⟨by rw [DisplayExample.read]; exact DisplayExample.current, by
      rintro p hp
      obtain rfl : "needle".toList = p := by simpa using hp
      rw [DisplayExample.read]
      exact ⟨6, DisplayExample.hit⟩⟩)))

end

theorem ok_eq {A : Type} {r : Res A} {a : A} (h : r.toOption = some a) : r = .ok a := by
  cases r with
  | ok x => simp [Except.toOption] at h; rw [h]
  | error f => simp [Except.toOption] at h

def panics {A : Type} : Res A → Bool
  | .error .panic => true
  | _ => false

theorem panics_eq {A : Type} {r : Res A} (h : panics r = true) : r = .error .panic := by
  cases r with
  | ok x => simp [panics] at h
  | error f => cases f <;> simp [panics] at h ⊢

/-- Showing a result can crash: with `-c`, for a unit of code that is chosen by the pattern although no single line of it matches, such as
a pattern that matches across lines.  The file is as it was indexed. -/
theorem C66_content_crash_refuted : ∃ (e : Engine) (w : World) (o : Options) (s : Scoring ℚ) (u : CodeUnit) (file : List Text),
    Current w u file ∧ Moderate o file ∧ o.paint = none ∧ o.showContent = true ∧
    (∃ p src hit, o.pattern = some p ∧ Display.source o.flags p = some src ∧ e.compile src = some hit ∧ hit (w.text u.id) = true) ∧
    showUnit e w o s u = .error .panic := by
  refine ⟨engine, world, { options with showContent := true, pattern := some "a\n  b".toList }, scoring, unit, DisplayExample.source,
    DisplayExample.current, by unfold Moderate; decide, rfl, rfl, ⟨_, "a\n  b".toList, _, rfl, by decide +kernel, rfl, ?_⟩, ?_⟩
  · decide +kernel
  · apply panics_eq
    decide +kernel

/-- With `-e` not every matching line of a result is shown: results of one file are shown as one, which has the lines of all of them but
the text of the best of them, so that the matches are looked for, and shown, at the wrong lines.  Here the best result is lines 9 and 10,
the other lines 2 to 9, and the pattern matches line 10. -/
theorem C66_merged_refuted : ∃ (e : Engine) (w : World) (o : Options) (s : Scoring ℚ) (hits : List (Hit ℚ)) (file : List Text) (u : CodeUnit),
    (∀ h ∈ hits, Current w h.unit file) ∧ o.paint = none ∧ (collapse 10 hits).map (·.unit) = [u] ∧
    (∃ p l, o.pattern = some p ∧ file[9]? = some l ∧ LineMatches e o.flags p l ∧ u.line ≤ 10 ∧ 10 ≤ u.endLine) ∧
    ∃ out, showUnit e w o s u = .ok out ∧ 10 ∉ numbers out := by
  refine ⟨engine, world, { options with pattern := some "g".toList }, scoring,
    [⟨⟨3, DisplayExample.file, 9, 10, "g".toList, true, false⟩, 2⟩, ⟨unit, 1⟩], DisplayExample.source,
    ⟨3, DisplayExample.file, 2, 10, "g".toList, true, false⟩, ?_, rfl, by decide +kernel,
    ⟨"g".toList, "g".toList, rfl, by decide, ?_, by decide, by decide⟩, ?_⟩
  · intro h hh
    simp only [List.mem_cons, List.not_mem_nil, or_false] at hh
    rcases hh with rfl | rfl
    · exact ⟨⟨_, rfl, DisplayExample.read.symm⟩, by decide, by decide, by decide, by decide +kernel⟩
    · exact DisplayExample.current
  · have : Display.source ⟨true, false, false, true⟩ "g".toList = some "g".toList := by decide +kernel
    unfold LineMatches
    simp only [this]
    show containsText _ _ = true
    decide
  · refine ⟨[.code 2 "def f():".toList, .code 3 "  a".toList, .code 4 "  b".toList, .dots], ok_eq (by decide +kernel), by decide⟩

/-- `...` does not always stand for lines that are left out: here it is printed between lines 3 and 4. -/
theorem C66_dots_refuted : ∃ (e : Engine) (w : World) (o : Options) (s : Scoring ℚ) (u : CodeUnit) (file : List Text),
    Current w u file ∧ o.paint = none ∧ ∃ out, showUnit e w o s u = .ok out ∧
    ∃ n t t', [.code n t, .dots, .code (n + 1) t'] <:+: out := by
  refine ⟨engine, world, { options with pattern := some "  c".toList }, scoring, unit, DisplayExample.source, DisplayExample.current, rfl,
    [.code 2 "def f():".toList, .code 3 "  a".toList, .dots, .code 4 "  b".toList, .code 5 "  c".toList, .code 6 "  the needle".toList,
     .dots], ok_eq (by decide +kernel), 3, "  a".toList, "  b".toList,
    ⟨[.code 2 "def f():".toList], [.code 5 "  c".toList, .code 6 "  the needle".toList, .dots], by decide⟩⟩

/-! ### All results -/

section
variable {K : Type} [Field K] [LinearOrder K] {e : Engine} {w : World} {o : Options} {s : Scoring K}

/-- With `-l`: the files of the results, each once, best first. -/
theorem C66_files (us : List CodeUnit) (h : o.filesOnly = true) :
    ∃ ps : List Text, output e w o s us = .ok (ps.map .path) ∧ FirstOnly (us.map fun u => w.display u.file) ps :=
  ⟨_, by unfold output; rw [if_pos h], firsts_only _⟩

example : ∃ ps : List Text, output engine world { options with filesOnly := true } scoring [unit, unit] = .ok (ps.map .path) ∧
    FirstOnly [DisplayExample.file, DisplayExample.file] ps := C66_files (o := { options with filesOnly := true }) _ rfl

/-- Compact output with `-e`: for each file with results, best first, exactly its matching lines, in order, with their numbers; without
`-e`: the range of each result. -/
theorem C66_compact (us : List CodeUnit) (hne : us ≠ []) (h : o.filesOnly = false) (hv : o.verbose = false) :
    (∀ p, o.pattern = some p → ∃ (fs : List Text) (part : Text → List Out), output e w o s us = .ok (fs.flatMap part) ∧
      FirstOnly (us.map (·.file)) fs ∧ ∀ f ∈ fs, match w.read f with
        | none => part f = []
        | some content => HitLines (w.display f) (lines content) (Marked e o.flags p (lines content)) (part f)) ∧
    (o.pattern = none → output e w o s us = .ok (us.map fun u => .span (w.display u.file) u.line u.endLine)) := by
  have ho : output e w o s us = .ok (compactOut e w o us) := by
    unfold output
    rw [if_neg (by simp [h]), if_neg hne, if_neg (by simp [hv])]
  refine ⟨?_, ?_⟩
  · intro p hp
    refine ⟨_, compactFile e w (newMatcher e o.flags p), by rw [ho]; simp only [compactOut, hp], firsts_only _, ?_⟩
    intro f _
    cases hr : w.read f with
    | none => simp [compactFile, hr]
    | some content => exact compactFile_hits hr
  · intro hp
    rw [ho]
    simp only [compactOut, hp]

example : (output engine world { options with verbose := false } scoring [unit, unit]).toOption =
    some [.hitLine DisplayExample.file 6 "the needle".toList] ∧
    (output engine world { options with verbose := false, pattern := none } scoring [unit]).toOption =
    some [.span DisplayExample.file 2 9] := by decide +kernel

/-- Verbose output: first the code, then the documents; in each the files by their best results, and for each file its results from top to
bottom, every result once, each with an excerpt of its lines (nothing if the file cannot be read). -/
theorem C66_verbose (us : List CodeUnit) (hne : us ≠ []) (h : o.filesOnly = false) (hv : o.verbose = true)
    (hp : ∀ f, o.paint = some f → OnlyColours f) (hu : ∀ u ∈ us, 1 ≤ u.line ∧ u.line ≤ u.endLine)
    (hm : ∀ f content, w.read f = some content → Moderate o (lines content)) (out : List Out) (hok : output e w o s us = .ok out) :
    ∃ (code docs : List (Text × List CodeUnit)) (shown : CodeUnit → List Out),
      ByFile (us.filter fun u => !u.isText) code ∧ ByFile (us.filter fun u => u.isText) docs ∧
      out = (code ++ docs).flatMap (fun g => .file (w.display g.1) :: g.2.flatMap shown ++ [.blank]) ∧
      ∀ u ∈ us, showUnit e w o s u = .ok (shown u) ∧ match w.read u.file with
        | none => shown u = []
        | some content => Excerpt o.paint (lines content) u.line (min u.endLine (lines content).length) (shown u) := by
  have ho : output e w o s us = verboseOut e w o s us := by
    unfold output
    rw [if_neg (by simp [h]), if_neg hne, if_pos hv]
  rw [ho] at hok
  obtain ⟨hshown, hout⟩ := verboseOut_ok hok
  refine ⟨_, _, shownOf e w o s, groupByFile_spec _, groupByFile_spec _, hout, ?_⟩
  intro u huu
  have hs := hshown u huu
  refine ⟨hs, ?_⟩
  cases hr : w.read u.file with
  | none =>
    simp only [showUnit, hr, Except.ok.injEq] at hs
    exact hs.symm
  | some content => exact C66_excerpt hr hp (hu u huu).1 (hu u huu).2 (hm _ _ hr) hs

example : (output engine world options scoring [unit, ⟨8, "gone".toList, 1, 2, [], true, true⟩, ⟨9, "away".toList, 1, 2, [], true, false⟩]).toOption =
    some [.file DisplayExample.file, .code 2 "def f():".toList, .code 3 "  a".toList, .dots, .code 5 "  c".toList,
      .code 6 "  the needle".toList, .code 7 "  d".toList, .dots, .blank, .file "away".toList, .blank, .file "gone".toList, .blank] := by
  decide +kernel

end

end NextPlaid.Props
