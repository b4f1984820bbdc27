import Verif.Proofs.Include2
import Verif.Props.Globs

/-!
C52: `--include` shows the files its patterns describe and no others; braces stand for alternatives.

It fails in general: `*` and `?` cross directories here (other than in `--exclude`), nested braces lose alternatives, and a pattern
that starts with `/` shows nothing.  Proved: expansion of braces for all patterns without nesting, exactness for the usual forms of
patterns, and that nothing described is missing for all patterns whose `**/` are components and that do not start with `/`.
-/

namespace NextPlaid.Props

open NextPlaid.Globs NextPlaid.Spec

/-- C52: braces are expanded to every choice of alternatives, in order; groups may be many, alternatives may be empty. -/
theorem C52_braces (segs : List Seg) (h : ∀ s ∈ segs, s.Ok) : expandBraces (written segs) = choices segs := expandBraces_choices segs h

/-- The pattern `{src,lib}/*.{rs,md}`, and `x{,_test}.go` with an empty alternative. -/
example : ∃ segs, (∀ s ∈ segs, s.Ok) ∧ written segs = "{src,lib}/*.{rs,md}".toList ∧
    choices segs = ["src/*.rs".toList, "src/*.md".toList, "lib/*.rs".toList, "lib/*.md".toList] := by
  refine ⟨[.group ["src".toList, "lib".toList], .text "/*.".toList, .group ["rs".toList, "md".toList]], ?_, by decide, by decide⟩
  simp [Seg.Ok]

example : expandBraces "x{,_test}.go".toList = ["x.go".toList, "x_test.go".toList] := by decide

/-- C52 (partial): the files that are shown are those the patterns describe.  Missing: patterns that are not of the usual forms. -/
theorem C52_include_partial (rows : List Row) (patterns : List (List Seg)) (hne : patterns ≠ []) (hok : ∀ segs ∈ patterns, ∀ s ∈ segs, s.Ok)
    (hps : ∀ segs ∈ patterns, ∀ p ∈ choices segs, ¬ ['/'] <+: p ∧ Usual (withoutDirs p)) :
    ∃ kept : List Row, filterInclude rows (patterns.map written) = kept.map (·.id) ∧ kept.Sublist rows ∧
      ∀ row ∈ rows, (row ∈ kept ↔ ∃ segs ∈ patterns, SelectsOne segs row.file) := by
  refine ⟨rows.filter fun row => ((patterns.map written).flatMap expandBraces).any fun p => includes p row.file,
    by simp only [filterInclude, List.map_eq_nil_iff, hne, if_false], List.filter_sublist, ?_⟩
  intro row hr
  simp only [List.mem_filter, hr, true_and, List.any_eq_true, List.mem_flatMap, List.mem_map, exists_exists_and_eq_and, SelectsOne]
  constructor
  · rintro ⟨p, ⟨segs, h1, h2⟩, h3⟩
    rw [expandBraces_choices segs (hok segs h1)] at h2
    obtain ⟨h4, h5⟩ := hps segs h1 p h2
    exact ⟨segs, h1, p, h2, (selects_iff h4).mpr ((usual_iff h5 _).mp ((includes_iff h4).mp h3))⟩
  · rintro ⟨segs, h1, p, h2, h3⟩
    obtain ⟨h4, h5⟩ := hps segs h1 p h2
    exact ⟨p, ⟨segs, h1, by rwa [expandBraces_choices segs (hok segs h1)]⟩, (includes_iff h4).mpr ((usual_iff h5 _).mpr ((selects_iff h4).mp h3))⟩

/-- C52: a file that a pattern describes is shown, whatever wildcards the pattern has. -/
theorem C52_include_shows (rows : List Row) (patterns : List (List Seg)) (hok : ∀ segs ∈ patterns, ∀ s ∈ segs, s.Ok)
    (hps : ∀ segs ∈ patterns, ∀ p ∈ choices segs, ¬ ['/'] <+: p ∧ Orderly (withoutDirs p)) :
    ∀ row ∈ rows, (∃ segs ∈ patterns, SelectsOne segs row.file) → row.id ∈ filterInclude rows (patterns.map written) := by
  rintro row hr ⟨segs, h1, p, h2, h3⟩
  have hne : patterns ≠ [] := by intro h; rw [h] at h1; cases h1
  simp only [filterInclude, List.map_eq_nil_iff, hne, if_false, List.mem_map, List.mem_filter, List.any_eq_true, List.mem_flatMap]
  obtain ⟨h4, h5, h6⟩ := hps segs h1 p h2
  obtain ⟨rest, h7, h8⟩ := (selects_iff h4).mp h3
  refine ⟨row, ⟨hr, p, ⟨_, ⟨segs, h1, rfl⟩, by rwa [expandBraces_choices segs (hok segs h1)]⟩, ?_⟩, rfl⟩
  exact (includes_iff h4).mpr ⟨rest, h7, (describes_globset _ h6).1 h5 rest h8⟩

/-- The hypotheses hold for `*.{rs,ts}` and `src/**/*.rs`; the files are those of `globRows`. -/
example : (∀ p ∈ choices [.text "*.".toList, .group ["rs".toList, "ts".toList]] ++ choices [.text "src/**/*.rs".toList],
      ¬ ['/'] <+: p ∧ Usual (withoutDirs p) ∧ Orderly (withoutDirs p)) ∧
    filterInclude globRows ["src/**/*.rs".toList, "*.{md,ts}".toList] = [0, 1, 4] := by
  refine ⟨?_, by decide⟩
  have hc : choices [.text "*.".toList, .group ["rs".toList, "ts".toList]] ++ choices [.text "src/**/*.rs".toList] =
    ["*.rs".toList, "*.ts".toList, "src/**/*.rs".toList] := by decide
  rw [hc]
  have h1 : Usual (withoutDirs "*.rs".toList) := .ext ".rs".toList (by unfold Plain; decide) (by decide)
  have h2 : Usual (withoutDirs "*.ts".toList) := .ext ".ts".toList (by unfold Plain; decide) (by decide)
  have h3 : Usual (withoutDirs "src/**/*.rs".toList) := .belowExt "src".toList ".rs".toList (by unfold Plain; decide) (by unfold Plain; decide) (by decide)
  intro p hp
  simp only [List.mem_cons, List.not_mem_nil, or_false] at hp
  rcases hp with rfl | rfl | rfl
  · exact ⟨by decide, h1, by unfold Orderly; decide⟩
  · exact ⟨by decide, h2, by unfold Orderly; decide⟩
  · exact ⟨by decide, h3, by unfold Orderly; decide⟩

/-- `src/*.rs` also shows src/a/b.rs, which `--exclude src/*.rs` would not hide. -/
theorem C52_star_crosses :
    filterInclude [⟨0, "src/a/b.rs".toList⟩] ["src/*.rs".toList] = [0] ∧ ¬ Selects "src/*.rs".toList "src/a/b.rs".toList ∧
      filterExclude [⟨0, "src/a/b.rs".toList⟩] ["src/*.rs".toList] = [0] := by
  have h : filterExclude [⟨0, "src/a/b.rs".toList⟩] ["src/*.rs".toList] = [0] := by decide
  refine ⟨by decide, ?_, h⟩
  obtain ⟨kept, h1, h2, h3⟩ := C51_exclude_partial [⟨0, "src/a/b.rs".toList⟩] ["src/*.rs".toList] (by decide) (by decide)
  rw [h] at h1
  have : (⟨0, "src/a/b.rs".toList⟩ : Row) ∈ kept := by
    cases kept with
    | nil => simp at h1
    | cons r k => have := h2.subset (List.mem_cons_self); simp at this; simp [this]
  exact (h3 _ (by simp)).mp this _ (by simp)

/-- `{a,{b,c}}.rs` shows b.rs and c.rs and not a.rs. -/
theorem C52_nested_braces_lose :
    expandBraces "{a,{b,c}}.rs".toList = ["a}.rs".toList, "b.rs".toList, "c.rs".toList] ∧
      filterInclude [⟨0, "a.rs".toList⟩, ⟨1, "b.rs".toList⟩, ⟨2, "c.rs".toList⟩] ["{a,{b,c}}.rs".toList] = [1, 2] := by decide

/-- `/src/a.rs` shows nothing, although it describes src/a.rs. -/
theorem C52_root_pattern_empty :
    filterInclude globRows ["/src/a.rs".toList] = [] ∧ Selects "/src/a.rs".toList "src/a.rs".toList := by
  refine ⟨by decide, ?_⟩
  exact (describes_lits "src/a.rs".toList _).mpr rfl

/-- `--exclude` does not know braces: `*.{rs,ts}` hides nothing, while `--include *.{rs,ts}` shows all the files. -/
theorem C52_exclude_without_braces :
    filterExclude globRows ["*.{rs,ts}".toList] = [0, 1, 2, 3, 4] ∧ filterInclude globRows ["*.{rs,ts}".toList] = [0, 1, 2, 3, 4] := by
  exact ⟨by decide, by decide⟩

end NextPlaid.Props
