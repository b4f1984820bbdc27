import Verif.Proofs.Filters

/-!
C53: a search with restrictions looks at the code units that meet all of them and at no others.

It fails in general: a directory is found by the first letters of a path, so that other directories are searched too, and a pattern
`**/name` lifts the restriction to a directory.  Proved: the filters combine to exactly the units that meet every restriction, if no
other directory begins like the one given, no such pattern is used and the patterns are those of C51 and C52; nothing in the directory
is lost whatever its name; and the exclusions, the text and the file always hold.
-/

namespace NextPlaid.Props

open NextPlaid.Globs NextPlaid.Spec

/-- The request as it is given on the command line. -/
def asWritten (w : Wanted) : Request := ⟨w.subdir, w.text, w.included.map written, w.file, w.exclude, w.excludeDirs⟩

/-- C53 (partial): what is searched are the units that meet all restrictions.  Missing: directories with `%` or `_` in their name or
with others that begin alike, patterns `**/name`, and the patterns that are missing in C51 and C52. -/
theorem C53_filters_partial (order : List Int → List Int) (ho : ∀ l i, i ∈ order l ↔ i ∈ l) (inSubdir : List Char → Bool)
    (rows : List Row) (hd : (rows.map (·.id)).Nodup) (hrows : ∀ row ∈ rows, '\n' ∉ row.file) (w : Wanted)
    (htext : ∀ ids, w.text = some ids → ∀ i ∈ ids, ∃ row ∈ rows, row.id = i)
    (hesc : w.subdir ≠ none → ∀ p ∈ w.included.map written, ['*', '*', '/'] <+: p →
      '*' ∈ (p.drop 3).takeWhile (· ≠ '/') ∨ inSubdir ((p.drop 3).takeWhile (· ≠ '/')) = true)
    (hsub : ∀ d, w.subdir = some d → '%' ∉ d ∧ '_' ∉ d ∧ ∀ row ∈ rows, BeginsLike d row.file → Below d row.file)
    (hok : ∀ segs ∈ w.included, ∀ s ∈ segs, s.Ok)
    (hinc : ∀ segs ∈ w.included, ∀ p ∈ choices segs, ¬ ['/'] <+: p ∧ Usual (withoutDirs p))
    (hexc : ∀ p ∈ w.exclude, '?' ∉ p ∧ ¬ ['*', '*', '/'] <+: p ∧ ¬ ['/'] <+: p)
    (hdirs : ∀ p ∈ w.excludeDirs, '?' ∉ p ∧ p.getLast? ≠ some '/' ∧ (['/'] <+: p → '*' ∈ p)) :
    match subset order inSubdir rows (asWritten w) with
    | none => ∀ row ∈ rows, ¬ Admits w row.id row.file
    | some none => ∀ row ∈ rows, Admits w row.id row.file
    | some (some ids) => (∀ i ∈ ids, ∃ row ∈ rows, row.id = i) ∧ ∀ row ∈ rows, (row.id ∈ ids ↔ Admits w row.id row.file) := by
  have hsubdir : (if escapes inSubdir (asWritten w).included then none else (asWritten w).subdir) = w.subdir := by
    cases hw : w.subdir with
    | none => simp [asWritten, hw]
    | some d =>
      have : escapes inSubdir (asWritten w).included = false := by
        rw [escapes, List.any_eq_false]
        intro p hp
        simp only [escapesBy, List.isPrefixOf_iff_prefix, anyDir]
        split
        · next hpre =>
          have h := hesc (by simp [hw]) p hp hpre
          simp only [ne_eq, decide_not] at h
          simp only [ne_eq, decide_not, List.contains_eq_mem, Bool.and_eq_true, Bool.not_eq_true', decide_eq_false_iff_not, not_and,
            Bool.not_eq_false]
          exact fun h' => h.resolve_left h'
        · simp
      rw [this]
      simp [asWritten, hw]
  have := subset_after ho inSubdir rows (asWritten w)
    (A := fun row => ∀ d, w.subdir = some d → Below d row.file) (B := fun row => ∀ ids, w.text = some ids → row.id ∈ ids)
    (C := fun row => w.included ≠ [] → ∃ segs ∈ w.included, SelectsOne segs row.file) (D := fun row => ∀ f, w.file = some f → row.file = f)
    (E := fun row => ∀ p ∈ w.exclude, ¬ Selects p row.file) (F := fun row => ∀ p ∈ w.excludeDirs, ¬ InDir p row.file)
    (by
      intro d h
      rw [hsubdir] at h
      obtain ⟨h1, h2, h3⟩ := hsub d h
      refine exact_filter hd List.filter_sublist ?_
      intro row hr
      simp only [List.mem_filter, hr, true_and, like_iff d row.file h1 h2, h, Option.some.injEq, forall_eq']
      refine ⟨h3 row hr, ?_⟩
      rintro (rfl | ⟨rest, hrest⟩)
      · simp [BeginsLike]
      · rw [hrest, BeginsLike, List.map_append]; exact List.prefix_append _ _)
    (by
      intro h row _ d hdd
      rw [hsubdir] at h
      simp [h] at hdd)
    (by
      intro ids h
      refine ⟨htext ids h, ?_⟩
      intro row _
      simp only [asWritten] at h
      simp [h])
    (by intro h row _ ids hi; simp only [asWritten] at h; simp [h] at hi)
    (by
      intro h
      have hne : w.included ≠ [] := by intro h'; simp [asWritten, h'] at h
      obtain ⟨kept, h1, h2, h3⟩ := C52_include_partial rows w.included hne hok hinc
      rw [show (asWritten w).included = w.included.map written from rfl, h1]
      exact (exact_filter hd h2 h3).congr fun row _ => ⟨fun h _ => h, fun h => h hne⟩)
    (by intro h row _ hne; simp [asWritten] at h; exact absurd h hne)
    (by
      intro f h
      simp only [asWritten] at h
      refine exact_filter hd List.filter_sublist ?_
      intro row hr
      simp [hr, h])
    (by intro h row _ f hf; simp only [asWritten] at h; simp [h] at hf)
    (by
      intro _
      obtain ⟨kept, h1, h2, h3⟩ := C51_exclude_partial rows w.exclude hrows hexc
      rw [show (asWritten w).exclude = w.exclude from rfl, h1]
      exact exact_filter hd h2 h3)
    (by intro h row _ p hp; simp only [asWritten] at h; simp [h] at hp)
    (by
      intro _
      obtain ⟨kept, h1, h2, h3⟩ := C51_exclude_dir_partial rows w.excludeDirs hrows hdirs
      rw [show (asWritten w).excludeDirs = w.excludeDirs from rfl, h1]
      exact exact_filter hd h2 h3)
    (by intro h row _ p hp; simp only [asWritten] at h; simp [h] at hp)
  revert this
  rcases subset order inSubdir rows (asWritten w) with _ | _ | ids
  · exact id
  · exact id
  · exact id

/-- The files of a project. -/
def filterRows : List Row :=
  [⟨0, "src/a.rs".toList⟩, ⟨1, "src/b_test.rs".toList⟩, ⟨2, "src/gen/c.rs".toList⟩, ⟨3, "lib/d.rs".toList⟩, ⟨4, "src/e.md".toList⟩]

/-- `colgrep -e … --include '*.rs' --exclude '*_test.rs' --exclude-dir gen src`. -/
def filterWanted : Wanted :=
  ⟨some "src".toList, some [4, 2, 1, 0], [[.text "*.rs".toList]], none, ["*_test.rs".toList], ["gen".toList]⟩

/-- The hypotheses hold, and a.rs is left. -/
example : (filterRows.map (·.id)).Nodup ∧ (∀ d, filterWanted.subdir = some d →
      '%' ∉ d ∧ '_' ∉ d ∧ ∀ row ∈ filterRows, BeginsLike d row.file → Below d row.file) ∧
    (∀ segs ∈ filterWanted.included, (∀ s ∈ segs, s.Ok) ∧ ∀ p ∈ choices segs, ¬ ['/'] <+: p ∧ Usual (withoutDirs p)) ∧
    subset id (fun _ => true) filterRows (asWritten filterWanted) = some (some [0]) := by
  refine ⟨by decide, ?_, ?_, by decide⟩
  · simp only [filterWanted, Option.some.injEq, forall_eq']
    refine ⟨by decide, by decide, ?_⟩
    intro row hr hb
    simp only [filterRows, List.mem_cons, List.not_mem_nil, or_false] at hr
    rcases hr with rfl | rfl | rfl | rfl | rfl
    · exact .inr ⟨"a.rs".toList, by decide⟩
    · exact .inr ⟨"b_test.rs".toList, by decide⟩
    · exact .inr ⟨"gen/c.rs".toList, by decide⟩
    · exact absurd hb (by unfold BeginsLike; decide)
    · exact .inr ⟨"e.md".toList, by decide⟩
  · intro segs hs
    simp only [filterWanted, List.mem_cons, List.not_mem_nil, or_false] at hs
    subst hs
    have hu : Usual (withoutDirs "*.rs".toList) := .ext ".rs".toList (by unfold Plain; decide) (by decide)
    refine ⟨by simp [Seg.Ok], ?_⟩
    intro p hp
    have : p = "*.rs".toList := by simpa [choices] using hp
    subst this
    exact ⟨by decide, hu⟩

/-- C53: the exclusions, the text and the file hold for every unit that is searched, whatever the directory and the included files. -/
theorem C53_always_hold (order : List Int → List Int) (ho : ∀ l i, i ∈ order l ↔ i ∈ l) (inSubdir : List Char → Bool)
    (rows : List Row) (hd : (rows.map (·.id)).Nodup) (hrows : ∀ row ∈ rows, '\n' ∉ row.file) (rq : Request)
    (htext : ∀ ids, rq.text = some ids → ∀ i ∈ ids, ∃ row ∈ rows, row.id = i)
    (hexc : ∀ p ∈ rq.exclude, ¬ ['/'] <+: p)
    (hdirs : ∀ p ∈ rq.excludeDirs, p.getLast? ≠ some '/' ∧ (['/'] <+: p → '*' ∈ p))
    (searched : Option (List Int)) (h : subset order inSubdir rows rq = some searched) :
    ∀ row ∈ rows, (∀ ids, searched = some ids → row.id ∈ ids) →
      (∀ ids, rq.text = some ids → row.id ∈ ids) ∧ (∀ f, rq.file = some f → row.file = f) ∧
      (∀ p ∈ rq.exclude, ¬ Selects p row.file) ∧ ∀ p ∈ rq.excludeDirs, ¬ InDir p row.file := by
  obtain ⟨k1, e1, e2, e3⟩ := C51_exclude_hides rows rq.exclude hrows hexc
  obtain ⟨k2, d1, d2, d3⟩ := C51_exclude_dir_hides rows rq.excludeDirs hrows hdirs
  have key := subset_after ho inSubdir rows rq
    (A := fun row => ∀ d, (if escapes inSubdir rq.included then none else rq.subdir) = some d → row.id ∈ filterPrefix rows d)
    (B := fun row => ∀ ids, rq.text = some ids → row.id ∈ ids)
    (C := fun row => rq.included ≠ [] → row.id ∈ filterInclude rows rq.included) (D := fun row => ∀ f, rq.file = some f → row.file = f)
    (E := fun row => rq.exclude ≠ [] → row ∈ k1) (F := fun row => rq.excludeDirs ≠ [] → row ∈ k2)
    (by
      intro d h
      refine ⟨?_, by intro row _; simp [h]⟩
      intro i hi
      simp only [filterPrefix, List.mem_map, List.mem_filter] at hi
      obtain ⟨row, ⟨h1, _⟩, h2⟩ := hi
      exact ⟨row, h1, h2⟩)
    (by intro h row _ d hdd; simp [h] at hdd)
    (by intro ids h; exact ⟨htext ids h, by intro row _; simp [h]⟩)
    (by intro h row _ ids hi; simp [h] at hi)
    (by
      intro h
      refine ⟨?_, by intro row _; simp [h]⟩
      intro i hi
      simp only [filterInclude, h, if_false, List.mem_map, List.mem_filter] at hi
      obtain ⟨row, ⟨h1, _⟩, h2⟩ := hi
      exact ⟨row, h1, h2⟩)
    (by intro h row _ hne; exact absurd h hne)
    (by
      intro f h
      refine exact_filter hd List.filter_sublist ?_
      intro row hr
      simp [hr, h])
    (by intro h row _ f hf; simp [h] at hf)
    (by intro h; rw [e1]; exact exact_filter hd e2 fun row _ => ⟨fun h _ => h, fun h' => h' h⟩)
    (by intro h row _ hne; exact absurd h hne)
    (by intro h; rw [d1]; exact exact_filter hd d2 fun row _ => ⟨fun h _ => h, fun h' => h' h⟩)
    (by intro h row _ hne; exact absurd h hne)
  rw [h] at key
  intro row hr hin
  have hall : ∀ {P : Row → Prop}, After rows (some searched) P → P row := by
    intro P hP
    rcases searched with _ | ids
    · exact hP row hr
    · exact (hP.2 row hr).mp (hin ids rfl)
  obtain ⟨_, hB, _, hD, hE, hF⟩ := hall key
  exact ⟨hB, hD, fun p hp => e3 row (hE (List.ne_nil_of_mem hp)) p hp, fun p hp => d3 row (hF (List.ne_nil_of_mem hp)) p hp⟩

/-- C53: nothing in the directory is lost, whatever characters its name has. -/
theorem C53_subdir_complete (rows : List Row) (d : List Char) : ∀ row ∈ rows, Below d row.file → row.id ∈ filterPrefix rows d := by
  intro row hr hb
  simp only [filterPrefix, List.mem_map, List.mem_filter]
  refine ⟨row, ⟨hr, ?_⟩, rfl⟩
  rcases hb with rfl | ⟨rest, h⟩
  · exact like_prefix [] row.file
  · rw [h]; exact like_prefix d _

example : Below "100%_done".toList "100%_done/a.rs".toList ∧ filterPrefix [⟨7, "100%_done/a.rs".toList⟩] "100%_done".toList = [7] :=
  ⟨.inr ⟨"a.rs".toList, by decide⟩, by decide⟩

theorem not_below {d path : List Char} (hd : d ≠ []) (h : ¬ (d ++ ['/']) <+: path) : ¬ Below d path := by
  rintro (h' | ⟨rest, rfl⟩)
  · exact hd h'
  · exact h ⟨rest, by simp⟩

/-- A search in `src` also looks at src2, at a file src.rs and at SRC; one in `my_dir` also looks at my-dir. -/
theorem C53_subdir_too_wide :
    filterPrefix [⟨0, "src2/a.rs".toList⟩, ⟨1, "src.rs".toList⟩, ⟨2, "SRC/a.rs".toList⟩] "src".toList = [0, 1, 2] ∧
    (∀ path ∈ ["src2/a.rs".toList, "src.rs".toList, "SRC/a.rs".toList], ¬ Below "src".toList path) ∧
    filterPrefix [⟨0, "my-dir/a.rs".toList⟩] "my_dir".toList = [0] ∧ ¬ Below "my_dir".toList "my-dir/a.rs".toList := by
  refine ⟨by decide, ?_, by decide, not_below (by decide) (by decide)⟩
  intro path hp
  exact not_below (by decide) (by
    simp only [List.mem_cons, List.not_mem_nil, or_false] at hp
    rcases hp with rfl | rfl | rfl <;> decide)

/-- `colgrep --include '**/Makefile' src` looks at the other directories too if src itself has no Makefile, even if src/sub has one. -/
theorem C53_pattern_escapes :
    subset id (fun name => name = "sub".toList) [⟨0, "src/sub/Makefile".toList⟩, ⟨1, "lib/Makefile".toList⟩]
      (asWritten ⟨some "src".toList, none, [[.text "**/Makefile".toList]], none, [], []⟩) = some (some [0, 1]) ∧
    ¬ Below "src".toList "lib/Makefile".toList :=
  ⟨by decide, not_below (by decide) (by decide)⟩

end NextPlaid.Props
