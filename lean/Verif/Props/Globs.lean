import Verif.Proofs.Globs3

/-!
C51: `--exclude` and `--exclude-dir` hide the files their patterns describe and no others.

It fails in general: `**/` at the start of a file pattern loses its anchor, `?` also stands for `/`, a file pattern that starts with
`/` selects other files than those it names, and directories named with a `/` at the end, or literally with one at the start, are not
excluded.  Proved: it holds for all other patterns; and with `?` or a leading `**/` nothing that should be hidden is shown.
-/

namespace NextPlaid.Props

open NextPlaid.Globs NextPlaid.Regex NextPlaid.Spec

/-- C51 (partial): patterns of files.  Missing: patterns that contain `?` or start with `**/` or `/`. -/
theorem C51_exclude_partial (rows : List Row) (patterns : List (List Char)) (hrows : ∀ row ∈ rows, '\n' ∉ row.file)
    (hps : ∀ p ∈ patterns, '?' ∉ p ∧ ¬ ['*', '*', '/'] <+: p ∧ ¬ ['/'] <+: p) :
    ∃ kept : List Row, filterExclude rows patterns = kept.map (·.id) ∧ kept.Sublist rows ∧
      ∀ row ∈ rows, (row ∈ kept ↔ ∀ p ∈ patterns, ¬ Selects p row.file) := by
  by_cases hne : patterns = []
  · exact ⟨rows, by simp [filterExclude, hne], List.Sublist.refl _, by simp [hne]⟩
  · simp only [filterExclude, hne, if_false]
    refine notMatching_kept rows patterns globToRegex Selects hne ?_
    intro p hp
    obtain ⟨hq, h1, h2⟩ := hps p hp
    refine ⟨filePieces p, stands_file p, ?_⟩
    intro row hr
    have hn := hrows row hr
    have hh : fileHead p = [anywhereRx] := by
      simp only [fileHead, List.isPrefixOf_iff_prefix, Bool.or_eq_true, anyDir, h1, h2, or_self, if_false]
    have hsel : Selects p row.file ↔ ∃ rest, EndOf rest row.file ∧ Describes (tokens p) rest := by
      unfold Selects
      split
      · exact absurd (by simp) h2
      · rfl
    rw [hsel, filePieces, hh, List.singleton_append, found_file rfl rfl _ _ hn]
    constructor
    · rintro ⟨rest, h3, h4⟩; exact ⟨rest, h3, describes_of_denotes _ _ (tokens_one p hq) h4⟩
    · rintro ⟨rest, h3, h4⟩; exact ⟨rest, h3, denotes_of_describes _ _ (endOf_newline h3 hn) h4⟩

/-- C51: a file that a pattern selects is hidden, also by patterns with `?` or a leading `**/`. -/
theorem C51_exclude_hides (rows : List Row) (patterns : List (List Char)) (hrows : ∀ row ∈ rows, '\n' ∉ row.file)
    (hps : ∀ p ∈ patterns, ¬ ['/'] <+: p) :
    ∃ kept : List Row, filterExclude rows patterns = kept.map (·.id) ∧ kept.Sublist rows ∧
      ∀ row ∈ kept, ∀ p ∈ patterns, ¬ Selects p row.file := by
  by_cases hne : patterns = []
  · exact ⟨rows, by simp [filterExclude, hne], List.Sublist.refl _, by simp [hne]⟩
  · simp only [filterExclude, hne, if_false]
    obtain ⟨kept, h1, h2, h3⟩ := notMatching_kept rows patterns globToRegex (fun p path => Found {} (pieces (filePieces p)) path) hne
      (fun p _ => ⟨filePieces p, stands_file p, fun _ _ => Iff.rfl⟩)
    refine ⟨kept, h1, h2, ?_⟩
    intro row hr p hp hs
    have hrow := h2.subset hr
    have hn := hrows row hrow
    refine (h3 row hrow).mp hr p hp ?_
    have hsel : ∃ rest, EndOf rest row.file ∧ Describes (tokens p) rest := by
      unfold Selects at hs
      split at hs
      · exact absurd (by simp) (hps _ hp)
      · exact hs
    obtain ⟨rest, h4, h5⟩ := hsel
    have h6 := denotes_of_describes _ _ (endOf_newline h4 hn) h5
    simp only [filePieces, fileHead]
    split
    · rw [List.nil_append, found_loose rfl rfl]
      rcases h4 with rfl | ⟨dir, hdir⟩
      · exact ⟨[], row.file, rfl, h6⟩
      · exact ⟨dir ++ ['/'], rest, by simp [hdir], h6⟩
    · rw [List.singleton_append, found_file rfl rfl _ _ hn]
      exact ⟨rest, h4, h6⟩

/-- C51 (partial): patterns of directories.  Missing: patterns that contain `?`, end with `/`, or start with `/` and have no wildcard. -/
theorem C51_exclude_dir_partial (rows : List Row) (dirs : List (List Char)) (hrows : ∀ row ∈ rows, '\n' ∉ row.file)
    (hds : ∀ p ∈ dirs, '?' ∉ p ∧ p.getLast? ≠ some '/' ∧ (['/'] <+: p → '*' ∈ p)) :
    ∃ kept : List Row, filterExcludeDirs rows dirs = kept.map (·.id) ∧ kept.Sublist rows ∧
      ∀ row ∈ rows, (row ∈ kept ↔ ∀ p ∈ dirs, ¬ InDir p row.file) := by
  by_cases hne : dirs = []
  · exact ⟨rows, by simp [filterExcludeDirs, hne], List.Sublist.refl _, by simp [hne]⟩
  · simp only [filterExcludeDirs, hne, if_false]
    refine notMatching_kept rows dirs dirToRegex InDir hne ?_
    intro p hp
    obtain ⟨hq, hlast, hstart⟩ := hds p hp
    have hlit : isGlob p = false → ['/'].isPrefixOf p = false := by
      intro hg
      rw [Bool.eq_false_iff]
      intro hpre
      have := hstart (List.isPrefixOf_iff_prefix.mp hpre)
      simp [isGlob, this] at hg
    obtain ⟨rs, h1, h2⟩ := dir_found p hlit
    refine ⟨rs, h1, ?_⟩
    intro row hr
    have hn := hrows row hr
    rw [h2 row.file hn]
    simp only [InDir, trimSlash, hlast, if_false, selectsDir_iff]
    constructor
    · rintro ⟨dir, r, h3, h4⟩; exact ⟨dir, r, h3, selD_one hq h4⟩
    · rintro ⟨dir, r, h3, h4⟩
      refine ⟨dir, r, h3, selD_mono (fun ts s hs hd => denotes_of_describes ts s ?_ hd) h4⟩
      exact endOf_newline hs (fun h => hn (by rw [h3]; simp [h]))

/-- C51: a file below a directory that a pattern selects is hidden, also by patterns with `?`. -/
theorem C51_exclude_dir_hides (rows : List Row) (dirs : List (List Char)) (hrows : ∀ row ∈ rows, '\n' ∉ row.file)
    (hds : ∀ p ∈ dirs, p.getLast? ≠ some '/' ∧ (['/'] <+: p → '*' ∈ p)) :
    ∃ kept : List Row, filterExcludeDirs rows dirs = kept.map (·.id) ∧ kept.Sublist rows ∧
      ∀ row ∈ kept, ∀ p ∈ dirs, ¬ InDir p row.file := by
  by_cases hne : dirs = []
  · exact ⟨rows, by simp [filterExcludeDirs, hne], List.Sublist.refl _, by simp [hne]⟩
  · simp only [filterExcludeDirs, hne, if_false]
    obtain ⟨kept, h1, h2, h3⟩ := notMatching_kept rows dirs dirToRegex
      (fun p path => ∃ dir r, path = dir ++ '/' :: r ∧ selD Denotes p dir) hne (by
        intro p hp
        obtain ⟨hlast, hstart⟩ := hds p hp
        have hlit : isGlob p = false → ['/'].isPrefixOf p = false := by
          intro hg
          rw [Bool.eq_false_iff]
          intro hpre
          have := hstart (List.isPrefixOf_iff_prefix.mp hpre)
          simp [isGlob, this] at hg
        obtain ⟨rs, h1, h2⟩ := dir_found p hlit
        exact ⟨rs, h1, fun row hr => h2 row.file (hrows row hr)⟩)
    refine ⟨kept, h1, h2, ?_⟩
    intro row hr p hp hs
    have hrow := h2.subset hr
    have hn := hrows row hrow
    refine (h3 row hrow).mp hr p hp ?_
    obtain ⟨dir, r, h4, h5⟩ := hs
    simp only [trimSlash, (hds p hp).1, if_false, selectsDir_iff] at h5
    refine ⟨dir, r, h4, selD_mono (fun ts s hs hd => denotes_of_describes ts s ?_ hd) h5⟩
    exact endOf_newline hs (fun h => hn (by rw [h4]; simp [h]))

/-- Rows: src/a.rs, src/a.test.ts, xfoo.rs, vendor/v.rs, x/src/a.rs. -/
def globRows : List Row :=
  [⟨0, ['s', 'r', 'c', '/', 'a', '.', 'r', 's']⟩, ⟨1, ['s', 'r', 'c', '/', 'a', '.', 't', 's']⟩, ⟨2, ['x', 'f', 'o', 'o', '.', 'r', 's']⟩,
    ⟨3, ['v', 'e', 'n', 'd', 'o', 'r', '/', 'v', '.', 'r', 's']⟩, ⟨4, ['x', '/', 's', 'r', 'c', '/', 'a', '.', 'r', 's']⟩]

/-- The hypotheses of `C51_exclude_partial` hold for these rows with `*.ts` and `src/*.rs`; rows 2 and 3 remain. -/
example : (∀ row ∈ globRows, '\n' ∉ row.file) ∧
    (∀ p ∈ [['*', '.', 't', 's'], ['s', 'r', 'c', '/', '*', '.', 'r', 's']], '?' ∉ p ∧ ¬ ['*', '*', '/'] <+: p ∧ ¬ ['/'] <+: p) ∧
    filterExclude globRows [['*', '.', 't', 's'], ['s', 'r', 'c', '/', '*', '.', 'r', 's']] = [2, 3] :=
  ⟨by decide +kernel, by decide +kernel, by decide +kernel⟩

/-- The hypotheses of `C51_exclude_dir_partial` hold with `vendor`, `*/src` and `/sr*`; row 2 remains. -/
example : (∀ p ∈ [['v', 'e', 'n', 'd', 'o', 'r'], ['*', '/', 's', 'r', 'c'], ['/', 's', 'r', '*']],
      '?' ∉ p ∧ p.getLast? ≠ some '/' ∧ (['/'] <+: p → '*' ∈ p)) ∧
    filterExcludeDirs globRows [['v', 'e', 'n', 'd', 'o', 'r'], ['*', '/', 's', 'r', 'c'], ['/', 's', 'r', '*']] = [2] :=
  ⟨by decide +kernel, by decide +kernel⟩

theorem describes_lits (p s : List Char) : Describes (p.map .lit) s ↔ s = p := by
  induction p generalizing s with
  | nil => rfl
  | cons c p ih =>
    simp only [List.map_cons, Describes, ih]
    exact ⟨by rintro ⟨_, rfl, rfl⟩; rfl, by rintro rfl; exact ⟨p, rfl, rfl⟩⟩

/-- `**/foo.rs` also hides xfoo.rs. -/
theorem C51_double_star_hides_more :
    filterExclude globRows [['*', '*', '/', 'f', 'o', 'o', '.', 'r', 's']] = [0, 1, 3, 4] ∧
      ¬ Selects ['*', '*', '/', 'f', 'o', 'o', '.', 'r', 's'] ['x', 'f', 'o', 'o', '.', 'r', 's'] := by
  refine ⟨by decide +kernel, ?_⟩
  have hns : '/' ∉ ['x', 'f', 'o', 'o', '.', 'r', 's'] := by decide
  rintro ⟨rest, rfl | ⟨dir, hd⟩, h⟩
  · rcases h with h | ⟨u, s', hu, _⟩
    · exact absurd ((describes_lits ['f', 'o', 'o', '.', 'r', 's'] _).mp h) (by decide)
    · exact hns (by rw [hu]; simp)
  · exact hns (by rw [hd]; simp)

/-- `xfoo?rs` also hides a file in a directory xfoo: `?` stands for `/` too. -/
theorem C51_question_mark_crosses :
    filterExclude [⟨0, ['x', 'f', 'o', 'o', '/', 'r', 's']⟩] [['x', 'f', 'o', 'o', '?', 'r', 's']] = [] ∧
      ¬ Selects ['x', 'f', 'o', 'o', '?', 'r', 's'] ['x', 'f', 'o', 'o', '/', 'r', 's'] := by
  refine ⟨by decide +kernel, ?_⟩
  rintro ⟨rest, hr, h⟩
  obtain ⟨_, rfl, _, rfl, _, rfl, _, rfl, c, _, rfl, hc, _, rfl, _, rfl, rfl⟩ := h
  rcases hr with hr | ⟨dir, hd⟩
  · simp only [List.cons.injEq, true_and, and_true] at hr; exact hc hr
  · have := congrArg List.length hd
    simp at this

/-- `/src/a.rs` hides x/src/a.rs and not src/a.rs. -/
theorem C51_root_pattern_wrong :
    filterExclude globRows [['/', 's', 'r', 'c', '/', 'a', '.', 'r', 's']] = [0, 1, 2, 3] ∧
      Selects ['/', 's', 'r', 'c', '/', 'a', '.', 'r', 's'] ['s', 'r', 'c', '/', 'a', '.', 'r', 's'] ∧
      ¬ Selects ['/', 's', 'r', 'c', '/', 'a', '.', 'r', 's'] ['x', '/', 's', 'r', 'c', '/', 'a', '.', 'r', 's'] := by
  refine ⟨by decide +kernel, (describes_lits ['s', 'r', 'c', '/', 'a', '.', 'r', 's'] _).mpr rfl, ?_⟩
  intro h
  exact absurd ((describes_lits ['s', 'r', 'c', '/', 'a', '.', 'r', 's'] _).mp h) (by decide)

/-- `--exclude-dir vendor/` and `--exclude-dir /vendor` exclude nothing. -/
theorem C51_dir_slash_ignored :
    filterExcludeDirs globRows [['v', 'e', 'n', 'd', 'o', 'r', '/']] = [0, 1, 2, 3, 4] ∧
      filterExcludeDirs globRows [['/', 'v', 'e', 'n', 'd', 'o', 'r']] = [0, 1, 2, 3, 4] ∧
      InDir ['v', 'e', 'n', 'd', 'o', 'r', '/'] ['v', 'e', 'n', 'd', 'o', 'r', '/', 'v', '.', 'r', 's'] ∧
      InDir ['/', 'v', 'e', 'n', 'd', 'o', 'r'] ['v', 'e', 'n', 'd', 'o', 'r', '/', 'v', '.', 'r', 's'] := by
  refine ⟨by decide +kernel, by decide +kernel, ?_, ?_⟩
  · exact ⟨['v', 'e', 'n', 'd', 'o', 'r'], ['v', '.', 'r', 's'], rfl, ['v', 'e', 'n', 'd', 'o', 'r'], .inl rfl,
      (describes_lits ['v', 'e', 'n', 'd', 'o', 'r'] _).mpr rfl⟩
  · exact ⟨['v', 'e', 'n', 'd', 'o', 'r'], ['v', '.', 'r', 's'], rfl, (describes_lits ['v', 'e', 'n', 'd', 'o', 'r'] _).mpr rfl⟩

end NextPlaid.Props
