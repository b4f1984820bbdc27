import Verif.Proofs.Scan

/-!
Property theorems C77 (colgrep indexes exactly the files of the project that its rules admit).  `fs` is the whole file system,
`root` the project root as given, which leads to the directory `t` at `r`.
-/

namespace NextPlaid.Props
open NextPlaid.Spec NextPlaid.Scan

variable {u : Rules} {fs : Tree} {root : List Comp} {r : List Name} {t : Tree}

/-- C77: the files to index are exactly the regular files of the project that are not too large, have a known and selected
language, and of which no directory on the way is excluded by git or ignored, nor the file itself. -/
theorem C77_scan (hr : resolve fs maxLinks [] root = some r) (ht : fs.get r = some t) (hd : Distinct t) (p : List Name) :
    p ∈ (scan u fs root).1 ↔ Belongs u t p := by
  rw [scan_eq hr ht]
  simp only [List.mem_map, List.mem_filter, beq_iff_eq]
  constructor
  · rintro ⟨⟨p', size⟩, ⟨hm, hv⟩, rfl⟩
    obtain ⟨h1, h2⟩ := (mem_walk_root u t p' size).mp hm
    obtain ⟨h3, n, l, h4, h5, h6⟩ := (verdict_true hr ht hd h1).mp hv
    exact ⟨size, n, l, h1, h3, h4, h5, h6, h2⟩
  · rintro ⟨size, n, l, h1, h3, h4, h5, h6, h2⟩
    exact ⟨(p, size), ⟨(mem_walk_root u t p size).mpr ⟨h1, h2⟩, (verdict_true hr ht hd h1).mpr ⟨h3, n, l, h4, h5, h6⟩⟩, rfl⟩

/-- C77: each of them once. -/
theorem C77_once (hr : resolve fs maxLinks [] root = some r) (ht : fs.get r = some t) (hd : Distinct t) : (scan u fs root).1.Nodup := by
  rw [scan_eq hr ht]
  exact List.Sublist.nodup (List.filter_sublist.map _) (walk_nodup u.keep t [] hd)

/-- C77: the number of skipped files is the number of files that are too large and not ignored. -/
theorem C77_skipped (hr : resolve fs maxLinks [] root = some r) (ht : fs.get r = some t) (hd : Distinct t) :
    ∃ large : List (List Name), large.Nodup ∧ (scan u fs root).2 = large.length ∧
      ∀ p, p ∈ large ↔ ∃ size, FileAt t p size ∧ 512 * 1024 < size ∧ WayOpen u p := by
  refine ⟨((walk u.keep [] t).filter fun e => verdict u fs root e == some false).map (·.1), ?_, ?_, fun p => ?_⟩
  · exact List.Sublist.nodup (List.filter_sublist.map _) (walk_nodup u.keep t [] hd)
  · rw [scan_eq hr ht, List.length_map]
  · simp only [List.mem_map, List.mem_filter, beq_iff_eq]
    constructor
    · rintro ⟨⟨p', size⟩, ⟨hm, hv⟩, rfl⟩
      obtain ⟨h1, h2⟩ := (mem_walk_root u t p' size).mp hm
      exact ⟨size, h1, (verdict_false hr ht hd h1).mp hv, h2⟩
    · rintro ⟨size, h1, h3, h2⟩
      exact ⟨(p, size), ⟨(mem_walk_root u t p size).mpr ⟨h1, h2⟩, (verdict_false hr ht hd h1).mpr h3⟩, rfl⟩

/-- C77: an indexed file lies inside the project, and its path leads to it without links. -/
theorem C77_inside (hr : resolve fs maxLinks [] root = some r) (ht : fs.get r = some t) (hd : Distinct t) {p : List Name}
    (h : p ∈ (scan u fs root).1) : resolve fs maxLinks [] (root ++ p.map .name) = some (r ++ p) := by
  obtain ⟨size, _, _, h1, _⟩ := (C77_scan hr ht hd p).mp h
  exact resolve_file hr ht hd h1

/-- C77: without force-include patterns, the way is open if and only if git excludes nothing on it and no name of it is
ignored. -/
theorem C77_default (hf : u.force = []) (p : List Name) :
    WayOpen u p ↔ (∀ q, q ≠ [] → q <+: p → u.git q (decide (q ≠ p)) = false) ∧ ∀ n ∈ p, ¬ IgnoredName u.extra n := by
  have key : ∀ q, IgnoredPath u.extra u.force q ↔ ∃ n ∈ q, IgnoredName u.extra n := by
    intro q
    unfold IgnoredPath
    rw [hf]
    simp
  unfold WayOpen
  constructor
  · intro h
    refine ⟨fun q hq hp => (h q hq hp).1, fun n hn hi => ?_⟩
    have hp : p ≠ [] := by intro e; rw [e] at hn; cases hn
    exact (h p hp (List.prefix_refl p)).2 ((key p).mpr ⟨n, hn, hi⟩)
  · rintro ⟨h1, h2⟩ q hq hp
    refine ⟨h1 q hq hp, fun hi => ?_⟩
    obtain ⟨n, hn, hi⟩ := (key q).mp hi
    exact h2 n (hp.subset hn) hi

/-- C77: a force-include pattern that fits a name works for every file whose other names are not ignored, at any depth. -/
theorem C77_force_name {p : List Name} (hg : ∀ q, q ≠ [] → q <+: p → u.git q (decide (q ≠ p)) = false)
    (h : ∀ n ∈ p, IgnoredName u.extra n → ∃ pat ∈ u.force, FitsName pat n) : WayOpen u p := by
  intro q hq hp
  refine ⟨hg q hq hp, ?_⟩
  rintro ⟨_, n, hn, hi, hno⟩
  exact hno (h n (hp.subset hn) hi)

/-- C77: a force-include pattern that names a directory of the project root includes everything below, ignored or not. -/
theorem C77_force_directory {d : Name} {p : List Name} (hd : d ∈ u.force) (hs : ¬ Starred d)
    (hg : ∀ q, q ≠ [] → q <+: d :: p → u.git q (decide (q ≠ d :: p)) = false) : WayOpen u (d :: p) := by
  intro q hq hp
  refine ⟨hg q hq hp, ?_⟩
  rintro ⟨hno, _⟩
  refine hno ⟨d, hd, Or.inr ⟨hs, ?_⟩⟩
  cases q with
  | nil => exact absurd rfl hq
  | cons m q =>
    obtain ⟨e, _⟩ := List.cons_prefix_cons.mp hp
    subst e
    cases q with
    | nil => left; simp [pathStr, List.intercalate]
    | cons m' q => right; exact ⟨List.intercalate ['/'] (m' :: q), by simp [pathStr, List.intercalate, List.intersperse]⟩

/-- Disagreement: force-include patterns that fit the path of a file do not help, if a directory on its way is ignored; the
walk does not enter it. -/
theorem C77_force_path_dead (hr : resolve fs maxLinks [] root = some r) (ht : fs.get r = some t) (hd : Distinct t) {q p : List Name}
    (hq : q ≠ []) (h : IgnoredPath u.extra u.force q) : q ++ p ∉ (scan u fs root).1 := by
  intro hm
  obtain ⟨_, _, _, _, _, _, _, _, hw⟩ := (C77_scan hr ht hd _).mp hm
  exact (hw q hq (List.prefix_append _ _)).2 h

/-- C77: the language of a file. -/
theorem C77_language (low : List Char → List Char) (n : Name) (l : Language) : detect low n = some l ↔ HasLanguage low n l :=
  detect_iff low n l

/-! ### Files given by name -/

variable {gitArg : Arg → Bool} {args : List Arg}

/-- C77: of the files given by name, one with a `..` is taken only if it lies inside the project, whatever links there are. -/
theorem C77_dotdot_inside {a : Arg} (ha : Comp.up ∈ a.comps) (h : a ∈ specific u fs root gitArg args) :
    ∃ q r, resolve fs maxLinks [] (a.full root) = some q ∧ resolve fs maxLinks [] root = some r ∧ r <+: q := by
  obtain ⟨_, h⟩ := List.mem_filter.mp h
  simp only [Bool.and_eq_true] at h
  have hw := h.1.1.1
  unfold within at hw
  rw [up_hasDots ha] at hw
  simp only [Bool.not_true, Bool.false_eq_true, if_false] at hw
  cases hq : resolve fs maxLinks [] (a.full root) with
  | none => rw [hq] at hw; cases hw
  | some q =>
    rw [hq] at hw
    simp only at hw
    cases hr : resolve fs maxLinks [] root with
    | none => rw [hr] at hw; cases hw
    | some r =>
      rw [hr] at hw
      exact ⟨q, r, rfl, rfl, List.isPrefixOf_iff_prefix.mp hw⟩

/-- C77, for relative paths in a project without links: a file given by name lies inside the project. -/
theorem C77_specific_inside_partial (ht : fs.get r = some t) (hr : resolve fs maxLinks [] root = some r) (hn : NoLinks t) {a : Arg}
    (ha : a.abs = false) (h : a ∈ specific u fs root gitArg args) :
    ∃ q, resolve fs maxLinks [] (a.full root) = some q ∧ r <+: q := by
  by_cases hu : Comp.up ∈ a.comps
  · obtain ⟨q, r', h1, h2, h3⟩ := C77_dotdot_inside hu h
    rw [hr] at h2
    cases h2
    exact ⟨q, h1, h3⟩
  · obtain ⟨_, h⟩ := List.mem_filter.mp h
    simp only [Bool.and_eq_true] at h
    obtain ⟨q, hq⟩ := Option.isSome_iff_exists.mp h.1.1.2
    refine ⟨q, hq, ?_⟩
    obtain ⟨p, hp⟩ := names_of_no_up _ hu
    have e : a.full root = root ++ p.map .name := by unfold Arg.full; rw [ha, hp]; simp
    rw [e] at hq
    obtain ⟨f', m, h1, h2⟩ := resolve_append fs _ _ _ _ _ hq
    rw [hr] at h1
    cases h1
    rw [resolve_no_links fs p f' r q ⟨t, ht, hn⟩ h2]
    exact List.prefix_append _ _

/-- C77, without force-include patterns and where git excludes the same: a file of the project that is given by its path is
taken if and only if its way is open. -/
theorem C77_specific_same_partial (hr : resolve fs maxLinks [] root = some r) (ht : fs.get r = some t) (hd : Distinct t)
    (hf : u.force = []) {p : List Name} {size : Nat} (h : FileAt t p size) (hm : relative p ∈ args)
    (hg : gitArg (relative p) = false ↔ ∀ q, q ≠ [] → q <+: p → u.git q (decide (q ≠ p)) = false) :
    relative p ∈ specific u fs root gitArg args ↔ WayOpen u p := by
  have hex : (resolve fs maxLinks [] ((relative p).full root)).isSome = true := by
    have e : (relative p).full root = root ++ p.map .name := by unfold Arg.full relative; simp
    rw [e, resolve_file hr ht hd h]
    rfl
  have hnames : (relative p).names = p := by
    unfold Arg.names relative
    simp only [List.filterMap_map]
    exact List.filterMap_some
  unfold specific
  rw [List.mem_filter]
  simp only [hm, true_and, within_file hr ht hd h, hex, Bool.true_and, hnames, Bool.and_eq_true, Bool.not_eq_true']
  rw [C77_default hf p, hg, and_comm]
  apply and_congr_right
  intro _
  rw [← Bool.not_eq_true, shouldIgnore_iff, hf]
  simp

/-- Disagreement: a file given by an absolute path is taken wherever it is, unless its path has a `..` or an ignored name; the
check of the project root sees no `..` and admits it. -/
theorem C77_absolute_outside {a : Arg} (hm : a ∈ args) (hu : hasDots a.str = false) {q : List Name}
    (hx : resolve fs maxLinks [] (a.full root) = some q) (hi : ∀ n ∈ a.names, ¬ IgnoredName u.extra n) (hg : gitArg a = false) :
    a ∈ specific u fs root gitArg args := by
  refine List.mem_filter.mpr ⟨hm, ?_⟩
  have h1 : within fs root a = true := by unfold within; rw [hu]; rfl
  have h2 : shouldIgnore u.extra u.force a.str a.names = false := by
    rw [← Bool.not_eq_true, shouldIgnore_iff]
    rintro ⟨_, n, hn, hi', _⟩
    exact hi n hn hi'
  rw [h1, hx, h2, hg]
  rfl

/-! ### A concrete project -/

/-- `/p` is the project; `/etc/secrets.txt` is not in it; `/p/l` leads to `/etc`. -/
def scanFs : Tree := .dir
  [("p".toList, .dir
    [("a.rs".toList, .file 10), ("Makefile".toList, .file 10), ("big.py".toList, .file 600000), ("x.bin".toList, .file 1),
     ("vendor".toList, .dir [("internal".toList, .dir [("v.go".toList, .file 5)])]),
     (".vscode".toList, .dir [("s.json".toList, .file 5)]),
     ("src".toList, .dir [("b..c.TS".toList, .file 3), ("build".toList, .dir [("o.c".toList, .file 3)])]),
     ("l".toList, .link true [.name "etc".toList])]),
   ("etc".toList, .dir [("secrets.txt".toList, .file 7)])]

/-- Without exclusions of git; every language. -/
def scanRules (extra force : List String) : Rules :=
  ⟨fun _ _ => false, extra.map String.toList, force.map String.toList, fun s => s.map Char.toLower, fun _ => true⟩

def scanRoot : List Comp := [.name "p".toList]

/-- The texts of the files to index. -/
def scanned (extra force : List String) : List String × Nat :=
  ((scan (scanRules extra force) scanFs scanRoot).1.map fun p => String.ofList (pathStr p), (scan (scanRules extra force) scanFs scanRoot).2)

set_option maxRecDepth 10000 in
theorem scan_cases : scanned [] [] = (["a.rs", "Makefile", "src/b..c.TS"], 1) ∧ scanned ["*.rs"] [".vscode", "build"] = (["Makefile", ".vscode/s.json",
    "src/b..c.TS", "src/build/o.c"], 1) := by decide +kernel

theorem scanFs_distinct : ∃ t, scanFs.get ["p".toList] = some t ∧ Distinct t := by
  refine ⟨_, rfl, ?_⟩
  repeat' first
    | exact .file
    | exact .link
    | (refine .dir (by decide) ?_; simp only [List.forall_mem_cons, List.not_mem_nil, false_imp_iff, implies_true, and_true]; refine ⟨?_, ?_⟩)
    | (refine .dir (by decide) ?_; simp only [List.forall_mem_cons, List.not_mem_nil, false_imp_iff, implies_true, and_true])
    | refine ⟨?_, ?_⟩

set_option maxRecDepth 10000 in
/-- Disagreement: the documented `--force-include vendor/internal` includes nothing. -/
theorem C77_vendor_internal : scanned [] ["vendor/internal"] = scanned [] [] ∧
    shouldIgnore [] ["vendor/internal".toList] "vendor/internal/v.go".toList ["vendor".toList, "internal".toList, "v.go".toList] = false := by
  decide +kernel

set_option maxRecDepth 10000 in
/-- Disagreement: files outside the project that `index_specific_files` takes, by an absolute path and by a link. -/
theorem C77_outside :
    specific (scanRules [] []) scanFs scanRoot (fun _ => false)
      [⟨true, [.name "etc".toList, .name "secrets.txt".toList]⟩, ⟨false, [.name "l".toList, .name "secrets.txt".toList]⟩,
       ⟨false, [.up, .name "etc".toList, .name "secrets.txt".toList]⟩] =
      [⟨true, [.name "etc".toList, .name "secrets.txt".toList]⟩, ⟨false, [.name "l".toList, .name "secrets.txt".toList]⟩] ∧
    resolve scanFs maxLinks [] (Arg.full scanRoot ⟨false, [.name "l".toList, .name "secrets.txt".toList]⟩) =
      some ["etc".toList, "secrets.txt".toList] := by
  decide +kernel

/-- The theorems apply to this project. -/
example (p : List Name) : ∃ t, p ∈ (scan (scanRules [] []) scanFs scanRoot).1 ↔ Belongs (scanRules [] []) t p := by
  obtain ⟨t, h1, h2⟩ := scanFs_distinct
  exact ⟨t, C77_scan (r := ["p".toList]) (by decide +kernel) h1 h2 p⟩

end NextPlaid.Props
