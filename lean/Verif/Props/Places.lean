import Verif.Proofs.Places
import Mathlib.Data.Fintype.Pigeonhole

namespace NextPlaid.Props

open NextPlaid NextPlaid.Spec NextPlaid.Places

/-- **C69** (every history).  After any sequence of searches, `init`s and `clear`s, with whatever outcome of the updates, every directory
stands where its project and model say. -/
theorem C69_history (name : Path → Text → Text) (l : List Order) : InPlace name (l.foldl (obey name) []) := obey_all inPlace_nil

/-- **C69** (the index read).  A search reads an index that has the vectors of the chosen project for the model asked for: its own index if
there is one, else that of the nearest project above that is on record for this model, kept to the subdirectory; else a new one. -/
theorem C69_search {name : Path → Text → Text} {s : Store} (h : InPlace name s) {p : Path} {m : Text} (hc : NoClash name s p m) {cwd : Option Path}
    {o : Option Outcome} {s' : Store} {dir : Text} {sub : Option Path} (hs : search name s cwd p m o = (s', some (dir, sub))) :
    ∃ root d, Chosen s cwd p m root sub ∧ dir = name root m ∧ (dir, d) ∈ s' ∧ d.complete = true ∧ d.holds = some (root, m) ∧
      ∀ rebuilt complete, o = some (.done rebuilt complete) → s' = update name s root m (.done rebuilt complete) := by
  have key : ∀ root, root <+: p → ∀ s'', s'' = o.elim s (fun o => update name s root m o) →
      ((look (name root m) s'').map (·.complete)).getD false = true →
      ∃ d, (name root m, d) ∈ s'' ∧ d.complete = true ∧ d.holds = some (root, m) := by
    rintro root hr s'' rfl hcom
    cases o with
    | none =>
      cases hl : look (name root m) s with
      | none => dsimp only [Option.elim] at hcom; rw [hl] at hcom; cases hcom
      | some d =>
        dsimp only [Option.elim] at hcom
        rw [hl] at hcom
        have hcom' : d.complete = true := hcom
        have hd := look_mem hl
        refine ⟨d, hd, hcom', ?_⟩
        have := update_holds (o := .busy) h hr hc (d := d) (by
          unfold update; rw [look_put, hl]; rfl) hcom'
        exact this
    | some o =>
      cases hl : look (name root m) (update name s root m o) with
      | none => dsimp only [Option.elim] at hcom; rw [hl] at hcom; cases hcom
      | some d =>
        dsimp only [Option.elim] at hcom
        rw [hl] at hcom
        exact ⟨d, look_mem hl, hcom, update_holds h hr hc hl hcom⟩
  unfold search at hs
  simp only [Prod.mk.injEq] at hs
  obtain ⟨h1, h2⟩ := hs
  have h2' := h2
  rw [h1] at h2
  split at h2
  · next hcom =>
    simp only [Option.some.injEq] at h2
    rcases searchParent_spec h hc cwd with ⟨e, hch⟩ | ⟨i, e, hch, hn⟩
    · rw [e] at h1 h2 hcom
      simp only [Prod.mk.injEq] at h2
      obtain ⟨rfl, rfl⟩ := h2
      obtain ⟨d, hd, hc1, hc2⟩ := key p (List.prefix_refl _) s' (by cases o <;> exact h1.symm) hcom
      refine ⟨p, d, hch, rfl, hd, hc1, hc2, ?_⟩
      rintro a b rfl
      exact h1.symm
    · rw [e] at h1 h2 hcom
      simp only [Prod.mk.injEq] at h2
      obtain ⟨rfl, rfl⟩ := h2
      obtain ⟨d, hd, hc1, hc2⟩ := key i.root (chosen_prefix hch) s' (by cases o <;> exact h1.symm) hcom
      refine ⟨i.root, d, hch, parent_dir h hn, ?_, hc1, hc2, ?_⟩
      · rw [parent_dir h hn]; exact hd
      · rintro a b rfl
        exact h1.symm
  · cases h2

/-- **C69** (nothing else).  A command for a directory and a model (other than `clear --all`) leaves every index of another model, and every
index of a project that is neither this directory nor above it. -/
theorem C69_isolated {name : Path → Text → Text} {s : Store} (h : InPlace name s) {p : Path} {m : Text} (hc : NoClash name s p m) {n : Text} {d : Dir}
    (hd : (n, d) ∈ s) {q : Path} {m' : Text} (hh : BelongsTo d q m') (hne : ¬ (m' = m ∧ q <+: p)) :
    (∀ cwd o, (n, d) ∈ obey name s (.search cwd p m o)) ∧ (∀ o, (n, d) ∈ obey name s (.init p m o)) ∧ (n, d) ∈ obey name s (.clear p m) := by
  have hpar : rootOf p (findParent s p m) <+: p := by
    rcases findParent_best s p m with ⟨e, _⟩ | ⟨i, e, hn⟩
    · rw [e]; exact List.prefix_refl _
    · rw [e]; exact ⟨i.subdir, hn.2.1.1.symm⟩
  have hrem : ∀ r, r <+: p → (n, d) ∈ remove (name r m) s := by
    intro r hr
    rw [mem_remove]
    refine ⟨hd, fun e => ?_⟩
    obtain ⟨rfl, rfl⟩ := hc _ _ q m' r hd hh hr (e.symm.trans (belongs_name h hd hh))
    exact hne ⟨rfl, hr⟩
  refine ⟨?_, fun o => stay h hpar hc hd hh hne, ?_⟩
  · intro cwd o
    cases o with
    | none => exact hd
    | some o =>
      refine stay h ?_ hc hd hh hne
      rcases searchParent_spec h hc cwd with ⟨e, hch⟩ | ⟨i, e, hch, _⟩
      · rw [e]; exact List.prefix_refl _
      · rw [e]; exact chosen_prefix hch
  · simp only [obey, clear]
    split
    · exact hrem p (List.prefix_refl _)
    · rcases findParent_best s p m with ⟨e, _⟩ | ⟨i, e, hn⟩
      · rw [e]; exact hd
      · rw [e]
        dsimp only
        rw [parent_dir h hn]
        exact hrem _ ⟨i.subdir, hn.2.1.1.symm⟩

/-- **C69** (cleared).  After `clear` the directory has no index of its own for the model any more. -/
theorem C69_cleared {name : Path → Text → Text} {s : Store} (h : InPlace name s) {p : Path} {m : Text} :
    ¬ HasIndex (obey name s (.clear p m)) p m := by
  rintro ⟨n, d, hd, _, hh⟩
  have hn : n = name p m := belongs_name (obey_ok h (.clear p m)) hd (.inl hh)
  simp only [obey, clear] at hd
  split at hd
  · exact (mem_remove.1 hd).2 hn
  · next hl =>
    have hd' : (n, d) ∈ s := by
      split at hd
      · exact (mem_remove.1 hd).1
      · exact hd
    rw [hn] at hd'
    exact look_none hl hd'

/-! ### Examples: names that do not clash -/

@[reducible] def plainName (p : Path) (m : Text) : Text := render p ++ '|' :: m

@[reducible] def someStore : Store :=
  [(plainName ["a".toList] "m".toList, ⟨some (["a".toList], some "m".toList), true, some (["a".toList], "m".toList)⟩),
   (plainName ["a".toList, "b".toList] "m".toList,
     ⟨some (["a".toList, "b".toList], some "m".toList), true, some (["a".toList, "b".toList], "m".toList)⟩),
   (plainName ["a".toList] "n".toList, ⟨some (["a".toList], some "n".toList), true, some (["a".toList], "n".toList)⟩)]

/-- Below `/a/b` the index of `/a/b` is used, below `/a` elsewhere that of `/a`; with another model the one for that. -/
example : (search plainName someStore (some []) ["a".toList, "b".toList, "c".toList] "m".toList (some (.done false true))).2 =
      some (plainName ["a".toList, "b".toList] "m".toList, some ["c".toList]) ∧
    (search plainName someStore (some []) ["a".toList, "x".toList] "m".toList none).2 = some (plainName ["a".toList] "m".toList, some ["x".toList]) ∧
    (search plainName someStore (some []) ["a".toList, "b".toList] "n".toList none).2 = some (plainName ["a".toList] "n".toList, some ["b".toList]) ∧
    (search plainName someStore (some []) ["z".toList] "m".toList none).2 = none := by decide +kernel

example : ((([Order.search (some []) ["a".toList] "m".toList (some (.done true true)),
      .search (some ["a".toList]) ["a".toList, "b".toList] "m".toList (some (.done false true)),
      .clear ["a".toList, "b".toList] "m".toList].foldl (obey plainName) []) : Store)) = [] := by decide +kernel

example : someStore = [Order.search none ["a".toList] "m".toList (some (.done true true)),
      .search (some ["q".toList]) ["a".toList, "b".toList] "m".toList (some (.done true true)),
      .init ["a".toList] "n".toList (.done true true)].foldl (obey plainName) [] ∧ InPlace plainName someStore := by
  have h : someStore = [Order.search none ["a".toList] "m".toList (some (.done true true)),
      .search (some ["q".toList]) ["a".toList, "b".toList] "m".toList (some (.done true true)),
      .init ["a".toList] "n".toList (.done true true)].foldl (obey plainName) [] := by decide +kernel
  exact ⟨h, by rw [h]; exact C69_history _ _⟩

example : NoClash plainName someStore ["a".toList, "x".toList] "m".toList := by
  intro n d q m' r hd hb hr e
  have hr' : r = [] ∨ r = ["a".toList] ∨ r = ["a".toList, "x".toList] := by
    rw [List.prefix_cons_iff] at hr
    rcases hr with h | ⟨t, rfl, h⟩
    · exact .inl h
    · rw [List.prefix_cons_iff] at h
      rcases h with h | ⟨t, rfl, h⟩
      · subst h; exact .inr (.inl rfl)
      · rw [List.prefix_nil] at h; subst h; exact .inr (.inr rfl)
  have hq : (q = ["a".toList] ∧ m' = "m".toList) ∨ (q = ["a".toList, "b".toList] ∧ m' = "m".toList) ∨ (q = ["a".toList] ∧ m' = "n".toList) := by
    simp only [List.mem_cons, List.not_mem_nil, or_false, Prod.mk.injEq] at hd
    rcases hd with ⟨_, rfl⟩ | ⟨_, rfl⟩ | ⟨_, rfl⟩ <;> rcases hb with hb | hb <;> simp only [Option.some.injEq, Prod.mk.injEq] at hb <;>
      obtain ⟨rfl, rfl⟩ := hb <;> decide +kernel
  rcases hq with ⟨rfl, rfl⟩ | ⟨rfl, rfl⟩ | ⟨rfl, rfl⟩ <;> rcases hr' with rfl | rfl | rfl <;> revert e <;> decide +kernel

/-- **C69** is false where names clash, and whatever the hash is there are such projects: two directories with the same last name whose
indices are in the same place.  The first search in the second one with `--no-update` is answered from the index of the first one. -/
theorem C69_clash_refuted (hash : Text → Fin (2 ^ 64)) (alnum : Char → Bool) (m : Text) : ∃ p q : Path, p ≠ q ∧
    dirName hash alnum p m = dirName hash alnum q m ∧
    ∃ s : Store, s = obey (dirName hash alnum) [] (.search none p m (some (.done true true))) ∧
      ∃ dir d, (search (dirName hash alnum) s none q m none).2 = some (dir, none) ∧ look dir s = some d ∧ d.holds = some (p, m) := by
  obtain ⟨i, j, hij, e⟩ := Finite.exists_ne_map_eq_of_infinite
    fun i : Nat => hash (render [List.replicate i 'x', "app".toList] ++ '|' :: m)
  have hne : ([List.replicate i 'x', "app".toList] : Path) ≠ [List.replicate j 'x', "app".toList] := by
    intro h
    have := congrArg (fun l : Path => (l.headD []).length) h
    simp at this
    exact hij this
  have hname : dirName hash alnum [List.replicate i 'x', "app".toList] m = dirName hash alnum [List.replicate j 'x', "app".toList] m := by
    simp only [dirName, sanitized, List.getLast?_cons_cons, List.getLast?_singleton]
    rw [e]
  generalize hp : ([List.replicate i 'x', "app".toList] : Path) = p at *
  generalize hq : ([List.replicate j 'x', "app".toList] : Path) = q at *
  refine ⟨p, q, hne, hname, _, rfl, dirName hash alnum q m, ⟨some (p, some m), true, some (p, m)⟩, ?_, ?_, rfl⟩
  · have hs : obey (dirName hash alnum) [] (.search none p m (some (.done true true))) =
        [(dirName hash alnum q m, ⟨some (p, some m), true, some (p, m)⟩)] := by
      simp [obey, search, searchParent, indexExists, findIndex, look, external, findParent, rootOf, update, put, updated, hname]
    rw [hs]
    simp [search, searchParent, indexExists, findIndex, look, rootOf, hne]
  · have hs : obey (dirName hash alnum) [] (.search none p m (some (.done true true))) =
        [(dirName hash alnum q m, ⟨some (p, some m), true, some (p, m)⟩)] := by
      simp [obey, search, searchParent, indexExists, findIndex, look, external, findParent, rootOf, update, put, updated, hname]
    rw [hs]
    simp [look]

/-- **C69** is false for `init`: in a directory that has its own index and lies in an indexed project it brings the project's index up to
date, and not the one that searches there read. -/
theorem C69_init_refuted : Places.init plainName someStore ["a".toList, "b".toList] "m".toList (.done true true) =
      update plainName someStore ["a".toList] "m".toList (.done true true) ∧
    (search plainName someStore (some []) ["a".toList, "b".toList] "m".toList none).2 =
      some (plainName ["a".toList, "b".toList] "m".toList, none) := by decide +kernel

/-- **C69**: from inside a project, a search in a directory above the current one does not use the project's index but builds another one
(as the code says, for "external projects"). -/
theorem C69_upwards_refuted : (search plainName someStore (some ["a".toList, "x".toList, "y".toList]) ["a".toList, "x".toList] "m".toList
      (some (.done true true))).2 = some (plainName ["a".toList, "x".toList] "m".toList, none) := by decide +kernel

end NextPlaid.Props
