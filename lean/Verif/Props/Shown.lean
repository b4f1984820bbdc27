import Verif.Proofs.Shown

/-!
C86: a unit that a search shows is the unit that was indexed.
-/

namespace NextPlaid.Props
open NextPlaid NextPlaid.Db NextPlaid.Json NextPlaid.JsonText NextPlaid.Spec NextPlaid.Shown

variable {R : Type} {F : Reals R} {G : Floats R}

/-- The default search, after any history of insertions and deletions: for the ids found and their scores, in their order, each
unit is shown with its own score and exactly as it was indexed, in all 22 fields; what is not shown are the units of which some text is
an array in JSON, and ids without metadata. -/
theorem C86_hybrid_partial (hF : LawfulReals F) {db : Option (Tables (sql G))} {us : List CodeUnit} (h : Stored F G db us)
    (order : List (OutRow (sql G)) → List (OutRow (sql G))) (ho : ∀ l, (order l).Perm l) (ids : List Int) (hn : ids.Nodup) {S : Type}
    (scores : List S) :
    hybrid F G order db ids scores =
      .ok ((ids.zip scores).filterMap fun p => (shownFor F us p.1).map fun u => (u, p.2)) := by
  obtain ⟨row, h1, hrow⟩ := rows_of_ids hF h order ho hn
  unfold hybrid
  rw [h1]
  simp only [bind, Except.bind]
  congr 1
  refine takeRows_eq hrow ids scores _ hn fun id hid => ?_
  rw [byId_map]
  · simp only [List.mem_filter, hid, true_and, decide_eq_true_eq]
  · intro i hi
    have := (List.mem_filter.1 hi).2
    simp only [decide_eq_true_eq] at this
    exact (hrow i this.1 this.2).1

/-- The search with `--semantic-only`: the same, for ids that have metadata. -/
theorem C86_semantic_partial (hF : LawfulReals F) {db : Option (Tables (sql G))} {us : List CodeUnit} (h : Stored F G db us)
    (order : List (OutRow (sql G)) → List (OutRow (sql G))) (ho : ∀ l, (order l).Perm l) (ids : List Int) (hn : ids.Nodup)
    (hr : ∀ id ∈ ids, 0 ≤ id ∧ id < us.length) {S : Type} (scores : List S) :
    results F G order db ids scores =
      .ok ((ids.zip scores).filterMap fun p => (shownFor F us p.1).map fun u => (u, p.2)) := by
  obtain ⟨row, h1, hrow⟩ := rows_of_ids hF h order ho hn
  have hf : (ids.filter fun id : Int => decide (0 ≤ id ∧ id < us.length)) = ids := by
    rw [List.filter_eq_self]
    intro id hid
    simpa using hr id hid
  unfold results
  rw [h1, hf]
  simp only [bind, Except.bind]
  congr 1
  rw [List.zip_map_left, List.filterMap_map]
  refine filterMap_congr' fun p hp => ?_
  obtain ⟨a, b⟩ := p
  have hin := hr a (List.of_mem_zip hp).1
  simp only [Function.comp, Prod.map, id_eq]
  rw [(hrow a hin.1 hin.2).2]

/-- What is shown was indexed, with nothing changed. -/
theorem C86_same (us : List CodeUnit) (id : Int) (u : CodeUnit) (h : shownFor F us id = some u) :
    0 ≤ id ∧ us[id.toNat]? = some u := by
  unfold shownFor at h
  split at h
  · cases h
  · refine ⟨by omega, ?_⟩
    cases hu : us[id.toNat]? with
    | none => rw [hu] at h; cases h
    | some u' =>
      rw [hu] at h
      rw [Option.filter_some] at h
      split at h
      · exact h
      · cases h

/-- Any units can be stored. -/
theorem C86_storable (us : List CodeUnit) (hs : ∀ u ∈ us, Small u) : ∃ db, Stored F G db us := by
  obtain ⟨db, h⟩ := create_units (F := F) (G := G) us
  exact ⟨db, .create hs h⟩

/-! ### Disagreements -/

/-- Disagreement: a file whose text is an array in JSON, however it is laid out and whatever follows, is indexed as a document and never
shown. -/
theorem C86_array_never_shown (hF : LawfulReals F) {db : Option (Tables (sql G))} {us : List CodeUnit} (h : Stored F G db us)
    (order : List (OutRow (sql G)) → List (OutRow (sql G))) (ho : ∀ l, (order l).Perm l) {S : Type} (score : S)
    (l : List (J R)) (hw : Writable F (.arr l)) (hd : depth (.arr l) < 128) (i : Nat) (u : CodeUnit) (hu : us[i]? = some u)
    (hc : u.code = compact F (.arr l) ∨ u.code = pretty F (.arr l)) :
    results F G order db [(i : Int)] [score] = .ok [] ∧ hybrid F G order db [(i : Int)] [score] = .ok [] := by
  have hs : shownFor F us i = none := by
    unfold shownFor
    rw [if_neg (by omega), Int.toNat_natCast, hu, Option.filter_some, if_neg]
    simp only [decide_eq_true_eq]
    intro hp
    apply hp u.code (by simp [texts])
    have hh := (C73_any_value hF _ hw).1 hd [] (by simp)
    rw [List.append_nil, List.append_nil] at hh
    rcases hc with hc | hc
    · rw [hc]
      refine ⟨?_, l, hh.1⟩
      cases l <;> exact ⟨_, rfl⟩
    · rw [hc]
      refine ⟨?_, l, hh.2⟩
      cases l <;> exact ⟨_, rfl⟩
  obtain ⟨hlt, _⟩ := List.getElem?_eq_some_iff.1 hu
  constructor
  · rw [C86_semantic_partial hF h order ho [(i : Int)] (by simp) (by simp; omega) [score]]
    simp [hs]
  · rw [C86_hybrid_partial hF h order ho [(i : Int)] (by simp) [score]]
    simp [hs]

/-- Disagreement: with `--semantic-only`, when a document found has no metadata, the documents behind it are shown with the scores of
other documents, and the last of them not at all; the default search does not do this. -/
theorem C86_scores_shift (hF : LawfulReals F) {db : Option (Tables (sql G))} {us : List CodeUnit} (h : Stored F G db us)
    (order : List (OutRow (sql G)) → List (OutRow (sql G))) (ho : ∀ l, (order l).Perm l) {S : Type} (first second : S)
    (i missing : Nat) (u : CodeUnit) (hu : us[i]? = some u) (hp : Plain F u) (hm : us.length ≤ missing) :
    results F G order db [(missing : Int), (i : Int)] [first, second] = .ok [(u, first)] ∧
    hybrid F G order db [(missing : Int), (i : Int)] [first, second] = .ok [(u, second)] := by
  obtain ⟨hlt, _⟩ := List.getElem?_eq_some_iff.1 hu
  have hn : [(missing : Int), (i : Int)].Nodup := by simp; omega
  have hs : shownFor F us i = some u := by
    unfold shownFor
    rw [if_neg (by omega), Int.toNat_natCast, hu, Option.filter_some, if_pos (by simpa using hp)]
  constructor
  · obtain ⟨row, h1, hrow⟩ := rows_of_ids hF h order ho hn
    have hf : ([(missing : Int), (i : Int)].filter fun id : Int => decide (0 ≤ id ∧ id < us.length)) = [(i : Int)] := by
      rw [List.filter_cons_of_neg (by simp; omega), List.filter_cons_of_pos (by simp; omega)]
      rfl
    unfold results
    rw [h1, hf]
    have := (hrow i (by omega) (by omega)).2
    simp [bind, Except.bind, this, hs]
  · rw [C86_hybrid_partial hF h order ho _ hn]
    rw [List.zip_cons_cons, List.zip_cons_cons, List.filterMap_cons, shownFor_none (by omega)]
    simp [hs]

/-! ### A concrete case -/

namespace ToyShown

/-- Numbers of the database. -/
@[reducible] def floats : Floats (Option Bool) where
  ofInt _ := none
  asInt _ := none
  finite r := r.isSome
  showReal _ := []
  showInt _ := []
  parse _ := none

/-- A function with a list of parameters, a docstring and a loop. -/
def function : CodeUnit :=
  ⟨"f".toList, "a.py::f".toList, "a.py".toList, 3, 9, .python, .function, "def f(x, y):".toList, some "[sic] adds".toList,
    ["x".toList, "y".toList], some "int".toList, none, none, ["g".toList], [], 2, true, false, false, ["z".toList], ["os".toList],
    "def f(x, y): ...".toList⟩

/-- A file `a.json`. -/
def document : CodeUnit :=
  ⟨"a".toList, "a.json".toList, "a.json".toList, 1, 1, .json, .document, [], none, [], none, none, none, [], [], 1, false, false, false, [], [],
    "[1]".toList⟩

/-- The bracket of the docstring does not begin an array; the text of the file is one. -/
example : Plain ToyJson.reals function ∧ ¬ Plain ToyJson.reals document := by
  constructor
  · intro s hs
    simp only [texts, function, List.mem_append, List.mem_cons, List.not_mem_nil, or_false, Option.toList_some, Option.toList_none] at hs
    rintro ⟨⟨t, ht⟩, l, hl⟩
    rcases hs with ((rfl | rfl | rfl | rfl | rfl) | rfl) | rfl
    · exact absurd ((congrArg List.head? ht).trans List.head?_cons) (by decide +kernel)
    · exact absurd ((congrArg List.head? ht).trans List.head?_cons) (by decide +kernel)
    · exact absurd ((congrArg List.head? ht).trans List.head?_cons) (by decide +kernel)
    · exact absurd ((congrArg List.head? ht).trans List.head?_cons) (by decide +kernel)
    · exact absurd ((congrArg List.head? ht).trans List.head?_cons) (by decide +kernel)
    · have : parse ToyJson.reals "[sic] adds".toList = none := by decide +kernel
      rw [this] at hl
      cases hl
    · exact absurd ((congrArg List.head? ht).trans List.head?_cons) (by decide +kernel)
  · intro h
    exact h "[1]".toList (by simp [texts, document]) ⟨⟨_, rfl⟩, [.int 1], by rfl⟩

example : ∃ db, Stored ToyJson.reals floats db [function, document, function] :=
  C86_storable _ (by intro u hu; simp at hu; rcases hu with rfl | rfl | rfl <;> (unfold Small; decide +kernel))

end ToyShown

end NextPlaid.Props
