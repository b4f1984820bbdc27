import Verif.Proofs.Db5

/-!
Property theorems C23, C40, C41 (metadata store).

`Spec.Kept db rows`: the database `db` results from creating, appending, deleting and conditionally
changing metadata with the ids `0, 1, ..` the index gives out; the same calls on a plain list give
`rows`.  `Spec.Shows db rows`: listing the database shows `rows`.
-/

namespace NextPlaid.Props
open NextPlaid NextPlaid.Index NextPlaid.Spec NextPlaid.Db

variable {S : Sql}

/-! ### A concrete instance -/

/-- Values are integers, 0 is NULL; a column of type 1 stores `v` as `v`, of type 2 as `v * 10`. -/
@[reducible] def ToySql : Sql where
  V := Int
  null := 0
  isNull := fun v => v == 0
  Ty := Nat
  text := 1
  infer := fun v => if 0 ≤ v then 1 else 2
  cell := fun ty v => if ty = 1 then v else v * 10

theorem toySql_lawful : ToySql.Lawful where
  cell_null := by intro ty; simp

/-- The value of a call that succeeds. -/
def okVal {α : Type} : (r : Res α) → r.isOk = true → α
  | .ok a, _ => a

theorem okVal_eq {α : Type} (r : Res α) (h : r.isOk = true) : r = .ok (okVal r h) := by
  cases r with
  | ok a => rfl
  | error e => cases h

/-- What a caller sees of a database, in a form that can be computed. -/
def toyRows (r : Res (List (OutRow ToySql))) : Option (List (Int × List (String × Int))) :=
  match r with
  | .ok l => some (l.map fun r => (r.subset, r.cols))
  | .error _ => none

/-! ### C23 -/

/-- C23: the metadata store behaves as a list: after any sequence of calls, listing it shows exactly
the rows of the list, with ids `0, 1, ..`.  In particular a deletion removes exactly the listed ids
and renumbers the survivors without touching their contents. -/
theorem C23_store_is_list (hS : S.Lawful) {db : Option (Tables S)} {rows : List (Item S)} (h : Kept db rows) :
    Shows db rows ∧ count db = rows.length := by
  have hr := kept_rep hS h
  refine ⟨shows_of_rep hS hr, ?_⟩
  cases db with
  | none => have : rows = [] := hr; subst this; rfl
  | some t =>
    obtain ⟨P, hP, rfl⟩ := hr
    show t.thin.length = _
    rw [hP.thin, thinFrom_length, List.length_map]

/-- C23: deleting (repeated, out-of-range, negative ids allowed) returns the number of rows removed and
leaves the list without the rows at the given ids. -/
theorem C23_delete (hS : S.Lawful) {db : Option (Tables S)} {rows : List (Item S)} (h : Kept db rows)
    (ids : List Int) :
    (delete db ids).2 = rows.length - (deleteIds ids rows).length ∧
    Shows (delete db ids).1 (deleteIds ids rows) := by
  obtain ⟨h1, h2⟩ := delete_rep (kept_rep hS h) ids
  exact ⟨h2, shows_of_rep hS h1⟩

/-- C23, for a table with any ids (the caller of the metadata module may choose them): the rows with a
listed id disappear, every other row keeps its contents and its id decreases by the number of distinct
non-negative listed ids below it. -/
theorem C23_delete_any_table (t : Tables S) (ids : List Int) :
    (deleteV2 t ids).1.thin = (t.thin.filter fun r => decide (r.subset ∉ ids)).map (fun r =>
      { r with subset := r.subset -
          ((ids.eraseDups.filter fun d => decide (0 ≤ d ∧ d < r.subset)).length : Int) }) ∧
    (deleteV2 t ids).2 = (t.thin.filter fun r => decide (r.subset ∈ ids)).length :=
  deleteV2_any t ids

/-- Disagreement with the stronger reading "minus the number of *existing* deleted ids": with ids chosen
by the caller, deleting an id that is not there still moves the rows above it. -/
theorem C23_missing_id_shifts :
    toyRows (get id (some ⟨[("a", 1)], [], [⟨5, 0, [7]⟩], [⟨0, []⟩]⟩ : Option (Tables ToySql)) none none) =
      some [(5, [("a", 7)])] ∧
    toyRows (get id (delete (some ⟨[("a", 1)], [], [⟨5, 0, [7]⟩], [⟨0, []⟩]⟩ : Option (Tables ToySql)) [0, 1]).1 none none) =
      some [(3, [("a", 7)])] ∧
    (delete (some ⟨[("a", 1)], [], [⟨5, 0, [7]⟩], [⟨0, []⟩]⟩ : Option (Tables ToySql)) [0, 1]).2 = 0 := by
  decide +kernel

/-- A history with a column added late, a non-object row, a deletion with repeated, negative and
out-of-range ids, and a conditional change. -/
example : ∃ (db : Option (Tables ToySql)) (rows : List (Item ToySql)), Kept db rows ∧
    rows = [some [("b", 8), ("a", 1), ("file", 5)], none, some [("a", 4), ("z", -3)]] ∧
    toyRows (get id db none none) = some [
      (0, [("file", 5), ("a", 1), ("b", 8), ("z", 0)]), (1, [("file", 0), ("a", 0), ("b", 0), ("z", 0)]),
      (2, [("file", 0), ("a", 4), ("b", 0), ("z", -30)])] := by
  refine ⟨_, _, .change (S := ToySql) (sat := fun r => r.value "a" == 1) (upd := [("b", 8)]) (valid := true)
    (.delete [2, 2, -1, 9] (.update (S := ToySql) (items := [some [("a", 4), ("z", -3)]])
      (.create (S := ToySql) (items := [some [("a", 1), ("file", 5)], none, some [("b", 2)]])
        (okVal_eq _ (by decide +kernel))) (okVal_eq _ (by decide +kernel)))) (okVal_eq _ (by decide +kernel))
    (okVal_eq _ (by decide +kernel)), ?_, ?_⟩ <;>
  decide +kernel

/-! ### C40 -/

/-- C40: looking up ids, in whatever order SQLite returns the rows of a chunk, gives for each distinct
requested id, in the order requested, the row that the full listing shows under that id; ids that do
not exist are skipped.  The list of ids may have any length. -/
theorem C40_lookup (hS : S.Lawful) {db : Option (Tables S)} {rows : List (Item S)} (h : Kept db rows)
    (order : List (OutRow S) → List (OutRow S)) (ho : ∀ l, (order l).Perm l) (ids : List Int) :
    ∃ all, get order db none none = .ok all ∧
      get order db none (some ids) = .ok (ids.eraseDups.filterMap fun id => all.find? fun r => r.subset == id) :=
  get_ids_rep (kept_rep hS h) order ho ids

/-- C40, for distinct ids: the ids of the answer are the requested ids that exist, in request order. -/
theorem C40_lookup_ids (hS : S.Lawful) {db : Option (Tables S)} {rows : List (Item S)} (h : Kept db rows)
    (order : List (OutRow S) → List (OutRow S)) (ho : ∀ l, (order l).Perm l) (ids : List Int) (hnd : ids.Nodup) :
    ∃ out, get order db none (some ids) = .ok out ∧
      out.map (·.subset) = ids.filter fun id => decide (0 ≤ id ∧ id < (rows.length : Int)) :=
  get_ids_subsets hS (kept_rep hS h) order ho ids hnd

/-- C40: both a condition and ids are refused, whatever they are. -/
theorem C40_both_refused (order : List (OutRow S) → List (OutRow S)) (db : Option (Tables S)) (cond ids) :
    get order db (some cond) (some ids) = .error .err := rfl

/-- C40: with a condition, the answer is the listing restricted to the rows that satisfy it; the ids
alone are given by `where_condition`. -/
theorem C40_condition (hS : S.Lawful) {db : Option (Tables S)} {rows : List (Item S)} (h : Kept db rows)
    (order : List (OutRow S) → List (OutRow S)) (sat : OutRow S → Bool) :
    ∃ all, get order db none none = .ok all ∧ get order db (some (true, sat)) none = .ok (all.filter sat) ∧
      (db.isSome → whereCondition db true sat = .ok ((all.filter sat).map (·.subset))) :=
  let ⟨all, h1, h2, h3, _⟩ := get_cond_rep (kept_rep hS h) order sat
  ⟨all, h1, h2, h3⟩

example : ∃ (db : Option (Tables ToySql)) (rows : List (Item ToySql)), Kept db rows ∧ rows.length = 3 ∧
    toyRows (get List.reverse db none (some [2, 7, 0])) = some [(2, [("b", 2)]), (0, [("b", 5)])] := by
  refine ⟨_, _, .create (S := ToySql) (items := [some [("b", 5)], some [], some [("b", 2)]]) (okVal_eq _ (by decide +kernel)), rfl, ?_⟩
  decide +kernel

/-! ### C41 -/

/-- C41: a conditional update changes exactly the listed columns of exactly the rows satisfying the
condition; every other row, column and id is as before; the number of selected rows is returned. -/
theorem C41_update_where (hS : S.Lawful) {db db' : Option (Tables S)} {rows : List (Item S)} (h : Kept db rows)
    {valid sat upd n} (hne : upd ≠ []) (hu : updateWhere db valid sat upd = .ok (db', n)) :
    ∃ (ty : String → S.Ty) (all all' : List (OutRow S)), get id db none none = .ok all ∧
      get id db' none none = .ok all' ∧ n = (all.filter sat).length ∧ all'.length = all.length ∧
      ∀ (i : Nat) (r : OutRow S), all[i]? = some r → ∃ r', all'[i]? = some r' ∧ r'.subset = r.subset ∧
        (sat r = false → r' = r) ∧
        (sat r = true → ∀ col, r'.value col =
          match upd.find? fun u => u.1 == col with
          | some u => S.cell (ty col) u.2
          | none => r.value col) :=
  updateWhere_rows hS (kept_rep hS h) hne hu

example : ∃ (db db' : Option (Tables ToySql)) (rows : List (Item ToySql)) (n : Nat), Kept db rows ∧
    updateWhere db true (fun r => r.value "b" == 5) [("b", 6)] = .ok (db', n) ∧ n = 2 ∧
    toyRows (get id db' none none) = some [(0, [("b", 6)]), (1, [("b", 0)]), (2, [("b", 6)])] := by
  refine ⟨_, _, _, _, .create (S := ToySql) (items := [some [("b", 5)], some [], some [("b", 5)]])
    (okVal_eq _ (by decide +kernel)), okVal_eq _ (by decide +kernel), ?_, ?_⟩ <;> decide +kernel

/-- C41: naming an unknown column, or `_subset_`, is refused and nothing changes. -/
theorem C41_bad_column_refused (t : Tables S) (sat : OutRow S → Bool) (upd : List (String × S.V)) (u : String × S.V)
    (hu : u ∈ upd) (hbad : u.1 = "_subset_" ∨ u.1 ∉ t.thinCols.map (·.1) ++ t.fatCols.map (·.1)) :
    updateWhere (some t) true sat upd = .error .err := by
  unfold updateWhere
  simp only
  have hne : upd ≠ [] := List.ne_nil_of_mem hu
  rw [if_neg hne, if_neg (by simp), if_pos]
  rw [List.any_eq_true]
  refine ⟨u, hu, ?_⟩
  rcases hbad with h | h
  · simp [h]
  · rw [Bool.or_eq_true_iff]
    right
    rw [Bool.not_eq_true', List.any_eq_false]
    intro c hc hcu
    apply h
    rw [← List.map_append, List.mem_map]
    exact ⟨c, hc, by simpa using hcu⟩

end NextPlaid.Props
