import Verif.Proofs.Legacy
import Verif.Props.Db

/-!
Property theorems C78 (metadata databases written by earlier versions).

`Spec.Inherited t rows`: an earlier version left the single table `t` holding `rows`.
`Spec.Carried db rows`: `db` results from such a database, or from a new one, by calls of this version;
the same calls on a plain list give `rows`.  `Spec.ListsAs db rows`: listing `db` shows `rows`.
-/

namespace NextPlaid.Props
open NextPlaid NextPlaid.Index NextPlaid.Spec NextPlaid.Db

variable {S : Sql}

/-- Values are integers, 0 is NULL; a column of type 1 stores `v` as `v`, of type 2 as its absolute
value. -/
@[reducible] def OldSql : Sql where
  V := Int
  null := 0
  isNull := fun v => v == 0
  Ty := Nat
  text := 1
  infer := fun v => if 0 ≤ v then 1 else 2
  cell := fun ty v => if ty = 1 then v else (v.natAbs : Int)

theorem oldSql_lawful : OldSql.Lawful where
  cell_null := by intro ty; simp

theorem oldSql_settled : Settled OldSql := by
  intro ty v
  show (if ty = 1 then (if ty = 1 then v else (v.natAbs : Int)) else
    (((if ty = 1 then v else (v.natAbs : Int)) : Int).natAbs : Int)) = if ty = 1 then v else (v.natAbs : Int)
  split
  · rfl
  · simp

/-- A database of version 0 with two columns and three rows, the last of them without values. -/
@[reducible] def oldTable : Flat OldSql :=
  ⟨0, true, [("file", 1), ("z", 2)], [⟨0, 0, [5, 3]⟩, ⟨1, 0, [6, 0]⟩, ⟨2, 0, [0, 0]⟩]⟩

@[reducible] def oldRows : List (Item OldSql) := [some [("z", -3), ("file", 5)], some [("file", 6)], none]

theorem oldTable_inherited : Inherited oldTable oldRows := by
  refine ⟨rfl, ?_, ?_⟩
  · intro i it hi
    match i, hi with
    | 0, hi => cases hi; rfl
    | 1, hi => cases hi; rfl
    | 2, hi => cases hi; rfl
    | i + 3, hi => simp [oldRows] at hi
  · intro it hit obj he p hp
    subst he
    simp only [oldRows, List.mem_cons, Option.some.injEq, List.not_mem_nil, or_false, reduceCtorEq] at hit
    rcases hit with rfl | rfl
    · simp only [List.mem_cons, List.not_mem_nil, or_false] at hp
      rcases hp with rfl | rfl <;> simp
    · simp only [List.mem_cons, List.not_mem_nil, or_false] at hp
      subst hp; simp

/-- What a caller sees of a database, in a form that can be computed. -/
def oldShown (r : Res (List (OutRow OldSql))) : Option (List (Int × List (String × Int))) :=
  match r with
  | .ok l => some (l.map fun r => (r.subset, r.cols))
  | .error _ => none

/-- C78: a metadata database written by an earlier version behaves as a list, like a new one: after any
sequence of appends, deletions and conditional changes, the first deletion's rebuild of the table
included, listing it shows exactly the rows of the list, with ids `0, 1, ..`. -/
theorem C78_store_is_list (hS : S.Lawful) (hc : Settled S) {db : Option (AnyDb S)} {rows : List (Item S)}
    (h : Carried db rows) : ListsAs db rows ∧ AnyDb.count db = rows.length :=
  ⟨lists_of_rep hS (carried_rep hS hc h), countS_rep (carried_rep hS hc h)⟩

/-- C78: what a call returns: an append the number of rows given, a deletion the number of rows that
went, a conditional change the number of rows that satisfied the condition. -/
theorem C78_counts (hS : S.Lawful) (hc : Settled S) {db : Option (AnyDb S)} {rows : List (Item S)}
    (h : Carried db rows) :
    (∀ items db' n, AnyDb.update db items (idsFrom rows.length items.length) = .ok (db', n) → n = items.length) ∧
    (∀ ids, (AnyDb.delete db ids).2 = rows.length - (deleteIds ids rows).length) ∧
    ∀ valid sat upd db' n all, upd ≠ [] → AnyDb.get id db none none = .ok all →
      AnyDb.updateWhere db valid sat upd = .ok (db', n) → n = (all.filter sat).length := by
  have hr := carried_rep hS hc h
  refine ⟨fun items db' n he => (updateS_rep hS hr he).2, fun ids => (deleteS_rep hc hr ids).2, ?_⟩
  intro valid sat upd db' n all hne hg hu
  have := (updateWhereS_rep hr hg hu).2
  cases upd with
  | nil => exact absurd rfl hne
  | cons u upd => simpa using this

/-- C78: looking up ids, in whatever order SQLite returns the rows of a chunk, gives for each distinct
requested id, in the order requested, the row that the listing shows under that id. -/
theorem C78_lookup (hS : S.Lawful) (hc : Settled S) {db : Option (AnyDb S)} {rows : List (Item S)}
    (h : Carried db rows) (order : List (OutRow S) → List (OutRow S)) (ho : ∀ l, (order l).Perm l)
    (ids : List Int) :
    ∃ all, AnyDb.get order db none none = .ok all ∧
      AnyDb.get order db none (some ids) =
        .ok (ids.eraseDups.filterMap fun id => all.find? fun r => r.subset == id) :=
  lookupS_rep (carried_rep hS hc h) order ho ids

/-- C78: with a condition, the answer is the listing restricted to the rows that satisfy it. -/
theorem C78_condition (hS : S.Lawful) (hc : Settled S) {db : Option (AnyDb S)} {rows : List (Item S)}
    (h : Carried db rows) (order : List (OutRow S) → List (OutRow S)) (sat : OutRow S → Bool) :
    ∃ all, AnyDb.get order db none none = .ok all ∧
      AnyDb.get order db (some (true, sat)) none = .ok (all.filter sat) ∧
      (db.isSome → AnyDb.whereCondition db true sat = .ok ((all.filter sat).map (·.subset))) :=
  conditionS_rep (carried_rep hS hc h) order sat

/-- C78: moving a database to version 1 changes nothing a caller sees, so a crash between the move,
which is a transaction of its own, and the deletion that asked for it loses nothing; it ends with
version 1 and without a primary key that could stand in the way of renumbering, and a second move does
nothing. -/
theorem C78_move (hS : S.Lawful) (hc : Settled S) {t : Flat S} {rows : List (Item S)}
    (h : Carried (some (.flat t)) rows) :
    (∀ order cond ids, AnyDb.get order (some (.flat (toV1 t))) cond ids =
      AnyDb.get order (some (.flat t)) cond ids) ∧
    1 ≤ (toV1 t).version ∧ (t.version = 0 → (toV1 t).pk = false) ∧ toV1 (toV1 t) = toV1 t := by
  obtain ⟨h1, h2⟩ := toV1_rows hc (carried_rep hS hc h : RepF t rows)
  have hv : 1 ≤ (toV1 t).version := by
    unfold toV1
    split
    · assumption
    · split <;> exact Nat.le_refl 1
  refine ⟨?_, hv, ?_, ?_⟩
  · intro order cond ids
    have hout : (toV1 t).out = t.out := by
      unfold Flat.out Flat.shown
      rw [h1, h2]
    unfold AnyDb.get getFlat lookupFlat
    simp only [hout]
  · intro h0
    unfold toV1
    rw [if_neg (by omega)]
    split
    · next hp => simpa using hp
    · rfl
  · rw [toV1.eq_def, if_pos hv]

/-- C78: the layouts differ in what they accept: a row that is not an object is refused by a
single-table database when the batch brings no new column, and taken by a new database. -/
theorem C78_null_row_refused (t : Flat S) (items : List (Item S)) (ids : List Int) (hl : items.length = ids.length)
    (hn : none ∈ items) (hk : ∀ it ∈ items, ∀ obj, it = some obj → ∀ p ∈ obj, p.1 ∈ t.cols.map (·.1)) :
    AnyDb.update (some (.flat t)) items ids = .error .err := by
  unfold AnyDb.update
  rw [if_neg (List.ne_nil_of_mem hn), if_neg (by simpa using hl)]
  simp only
  unfold updateFlatAll updateFlat
  have hnew : hasNew t items = false := by
    unfold hasNew
    rw [List.any_eq_false]
    intro k hk'
    unfold allKeys at hk'
    obtain ⟨it, hit, hm⟩ := List.mem_flatMap.1 hk'
    cases it with
    | none => simp at hm
    | some obj =>
      obtain ⟨p, hp, rfl⟩ := List.mem_map.1 hm
      have := hk _ hit obj rfl p hp
      simpa using this
  rw [hnew, if_neg (by simp), if_neg]
  · rfl
  · intro hall
    rw [List.all_eq_true] at hall
    simpa using hall none hn

/-- A history over an old database: a late column, a deletion that rebuilds the table, a conditional
change, and a lookup. -/
example : ∃ (db : Option (AnyDb OldSql)) (rows : List (Item OldSql)), Carried db rows ∧
    rows = [some [("z", -8), ("file", 6)], some [("new", 4)]] ∧
    oldShown (AnyDb.get id db none none) = some [
      (0, [("file", 6), ("z", 8), ("new", 0)]), (1, [("file", 0), ("z", 0), ("new", 4)])] ∧
    oldShown (AnyDb.get List.reverse db none (some [1, 5, 0])) = some [
      (1, [("file", 0), ("z", 0), ("new", 4)]), (0, [("file", 6), ("z", 8), ("new", 0)])] := by
  refine ⟨_, _, .change (S := OldSql) (sat := fun r => r.value "file" == 6) (upd := [("z", -8)]) (valid := true)
    (.delete [0, 2, 2, -1] (.update (S := OldSql) (items := [some [("new", 4)]])
      (.old oldTable_inherited) (okVal_eq _ (by decide +kernel)))) (okVal_eq _ (by decide +kernel))
    (okVal_eq _ (by decide +kernel)), ?_, ?_, ?_⟩ <;>
  decide +kernel

/-- Version 0 refuses an id that is there already; the new layout would take the row. -/
example : (AnyDb.update (some (.flat oldTable)) [some []] [1]).toOption.isNone = true ∧
    (AnyDb.update (some (.flat (toV1 oldTable))) [some []] [1]).toOption.isSome = true := by decide +kernel

example : (none : Item OldSql) ∈ [some [("file", 2)], none] ∧
    (AnyDb.update (some (.flat oldTable)) [some [("file", 2)], none] [3, 4]).toOption.isNone = true ∧
    (AnyDb.update (some (.split ⟨[("file", 1)], [], [], []⟩ : AnyDb OldSql)) [some [("file", 2)], none] [0, 1]).toOption.isSome = true := by
  refine ⟨by simp, ?_, ?_⟩ <;> decide +kernel

end NextPlaid.Props
