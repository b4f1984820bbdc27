import Verif.Proofs.Json2
import Verif.Props.Db

/-!
Property theorems C47 (metadata values come back as given) and C48 (well-formed metadata is accepted).
-/

namespace NextPlaid.Props
open NextPlaid NextPlaid.Spec NextPlaid.Db NextPlaid.Json

variable {R : Type} {S : Sql}

/-! ### A concrete instance -/

/-- Numbers in tenths; a number that is a whole number is stored as an integer; only the text "1" denotes a number. -/
@[reducible] def ToyFloats : Floats Int where
  ofInt := fun i => 10 * i
  asInt := fun r => if r % 10 = 0 ∧ -1000 < r ∧ r < 1000 then some (r / 10) else none
  finite := fun _ => true
  showReal := fun _ => ['r']
  showInt := fun i => if i = 5 then ['5'] else ['i']
  parse := fun s => if s = ['1'] then some (.inl 1) else none

theorem toyFloats_lawful : ToyFloats.Lawful where
  asInt_range := by
    intro r i h
    simp only at h
    split at h
    · next hr =>
      have : r / 10 = i := by simpa using h
      omega
    · cases h

/-! ### C47 -/

/-- C47 for one value: which values a column gives back, for each declared type.  Numbers beyond `i64`, booleans, arrays
and objects never come back as they were given; a number or a text comes back only from a column of its own type, from
a column first used for arrays or objects, or, under a numeric type, when it does not look like another number. -/
theorem C47_value_exact (F : Floats R) (hF : F.Lawful) (ty : Json.Ty) (v : Json R) :
    (sql F).cell ty v = v ↔ Faithful F ty v := by
  cases v with
  | null => exact iff_of_true ((sql_lawful F).cell_null ty) trivial
  | bool b =>
    refine iff_of_false ?_ id
    show Json.read F (store F ty (.int _)) ≠ _
    cases ty
    case real => simp only [store, Json.read]; split <;> (split <;> simp)
    all_goals simp [store, Json.read]
  | tree t =>
    refine iff_of_false ?_ id
    show Json.read F (store F ty (.text t)) ≠ _
    cases ty
    case integer =>
      simp only [store]
      split
      · simp [Json.read]
      · unfold intAffinity; split
        · simp [Json.read]
        · simp only [Json.read]; split <;> simp
      · simp [Json.read]
    case real =>
      simp only [store]
      split
      · simp only [Json.read]; split <;> simp
      · simp only [Json.read]; split <;> simp
      · simp [Json.read]
    all_goals simp [store, Json.read]
  | int i =>
    show Json.read F (store F ty (if i < 2 ^ 63 then .int i else .real (F.ofInt i))) = _ ↔ i < 2 ^ 63 ∧ _
    by_cases hi : i < 2 ^ 63
    · rw [if_pos hi]
      simp only [hi, true_and]
      cases ty
      case real =>
        simp only [store, Json.read]
        split <;> simp
      all_goals simp [store, Json.read]
    · rw [if_neg hi]
      simp only [hi, false_and, iff_false]
      cases ty
      case integer =>
        simp only [store]
        unfold intAffinity
        split
        · next j hj =>
          have := hF.asInt_range _ _ hj
          simp only [Json.read]
          intro e
          cases e
          exact hi this.2
        · simp only [Json.read]; split <;> simp
      case text => simp [store, Json.read]
      all_goals
        simp only [store, Json.read]
        split <;> simp
  | real r =>
    show Json.read F (store F ty (.real r)) = _ ↔ F.finite r = true ∧ _
    cases hf : F.finite r
    · simp only [Bool.false_eq_true, false_and, iff_false]
      cases ty
      case integer =>
        simp only [store]
        unfold intAffinity
        split
        · simp [Json.read]
        · simp [Json.read, hf]
      all_goals simp [store, Json.read, hf]
    · simp only [true_and]
      cases ty
      case integer =>
        simp only [store]
        unfold intAffinity
        split
        · next j hj => simp [Json.read, hj]
        · next hj => simp [Json.read, hj, hf]
      all_goals simp [store, Json.read, hf]
  | str s =>
    show Json.read F (store F ty (.text s)) = _ ↔ ty = .text ∨ ty = .blob ∨ F.parse s = none
    cases ty
    case integer =>
      simp only [store]
      split
      · next h => simp [Json.read, h]
      · next h =>
        unfold intAffinity; split
        · simp [Json.read, h]
        · simp only [Json.read]; split <;> simp [h]
      · next h => simp [Json.read, h]
    case real =>
      simp only [store]
      split
      · next h => simp only [Json.read]; split <;> simp [h]
      · next h => simp only [Json.read]; split <;> simp [h]
      · next h => simp [Json.read, h]
    all_goals simp [store, Json.read]

/-- C47, for histories in which every column holds values of one kind (integers, numbers or texts, and NULL), every
column gets a value in the batch that introduces it, and the first row of the first batch has no explicit NULL (text
columns excepted): whatever the history of additions, deletions and conditional changes, listing the metadata shows every
value exactly as it was given.  Without these conditions the property fails: see the theorems below. -/
theorem C47_values_partial (F : Floats R) {k : String → Json.Ty} {db : Option (Tables (sql F))} {rows : List (Item (sql F))}
    (h : TypedKept F k db rows) :
    ∃ out : List (OutRow (sql F)), (∀ order, get order db none none = .ok out) ∧ out.length = rows.length ∧
      ∀ (i : Nat) (it : Item (sql F)), rows[i]? = some it → ∃ r, out[i]? = some r ∧ r.subset = (i : Int) ∧
        ∀ col, r.value col = it.value col :=
  typed_shows h

/-- What a caller sees, in a form that can be computed. -/
def jsonRows (r : Res (List (OutRow (sql ToyFloats)))) : Option (List (Int × List (String × Json Int))) :=
  match r with
  | .ok l => some (l.map fun r => (r.subset, r.cols))
  | .error _ => none

/-- The listing after creating a store with the given rows. -/
def jsonCreated (items : List (Item (sql ToyFloats))) : Option (List (Int × List (String × Json Int))) :=
  match create items (idsFrom 0 items.length) with
  | .ok (db, _) => jsonRows (get id db none none)
  | .error _ => none

/-- The kinds of the example. -/
def jsonKinds (c : String) : Json.Ty := if c = "n" then .integer else if c = "x" then .real else .text

/-- A history with three kinds of columns, NULLs, missing values, a late column, a deletion and a change. -/
example : ∃ (db : Option (Tables (sql ToyFloats))) (rows : List (Item (sql ToyFloats))), TypedKept ToyFloats jsonKinds db rows ∧
    rows = [some [("t", .str ['b']), ("n", .null)], some [("t", .str ['b']), ("n", .int 7)],
      some [("x", .real 15), ("t", .str ['1'])]] ∧
    jsonRows (get id db none none) = some [(0, [("t", .str ['b']), ("n", .null), ("x", .null)]),
      (1, [("t", .str ['b']), ("n", .int 7), ("x", .null)]), (2, [("t", .str ['1']), ("n", .null), ("x", .real 15)])] := by
  refine ⟨_, _, .change (F := ToyFloats) (sat := fun r => r.value "x" == .null) (upd := [("t", .str ['b'])]) (valid := true)
    (.delete [0] (.update (F := ToyFloats) (items := [some [("x", .real 15), ("t", .str ['1'])]])
      (.create (F := ToyFloats) (items := [some [("t", .str ['a'])], some [("n", .null), ("t", .str ['c'])], some [("n", .int 7)]])
        ?_ ?_ ?_ (okVal_eq _ (by decide +kernel))) ?_ ?_ (okVal_eq _ (by decide +kernel)))) ?_ (okVal_eq _ (by decide +kernel))
    (okVal_eq _ (by decide +kernel)), ?_, ?_⟩
  · intro it hit p hp
    simp only [List.mem_cons, List.not_mem_nil, or_false] at hit
    rcases hit with rfl | rfl | rfl <;>
    · simp only [Option.getD_some, List.mem_cons, List.not_mem_nil, or_false] at hp
      rcases hp with rfl | rfl <;> simp [OfKind, jsonKinds]
  · intro it hit p hp _
    simp only [List.mem_cons, List.not_mem_nil, or_false] at hit
    rcases hit with rfl | rfl | rfl <;>
    · simp only [Option.getD_some, List.mem_cons, List.not_mem_nil, or_false] at hp
      rcases hp with rfl | rfl
      all_goals first
        | exact .inl (by decide)
        | exact .inr ⟨some [("n", .int 7)], by simp, by decide⟩
  · intro first hf p hp
    simp only [List.head?_cons, Option.mem_def, Option.some.injEq] at hf
    subst hf
    simp only [Option.getD_some, List.mem_cons, List.not_mem_nil, or_false] at hp
    subst hp
    exact .inl (by decide)
  · intro it hit p hp
    simp only [List.mem_cons, List.not_mem_nil, or_false] at hit
    subst hit
    simp only [Option.getD_some, List.mem_cons, List.not_mem_nil, or_false] at hp
    rcases hp with rfl | rfl <;> simp [OfKind, jsonKinds]
  · intro it hit p hp _
    simp only [List.mem_cons, List.not_mem_nil, or_false] at hit
    subst hit
    simp only [Option.getD_some, List.mem_cons, List.not_mem_nil, or_false] at hp
    rcases hp with rfl | rfl
    · exact .inr ⟨some [("x", .real 15), ("t", .str ['1'])], by simp, by decide⟩
    · exact .inl (by decide)
  · intro u hu
    simp only [List.mem_cons, List.not_mem_nil, or_false] at hu
    subst hu
    simp [OfKind, jsonKinds]
  · decide +kernel
  · decide +kernel

/-- Disagreement: an explicit NULL in the first row makes the column a text column, so that the numbers of the following rows
come back as texts; with the rows in the other order they come back as numbers. -/
theorem C47_null_first :
    jsonCreated [some [("n", .null)], some [("n", .int 5)]] = some [(0, [("n", .null)]), (1, [("n", .str ['5'])])] ∧
    jsonCreated [some [("n", .int 5)], some [("n", .null)]] = some [(0, [("n", .int 5)]), (1, [("n", .null)])] := 
  ⟨by decide +kernel, by decide +kernel⟩

/-- Disagreement: booleans come back as numbers, arrays and objects as texts. -/
theorem C47_bool_and_tree :
    jsonCreated [some [("a", .bool true), ("b", .tree ['[', ']'])]] = some [(0, [("a", .int 1), ("b", .str ['[', ']'])])] := by
  decide +kernel

/-- Disagreement: a text that looks like a number comes back as a number when an earlier row had a number there, and a number
comes back as a text when an earlier row had a text. -/
theorem C47_mixed :
    jsonCreated [some [("a", .int 2)], some [("a", .str ['1'])]] = some [(0, [("a", .int 2)]), (1, [("a", .int 1)])] ∧
    jsonCreated [some [("a", .str ['x'])], some [("a", .int 5)]] = some [(0, [("a", .str ['x'])]), (1, [("a", .str ['5'])])] := 
  ⟨by decide +kernel, by decide +kernel⟩

/-! ### C48 -/

/-- C48: appending rows to a store is accepted whenever there is one id per row, every new column name is an identifier and
no two names in use are equal up to the case of letters or equal to a reserved name in this sense. -/
theorem C48_append_accepted {db : Option (Tables S)} {rows : List (Item S)} (h : Kept db rows) (hdb : db.isSome)
    {items : List (Item S)} {ids : List Int} (hl : ids.length = items.length)
    (hid : ∀ it ∈ items, ∀ p ∈ it.getD [], p.1 ∈ columns db ∨ Identifier p.1)
    (hg : GoodNames (columns db ++ items.flatMap fun it => (it.getD []).map (·.1))) :
    ∃ db', update db items ids = .ok (db', items.length) := by
  obtain ⟨t, rfl⟩ := Option.isSome_iff_exists.1 hdb
  obtain ⟨t', ht'⟩ := update_accepted (kept_nodup h t rfl) hl hid hg
  exact ⟨_, ht'⟩

/-- C48: the same for the first rows, provided that not only the first row is an object which has all the keys of the
batch while some row is no object (see `C48_row_order`). -/
theorem C48_create_accepted_partial {items : List (Item S)} {ids : List Int} (hl : ids.length = items.length) (hnd : ids.Nodup)
    (hobj : ∀ it ∈ items, ((it.getD []).map (·.1)).Nodup)
    (hid : ∀ it ∈ items, ∀ p ∈ it.getD [], Identifier p.1)
    (hg : GoodNames (items.flatMap fun it => (it.getD []).map (·.1)))
    (hfix : ∀ first, items.head? = some (some first) →
      (∀ it ∈ items, ∀ p ∈ it.getD [], p.1 ∈ first.map (·.1)) → ∀ it ∈ items, it.isSome) :
    ∃ db, create items ids = .ok (db, items.length) :=
  create_accepted hl hnd hobj hid hg hfix

/-- C48: a name that is not an identifier is refused, by `update` if it is new, and nothing is stored. -/
theorem C48_bad_name_refused (items : List (Item S)) (ids : List Int) :
    ((∃ it ∈ items, ∃ p ∈ it.getD [], ¬ Identifier p.1) → create items ids = .error .err) ∧
    (∀ t : Tables S, (∃ it ∈ items, ∃ p ∈ it.getD [], p.1 ∉ columns (some t) ∧ ¬ Identifier p.1) →
      update (some t) items ids = .error .err) :=
  ⟨create_bad_name, fun _ => update_bad_name⟩

/-- C48: rows and ids of different number are refused; appending no row changes nothing. -/
theorem C48_lengths (items : List (Item S)) (ids : List Int) (db : Option (Tables S)) :
    (ids.length ≠ items.length → create items ids = .error .err) ∧
    (ids.length ≠ items.length → items ≠ [] → update db items ids = .error .err) ∧
    update db [] ids = .ok (db, 0) := by
  refine ⟨fun h => ?_, fun h hne => ?_, ?_⟩
  · unfold create
    rw [if_pos (Ne.symm h)]
  · unfold update
    rw [if_neg hne, if_pos (Ne.symm h)]
  · unfold update
    rw [if_pos rfl]

/-- Disagreement: whether a batch with a row that is no object is accepted depends on the order of its rows. -/
theorem C48_row_order :
    (jsonCreated [some [("a", .int 1)], none]).isSome = false ∧ (jsonCreated [none, some [("a", .int 1)]]).isSome = true := by
  decide +kernel

/-- Rows that meet the conditions: a store with the columns `a` and `file`, and a batch that adds `B`. -/
example : ∃ (db : Option (Tables ToySql)) (rows : List (Item ToySql)), Kept db rows ∧ db.isSome ∧ rows.length = 1 ∧
    (∀ it ∈ ([some [("B", 2), ("a", 1)], none] : List (Item ToySql)), ∀ p ∈ it.getD [], p.1 ∈ columns db ∨ Identifier p.1) ∧
    GoodNames (columns db ++ ([some [("B", 2), ("a", 1)], none] : List (Item ToySql)).flatMap fun it => (it.getD []).map (·.1)) := by
  refine ⟨_, _, .delete [0] (.create (S := ToySql) (items := [some [("a", 1), ("file", 5)], some []])
    (okVal_eq _ (by decide +kernel))), by decide +kernel, by decide +kernel, ?_, ?_⟩
  · intro it hit p hp
    right
    simp only [List.mem_cons, List.not_mem_nil, or_false] at hit
    rcases hit with rfl | rfl
    · simp only [Option.getD_some, List.mem_cons, List.not_mem_nil, or_false] at hp
      rcases hp with rfl | rfl
      · exact ⟨'B', [], rfl, by decide, by simp⟩
      · exact ⟨'a', [], rfl, by decide, by simp⟩
    · cases hp
  · have e : columns (delete (okVal (create (S := ToySql) [some [("a", 1), ("file", 5)], some []] (idsFrom 0 2))
        (by decide +kernel)).1 [0]).1 ++
        ([some [("B", 2), ("a", 1)], none] : List (Item ToySql)).flatMap (fun it => (it.getD []).map (·.1)) =
        ["file", "a", "B", "a"] := by decide +kernel
    show GoodNames (columns (delete (okVal (create (S := ToySql) [some [("a", 1), ("file", 5)], some []] (idsFrom 0 2))
        (by decide +kernel)).1 [0]).1 ++
        ([some [("B", 2), ("a", 1)], none] : List (Item ToySql)).flatMap (fun it => (it.getD []).map (·.1)))
    rw [e]
    unfold GoodNames SameName
    decide +kernel

end NextPlaid.Props
