import Verif.Proofs.MetaApi
import Verif.Props.Db

/-!
Property theorems C71 (the metadata endpoints).

`Resting d t rows`: during the request the disk holds an index whose metadata database `t` results from calls that on a plain list give `rows`.
`Listing d all`: the listing endpoint gives `all`; what it shows is C23.
-/

namespace NextPlaid.Props
open NextPlaid NextPlaid.Db NextPlaid.SearchApi NextPlaid.MetaApi NextPlaid.Spec

variable {S : Sql}

/-- Whatever others do to the index meanwhile, an answer of the check endpoint splits the ids asked for: each of them, as often as it was asked for, is
in exactly one of the two lists, in the order of the request, and the counts are the lengths. -/
theorem C71_check_splits {rowOrder : List (OutRow S) → List (OutRow S)} {d : Nat → Disk S} {ids : List Int} {c : Check}
    (h : check rowOrder d ids = .ok c) :
    (∃ known : Int → Bool, c.existingIds = ids.filter known ∧ c.missingIds = ids.filter fun id => !known id) ∧
      c.existingCount = c.existingIds.length ∧ c.missingCount = c.missingIds.length ∧ c.existingCount + c.missingCount = ids.length := by
  unfold check at h
  split at h
  · cases h
  split at h
  · rename_i he
    rw [List.isEmpty_iff] at he
    subst he; cases h
    exact ⟨⟨fun _ => true, rfl, rfl⟩, rfl, rfl, rfl⟩
  split at h
  · cases h
  cases hf : answerTo .internal (get rowOrder (d 2).db none (some ids)) with
  | error e => rw [hf] at h; cases h
  | ok found =>
    rw [hf] at h
    cases h
    refine ⟨⟨fun id => (found.map (·.subset)).contains id, rfl, rfl⟩, rfl, rfl, ?_⟩
    exact (List.length_eq_length_filter_add _).symm

/-- The check endpoint tells exactly which of the ids have a row. -/
theorem C71_check (hS : S.Lawful) {d : Nat → Disk S} {t : Tables S} {rows : List (Item S)} (h : Resting d t rows)
    (rowOrder : List (OutRow S) → List (OutRow S)) (ho : ∀ l, (rowOrder l).Perm l) (ids : List Int) :
    ∃ c, check rowOrder d ids = .ok c ∧
      (∀ id, id ∈ c.existingIds ↔ id ∈ ids ∧ HasRow rows id) ∧ ∀ id, id ∈ c.missingIds ↔ id ∈ ids ∧ ¬ HasRow rows id := by
  obtain ⟨hk, hd⟩ := h
  obtain ⟨found, hg, hf⟩ := found_iff hS (kept_rep hS hk) rowOrder ho ids
  unfold check
  simp only [hd, Bool.not_true, Bool.false_eq_true, if_false, Option.isNone_some]
  split
  · rename_i he
    rw [List.isEmpty_iff] at he
    subst he
    exact ⟨_, rfl, fun id => by simp, fun id => by simp⟩
  · rw [hg]
    refine ⟨_, rfl, fun id => ?_, fun id => ?_⟩
    · simp only [List.mem_filter, List.contains_iff_mem]
      exact and_congr_right fun hi => hf id hi
    · simp only [List.mem_filter, Bool.not_eq_true', List.contains_eq_mem, decide_eq_false_iff_not]
      exact and_congr_right fun hi => not_congr (hf id hi)

/-- With a condition, `get` gives the rows of the listing that satisfy it, in the order of the listing, and `query` gives their ids; with neither
condition nor ids, `get` gives the listing. A limit keeps that many of the first rows. -/
theorem C71_get_condition (hS : S.Lawful) {d : Nat → Disk S} {t : Tables S} {rows : List (Item S)} (h : Resting d t rows)
    (rowOrder : List (OutRow S) → List (OutRow S)) (limit : Option Nat) :
    ∃ all, Listing d all ∧ all.length = rows.length ∧
      getMetadata rowOrder d none none limit = .ok (all.take (limit.getD all.length)) ∧
      ∀ sat : OutRow S → Bool,
        getMetadata rowOrder d (some (true, sat)) none limit = .ok ((all.filter sat).take (limit.getD all.length)) ∧
        query d (true, sat) = .ok ((all.filter sat).map (·.subset)) := by
  obtain ⟨hk, hd⟩ := h
  have hR := kept_rep hS hk
  obtain ⟨ty, all, hall, hlen, _⟩ := (C23_store_is_list hS hk).1
  have key : ∀ sat : OutRow S → Bool, get rowOrder (some t) (some (true, sat)) none = .ok (all.filter sat) ∧
      whereCondition (some t) true sat = .ok ((all.filter sat).map (·.subset)) := by
    intro sat
    obtain ⟨all', h1, h2, h3, _⟩ := get_cond_rep hR rowOrder sat
    rw [hall] at h1
    cases h1
    exact ⟨h2, h3 rfl⟩
  have hcut : ∀ l : List (OutRow S), l.length ≤ all.length →
      limit.elim l (fun n => l.take n) = l.take (limit.getD all.length) := by
    intro l hl
    cases limit with
    | none => exact (List.take_of_length_le hl).symm
    | some n => rfl
  refine ⟨all, fun ro => ?_, hlen, ?_, fun sat => ⟨?_, ?_⟩⟩
  · unfold getAll; simp only [hd, hall]; rfl
  · unfold getMetadata
    simp only [hd, hall]
    show Except.ok _ = _
    rw [hcut all (Nat.le_refl _)]
  · unfold getMetadata
    simp only [hd, (key sat).1]
    show Except.ok _ = _
    rw [hcut _ (List.length_filter_le _ _)]
  · unfold query
    simp only [hd, (key sat).2]
    rfl

/-- With ids, `get` gives the row of the listing for each distinct id that has one, in the order of the request; a limit keeps that many of the
first. -/
theorem C71_get_ids (hS : S.Lawful) {d : Nat → Disk S} {t : Tables S} {rows : List (Item S)} (h : Resting d t rows)
    (rowOrder : List (OutRow S) → List (OutRow S)) (ho : ∀ l, (rowOrder l).Perm l) (ids : List Int) (limit : Option Nat) :
    ∃ all out, Listing d all ∧ getMetadata rowOrder d none (some ids) limit = .ok (out.take (limit.getD out.length)) ∧
      out = ids.eraseDups.filterMap (fun id => all.find? fun r => r.subset == id) ∧
      out.map (·.subset) = ids.eraseDups.filter fun id => decide (0 ≤ id ∧ id < (rows.length : Int)) := by
  obtain ⟨hk, hd⟩ := h
  have hR := kept_rep hS hk
  obtain ⟨all, h1, h2⟩ := get_ids_rep hR rowOrder ho ids
  refine ⟨all, _, fun ro => ?_, ?_, rfl, filterMap_subsets all rows.length (all_mem hS hR rowOrder h1) _⟩
  · obtain ⟨ty, all', hall, _⟩ := (C23_store_is_list hS hk).1
    rw [hall] at h1
    cases h1
    unfold getAll; simp only [hd, hall]; rfl
  · unfold getMetadata
    simp only [hd, h2]
    show Except.ok _ = _
    cases limit with
    | none => exact congrArg _ (List.take_of_length_le (Nat.le_refl _)).symm
    | some n => rfl

/-- `count` gives the number of rows. -/
theorem C71_count (hS : S.Lawful) {d : Nat → Disk S} {t : Tables S} {rows : List (Item S)} (h : Resting d t rows) :
    countMetadata d = .ok (rows.length, true) := by
  obtain ⟨hk, hd⟩ := h
  obtain ⟨ty, all, hall, hlen, _⟩ := (C23_store_is_list hS hk).1
  obtain ⟨all', h1, _, _, h4⟩ := get_cond_rep (kept_rep hS hk) id fun _ => true
  rw [hall] at h1
  cases h1
  unfold countMetadata
  simp only [hd, h4, hlen]
  rfl

/-- `update` answers with the number of rows that `query` gives for the same condition; afterwards those rows have the new values in the columns
named and every other value is as before. -/
theorem C71_update (hS : S.Lawful) {d d' : Nat → Disk S} {t t' : Tables S} {rows : List (Item S)} (h : Resting d t rows)
    {sat : OutRow S → Bool} {upd : List (String × S.V)} {n : Nat} (hne : upd ≠ [])
    (hu : updateMetadata d (true, sat) (some upd) = .ok (some t', n)) (hd' : ∀ i, d' i = ⟨true, some t'⟩) :
    ∃ (ty : String → S.Ty) (all all' : List (OutRow S)) (ids : List Int), Listing d all ∧ Listing d' all' ∧
      query d (true, sat) = .ok ids ∧ n = ids.length ∧ all'.length = all.length ∧
      ∀ (i : Nat) (r : OutRow S), all[i]? = some r → ∃ r', all'[i]? = some r' ∧ r'.subset = r.subset ∧
        (r.subset ∉ ids → r' = r) ∧
        (r.subset ∈ ids → ∀ col, r'.value col =
          match upd.find? fun u => u.1 == col with
          | some u => S.cell (ty col) u.2
          | none => r.value col) := by
  obtain ⟨all, hl, _, _, hq⟩ := C71_get_condition hS h id none
  obtain ⟨hk, hd⟩ := h
  have hw : updateWhere (some t) true sat upd = .ok (some t', n) := by
    unfold updateMetadata at hu
    simp only [hd] at hu
    replace hu : answerTo .badRequest (updateWhere (some t) true sat upd) = .ok (some t', n) := hu
    cases hx : updateWhere (some t) true sat upd with
    | ok x => rw [hx] at hu; cases hu; rfl
    | error e => rw [hx] at hu; cases e <;> cases hu
  obtain ⟨ty, all₁, all', g1, g2, hn, hlen, hrow⟩ := C41_update_where hS hk hne hw
  have ga : all₁ = all := by
    have := hl id
    unfold getAll at this
    simp only [hd, g1] at this
    injection this
  subst ga
  have hk' : ∃ rows', Kept (some t') rows' := ⟨_, .change hk g1 hw⟩
  have g2' : ∀ ro, get ro (some t') none none = .ok all' := by
    obtain ⟨rows', hk'⟩ := hk'
    obtain ⟨_, a, ha, _⟩ := (C23_store_is_list hS hk').1
    have := ha id
    rw [g2] at this
    injection this with this
    subst this
    exact ha
  refine ⟨ty, all₁, all', _, hl, fun ro => ?_, (hq sat).2, by rw [hn, List.length_map], hlen, fun i r hr => ?_⟩
  · unfold getAll; simp only [hd', g2']; rfl
  · obtain ⟨r', h1, h2, h3, h4⟩ := hrow i r hr
    have hmem : r.subset ∈ (all₁.filter sat).map (·.subset) ↔ sat r = true := by
      constructor
      · intro hm
        obtain ⟨r₂, hr₂, he⟩ := List.mem_map.1 hm
        obtain ⟨hr₂a, hr₂s⟩ := List.mem_filter.1 hr₂
        obtain ⟨j, hj⟩ := List.getElem?_of_mem hr₂a
        obtain ⟨_, a, ha, hal, hav⟩ := (C23_store_is_list hS hk).1
        rw [ha] at g1
        cases g1
        have hi' : i < rows.length := by rw [← hal]; exact (List.getElem?_eq_some_iff.1 hr).1
        have hj' : j < rows.length := by rw [← hal]; exact (List.getElem?_eq_some_iff.1 hj).1
        obtain ⟨x, hx, hxs, _⟩ := hav i _ (List.getElem?_eq_getElem hi')
        obtain ⟨y, hy, hys, _⟩ := hav j _ (List.getElem?_eq_getElem hj')
        rw [hr] at hx; rw [hj] at hy
        cases hx; cases hy
        have : i = j := by rw [hxs, hys] at he; omega
        subst this
        rw [hr] at hj; cases hj
        exact hr₂s
      · intro hs
        exact List.mem_map.2 ⟨r, List.mem_filter.2 ⟨List.mem_of_getElem? hr, hs⟩, rfl⟩
    refine ⟨r', h1, h2, fun hm => h3 ?_, fun hm => h4 (hmem.1 hm)⟩
    cases hs : sat r with
    | false => rfl
    | true => exact absurd (hmem.2 hs) hm

/-- Without an index every endpoint answers that there is none. -/
theorem C71_no_index {d : Nat → Disk S} (h : (d 0).index = false) (rowOrder : List (OutRow S) → List (OutRow S)) :
    (∀ ids, check rowOrder d ids = .error .indexNotFound) ∧ (∀ c, query d c = .error .indexNotFound) ∧
      (∀ c ids limit, getMetadata rowOrder d c ids limit = .error .indexNotFound) ∧ getAll rowOrder d = .error .indexNotFound ∧
      countMetadata d = .error .indexNotFound ∧ ∀ c u, updateMetadata d c u = .error .indexNotFound := by
  unfold check query getMetadata getAll countMetadata updateMetadata
  simp [h]

/-- An index without metadata: the endpoints that would read or change rows answer that there is no metadata, `count` answers 0, and a check of no id at
all is answered as usual. -/
theorem C71_no_metadata {d : Nat → Disk S} (h : (d 0).index = true) (h1 : (d 1).db = none)
    (rowOrder : List (OutRow S) → List (OutRow S)) :
    (∀ ids, ids ≠ [] → check rowOrder d ids = .error .metadataNotFound) ∧ check rowOrder d [] = .ok ⟨[], [], 0, 0⟩ ∧
      (∀ c, query d c = .error .metadataNotFound) ∧ (∀ c limit, getMetadata rowOrder d c none limit = .error .metadataNotFound) ∧
      (∀ ids limit, getMetadata rowOrder d none ids limit = .error .metadataNotFound) ∧ getAll rowOrder d = .error .metadataNotFound ∧
      countMetadata d = .ok (0, false) ∧ ∀ c u, updateMetadata d c (some u) = .error .metadataNotFound := by
  unfold check query getMetadata getAll countMetadata updateMetadata
  simp [h, h1]

/-- Requests that make no sense are refused as the caller's fault: both ids and a condition; new values that are not an object; a condition that is not
valid, in `query` and `update`; a column that does not exist, or `_subset_`, in `update`. Nothing is changed. -/
theorem C71_bad_requests_partial {d : Nat → Disk S} {t : Tables S} (hd : ∀ i, d i = ⟨true, some t⟩)
    (rowOrder : List (OutRow S) → List (OutRow S)) :
    (∀ c ids limit, getMetadata rowOrder d (some c) (some ids) limit = .error .badRequest) ∧
      (∀ c, updateMetadata d c none = .error .badRequest) ∧
      (∀ sat, query d (false, sat) = .error .badRequest) ∧
      (∀ sat u, u ≠ [] → updateMetadata d (false, sat) (some u) = .error .badRequest) ∧
      ∀ sat upd u, u ∈ upd → (u.1 = "_subset_" ∨ u.1 ∉ t.thinCols.map (·.1) ++ t.fatCols.map (·.1)) →
        updateMetadata d (true, sat) (some upd) = .error .badRequest := by
  refine ⟨fun c ids limit => ?_, fun c => ?_, fun sat => ?_, fun sat u hu => ?_, fun sat upd u hu hb => ?_⟩
  · unfold getMetadata; simp [hd]
  · unfold updateMetadata; simp [hd]
  · unfold query whereCondition; simp [hd]; rfl
  · unfold updateMetadata updateWhere; simp [hd, hu]; rfl
  · unfold updateMetadata
    simp only [hd]
    show answerTo .badRequest (updateWhere (some t) true sat upd) = _
    rw [C41_bad_column_refused t sat upd u hu hb]
    rfl

/-- But a condition that is not valid is reported by `get` as an error of the server (the documentation of the endpoint says: 400, invalid request). -/
theorem C71_get_bad_condition_refuted {d : Nat → Disk S} {t : Tables S} (hd : ∀ i, d i = ⟨true, some t⟩)
    (rowOrder : List (OutRow S) → List (OutRow S)) (sat : OutRow S → Bool) (limit : Option Nat) :
    getMetadata rowOrder d (some (false, sat)) none limit = .error .internal := by
  unfold getMetadata
  simp only [hd]
  rfl

/-- And while another request removes the metadata, `get` may answer with no rows instead of saying that there is no metadata. -/
theorem C71_vanished (rowOrder : List (OutRow S) → List (OutRow S)) (t : Tables S) :
    getMetadata rowOrder (fun i => if i < 2 then ⟨true, some t⟩ else ⟨false, none⟩) none none none = .ok [] := by
  unfold getMetadata; rfl

/-- Three rows; asked for 2, 7, 0 and 2 again. -/
example : ∃ (d : Nat → Disk ToySql) (t : Tables ToySql) (rows : List (Item ToySql)), Resting d t rows ∧ rows.length = 3 ∧
    (check List.reverse d [2, 7, 0, 2]).toOption = some ⟨[2, 0, 2], [7], 3, 1⟩ ∧
    (countMetadata d).toOption = some (3, true) ∧
    (query d (true, fun r => r.value "b" == 5)).toOption = some [0, 2] ∧
    ((getMetadata id d none (some [2, 7, 0]) (some 1)).toOption.map fun l => l.map fun r => (r.subset, r.cols)) = some [(2, [("b", 5)])] := by
  obtain ⟨db, n, h, hdb⟩ : ∃ db n, create (S := ToySql) [some [("b", 5)], some [], some [("b", 5)]] (idsFrom 0 3) = .ok (db, n) ∧
      db = some ⟨[], [("b", 1)], [⟨0, 0, []⟩, ⟨1, 1, []⟩, ⟨2, 2, []⟩], [⟨0, [5]⟩, ⟨1, [0]⟩, ⟨2, [5]⟩]⟩ := ⟨_, _, rfl, by rfl⟩
  subst hdb
  refine ⟨fun _ => ⟨true, some _⟩, _, _, ⟨.create h, fun _ => rfl⟩, rfl, ?_, ?_, ?_, ?_⟩ <;> decide +kernel

end NextPlaid.Props
