import Verif.Proofs.Db4
import Mathlib.Data.List.Perm.Subperm

/-! Remaining lemmas for C23, C40 and C41. -/

namespace NextPlaid.Db
open NextPlaid NextPlaid.Index NextPlaid.Spec

variable {S : Sql}

theorem length_filter_nodup_eq {l l' : List Int} (h : l.Nodup) (h' : l'.Nodup) (hm : ∀ x, x ∈ l ↔ x ∈ l') :
    l.length = l'.length :=
  Nat.le_antisymm (List.subperm_of_subset h (fun x hx => (hm x).1 hx)).length_le
    (List.subperm_of_subset h' (fun x hx => (hm x).2 hx)).length_le

theorem deleteV2_any (t : Tables S) (ids : List Int) :
    (deleteV2 t ids).1.thin = (t.thin.filter fun r => decide (r.subset ∉ ids)).map (fun r =>
      { r with subset := r.subset -
          ((ids.eraseDups.filter fun d => decide (0 ≤ d ∧ d < r.subset)).length : Int) }) ∧
    (deleteV2 t ids).2 = (t.thin.filter fun r => decide (r.subset ∈ ids)).length := by
  have hf : (t.thin.filter fun r => !ids.contains r.subset) = t.thin.filter fun r => decide (r.subset ∉ ids) := by
    apply List.filter_congr
    intro r _
    rw [Bool.eq_iff_iff]
    simp
  constructor
  · unfold deleteV2
    simp only
    have hV := validIds_sorted ids (maxOr (t.thin.map (·.subset)) + 1)
    rw [renumber_eq _ _ hV (fun a ha => ((mem_validIds _ _ _).1 ha).2.1), hf]
    · apply List.map_congr_left
      intro r hr
      have hr := (List.mem_filter.1 hr).1
      have hmax := le_maxOr (List.mem_map_of_mem (f := (·.subset)) hr)
      congr 3
      unfold shiftOf
      apply length_filter_nodup_eq
      · exact (hV.imp (fun h => by omega)).filter _
      · exact (nodup_eraseDups' ids).filter _
      · intro x
        simp only [List.mem_filter, decide_eq_true_eq, mem_validIds, mem_eraseDups']
        constructor
        · rintro ⟨⟨h1, h2, _⟩, h3⟩; exact ⟨h1, h2, h3⟩
        · rintro ⟨h1, h2, h3⟩; exact ⟨⟨h1, h2, by omega⟩, h3⟩
    · intro r hr hc
      have h1 := (List.mem_filter.1 hr).2
      have h2 := ((mem_validIds _ _ _).1 hc).1
      simp [h2] at h1
  · unfold deleteV2
    simp only
    rw [hf]
    induction t.thin with
    | nil => rfl
    | cons r l ih =>
      have hle := List.length_filter_le (fun r : ThinRow S => decide (r.subset ∉ ids)) l
      by_cases hr : r.subset ∈ ids
      · rw [List.filter_cons_of_neg (by simpa using hr), List.filter_cons_of_pos (by simpa using hr),
          List.length_cons, List.length_cons, ← ih]
        omega
      · rw [List.filter_cons_of_pos (by simpa using hr), List.filter_cons_of_neg (by simpa using hr),
          List.length_cons, List.length_cons, ← ih]
        omega

theorem find_outFrom (t : Tables S) : ∀ (l : List (Item S)) (b id : Int),
    ((outFrom t b l).find? fun r => r.subset == id).map (·.subset) =
      if b ≤ id ∧ id < b + l.length then some id else none
  | [], b, id => by
    rw [if_neg]
    · rfl
    · simp only [List.length_nil]; omega
  | it :: l, b, id => by
    rw [outFrom]
    by_cases h : b = id
    · rw [List.find?_cons_of_pos (by simp [outRow, h]), if_pos]
      · simp [outRow, h]
      · simp only [List.length_cons]; omega
    · rw [List.find?_cons_of_neg (by simp [outRow, h]), find_outFrom t l (b + 1) id]
      simp only [List.length_cons]
      by_cases h2 : b + 1 ≤ id ∧ id < b + 1 + l.length
      · rw [if_pos h2, if_pos]; push_cast; omega
      · rw [if_neg h2, if_neg]; push_cast; omega

theorem eraseDups_of_nodup : ∀ {l : List Int}, l.Nodup → l.eraseDups = l
  | [], _ => rfl
  | a :: l, h => by
    rw [List.nodup_cons] at h
    rw [List.eraseDups_cons]
    have : (l.filter fun b => !b == a) = l := by
      rw [List.filter_eq_self]
      intro b hb
      have : b ≠ a := fun e => h.1 (e ▸ hb)
      simpa using this
    rw [this, eraseDups_of_nodup h.2]

theorem filterMap_subsets (all : List (OutRow S)) (n : Nat)
    (hf : ∀ id : Int, (all.find? fun r => r.subset == id).map (·.subset) = if 0 ≤ id ∧ id < (n : Int) then some id else none) :
    ∀ (ids : List Int), (ids.filterMap fun id => all.find? fun r => r.subset == id).map (·.subset) =
      ids.filter fun id => decide (0 ≤ id ∧ id < (n : Int))
  | [] => rfl
  | a :: ids => by
    have h := hf a
    have ih := filterMap_subsets all n hf ids
    rw [List.filterMap_cons]
    cases hfd : all.find? fun r => r.subset == a with
    | none =>
      rw [hfd] at h
      rw [List.filter_cons_of_neg]
      · exact ih
      · intro hc
        have hc : 0 ≤ a ∧ a < (n : Int) := by simpa using hc
        rw [if_pos hc] at h
        cases h
    | some r =>
      rw [hfd] at h
      by_cases hc : 0 ≤ a ∧ a < (n : Int)
      · rw [if_pos hc] at h
        simp only [Option.map_some, Option.some.injEq] at h
        rw [List.filter_cons_of_pos (by simpa using hc), List.map_cons, ih, h]
      · rw [if_neg hc] at h
        cases h

theorem get_ids_subsets (hS : S.Lawful) {db : Option (Tables S)} {rows} (h : RepO db rows)
    (order : List (OutRow S) → List (OutRow S)) (ho : ∀ l, (order l).Perm l) (ids : List Int) (hnd : ids.Nodup) :
    ∃ out, get order db none (some ids) = .ok out ∧
      out.map (·.subset) = ids.filter fun id => decide (0 ≤ id ∧ id < (rows.length : Int)) := by
  obtain ⟨all, h1, h2⟩ := get_ids_rep h order ho ids
  refine ⟨_, h2, ?_⟩
  rw [eraseDups_of_nodup hnd]
  apply filterMap_subsets
  intro id
  cases db with
  | none =>
    have : rows = [] := h
    subst this
    cases h1
    rw [if_neg]
    · rfl
    · simp only [List.length_nil]; omega
  | some t =>
    obtain ⟨P, hP, rfl⟩ := h
    rw [get_all hP] at h1
    cases h1
    rw [find_outFrom]
    simp only [Int.zero_add]

theorem updateWhere_rows (hS : S.Lawful) {db db' : Option (Tables S)} {rows : List (Item S)} (h : RepO db rows)
    {valid sat upd n} (hne : upd ≠ []) (hu : updateWhere db valid sat upd = .ok (db', n)) :
    ∃ (ty : String → S.Ty) (all all' : List (OutRow S)), get id db none none = .ok all ∧
      get id db' none none = .ok all' ∧ n = (all.filter sat).length ∧ all'.length = all.length ∧
      ∀ (i : Nat) (r : OutRow S), all[i]? = some r → ∃ r', all'[i]? = some r' ∧ r'.subset = r.subset ∧
        (sat r = false → r' = r) ∧
        (sat r = true → ∀ col, r'.value col =
          match upd.find? fun u => u.1 == col with
          | some u => S.cell (ty col) u.2
          | none => r.value col) := by
  cases db with
  | none => cases hu
  | some t =>
    obtain ⟨P, hP, rfl⟩ := h
    obtain ⟨hr', hn⟩ := updateWhere_rep (show RepO (some t) (P.map (·.2)) from ⟨P, hP, rfl⟩) (get_all hP id) hu
    have hcols : ∃ t', db' = some t' ∧ t'.thinCols = t.thinCols ∧ t'.fatCols = t.fatCols := by
      unfold updateWhere at hu
      simp only at hu
      rw [if_neg hne] at hu
      split at hu
      · cases hu
      · split at hu
        · cases hu
        · cases hu
          exact ⟨_, rfl, rfl, rfl⟩
    obtain ⟨t', rfl, hc1, hc2⟩ := hcols
    obtain ⟨P', hP', hrows⟩ := hr'
    have hie : upd.isEmpty = false := by
      cases upd with
      | nil => exact absurd rfl hne
      | cons _ _ => rfl
    have hout : ∀ b it, outRow t' b it = outRow t b it := by
      intro b it
      unfold outRow
      rw [hc1, hc2]
    rw [hie] at hn
    refine ⟨colTy t, _, _, get_all hP id, get_all hP' id, by simpa using hn, ?_, ?_⟩
    · rw [outFrom_length, outFrom_length, hrows, List.length_zipWith, outFrom_length, Nat.min_self]
    · intro i r hi
      rw [outFrom_getElem?] at hi
      cases hit : (P.map (·.2))[i]? with
      | none => rw [hit] at hi; cases hi
      | some it =>
        rw [hit] at hi
        simp only [Option.map_some, Option.some.injEq] at hi
        subst hi
        have hk : ∀ k ∈ keysOf it, k ∈ t.thinCols.map (·.1) ++ t.fatCols.map (·.1) := by
          obtain ⟨p, hp, rfl⟩ := List.mem_map.1 (List.mem_of_getElem? hit)
          exact hP.keys p hp
        have hnew : (P'.map (·.2))[i]? = some (if sat (outRow t (0 + i) it) && !upd.isEmpty then overwrite upd it else it) := by
          rw [hrows, List.getElem?_zipWith, outFrom_getElem?, hit]
          rfl
        rw [hie] at hnew
        simp only [Bool.not_false, Bool.and_true] at hnew
        refine ⟨outRow t' (0 + i) (if sat (outRow t (0 + i) it) then overwrite upd it else it), ?_, rfl, ?_, ?_⟩
        · rw [outFrom_getElem?, hnew]; rfl
        · intro hs
          rw [hs, hout]; rfl
        · intro hs col
          rw [hs, if_pos rfl]
          have hk' : ∀ k ∈ keysOf (overwrite upd it), k ∈ t'.thinCols.map (·.1) ++ t'.fatCols.map (·.1) := by
            have hm := List.mem_of_getElem? hnew
            rw [hs, if_pos rfl] at hm
            obtain ⟨p, hp, hpe⟩ := List.mem_map.1 hm
            have := hP'.keys p hp
            rwa [hpe] at this
          rw [outRow_value hS t' _ _ hk', outRow_value hS t _ _ hk, overwrite_value]
          have : colTy t' col = colTy t col := by
            unfold colTy
            rw [hc1, hc2]
          rw [this]
          cases upd.find? fun u => u.1 == col <;> rfl

end NextPlaid.Db
