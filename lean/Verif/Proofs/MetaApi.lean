import Verif.Spec.MetaApi
import Verif.Proofs.Db5

/-! Proofs about the metadata endpoints. -/

namespace NextPlaid.MetaApi
open NextPlaid NextPlaid.Db NextPlaid.SearchApi NextPlaid.Spec

variable {S : Sql}

theorem all_mem (hS : S.Lawful) {db : Option (Tables S)} {rows} (h : RepO db rows) (order : List (OutRow S) → List (OutRow S)) {all}
    (h1 : get order db none none = .ok all) (id : Int) :
    (all.find? fun r => r.subset == id).map (·.subset) = if 0 ≤ id ∧ id < (rows.length : Int) then some id else none := by
  cases db with
  | none =>
    have : rows = [] := h
    subst this
    cases h1
    rw [if_neg]
    · rfl
    · simp only [List.length_nil]; omega
  | some t =>
    obtain ⟨P, hP, rfl⟩ := h
    rw [get_all hP] at h1
    cases h1
    rw [find_outFrom]
    simp only [Int.zero_add]

theorem found_iff (hS : S.Lawful) {db : Option (Tables S)} {rows} (h : RepO db rows) (order : List (OutRow S) → List (OutRow S))
    (ho : ∀ l, (order l).Perm l) (ids : List Int) :
    ∃ found, get order db none (some ids) = .ok found ∧
      ∀ id ∈ ids, (id ∈ found.map (·.subset) ↔ 0 ≤ id ∧ id < (rows.length : Int)) := by
  obtain ⟨all, h1, h2⟩ := get_ids_rep h order ho ids
  refine ⟨_, h2, fun id hid => ?_⟩
  have hf := all_mem hS h order h1
  constructor
  · intro hm
    obtain ⟨r, hr, rfl⟩ := List.mem_map.1 hm
    obtain ⟨a, _, hfa⟩ := List.mem_filterMap.1 hr
    have := hf a
    rw [hfa] at this
    by_cases hc : 0 ≤ a ∧ a < (rows.length : Int)
    · rw [if_pos hc] at this
      simp only [Option.map_some, Option.some.injEq] at this
      rw [this]; exact hc
    · rw [if_neg hc] at this; cases this
  · intro hc
    have := hf id
    rw [if_pos hc] at this
    obtain ⟨r, hr, hrs⟩ := Option.map_eq_some_iff.1 this
    exact List.mem_map.2 ⟨r, List.mem_filterMap.2 ⟨id, List.mem_eraseDups.2 hid, hr⟩, hrs⟩

end NextPlaid.MetaApi
