import Verif.Proofs.Db3

/-! Lemmas about looking up metadata rows by id. -/

namespace NextPlaid.Db
open NextPlaid NextPlaid.Index NextPlaid.Spec

variable {S : Sql}

/-- `results_map.get(id)`. -/
def lookup (m : List (OutRow S)) (id : Int) : Option (OutRow S) := m.find? fun r => r.subset == id

theorem lookup_filter (m : List (OutRow S)) (a id : Int) :
    lookup (m.filter fun r => r.subset != a) id = if id = a then none else lookup m id := by
  unfold lookup
  induction m with
  | nil => simp
  | cons r m ih =>
    by_cases hr : r.subset = a
    · rw [List.filter_cons_of_neg (by simp [hr]), ih]
      split
      · rfl
      · next h =>
        rw [List.find?_cons_of_neg]
        rw [hr]; simp only [beq_iff_eq]; exact fun e => h e.symm
    · rw [List.filter_cons_of_pos (by simp [hr])]
      by_cases hi : r.subset = id
      · rw [List.find?_cons_of_pos (by simp [hi]), List.find?_cons_of_pos (by simp [hi]), if_neg]
        intro e; exact hr (hi.trans e)
      · rw [List.find?_cons_of_neg (by simp [hi]), List.find?_cons_of_neg (by simp [hi]), ih]

theorem lookup_mapInsert (m : List (OutRow S)) (r : OutRow S) (id : Int) :
    lookup (mapInsert m r) id = if r.subset = id then some r else lookup m id := by
  have h := lookup_filter m r.subset id
  unfold lookup at h ⊢
  unfold mapInsert
  rw [List.find?_append, h]
  split
  · next e => rw [if_pos e.symm]; simp [e]
  · next e => rw [if_neg (fun e' => e e'.symm), List.find?_cons_of_neg (by simpa using fun e' => e e'.symm)]
              simp

theorem lookup_foldl (f : Int → Option (OutRow S)) : ∀ (rs m : List (OutRow S)) (id : Int),
    (∀ r ∈ rs, f r.subset = some r) →
    lookup (rs.foldl mapInsert m) id = if id ∈ rs.map (·.subset) then f id else lookup m id
  | [], m, id, _ => by simp
  | r :: rs, m, id, h => by
    rw [List.foldl_cons, lookup_foldl f rs _ id (fun s hs => h s (List.mem_cons_of_mem _ hs)), lookup_mapInsert,
      List.map_cons]
    by_cases h1 : id ∈ rs.map (·.subset)
    · rw [if_pos h1, if_pos (List.mem_cons_of_mem _ h1)]
    · rw [if_neg h1]
      by_cases h2 : r.subset = id
      · rw [if_pos h2, if_pos (by rw [h2]; simp), ← h2, h r (by simp)]
      · rw [if_neg h2, if_neg]
        intro hc
        rcases List.mem_cons.1 hc with hc | hc
        · exact h2 hc.symm
        · exact h1 hc

theorem drain_filter : ∀ (l : List Int) (m : List (OutRow S)) (a : Int),
    drain (m.filter fun r => r.subset != a) l = drain m (l.filter (· != a))
  | [], _, _ => rfl
  | b :: l, m, a => by
    have hl := lookup_filter m a b
    unfold lookup at hl
    rw [drain, hl]
    by_cases hb : b = a
    · subst hb
      rw [if_pos rfl, List.filter_cons_of_neg (by simp)]
      exact drain_filter l m b
    · rw [if_neg hb, List.filter_cons_of_pos (by simp [hb]), drain]
      cases hf : m.find? fun r => r.subset == b with
      | none => exact drain_filter l m a
      | some r =>
        simp only
        rw [← drain_filter l _ a, List.filter_filter, List.filter_filter]
        congr 2
        apply List.filter_congr
        intro x _
        exact Bool.and_comm _ _

theorem drain_none (a : Int) (m : List (OutRow S)) (hm : lookup m a = none) : ∀ (l : List Int),
    drain m l = drain m (l.filter (· != a)) := by
  intro l
  rw [← drain_filter]
  congr 1
  symm
  rw [List.filter_eq_self]
  intro r hr
  have := List.find?_eq_none.1 hm r hr
  simpa using this

theorem drain_eq (m : List (OutRow S)) : ∀ (n : Nat) (l : List Int), l.length ≤ n →
    drain m l = l.eraseDups.filterMap (lookup m)
  | _, [], _ => rfl
  | 0, _ :: _, h => by simp at h
  | n + 1, a :: l, h => by
    have hlen : (l.filter (· != a)).length ≤ n := by
      have := List.length_filter_le (· != a) l
      simp only [List.length_cons] at h
      omega
    have e : (l.filter fun b => !b == a) = l.filter (· != a) := rfl
    rw [List.eraseDups_cons, List.filterMap_cons, e, ← drain_eq m n _ hlen, drain]
    show (match lookup m a with | some r => _ | none => _) = _
    cases hf : lookup m a with
    | none => simp only; exact drain_none a m hf l
    | some r => simp only; rw [drain_filter]

theorem mem_chunks (ids : List Int) (id : Int) :
    (∃ i ∈ List.range (numChunksFor ids.length paramLimit), id ∈ chunkSlice ids paramLimit i) ↔ id ∈ ids := by
  have h := chunk_flatten ids paramLimit (by decide)
  constructor
  · rintro ⟨i, hi, hm⟩
    rw [← h, List.mem_flatten]
    exact ⟨_, List.mem_map_of_mem hi, hm⟩
  · intro hm
    rw [← h, List.mem_flatten] at hm
    obtain ⟨c, hc, hm⟩ := hm
    obtain ⟨i, hi, rfl⟩ := List.mem_map.1 hc
    exact ⟨i, hi, hm⟩

theorem filterMap_congr' {α β : Type} {f g : α → Option β} : ∀ {l : List α}, (∀ a ∈ l, f a = g a) →
    l.filterMap f = l.filterMap g
  | [], _ => rfl
  | a :: l, h => by
    rw [List.filterMap_cons, List.filterMap_cons, h a (by simp),
      filterMap_congr' (fun b hb => h b (List.mem_cons_of_mem _ hb))]

theorem getByIds_eq (order : List (OutRow S) → List (OutRow S)) (ho : ∀ l, (order l).Perm l) (t : Tables S)
    (hnd : ((joined t).map (·.subset)).Nodup) (ids : List Int) :
    getByIds order t ids = ids.eraseDups.filterMap (lookup (joined t)) := by
  unfold getByIds
  simp only
  rw [drain_eq _ ids.length ids (Nat.le_refl _)]
  apply filterMap_congr'
  intro id hid
  have hid : id ∈ ids := (mem_eraseDups' _ _).1 hid
  have hmem : ∀ r, r ∈ ((List.range (numChunksFor ids.length paramLimit)).flatMap fun i =>
      selectIn order t (chunkSlice ids paramLimit i)) ↔ r ∈ joined t ∧ r.subset ∈ ids := by
    intro r
    rw [List.mem_flatMap]
    unfold selectIn
    simp only [(ho _).mem_iff, List.mem_filter, List.contains_iff_mem]
    constructor
    · rintro ⟨i, hi, hr, hc⟩
      exact ⟨hr, (mem_chunks ids _).1 ⟨i, hi, hc⟩⟩
    · rintro ⟨hr, hc⟩
      obtain ⟨i, hi, hm⟩ := (mem_chunks ids _).2 hc
      exact ⟨i, hi, hr, hm⟩
  rw [lookup_foldl (lookup (joined t))]
  · split
    · rfl
    · next hn =>
      symm
      show (joined t).find? _ = none
      rw [List.find?_eq_none]
      intro r hr hrid
      apply hn
      rw [List.mem_map]
      have hrid : r.subset = id := by simpa using hrid
      exact ⟨r, (hmem r).2 ⟨hr, hrid ▸ hid⟩, hrid⟩
  · intro r hr
    have hr := ((hmem r).1 hr).1
    unfold lookup
    cases hf : (joined t).find? fun s => s.subset == r.subset with
    | none => exact absurd (List.find?_eq_none.1 hf r hr) (by simp)
    | some s =>
      have h1 := List.find?_some hf
      have h2 := List.mem_of_find?_eq_some hf
      rw [inj_of_nodup_map (·.subset) _ hnd s h2 r hr (by simpa using h1)]

theorem get_ids_rep {db : Option (Tables S)} {rows} (h : RepO db rows)
    (order : List (OutRow S) → List (OutRow S)) (ho : ∀ l, (order l).Perm l) (ids : List Int) :
    ∃ all, get order db none none = .ok all ∧
      get order db none (some ids) = .ok (ids.eraseDups.filterMap fun id => all.find? fun r => r.subset == id) := by
  cases db with
  | none =>
    refine ⟨[], rfl, ?_⟩
    show Except.ok [] = _
    congr 1
    symm
    rw [List.filterMap_eq_nil_iff]
    intro a _
    rfl
  | some t =>
    obtain ⟨P, hP, rfl⟩ := h
    refine ⟨_, get_all hP order, ?_⟩
    unfold get
    simp only
    rw [getByIds_eq order ho t]
    · rw [joined_rep hP]; rfl
    · rw [joined_rep hP, outFrom_subsets t t.thinCols]
      exact (thinFrom_subset_pairwise t.thinCols P 0).2

theorem sortBySubset_filter (t : Tables S) (sat : OutRow S → Bool) : ∀ (l : List (Item S)) (b : Int),
    sortBySubset ((outFrom t b l).filter sat) = (outFrom t b l).filter sat := by
  have hlow : ∀ (l : List (Item S)) (b : Int), ∀ r ∈ outFrom t b l, b ≤ r.subset := by
    intro l
    induction l with
    | nil => intro b r hr; simp [outFrom] at hr
    | cons it l ih =>
      intro b r hr
      rw [outFrom] at hr
      rcases List.mem_cons.1 hr with rfl | hr
      · exact Int.le_refl b
      · have := ih (b + 1) r hr; omega
  intro l
  induction l with
  | nil => intro b; rfl
  | cons it l ih =>
    intro b
    rw [outFrom]
    by_cases hs : sat (outRow t b it)
    · rw [List.filter_cons_of_pos hs, sortBySubset, ih (b + 1)]
      cases hf : (outFrom t (b + 1) l).filter sat with
      | nil => rfl
      | cons r rs =>
        have hr : r ∈ outFrom t (b + 1) l := (List.mem_filter.1 (hf ▸ List.mem_cons_self : r ∈ (outFrom t (b + 1) l).filter sat)).1
        have := hlow l (b + 1) r hr
        rw [insertBySubset, if_pos]
        show b ≤ r.subset
        omega
    · rw [List.filter_cons_of_neg hs, ih (b + 1)]

theorem get_cond_rep {db : Option (Tables S)} {rows} (h : RepO db rows)
    (order : List (OutRow S) → List (OutRow S)) (sat : OutRow S → Bool) :
    ∃ all, get order db none none = .ok all ∧ get order db (some (true, sat)) none = .ok (all.filter sat) ∧
      (db.isSome → whereCondition db true sat = .ok ((all.filter sat).map (·.subset))) ∧ count db = all.length := by
  cases db with
  | none => exact ⟨[], rfl, rfl, by simp, rfl⟩
  | some t =>
    obtain ⟨P, hP, rfl⟩ := h
    refine ⟨_, get_all hP order, ?_, fun _ => ?_, ?_⟩
    · unfold get
      simp only
      rw [joined_rep hP, sortBySubset_filter]
    · unfold whereCondition
      simp only
      rw [joined_rep hP]
      rfl
    · unfold count
      simp only
      rw [hP.thin, thinFrom_length, outFrom_length, List.length_map]

theorem kept_rep (hS : S.Lawful) {db : Option (Tables S)} {rows} (h : Kept db rows) : RepO db rows := by
  induction h with
  | create h => exact (create_rep h).1
  | update _ h ih => exact (update_rep hS ih h).1
  | delete ids _ ih => exact (delete_rep ih ids).1
  | change _ hg h ih => exact (updateWhere_rep ih hg h).1

end NextPlaid.Db
