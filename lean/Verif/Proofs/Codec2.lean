import Verif.Proofs.Codec
import Verif.Proofs.Score

namespace NextPlaid.Codec

/-! ### Buckets -/

theorem bucketOf_nil {α : Type _} [LinearOrder α] (v : α) : bucketOf ([] : List α) v = 0 := rfl

theorem bucketOf_cons {α : Type _} [LinearOrder α] (c : α) (cs : List α) (v : α) :
    bucketOf (c :: cs) v = (if c < v then 1 else 0) + bucketOf cs v := by
  simp only [bucketOf, List.filter_cons]
  by_cases h : c < v <;> simp [h]
  omega

theorem bucketOf_le {α : Type _} [LinearOrder α] (cutoffs : List α) (v : α) :
    bucketOf cutoffs v ≤ cutoffs.length := List.length_filter_le _ _

theorem bucketOf_mono {α : Type _} [LinearOrder α] (cutoffs : List α) {v w : α} (h : v ≤ w) :
    bucketOf cutoffs v ≤ bucketOf cutoffs w := by
  induction cutoffs with
  | nil => simp [bucketOf_nil]
  | cons c cs ih =>
    rw [bucketOf_cons, bucketOf_cons]
    by_cases hc : c < v
    · simp [hc, lt_of_lt_of_le hc h]; exact ih
    · simp only [hc, if_false]; omega

theorem bucketOf_sorted {α : Type _} [LinearOrder α] (cutoffs : List α) (v : α)
    (hs : cutoffs.Pairwise (· ≤ ·)) :
    ∀ (i : Nat) (hi : i < cutoffs.length),
      (i < bucketOf cutoffs v → cutoffs[i] < v) ∧ (bucketOf cutoffs v ≤ i → v ≤ cutoffs[i]) := by
  induction cutoffs with
  | nil => intro i hi; simp at hi
  | cons c cs ih =>
    have hs' := List.pairwise_cons.1 hs
    intro i hi
    rw [bucketOf_cons]
    by_cases hc : c < v
    · simp only [hc, if_true]
      cases i with
      | zero =>
        simp only [List.getElem_cons_zero]
        exact ⟨fun _ => hc, fun h => by omega⟩
      | succ i =>
        have := ih hs'.2 i (by simpa using hi)
        simp only [List.getElem_cons_succ]
        exact ⟨fun h => this.1 (by omega), fun h => this.2 (by omega)⟩
    · have hz : bucketOf cs v = 0 := by
        simp only [bucketOf, List.length_eq_zero_iff, List.filter_eq_nil_iff, decide_eq_true_eq,
          not_lt]
        intro a ha
        exact le_trans (not_lt.1 hc) (hs'.1 a ha)
      simp only [hc, if_false, hz]
      refine ⟨fun h => by omega, fun _ => ?_⟩
      cases i with
      | zero => simpa using not_lt.1 hc
      | succ i =>
        simp only [List.getElem_cons_succ]
        exact le_trans (not_lt.1 hc) (hs'.1 _ (List.getElem_mem _))

/-! ### packbits / unpackbits -/

theorem packFold_testBit (l : List Nat) :
    ∀ (k acc : Nat), (∀ b ∈ l, b = 0 ∨ b = 1) → k + l.length ≤ 8 → ∀ j,
    (((List.range' k l.length).zip l).foldl (fun byte p => byte ||| (p.2 <<< (7 - p.1))) acc).testBit j
      = (acc.testBit j || decide (j ≤ 7 ∧ k ≤ 7 - j ∧ l[7 - j - k]? = some 1)) := by
  induction l with
  | nil => intro k acc _ _ j; simp
  | cons b l ih =>
    intro k acc hb hlen j
    simp only [List.length_cons] at hlen
    rw [List.length_cons, List.range'_succ, List.zip_cons_cons, List.foldl_cons,
      ih (k + 1) _ (fun x hx => hb x (by simp [hx])) (by omega)]
    rw [Nat.testBit_or, Bool.or_assoc]
    congr 1
    have hbit : (b <<< (7 - k)).testBit j = decide (j = 7 - k ∧ b = 1) := by
      rw [Nat.testBit_shiftLeft]
      rcases hb b (by simp) with h | h <;> subst h
      · simp
      · rw [Bool.eq_iff_iff]
        simp only [Bool.and_eq_true, decide_eq_true_eq, Nat.testBit_one_eq_true_iff_self_eq_zero,
          and_true]
        omega
    rw [hbit, Bool.eq_iff_iff]
    simp only [Bool.or_eq_true, decide_eq_true_eq]
    constructor
    · rintro (⟨h1, h2⟩ | ⟨h1, h2, h3⟩)
      · refine ⟨by omega, by omega, ?_⟩
        have : 7 - j - k = 0 := by omega
        rw [this, h2]; rfl
      · refine ⟨h1, by omega, ?_⟩
        have : 7 - j - k = (7 - j - (k + 1)) + 1 := by omega
        rw [this]
        simpa using h3
    · rintro ⟨h1, h2, h3⟩
      by_cases hj : 7 - j = k
      · left
        have : 7 - j - k = 0 := by omega
        rw [this] at h3
        simp at h3
        exact ⟨by omega, h3⟩
      · right
        have : 7 - j - k = (7 - j - (k + 1)) + 1 := by omega
        rw [this] at h3
        refine ⟨h1, by omega, by simpa using h3⟩

theorem unpack_packChunk (l : List Nat) (hb : ∀ b ∈ l, b = 0 ∨ b = 1) (hlen : l.length ≤ 8) :
    (((List.range 8).reverse).map fun i => (packChunk l >>> i) &&& 1) =
      l ++ List.replicate (8 - l.length) 0 := by
  have htb : ∀ j, (packChunk l).testBit j = decide (j ≤ 7 ∧ l[7 - j]? = some 1) := by
    intro j
    have := packFold_testBit l 0 0 hb (by omega) j
    rw [packChunk, List.range_eq_range', this]
    simp
  have hval : ∀ i, i < 8 → (packChunk l >>> (7 - i)) &&& 1 = if l[i]? = some 1 then 1 else 0 := by
    intro i hi
    rw [Nat.and_one_is_mod]
    have h1 := htb (7 - i)
    rw [Nat.testBit, Nat.and_comm, Nat.and_one_is_mod] at h1
    have h2 : 7 - (7 - i) = i := by omega
    rw [h2] at h1
    have h3 : 7 - i ≤ 7 := by omega
    simp only [h3, true_and] at h1
    by_cases hl : l[i]? = some 1
    · simp only [hl, decide_true, if_true] at h1 ⊢
      rcases Nat.mod_two_eq_zero_or_one (packChunk l >>> (7 - i)) with h | h
      · rw [h] at h1; simp at h1
      · exact h
    · simp only [hl, decide_false, if_false] at h1 ⊢
      rcases Nat.mod_two_eq_zero_or_one (packChunk l >>> (7 - i)) with h | h
      · exact h
      · rw [h] at h1; simp at h1
  apply List.ext_getElem
  · simp; omega
  · intro i h1 h2
    have hi : i < 8 := by simpa using h1
    simp only [List.getElem_map, List.getElem_reverse, List.getElem_range, List.length_range]
    have : 8 - 1 - i = 7 - i := by omega
    rw [this, hval i hi]
    by_cases hil : i < l.length
    · rw [List.getElem_append_left hil, List.getElem?_eq_getElem hil]
      rcases hb l[i] (List.getElem_mem _) with h | h <;> simp [h]
    · rw [List.getElem_append_right (by omega), List.getElem?_eq_none (by omega)]
      simp

theorem unpackbits_chunks (fuel : Nat) : ∀ (bits : List Nat), (∀ b ∈ bits, b = 0 ∨ b = 1) →
    bits.length ≤ fuel →
    unpackbits ((chunks8 fuel bits).map packChunk) =
      bits ++ List.replicate ((8 - bits.length % 8) % 8) 0 := by
  induction fuel with
  | zero => 
    intro bits _ h
    have : bits = [] := List.eq_nil_of_length_eq_zero (by omega)
    subst this; rfl
  | succ fuel ih =>
    intro bits hb hlen
    cases hbits : bits with
    | nil => rfl
    | cons x xs =>
      rw [← hbits]
      have hpos : 0 < bits.length := by rw [hbits]; simp
      have hc : chunks8 (fuel + 1) bits = bits.take 8 :: chunks8 fuel (bits.drop 8) := by
        rw [hbits]; rfl
      rw [hc, List.map_cons, unpackbits, List.flatMap_cons]
      rw [unpack_packChunk _ (fun b h => hb b (List.mem_of_mem_take h)) (by simp; omega)]
      have := ih (bits.drop 8) (fun b h => hb b (List.mem_of_mem_drop h)) (by simp; omega)
      rw [unpackbits] at this
      rw [this]
      by_cases h8 : bits.length ≤ 8
      · have e1 : bits.take 8 = bits := List.take_of_length_le h8
        have e2 : bits.drop 8 = [] := List.drop_of_length_le h8
        rw [e1, e2]
        simp
        omega
      · have e1 : (bits.take 8).length = 8 := by simp; omega
        rw [e1, List.length_drop]
        have e3 : (8 - (bits.length - 8) % 8) % 8 = (8 - bits.length % 8) % 8 := by omega
        rw [e3]
        simp only [Nat.sub_self, List.replicate_zero, List.append_nil]
        rw [← List.append_assoc, List.take_append_drop]

/-! ### Argmax and batching -/

theorem argmaxRow_spec {α : Type _} [LinearOrder α] (row : List (Score α)) (h : row ≠ []) :
    ∃ m, row[argmaxRow row]? = some m ∧ ∀ s ∈ row, Score.ge m s := by
  have hne : (List.range row.length).zip row ≠ [] := by
    intro hz
    have : ((List.range row.length).zip row).length = 0 := by rw [hz]; rfl
    simp at this
    exact h this
  obtain ⟨m, hm⟩ := maxBy_isSome (fun (a b : Nat × Score α) => Score.cmpForMax a.2 b.2) hne
  have hspec := maxBy_spec (fun (a b : Nat × Score α) => Score.cmpForMax a.2 b.2)
    (fun a b => Score.ge a.2 b.2) (fun a => Score.ge_refl a.2)
    (fun a b c h1 h2 => Score.ge_trans h1 h2) (fun a b h => Score.cmp_gt_ge h)
    (fun a b h => Score.not_gt_ge h) _ m hm
  have harg : argmaxRow row = m.1 := by simp only [argmaxRow, hm]
  obtain ⟨i, hi, hmi⟩ := List.mem_iff_getElem.1 hspec.1
  have hi' : i < row.length := by simpa using hi
  have hm1 : m.1 = i := by rw [← hmi]; simp
  have hm2 : m.2 = row[i] := by rw [← hmi]; simp
  refine ⟨row[i], by rw [harg, hm1, List.getElem?_eq_getElem hi'], ?_⟩
  intro s hs
  obtain ⟨j, hj, rfl⟩ := List.mem_iff_getElem.1 hs
  have hjm : (j, row[j]) ∈ (List.range row.length).zip row := by
    rw [List.mem_iff_getElem]
    exact ⟨j, by simpa using hj, by simp⟩
  have := hspec.2 _ hjm
  simp only [hm2] at this
  exact this

theorem batch_flatten {ε β : Type _} (f : ε → β) (l : List ε) (b : Nat) (hb : 0 < b) :
    ∀ (fuel start : Nat), l.length ≤ start + fuel * b →
    ((batchRanges l.length b fuel start).map fun p =>
      ((l.drop p.1).take (p.2 - p.1)).map f).flatten = (l.drop start).map f := by
  intro fuel
  induction fuel with
  | zero =>
    intro start h
    simp only [batchRanges, List.map_nil, List.flatten_nil]
    rw [List.drop_of_length_le (by omega)]; rfl
  | succ fuel ih =>
    intro start h
    unfold batchRanges
    split
    · rename_i hlt
      rw [List.map_cons, List.flatten_cons, ih (start + b) (by rw [Nat.succ_mul] at h; omega)]
      simp only
      rw [← List.map_append]
      congr 1
      by_cases hle : start + b ≤ l.length
      · rw [Nat.min_eq_left hle]
        have : start + b - start = b := by omega
        rw [this, ← List.drop_drop, List.take_append_drop]
      · rw [Nat.min_eq_right (by omega), List.take_of_length_le (by simp),
          List.drop_of_length_le (l := l) (i := start + b) (by omega), List.append_nil]
    · rw [List.drop_of_length_le (by omega)]; rfl

end NextPlaid.Codec
