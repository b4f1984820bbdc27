import Verif.Proofs.Train
import Verif.Proofs.Single
import Mathlib.Data.List.Nodup
import Mathlib.Data.List.Perm.Basic
import Mathlib.Data.Nat.Sqrt
import Mathlib.Algebra.Order.Floor.Ring

/-! Proofs: what is drawn for training, and how full the buckets are. -/

namespace NextPlaid.Train

open NextPlaid.Spec
open NextPlaid.Fusion (Rounding)
open NextPlaid.Codec (bucketOf)

section
variable {R : Type}

theorem draw_take {order : List Nat} {n : Nat} (h : Draw order n) (k : Nat) :
    (order.take k).Nodup ∧ (∀ i ∈ order.take k, i < n) ∧ (order.take k).length = min k n := by
  have hn : order.Nodup := h.nodup_iff.2 List.nodup_range
  refine ⟨hn.sublist (List.take_sublist _ _), fun i hi => ?_, ?_⟩
  · have := h.mem_iff.1 (List.mem_of_mem_take hi)
    simpa using this
  · rw [List.length_take, h.length_eq, List.length_range]

theorem drawn_le (asked : Option Nat) (n : Nat) : drawn asked n ≤ n := Nat.min_le_right _ _

theorem drawn_all {n : Nat} (h : n ≤ 30720) : drawn none n = n := by
  unfold drawn
  have : n ≤ Nat.sqrt (30720 * n) := by
    rw [Nat.le_sqrt]; exact Nat.mul_le_mul_right _ h
  simp only [Option.getD_none]
  omega

theorem collect_eq (size : Nat) : ∀ (ds : List (List R)) (c : Nat), collect size c ds = ds.flatten.take (size - c)
  | [], c => by simp [collect]
  | d :: ds, c => by
    rw [collect]
    split
    · rename_i h
      rw [Nat.sub_eq_zero_of_le h]; simp
    · rename_i h
      rw [collect_eq size ds, List.flatten_cons, List.take_append]
      congr 1
      · rcases Nat.le_total (size - c) d.length with h' | h'
        · rw [Nat.min_eq_left h']
        · rw [Nat.min_eq_right h', List.take_of_length_le (le_refl _), List.take_of_length_le h']
      · congr 1
        omega

theorem heldout_eq (order : List Nat) (docs : List (List R)) : heldout order docs =
    (rowsOf docs (order.take (sampleCount docs.length)).reverse).take (min (tokens docs / 20) 50000) := by
  unfold heldout
  rw [collect_eq, rowsOf, List.flatMap_def, Nat.sub_zero]
  rfl

theorem rowsOf_length (docs : List (List R)) (is : List Nat) : (rowsOf docs is).length = (is.map fun i => (docs.getD i []).length).sum := by
  unfold rowsOf
  rw [List.length_flatMap]

theorem rowsOf_all {docs : List (List R)} {order : List Nat} (h : Draw order docs.length) : (rowsOf docs order).length = tokens docs := by
  rw [rowsOf_length, (h.map _).sum_eq]
  unfold tokens
  congr 1
  apply List.ext_getElem
  · simp
  · intro i h1 h2
    simp at h1
    simp [h1]

theorem tokens_eq (docs : List (List R)) : tokens docs = docs.flatten.length := by
  unfold tokens; rw [List.length_flatten]

end

/-! ### How many clusters -/

theorem powerFor_spec {e : ℚ} (h : 1 ≤ 256 * e) :
    ((powerFor e : ℚ)) ^ 2 ≤ 256 * e ∧ 256 * e < 4 * (powerFor e : ℚ) ^ 2 := by
  have h0 : 1 ≤ ⌊256 * e⌋ := Int.le_floor.2 (by exact_mod_cast h)
  obtain ⟨m, hm⟩ : ∃ m : Nat, ⌊256 * e⌋ = m := ⟨⌊256 * e⌋.toNat, by omega⟩
  have hm0 : m ≠ 0 := by omega
  have f1 : (m : ℚ) ≤ 256 * e := by have := Int.floor_le (256 * e); rw [hm] at this; exact_mod_cast this
  have f2 : 256 * e < (m : ℚ) + 1 := by have := Int.lt_floor_add_one (256 * e); rw [hm] at this; exact_mod_cast this
  have l1 : 2 ^ Nat.log2 m ≤ m := Nat.log2_self_le hm0
  have l2 : m < 2 ^ (Nat.log2 m + 1) := Nat.lt_log2_self
  unfold powerFor
  rw [hm, Int.toNat_natCast]
  have d := Nat.div_add_mod (Nat.log2 m) 2
  have d' := Nat.mod_lt (Nat.log2 m) (by decide : 0 < 2)
  generalize Nat.log2 m / 2 = j at *
  have k1 : (2 ^ j) ^ 2 ≤ m := by
    rw [← Nat.pow_mul]
    exact le_trans (Nat.pow_le_pow_right (by decide) (by omega)) l1
  have k2 : m + 1 ≤ 4 * (2 ^ j) ^ 2 := by
    rw [← Nat.pow_mul, show 4 = 2 ^ 2 from rfl, ← Nat.pow_add]
    exact le_trans l2 (Nat.pow_le_pow_right (by decide) (by omega))
  have k1' : ((2 ^ j : Nat) : ℚ) ^ 2 ≤ m := by exact_mod_cast k1
  have k2' : (m : ℚ) + 1 ≤ 4 * ((2 ^ j : Nat) : ℚ) ^ 2 := by exact_mod_cast k2
  exact ⟨le_trans k1' f1, lt_of_lt_of_le f2 k2'⟩

/-! ### How full the buckets are -/

theorem filter_interval {A : Type} {p : A → Bool} {s : List A} {lo hi : Nat} (hl : lo ≤ hi) (hh : hi ≤ s.length)
    (h : ∀ j x, s[j]? = some x → (p x = true ↔ lo ≤ j ∧ j < hi)) : (s.filter p).length = hi - lo := by
  have e : s = s.take lo ++ ((s.drop lo).take (hi - lo) ++ s.drop hi) := by
    conv_lhs => rw [← List.take_append_drop lo s, ← List.take_append_drop (hi - lo) (s.drop lo)]
    rw [List.drop_drop, show lo + (hi - lo) = hi by omega]
  rw [e, List.filter_append, List.filter_append]
  have h1 : (s.take lo).filter p = [] := by
    rw [List.filter_eq_nil_iff]
    intro x hx
    obtain ⟨j, hj⟩ := List.getElem?_of_mem hx
    rw [List.getElem?_take] at hj
    split at hj
    · rename_i hlt; rw [h j x hj]; omega
    · cases hj
  have h2 : (s.drop hi).filter p = [] := by
    rw [List.filter_eq_nil_iff]
    intro x hx
    obtain ⟨j, hj⟩ := List.getElem?_of_mem hx
    rw [List.getElem?_drop] at hj
    rw [h _ x hj]; omega
  have h3 : ((s.drop lo).take (hi - lo)).filter p = (s.drop lo).take (hi - lo) := by
    rw [List.filter_eq_self]
    intro x hx
    obtain ⟨j, hj⟩ := List.getElem?_of_mem hx
    rw [List.getElem?_take] at hj
    split at hj
    · rename_i hlt
      rw [List.getElem?_drop] at hj
      rw [h _ x hj]; omega
    · cases hj
  rw [h1, h2, h3]
  simp
  omega

section
variable {K : Type} [Field K] [LinearOrder K] [IsStrictOrderedRing K] {r : Rounding K}

theorem getD_lt {s : List K} (hs : s.Pairwise (· < ·)) {i j : Nat} (hij : i < j) (hj : j < s.length) : s.getD i 0 < s.getD j 0 := by
  rw [List.getD_eq_getElem _ _ (by omega), List.getD_eq_getElem _ _ hj]
  exact List.pairwise_iff_getElem.1 hs i j (by omega) hj hij

/-- Below the `j`-th value. -/
theorem exact_lt_iff {s : List K} (hs : s.Pairwise (· < ·)) {p q j : Nat} (hp : p ≤ q) (hq : 0 < q) (hj : j < s.length) :
    exact s p q < s.getD j 0 ↔ p * (s.length - 1) / q < j := by
  have hle : s.Pairwise (· ≤ ·) := hs.imp le_of_lt
  have hn : s ≠ [] := by rintro rfl; simp at hj
  have hlen : 0 < s.length := by omega
  obtain ⟨a1, a2, a3⟩ := exact_between hle hn hp hq
  constructor
  · intro h
    by_contra hc
    have := getD_le hle (Nat.le_of_not_lt hc) (index_le hp hq hlen)
    linarith
  · intro h
    by_cases hr : p * (s.length - 1) % q = 0
    · rw [a2 hr]; exact getD_lt hs h hj
    · have h1 := index_lt hp hq hr
      have h2 := getD_lt hs (Nat.lt_succ_self (p * (s.length - 1) / q)) h1
      have h3 := getD_le hle h hj
      obtain ⟨f0, f1⟩ := frac_bounds (K := K) (m := p * (s.length - 1)) hq
      have h4 : exact s p q < s.getD (p * (s.length - 1) / q + 1) 0 := by
        unfold exact
        have := mul_lt_mul_of_pos_right f1 (sub_pos.2 h2)
        linarith
      exact lt_of_lt_of_le h4 h3

theorem quantileAt_exact (he : ∀ x, r.rnd x = x) (s : List K) (p q : Nat) : quantileAt r s p q = exact s p q := by
  unfold quantileAt exact
  split
  · rename_i h; rw [h]; simp
  · simp only [he]; ring

/-- The bucket of the `j`-th value. -/
theorem bucket_rank (he : ∀ x, r.rnd x = x) {arr : List K} (hnd : arr.Nodup) {nbits b j : Nat} (hb : b < 2 ^ nbits)
    (hj : j < (sorted arr).length) :
    bucketOf (cutoffs r nbits arr) ((sorted arr).getD j 0) = b ↔
      (if b = 0 then 0 else b * (arr.length - 1) / 2 ^ nbits + 1) ≤ j ∧ j < (b + 1) * (arr.length - 1) / 2 ^ nbits + 1 := by
  have hq : 0 < 2 ^ nbits := Nat.two_pow_pos nbits
  have hlen := sorted_length arr
  have hne : arr ≠ [] := by rintro rfl; rw [hlen] at hj; simp at hj
  have hs : (sorted arr).Pairwise (· < ·) := by
    have h1 : (sorted arr).Nodup := (sorted_perm arr).nodup_iff.2 hnd
    exact ((sorted_le arr).and h1).imp fun ⟨a, b⟩ => lt_of_le_of_ne a b
  have hcut : ∀ i x, (cutoffs r nbits arr)[i]? = some x → i + 1 < 2 ^ nbits ∧
      (x < (sorted arr).getD j 0 ↔ (i + 1) * (arr.length - 1) / 2 ^ nbits < j) := by
    intro i x hx
    obtain ⟨h1, rfl⟩ := (cutoffs_get hne).1 hx
    rw [quantileAt_exact he, exact_lt_iff hs (le_of_lt h1) hq hj, hlen]
    exact ⟨h1, Iff.rfl⟩
  have hmono : ∀ i i' : Nat, i ≤ i' → i * (arr.length - 1) / 2 ^ nbits ≤ i' * (arr.length - 1) / 2 ^ nbits :=
    fun i i' h => Nat.div_le_div_right (Nat.mul_le_mul_right _ h)
  have key : ∀ k, k < 2 ^ nbits → (k ≤ bucketOf (cutoffs r nbits arr) ((sorted arr).getD j 0) ↔
      k = 0 ∨ k * (arr.length - 1) / 2 ^ nbits < j) := by
    intro k hk
    cases k with
    | zero => simp
    | succ k =>
      constructor
      · intro h
        right
        by_contra hc
        have : bucketOf (cutoffs r nbits arr) ((sorted arr).getD j 0) ≤ k := by
          refine filter_length_le fun i x hi hx => ?_
          obtain ⟨h1, h2⟩ := hcut i x hx
          simp only [decide_eq_false_iff_not]
          rw [h2]
          have := hmono (k + 1) (i + 1) (by omega)
          omega
        omega
      · rintro (h | h)
        · omega
        · refine filter_length_ge (by rw [cutoffs_length]; omega) fun i x hi hx => ?_
          obtain ⟨h1, h2⟩ := hcut i x hx
          simp only [decide_eq_true_eq]
          rw [h2]
          have := hmono (i + 1) (k + 1) (by omega)
          omega
  have hle : bucketOf (cutoffs r nbits arr) ((sorted arr).getD j 0) < 2 ^ nbits := by
    have : bucketOf (cutoffs r nbits arr) ((sorted arr).getD j 0) ≤ (cutoffs r nbits arr).length := List.length_filter_le _ _
    rw [cutoffs_length] at this; omega
  have k1 := key b hb
  have hlo : (if b = 0 then 0 else b * (arr.length - 1) / 2 ^ nbits + 1) ≤ j ↔
      b ≤ bucketOf (cutoffs r nbits arr) ((sorted arr).getD j 0) := by
    rw [k1]
    split
    · simp [*]
    · simp only [*, false_or]; exact Iff.rfl
  have hhi : j < (b + 1) * (arr.length - 1) / 2 ^ nbits + 1 ↔
      bucketOf (cutoffs r nbits arr) ((sorted arr).getD j 0) < b + 1 := by
    by_cases hl : b + 1 = 2 ^ nbits
    · rw [hl, Nat.mul_div_cancel_left _ hq]
      constructor
      · intro _; omega
      · intro _; omega
    · have k2 := key (b + 1) (by omega)
      constructor
      · intro h
        by_contra hc
        rcases k2.1 (by omega) with h' | h'
        · omega
        · omega
      · intro h
        by_contra hc
        have := k2.2 (.inr (by omega))
        omega
  rw [hlo, hhi]
  omega

/-- How many values a bucket gets. -/
theorem bucket_share (he : ∀ x, r.rnd x = x) {arr : List K} (hne : arr ≠ []) (hnd : arr.Nodup) {nbits b : Nat} (hb : b < 2 ^ nbits) :
    (arr.length - 1) / 2 ^ nbits ≤ (arr.filter fun v => decide (bucketOf (cutoffs r nbits arr) v = b)).length ∧
    (arr.filter fun v => decide (bucketOf (cutoffs r nbits arr) v = b)).length ≤ (arr.length - 1) / 2 ^ nbits + 2 := by
  have hq : 0 < 2 ^ nbits := Nat.two_pow_pos nbits
  have hlen := sorted_length arr
  have hpos : 0 < arr.length := List.length_pos_iff.2 hne
  have hadd : (b + 1) * (arr.length - 1) / 2 ^ nbits = b * (arr.length - 1) / 2 ^ nbits + (arr.length - 1) / 2 ^ nbits +
      (if 2 ^ nbits ≤ b * (arr.length - 1) % 2 ^ nbits + (arr.length - 1) % 2 ^ nbits then 1 else 0) := by
    rw [Nat.add_mul, Nat.one_mul, Nat.add_div hq]
  have hhi : (b + 1) * (arr.length - 1) / 2 ^ nbits ≤ arr.length - 1 :=
    Nat.div_le_of_le_mul (Nat.mul_le_mul_right _ (by omega))
  have hz : b = 0 → b * (arr.length - 1) / 2 ^ nbits = 0 := by rintro rfl; simp
  rw [← ((sorted_perm arr).filter _).length_eq, filter_interval
    (lo := if b = 0 then 0 else b * (arr.length - 1) / 2 ^ nbits + 1) (hi := (b + 1) * (arr.length - 1) / 2 ^ nbits + 1)]
  · clear hhi
    generalize (b + 1) * (arr.length - 1) / 2 ^ nbits = x at *
    generalize b * (arr.length - 1) / 2 ^ nbits = y at *
    generalize (arr.length - 1) / 2 ^ nbits = t at *
    constructor
    · split_ifs at hadd ⊢ <;> omega
    · split_ifs at hadd ⊢ <;> omega
  · generalize (b + 1) * (arr.length - 1) / 2 ^ nbits = x at *
    generalize b * (arr.length - 1) / 2 ^ nbits = y at *
    generalize (arr.length - 1) / 2 ^ nbits = t at *
    split_ifs at hadd ⊢ <;> omega
  · omega
  · intro j x hx
    obtain ⟨hj, rfl⟩ := List.getElem?_eq_some_iff.1 hx
    rw [decide_eq_true_eq, ← bucket_rank he hnd hb hj, List.getD_eq_getElem _ _ hj]

end

/-- Single precision rounds with these errors. -/
theorem single_accurate : Accurate (⟨Single.F32.nearest⟩ : Rounding ℚ) (2 ^ (-24 : Int)) (2 ^ (-150 : Int)) :=
  ⟨by positivity, by positivity, fun x => by
    have := Single.F32.nearest_slack x
    unfold Single.F32.slack at this
    rw [mul_comm]; exact this⟩

end NextPlaid.Train
