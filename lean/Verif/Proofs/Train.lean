import Verif.Spec.Train
import Verif.Proofs.Results
import Mathlib.Data.List.GetD
import Mathlib.Tactic.Ring
import Mathlib.Tactic.Linarith
import Mathlib.Tactic.FieldSimp
import Mathlib.Tactic.Positivity

/-! Proofs: quantiles. -/

namespace NextPlaid.Train

open NextPlaid.Spec
open NextPlaid.Fusion (Rounding)
open NextPlaid.Rank (sortBy_perm sortBy_sorted)
open NextPlaid.Codec (bucketOf)

section
variable {K : Type} [Field K] [LinearOrder K]

theorem sorted_perm (arr : List K) : (sorted arr).Perm arr := sortBy_perm _

theorem sorted_le (arr : List K) : (sorted arr).Pairwise (· ≤ ·) := by
  unfold sorted
  refine (sortBy_sorted (le := fun a b : K => decide (a ≤ b)) ?_ ?_ _).imp ?_
  · intro a b; simpa using le_total a b
  · intro a b c; simpa using fun h1 h2 => le_trans h1 h2
  · intro a b h; simpa using h

theorem sorted_length (arr : List K) : (sorted arr).length = arr.length := (sorted_perm arr).length_eq

theorem getD_le {s : List K} (hs : s.Pairwise (· ≤ ·)) {i j : Nat} (hij : i ≤ j) (hj : j < s.length) : s.getD i 0 ≤ s.getD j 0 := by
  rw [List.getD_eq_getElem _ _ (by omega), List.getD_eq_getElem _ _ hj]
  rcases Nat.lt_or_ge i j with h | h
  · exact List.pairwise_iff_getElem.1 hs i j (by omega) hj h
  · obtain rfl : i = j := by omega
    exact le_rfl

/-- The quantile without rounding. -/
def exact (s : List K) (p q : Nat) : K :=
  s.getD (p * (s.length - 1) / q) 0 +
    ((p * (s.length - 1) % q : Nat) / (q : K)) * (s.getD (p * (s.length - 1) / q + 1) 0 - s.getD (p * (s.length - 1) / q) 0)

variable [IsStrictOrderedRing K]

theorem index_lt {p q n : Nat} (hp : p ≤ q) (hq : 0 < q) (hr : p * (n - 1) % q ≠ 0) : p * (n - 1) / q + 1 < n := by
  have h1 : p * (n - 1) ≤ q * (n - 1) := Nat.mul_le_mul_right _ hp
  have h2 : p * (n - 1) ≠ q * (n - 1) := by
    intro h; rw [h, Nat.mul_mod_right] at hr; exact hr rfl
  have h3 : p * (n - 1) / q < n - 1 := Nat.div_lt_of_lt_mul (by omega)
  exact Nat.add_lt_of_lt_sub h3

theorem index_le {p q n : Nat} (hp : p ≤ q) (hq : 0 < q) (hn : 0 < n) : p * (n - 1) / q < n := by
  have h1 : p * (n - 1) ≤ q * (n - 1) := Nat.mul_le_mul_right _ hp
  have h3 : p * (n - 1) / q ≤ n - 1 := Nat.div_le_of_le_mul h1
  omega

theorem frac_bounds {m q : Nat} (hq : 0 < q) : 0 ≤ ((m % q : Nat) / (q : K)) ∧ ((m % q : Nat) / (q : K)) < 1 := by
  have hqk : (0 : K) < q := by exact_mod_cast hq
  refine ⟨by positivity, ?_⟩
  rw [div_lt_one hqk]
  exact_mod_cast Nat.mod_lt _ hq

theorem exact_isQuantile {arr : List K} (hne : arr ≠ []) {p q : Nat} (hp : p ≤ q) (hq : 0 < q) :
    IsQuantile arr ((p : K) / q) (exact (sorted arr) p q) := by
  have hn : 0 < (sorted arr).length := by rw [sorted_length]; exact List.length_pos_iff.2 hne
  have hqk : (0 : K) < q := by exact_mod_cast hq
  obtain ⟨f0, f1⟩ := frac_bounds (K := K) (m := p * ((sorted arr).length - 1)) hq
  refine ⟨sorted arr, p * ((sorted arr).length - 1) / q, _, _, _, sorted_perm arr, sorted_le arr, ?_, f0, f1, ?_, ?_, rfl⟩
  · rw [← sorted_length arr]
    have := Nat.div_add_mod (p * ((sorted arr).length - 1)) q
    have hc : (q : K) * ((p * ((sorted arr).length - 1) / q : Nat) : K) + ((p * ((sorted arr).length - 1) % q : Nat) : K) =
        (p : K) * (((sorted arr).length - 1 : Nat) : K) := by exact_mod_cast this
    field_simp
    linarith
  · rw [List.getD_eq_getElem _ _ (index_le hp hq hn)]
    exact List.getElem?_eq_getElem _
  · by_cases hr : p * ((sorted arr).length - 1) % q = 0
    · left; rw [hr]; simp
    · right
      rw [List.getD_eq_getElem _ _ (index_lt hp hq hr)]
      exact List.getElem?_eq_getElem _

/-- Between two neighbours. -/
theorem exact_between {s : List K} (hs : s.Pairwise (· ≤ ·)) (hn : s ≠ []) {p q : Nat} (hp : p ≤ q) (hq : 0 < q) :
    s.getD (p * (s.length - 1) / q) 0 ≤ exact s p q ∧
    (p * (s.length - 1) % q = 0 → exact s p q = s.getD (p * (s.length - 1) / q) 0) ∧
    (p * (s.length - 1) % q ≠ 0 → exact s p q ≤ s.getD (p * (s.length - 1) / q + 1) 0) := by
  obtain ⟨f0, f1⟩ := frac_bounds (K := K) (m := p * (s.length - 1)) hq
  by_cases hr : p * (s.length - 1) % q = 0
  · refine ⟨by unfold exact; rw [hr]; simp, fun _ => by unfold exact; rw [hr]; simp, fun h => absurd hr h⟩
  · have h1 := index_lt hp hq hr
    have h2 := getD_le hs (Nat.le_succ (p * (s.length - 1) / q)) h1
    refine ⟨?_, fun h => absurd h hr, fun _ => ?_⟩
    · unfold exact
      have := mul_nonneg f0 (sub_nonneg.2 h2)
      linarith
    · unfold exact
      have := mul_le_mul_of_nonneg_right f1.le (sub_nonneg.2 h2)
      linarith

theorem exact_mono {s : List K} (hs : s.Pairwise (· ≤ ·)) (hn : s ≠ []) {p p' q : Nat} (h : p ≤ p') (hp : p' ≤ q) (hq : 0 < q) :
    exact s p q ≤ exact s p' q := by
  have hlen : 0 < s.length := List.length_pos_iff.2 hn
  have hm : p * (s.length - 1) ≤ p' * (s.length - 1) := Nat.mul_le_mul_right _ h
  have hd : p * (s.length - 1) / q ≤ p' * (s.length - 1) / q := Nat.div_le_div_right hm
  obtain ⟨a1, a2, a3⟩ := exact_between hs hn (le_trans h hp) hq
  obtain ⟨b1, b2, b3⟩ := exact_between hs hn hp hq
  rcases Nat.lt_or_ge (p * (s.length - 1) / q) (p' * (s.length - 1) / q) with hlt | hge
  · refine le_trans ?_ b1
    by_cases hr : p * (s.length - 1) % q = 0
    · rw [a2 hr]; exact getD_le hs hd (index_le hp hq hlen)
    · exact le_trans (a3 hr) (getD_le hs hlt (index_le hp hq hlen))
  · have he : p * (s.length - 1) / q = p' * (s.length - 1) / q := by omega
    have e1 := Nat.div_add_mod (p * (s.length - 1)) q
    have e2 := Nat.div_add_mod (p' * (s.length - 1)) q
    have hmod : p * (s.length - 1) % q ≤ p' * (s.length - 1) % q := by rw [he] at e1; omega
    unfold exact
    rw [he]
    by_cases hr : p' * (s.length - 1) % q = 0
    · have : p * (s.length - 1) % q = 0 := by omega
      rw [hr, this]
    · have h2 := getD_le hs (Nat.le_succ (p' * (s.length - 1) / q)) (index_lt hp hq hr)
      have hqk : (0 : K) < q := by exact_mod_cast hq
      have h3 : ((p * (s.length - 1) % q : Nat) / (q : K)) ≤ ((p' * (s.length - 1) % q : Nat) / (q : K)) := by
        rw [div_le_div_iff_of_pos_right hqk]; exact_mod_cast hmod
      have := mul_le_mul_of_nonneg_right h3 (sub_nonneg.2 h2)
      linarith

theorem exact_double (s : List K) (p q : Nat) : exact s (2 * p) (2 * q) = exact s p q := by
  unfold exact
  rw [Nat.mul_assoc, Nat.mul_div_mul_left _ _ (by decide : 0 < 2), Nat.mul_mod_mul_left]
  congr 2
  push_cast
  rw [mul_div_mul_left _ _ (by norm_num : (2 : K) ≠ 0)]

theorem exact_zero (s : List K) {q : Nat} : exact s 0 q = s.getD 0 0 := by
  unfold exact; simp

theorem exact_top (s : List K) {q : Nat} (hq : 0 < q) : exact s q q = s.getD (s.length - 1) 0 := by
  unfold exact
  rw [Nat.mul_mod_right, Nat.mul_div_cancel_left _ hq]
  simp

/-- What rounding does to a quantile. -/
theorem quantileAt_blur {r : Rounding K} {u tiny M : K} (ha : Accurate r u tiny) {s : List K} (hs : ∀ x ∈ s, |x| ≤ M) (hn : s ≠ [])
    {p q : Nat} (hp : p ≤ q) (hq : 0 < q) : |quantileAt r s p q - exact s p q| ≤ blur u tiny M := by
  obtain ⟨hu, ht, hr⟩ := ha
  have hlen : 0 < s.length := List.length_pos_iff.2 hn
  have hM : 0 ≤ M := le_trans (abs_nonneg _) (hs _ (List.getElem_mem hlen))
  have hblur : 0 ≤ blur u tiny M := by unfold blur; positivity
  have hmem : ∀ i, i < s.length → |s.getD i 0| ≤ M := by
    intro i hi; rw [List.getD_eq_getElem _ _ hi]; exact hs _ (List.getElem_mem hi)
  unfold quantileAt
  split
  · rename_i h0
    have : exact s p q = s.getD (p * (s.length - 1) / q) 0 := by unfold exact; rw [h0]; simp
    rw [this, sub_self, abs_zero]; exact hblur
  · rename_i h0
    have hi := index_lt hp hq h0
    have ha := hmem _ (by omega : p * (s.length - 1) / q < s.length)
    have hb := hmem _ hi
    obtain ⟨f0, f1⟩ := frac_bounds (K := K) (m := p * (s.length - 1)) hq
    unfold exact
    generalize s.getD (p * (s.length - 1) / q) 0 = a at *
    generalize s.getD (p * (s.length - 1) / q + 1) 0 = b at *
    generalize ((p * (s.length - 1) % q : Nat) / (q : K)) = f at *
    have e1 := hr (a * (1 - f))
    have e2 := hr (b * f)
    generalize r.rnd (a * (1 - f)) = x at *
    generalize r.rnd (b * f) = y at *
    have e3 := hr (x + y)
    have k1 : |a * (1 - f)| ≤ M * (1 - f) := by
      rw [abs_mul, abs_of_nonneg (by linarith : 0 ≤ 1 - f)]
      exact mul_le_mul_of_nonneg_right ha (by linarith)
    have k2 : |b * f| ≤ M * f := by
      rw [abs_mul, abs_of_nonneg f0]
      exact mul_le_mul_of_nonneg_right hb f0
    have g1 : u * |a * (1 - f)| ≤ u * (M * (1 - f)) := mul_le_mul_of_nonneg_left k1 hu
    have g2 : u * |b * f| ≤ u * (M * f) := mul_le_mul_of_nonneg_left k2 hu
    have h1 : |x + y - (a + f * (b - a))| ≤ u * M + 2 * tiny := by
      have : x + y - (a + f * (b - a)) = (x - a * (1 - f)) + (y - b * f) := by ring
      rw [this]
      refine le_trans (abs_add_le _ _) ?_
      nlinarith
    have h2 : |a + f * (b - a)| ≤ M := by
      have : a + f * (b - a) = a * (1 - f) + b * f := by ring
      rw [this]
      refine le_trans (abs_add_le _ _) ?_
      linarith
    have h3 : |x + y| ≤ M + (u * M + 2 * tiny) := by
      have : x + y = (a + f * (b - a)) + (x + y - (a + f * (b - a))) := by ring
      rw [this]
      refine le_trans (abs_add_le _ _) ?_
      linarith
    have h4 : u * |x + y| ≤ u * (M + (u * M + 2 * tiny)) := mul_le_mul_of_nonneg_left h3 hu
    have : r.rnd (x + y) - (a + f * (b - a)) = (r.rnd (x + y) - (x + y)) + (x + y - (a + f * (b - a))) := by ring
    rw [this]
    refine le_trans (abs_add_le _ _) ?_
    unfold blur
    nlinarith

end

/-! ### Counting -/

theorem filter_length_le {A : Type} {p : A → Bool} {l : List A} {k : Nat} (h : ∀ i x, k ≤ i → l[i]? = some x → p x = false) :
    (l.filter p).length ≤ k := by
  rw [← List.take_append_drop k l, List.filter_append]
  have : (l.drop k).filter p = [] := by
    rw [List.filter_eq_nil_iff]
    intro x hx
    obtain ⟨i, hi⟩ := List.getElem?_of_mem hx
    rw [List.getElem?_drop] at hi
    rw [h _ x (Nat.le_add_right _ _) hi]
    simp
  rw [this, List.append_nil]
  refine le_trans (List.length_filter_le _ _) ?_
  rw [List.length_take]; omega

theorem filter_length_ge {A : Type} {p : A → Bool} {l : List A} {k : Nat} (hk : k ≤ l.length)
    (h : ∀ i x, i < k → l[i]? = some x → p x = true) : k ≤ (l.filter p).length := by
  rw [← List.take_append_drop k l, List.filter_append]
  have : (l.take k).filter p = l.take k := by
    rw [List.filter_eq_self]
    intro x hx
    obtain ⟨i, hi⟩ := List.getElem?_of_mem hx
    rw [List.getElem?_take] at hi
    split at hi
    · rename_i hlt; exact h i x hlt hi
    · cases hi
  rw [this, List.length_append, List.length_take]
  omega

section
variable {K : Type} [Field K] [LinearOrder K] [IsStrictOrderedRing K] {r : Rounding K} {u tiny M : K}

theorem cutoffs_get {arr : List K} (hne : arr ≠ []) {nbits i : Nat} {x : K} :
    (cutoffs r nbits arr)[i]? = some x ↔ i + 1 < 2 ^ nbits ∧ x = quantileAt r (sorted arr) (i + 1) (2 ^ nbits) := by
  unfold cutoffs quantiles
  rw [if_neg hne, List.map_map, List.getElem?_map]
  rcases Nat.lt_or_ge i (2 ^ nbits - 1) with h | h
  · rw [List.getElem?_range h]
    simp only [Option.map_some, Option.some.injEq, Function.comp]
    exact ⟨fun h' => ⟨by omega, h'.symm⟩, fun h' => h'.2.symm⟩
  · rw [List.getElem?_eq_none (by simpa using h)]
    simp only [Option.map_none, reduceCtorEq, false_iff]
    rintro ⟨h', _⟩
    omega

theorem cutoffs_length {arr : List K} {nbits : Nat} : (cutoffs r nbits arr).length = 2 ^ nbits - 1 := by
  unfold cutoffs quantiles; split <;> simp

theorem weights_get {arr : List K} (hne : arr ≠ []) {nbits i : Nat} (hi : i < 2 ^ nbits) :
    (weights r nbits arr)[i]? = some (quantileAt r (sorted arr) (2 * i + 1) (2 * 2 ^ nbits)) := by
  unfold weights quantiles
  rw [if_neg hne, List.map_map, List.getElem?_map, List.getElem?_range hi]
  rfl

theorem weights_length {arr : List K} {nbits : Nat} : (weights r nbits arr).length = 2 ^ nbits := by
  unfold weights quantiles; split <;> simp

/-- The value is in its bucket, up to rounding. -/
theorem bucket_bounds (ha : Accurate r u tiny) {arr : List K} (hne : arr ≠ []) (hM : ∀ x ∈ arr, |x| ≤ M) {nbits : Nat} {v : K}
    (hlo : ∃ x ∈ arr, x ≤ v) (hhi : ∃ x ∈ arr, v ≤ x) :
    bucketOf (cutoffs r nbits arr) v < 2 ^ nbits ∧
    exact (sorted arr) (bucketOf (cutoffs r nbits arr) v) (2 ^ nbits) ≤ v + blur u tiny M ∧
    v ≤ exact (sorted arr) (bucketOf (cutoffs r nbits arr) v + 1) (2 ^ nbits) + blur u tiny M := by
  have hq : 0 < 2 ^ nbits := Nat.two_pow_pos nbits
  have hsne : sorted arr ≠ [] := by
    intro h; have := sorted_length arr; rw [h] at this
    exact hne (List.eq_nil_of_length_eq_zero this.symm)
  have hsM : ∀ x ∈ sorted arr, |x| ≤ M := fun x hx => hM x ((sorted_perm arr).mem_iff.1 hx)
  have hb : bucketOf (cutoffs r nbits arr) v < 2 ^ nbits := by
    have : bucketOf (cutoffs r nbits arr) v ≤ (cutoffs r nbits arr).length := List.length_filter_le _ _
    rw [cutoffs_length] at this; omega
  have hblur : 0 ≤ blur u tiny M := by
    obtain ⟨x, hx, _⟩ := hlo
    have := le_trans (abs_nonneg _) (hM x hx)
    have h1 := ha.1; have h2 := ha.2.1
    unfold blur; positivity
  refine ⟨hb, ?_, ?_⟩
  · by_contra hc
    rw [not_le] at hc
    generalize hbb : bucketOf (cutoffs r nbits arr) v = b at hc hb
    cases b with
    | zero =>
      rw [exact_zero] at hc
      obtain ⟨x, hx, hxv⟩ := hlo
      obtain ⟨i, hi⟩ := List.getElem?_of_mem ((sorted_perm arr).mem_iff.2 hx)
      obtain ⟨hi1, hi2⟩ := List.getElem?_eq_some_iff.1 hi
      have := getD_le (sorted_le arr) (Nat.zero_le i) hi1
      rw [List.getD_eq_getElem _ _ hi1, hi2] at this
      linarith
    | succ b =>
      have : bucketOf (cutoffs r nbits arr) v ≤ b := by
        refine filter_length_le fun i x hi hx => ?_
        obtain ⟨h1, rfl⟩ := (cutoffs_get hne).1 hx
        have h2 := exact_mono (sorted_le arr) hsne (by omega : b + 1 ≤ i + 1) (le_of_lt h1) hq
        have h3 := abs_le.1 (quantileAt_blur ha hsM hsne (le_of_lt h1) hq)
        simp only [decide_eq_false_iff_not, not_lt]
        linarith
      omega
  · by_contra hc
    rw [not_le] at hc
    generalize hbb : bucketOf (cutoffs r nbits arr) v = b at hc hb
    by_cases hl : b + 1 = 2 ^ nbits
    · rw [hl, exact_top _ hq] at hc
      obtain ⟨x, hx, hxv⟩ := hhi
      obtain ⟨i, hi⟩ := List.getElem?_of_mem ((sorted_perm arr).mem_iff.2 hx)
      obtain ⟨hi1, hi2⟩ := List.getElem?_eq_some_iff.1 hi
      have := getD_le (sorted_le arr) (by omega : i ≤ (sorted arr).length - 1) (by omega)
      rw [List.getD_eq_getElem _ _ hi1, hi2] at this
      linarith
    · have : b + 1 ≤ bucketOf (cutoffs r nbits arr) v := by
        refine filter_length_ge (by rw [cutoffs_length]; omega) fun i x hi hx => ?_
        obtain ⟨h1, rfl⟩ := (cutoffs_get hne).1 hx
        have h2 := exact_mono (sorted_le arr) hsne (by omega : i + 1 ≤ b + 1) (by omega) hq
        have h3 := abs_le.1 (quantileAt_blur ha hsM hsne (le_of_lt h1) hq)
        simp only [decide_eq_true_eq]
        linarith
      omega

/-- The weight of a bucket is in the bucket, up to rounding. -/
theorem weight_bounds (ha : Accurate r u tiny) {arr : List K} (hne : arr ≠ []) (hM : ∀ x ∈ arr, |x| ≤ M) {nbits b : Nat}
    (hb : b < 2 ^ nbits) :
    exact (sorted arr) b (2 ^ nbits) ≤ quantileAt r (sorted arr) (2 * b + 1) (2 * 2 ^ nbits) + blur u tiny M ∧
    quantileAt r (sorted arr) (2 * b + 1) (2 * 2 ^ nbits) ≤ exact (sorted arr) (b + 1) (2 ^ nbits) + blur u tiny M := by
  have hq : 0 < 2 * 2 ^ nbits := by positivity
  have hsne : sorted arr ≠ [] := by
    intro h; have := sorted_length arr; rw [h] at this
    exact hne (List.eq_nil_of_length_eq_zero this.symm)
  have hsM : ∀ x ∈ sorted arr, |x| ≤ M := fun x hx => hM x ((sorted_perm arr).mem_iff.1 hx)
  have h3 := abs_le.1 (quantileAt_blur ha hsM hsne (by omega : 2 * b + 1 ≤ 2 * 2 ^ nbits) hq)
  have h1 := exact_mono (sorted_le arr) hsne (by omega : 2 * b ≤ 2 * b + 1) (by omega) hq
  have h2 := exact_mono (sorted_le arr) hsne (by omega : 2 * b + 1 ≤ 2 * (b + 1)) (by omega) hq
  rw [exact_double] at h1 h2
  constructor <;> linarith

end

end NextPlaid.Train
