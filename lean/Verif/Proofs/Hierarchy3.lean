import Verif.Proofs.Hierarchy2

/-!
Proofs: Ward's dissimilarity and its recurrence.
-/

namespace NextPlaid.Hier

open NextPlaid.Fusion NextPlaid.Spec

section
variable {K : Type} [Field K]

theorem total_append_left (sq : Nat → Nat → K) (A B C : List Nat) : total sq (A ++ B) C = total sq A C + total sq B C := by
  simp [total]

theorem total_append_right (sq : Nat → Nat → K) (A B C : List Nat) : total sq C (A ++ B) = total sq C A + total sq C B := by
  induction C with
  | nil => simp [total]
  | cons c C ih =>
    simp only [total, List.map_cons, List.sum_cons, List.map_append, List.sum_append] at *
    rw [ih]
    ring

theorem total_nil_right (sq : Nat → Nat → K) (A : List Nat) : total sq A [] = 0 := by
  induction A with
  | nil => rfl
  | cons a A ih =>
    simp only [total, List.map_cons, List.sum_cons, List.map_nil, List.sum_nil] at *
    rw [ih, zero_add]

theorem total_symm (sq : Nat → Nat → K) (hsq : ∀ i j, sq i j = sq j i) (A B : List Nat) : total sq A B = total sq B A := by
  induction A with
  | nil => rw [total_nil_right]; rfl
  | cons a A ih =>
    have h1 : total sq (a :: A) B = total sq [a] B + total sq A B := total_append_left sq [a] A B
    have h2 : total sq B (a :: A) = total sq B [a] + total sq B A := total_append_right sq [a] A B
    rw [h1, h2, ih]
    congr 1
    simp only [total, List.map_cons, List.map_nil, List.sum_cons, List.sum_nil, add_zero]
    congr 1
    apply List.map_congr_left
    intro b _
    exact hsq a b

theorem ward_symm (sq : Nat → Nat → K) (hsq : ∀ i j, sq i j = sq j i) (A B : List Nat) : ward sq A B = ward sq B A := by
  unfold ward
  rw [total_symm sq hsq A B, add_comm (A.length : K)]
  ring

end

section
variable {K : Type} [Field K] [LinearOrder K] [IsStrictOrderedRing K]

theorem ward_one (sq : Nat → Nat → K) (h0 : ∀ i, sq i i = 0) (i j : Nat) : ward sq [i] [j] = sq i j := by
  have h2 : (2 : K) ≠ 0 := two_ne_zero
  simp only [ward, total, List.map_cons, List.map_nil, List.sum_cons, List.sum_nil, add_zero, List.length_cons, List.length_nil, zero_add, h0,
    Nat.cast_one, mul_zero, sub_zero]
  rw [show (1 : K) + 1 = 2 by ring]
  field_simp

theorem cast_pos {A : List Nat} (h : A ≠ []) : (0 : K) < (A.length : K) := by
  have : 0 < A.length := List.length_pos_iff.mpr h
  exact_mod_cast this

/-- The recurrence of Lance and Williams for Ward's dissimilarity. -/
theorem ward_merge (sq : Nat → Nat → K) (hsq : ∀ i j, sq i j = sq j i) {A B C : List Nat} (hA : A ≠ []) (hB : B ≠ []) (hC : C ≠ []) :
    ward sq (A ++ B) C = (((A.length : K) + C.length) * ward sq A C + ((B.length : K) + C.length) * ward sq B C - (C.length : K) * ward sq A B)
      / ((A.length : K) + B.length + C.length) := by
  have ha := cast_pos (K := K) hA
  have hb := cast_pos (K := K) hB
  have hc := cast_pos (K := K) hC
  unfold ward
  rw [total_append_left, total_append_left, total_append_right, total_append_right, total_symm sq hsq B A, List.length_append, Nat.cast_add]
  generalize (A.length : K) = a at *
  generalize (B.length : K) = b at *
  generalize (C.length : K) = c at *
  have h1 : a + b ≠ 0 := by positivity
  have h2 : a + c ≠ 0 := by positivity
  have h3 : b + c ≠ 0 := by positivity
  have h4 : a + b + c ≠ 0 := by positivity
  have h5 : a ≠ 0 := by positivity
  have h6 : b ≠ 0 := by positivity
  have h7 : c ≠ 0 := by positivity
  field_simp
  ring

/-- A merge of mutual nearest neighbours brings no cluster nearer than they were. -/
theorem ward_reduce (a b c wa wb w m : K) (ha : 0 < a) (hb : 0 < b) (hc : 0 < c) (h1 : w ≤ wa) (h2 : w ≤ wb) (h3 : m ≤ wa) (h4 : m ≤ wb) :
    m ≤ ((a + c) * wa + (b + c) * wb - c * w) / (a + b + c) := by
  rw [le_div_iff₀ (by positivity)]
  rcases le_total wa wb with h | h
  · nlinarith [mul_nonneg (le_of_lt ha) (sub_nonneg.mpr h3), mul_nonneg (le_of_lt hb) (sub_nonneg.mpr h4),
      mul_nonneg (le_of_lt hc) (sub_nonneg.mpr h1), mul_nonneg (le_of_lt hc) (sub_nonneg.mpr h4), mul_nonneg (le_of_lt hc) (sub_nonneg.mpr h2),
      mul_nonneg (le_of_lt hc) (sub_nonneg.mpr h3)]
  · nlinarith [mul_nonneg (le_of_lt ha) (sub_nonneg.mpr h3), mul_nonneg (le_of_lt hb) (sub_nonneg.mpr h4),
      mul_nonneg (le_of_lt hc) (sub_nonneg.mpr h1), mul_nonneg (le_of_lt hc) (sub_nonneg.mpr h4), mul_nonneg (le_of_lt hc) (sub_nonneg.mpr h2),
      mul_nonneg (le_of_lt hc) (sub_nonneg.mpr h3)]

end

end NextPlaid.Hier
