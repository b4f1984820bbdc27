import Verif.Model.Single
import Verif.Proofs.Double

/-!
Proofs: binary32 arithmetic is exact up to one rounding.
-/

namespace NextPlaid.Single
open Fusion

namespace F32

theorem quantum_pos (x : ℚ) : 0 < quantum x := by unfold quantum; positivity

theorem quantum_le {x : ℚ} (hx : x ≠ 0) : quantum x ≤ |x| * 2 ^ (-23 : Int) + 2 ^ (-149 : Int) := by
  have hp : 0 < |x| := abs_pos.mpr hx
  have h1 : ((2 : ℕ) : ℚ) ^ Int.log 2 |x| ≤ |x| := Int.zpow_log_le_self Nat.one_lt_two hp
  rw [Nat.cast_ofNat] at h1
  unfold quantum
  rcases le_total (Int.log 2 |x| + 1 - 24) (-149) with h | h
  · rw [max_eq_right h]
    have : 0 ≤ |x| * (2 : ℚ) ^ (-23 : Int) := by positivity
    linarith
  · rw [max_eq_left h]
    have e : (2 : ℚ) ^ (Int.log 2 |x| + 1 - 24) = 2 ^ Int.log 2 |x| * 2 ^ (-23 : Int) := by
      rw [← zpow_add₀ (two_ne_zero)]
      congr 1
      ring
    rw [e]
    have h2 : (2 : ℚ) ^ Int.log 2 |x| * 2 ^ (-23 : Int) ≤ |x| * 2 ^ (-23 : Int) := mul_le_mul_of_nonneg_right h1 (by positivity)
    have h3 : (0 : ℚ) ≤ 2 ^ (-149 : Int) := by positivity
    linarith

theorem nearest_zero : nearest 0 = 0 := by
  unfold nearest
  rw [zero_div]
  have := roundEven_int 0
  rw [Int.cast_zero] at this
  rw [this]
  simp

theorem nearest_near (x : ℚ) : |nearest x - x| ≤ quantum x / 2 := by
  have hq := quantum_pos x
  have h := roundEven_near (x / quantum x)
  have e : nearest x - x = (roundEven (x / quantum x) - x / quantum x) * quantum x := by
    unfold nearest
    rw [sub_mul, div_mul_cancel₀ x (ne_of_gt hq)]
  rw [e, abs_mul, abs_of_pos hq]
  have := mul_le_mul_of_nonneg_right h (le_of_lt hq)
  linarith

/-- One rounding. -/
def slack (x : ℚ) : ℚ := |x| * 2 ^ (-24 : Int) + 2 ^ (-150 : Int)

theorem slack_nonneg (x : ℚ) : 0 ≤ slack x := by unfold slack; positivity

theorem nearest_slack (x : ℚ) : |nearest x - x| ≤ slack x := by
  by_cases hx : x = 0
  · subst hx
    rw [nearest_zero, sub_zero, abs_zero]
    exact slack_nonneg 0
  · have h1 := nearest_near x
    have h2 := quantum_le hx
    have e1 : (2 : ℚ) ^ (-23 : Int) = 2 * 2 ^ (-24 : Int) := by norm_num
    have e2 : (2 : ℚ) ^ (-149 : Int) = 2 * 2 ^ (-150 : Int) := by norm_num
    rw [e1, e2] at h2
    unfold slack
    linarith

theorem nearest_grid (x : ℚ) : ∃ n : Int, nearest x = n * 2 ^ (-149 : Int) := by
  unfold nearest quantum
  obtain ⟨k, hk⟩ := Int.eq_ofNat_of_zero_le (show 0 ≤ max (Int.log 2 |x| + 1 - 24) (-149) + 149 by have := le_max_right (Int.log 2 |x| + 1 - 24) (-149 : Int); omega)
  have e : max (Int.log 2 |x| + 1 - 24) (-149) = (k : Int) + (-149) := by omega
  rw [e, zpow_add₀ (two_ne_zero), zpow_natCast]
  refine ⟨roundEven (x / (2 ^ k * 2 ^ (-149 : Int))) * 2 ^ k, ?_⟩
  push_cast
  ring

theorem nearest_eq_zero {n : Int} {x : ℚ} (hx : x = n * 2 ^ (-149 : Int)) (h : nearest x = 0) : x = 0 := by
  by_contra hne
  have hq := quantum_pos x
  have hr : roundEven (x / quantum x) = 0 := by
    unfold nearest at h
    rcases mul_eq_zero.mp h with h | h
    · exact_mod_cast h
    · exact absurd h (ne_of_gt hq)
  rcases le_total (Int.log 2 |x| + 1 - 24) (-149) with hl | hl
  · have e : quantum x = 2 ^ (-149 : Int) := by unfold quantum; rw [max_eq_right hl]
    have e2 : x / quantum x = (n : ℚ) := by
      rw [e, hx, mul_div_assoc, div_self (by positivity), mul_one]
    rw [e2, roundEven_int] at hr
    rw [hr] at hx
    simp at hx
    exact hne hx
  · have e : quantum x = 2 ^ (Int.log 2 |x| + 1 - 24) := by unfold quantum; rw [max_eq_left hl]
    have hp : 0 < |x| := abs_pos.mpr hne
    have h1 : ((2 : ℕ) : ℚ) ^ Int.log 2 |x| ≤ |x| := Int.zpow_log_le_self Nat.one_lt_two hp
    rw [Nat.cast_ofNat] at h1
    have h2 : quantum x ≤ |x| := by
      rw [e]
      exact le_trans (zpow_le_zpow_right₀ (by norm_num) (by omega)) h1
    have hn := roundEven_near (x / quantum x)
    rw [hr, Int.cast_zero, zero_sub, abs_neg, abs_div, abs_of_pos hq] at hn
    have : 1 ≤ |x| / quantum x := by rw [le_div_iff₀ hq]; linarith
    linarith

theorem round_finite {x : ℚ} (h : (round x).isFinite = true) : (round x).val = nearest x ∧ ∃ n : Int, (round x).val = n * 2 ^ (-149 : Int) := by
  have hg := nearest_grid x
  unfold round at h ⊢
  split at h
  · cases h
  · rename_i hlt
    rw [if_neg hlt]
    split
    · rename_i hz
      have : (if x < 0 then F32.minusZero else F32.num 0).val = nearest x := by
        rw [hz]; split <;> rfl
      rw [this]
      exact ⟨rfl, hg⟩
    · exact ⟨rfl, hg⟩

theorem round_spec {x : ℚ} (h : |x| ≤ 2 ^ 100) : (round x).isFinite = true ∧ |(round x).val - x| ≤ slack x := by
  have hs := nearest_slack x
  have hb : |nearest x| < 2 ^ 128 := by
    have h1 : |nearest x| ≤ |nearest x - x| + |x| := by
      have := abs_add_le (nearest x - x) x
      rw [sub_add_cancel] at this
      exact this
    have h2 : slack x ≤ 2 ^ 100 * 2 ^ (-24 : Int) + 2 ^ (-150 : Int) := by
      unfold slack
      have := mul_le_mul_of_nonneg_right h (show (0 : ℚ) ≤ 2 ^ (-24 : Int) by positivity)
      linarith
    have h3 : (2 : ℚ) ^ 100 * 2 ^ (-24 : Int) + 2 ^ (-150 : Int) + 2 ^ 100 < 2 ^ 128 := by norm_num
    linarith
  have hf : (round x).isFinite = true := by
    unfold round
    rw [if_neg (not_le.mpr hb)]
    split
    · split <;> rfl
    · rfl
  exact ⟨hf, by rw [(round_finite hf).1]; exact hs⟩

theorem add_spec {a b : F32} (ha : a.isFinite = true) (hb : b.isFinite = true) (h : |a.val + b.val| ≤ 2 ^ 100) :
    (add a b).isFinite = true ∧ |(add a b).val - (a.val + b.val)| ≤ slack (a.val + b.val) := by
  have hz : ∀ x : F32, x.isFinite = true → ∀ y : ℚ, x.val = y → x.isFinite = true ∧ |x.val - y| ≤ slack y := by
    intro x hx y hy
    refine ⟨hx, ?_⟩
    rw [hy, sub_self, abs_zero]
    exact slack_nonneg y
  cases a <;> cases b <;> simp only [isFinite, Bool.false_eq_true] at ha hb
  · exact round_spec h
  · exact hz _ rfl _ (by simp [val, add])
  · exact hz _ rfl _ (by simp [val, add])
  · exact hz _ rfl _ (by simp [val, add])

theorem mul_spec {a b : F32} (ha : a.isFinite = true) (hb : b.isFinite = true) (h : |a.val * b.val| ≤ 2 ^ 100) :
    (mul a b).isFinite = true ∧ |(mul a b).val - a.val * b.val| ≤ slack (a.val * b.val) := by
  have key : mul a b = if a.val * b.val = 0 then zero (a.isNeg != b.isNeg) else round (a.val * b.val) := by
    cases a <;> cases b <;> simp only [isFinite, Bool.false_eq_true] at ha hb <;> rfl
  rw [key]
  split
  · rename_i h0
    have hv : ∀ s : Bool, (zero s).isFinite = true ∧ (zero s).val = 0 := by
      intro s; cases s <;> exact ⟨rfl, rfl⟩
    refine ⟨(hv _).1, ?_⟩
    rw [(hv _).2, h0, sub_zero, abs_zero]
    exact slack_nonneg 0
  · exact round_spec h

/-- Finite and not the negative zero. -/
def Plain (a : F32) : Prop := a.isFinite = true ∧ a ≠ .minusZero ∧ ∃ n : Int, a.val = n * 2 ^ (-149 : Int)

/-- On the grid of all binary32 numbers. -/
def Grid (a : F32) : Prop := ∃ n : Int, a.val = n * 2 ^ (-149 : Int)

theorem grid_nan : Grid .nan := ⟨0, by simp [val]⟩

theorem grid_inf (s : Bool) : Grid (.inf s) := ⟨0, by simp [val]⟩

theorem grid_minus : Grid .minusZero := ⟨0, by simp [val]⟩

theorem grid_zero : Grid (.num 0) := ⟨0, by simp [val]⟩

theorem grid_round (x : ℚ) : Grid (round x) := by
  by_cases hf : (round x).isFinite = true
  · exact (round_finite hf).2
  · cases e : round x with
    | num z => rw [e] at hf; exact absurd rfl hf
    | minusZero => exact grid_minus
    | inf s => exact grid_inf s
    | nan => exact grid_nan

theorem grid_mul (a b : F32) : Grid (mul a b) := by
  have hs : ∀ s, Grid (zero s) := by intro s; cases s; exact grid_zero; exact grid_minus
  unfold mul
  split
  · exact grid_nan
  · exact grid_nan
  · exact grid_inf _
  · split
    · exact grid_nan
    · exact grid_inf _
  · split
    · exact grid_nan
    · exact grid_inf _
  · split
    · exact hs _
    · exact grid_round _

theorem grid_add {a b : F32} (ha : Grid a) (hb : Grid b) : Grid (add a b) := by
  cases a <;> cases b <;> simp only [add] <;> first | assumption | exact grid_nan | exact grid_inf _ | exact grid_round _ | skip
  split
  · exact grid_inf _
  · exact grid_nan

theorem plain_add {a b : F32} (ha : Plain a) (hb : Grid b) (hf : (add a b).isFinite = true) : Plain (add a b) := by
  refine ⟨hf, ?_, grid_add ha.2.2 hb⟩
  obtain ⟨hfa, hna, n, hn⟩ := ha
  obtain ⟨m, hm⟩ := hb
  cases a with
  | minusZero => exact absurd rfl hna
  | inf s => cases hfa
  | nan => cases hfa
  | num x =>
    cases b with
    | num y =>
      have hx : x = n * 2 ^ (-149 : Int) := hn
      have hy : y = m * 2 ^ (-149 : Int) := hm
      have he : x + y = ((n + m : Int) : ℚ) * 2 ^ (-149 : Int) := by rw [hx, hy]; push_cast; ring
      show round (x + y) ≠ .minusZero
      unfold round
      split
      · simp
      · split
        · rename_i hz
          have := nearest_eq_zero he hz
          rw [this]
          simp
        · simp
    | minusZero => simp [add]
    | inf s => simp [add]
    | nan => simp [add]

/-- A number of 24 digits is not changed. -/
theorem nearest_fix {k e : Int} (hk : |k| < 2 ^ 24) (he : -149 ≤ e) : nearest ((k : ℚ) * 2 ^ e) = (k : ℚ) * 2 ^ e := by
  by_cases h0 : k = 0
  · subst h0
    simp [nearest_zero]
  · have hkq : (0 : ℚ) < |(k : ℚ)| := abs_pos.mpr (by exact_mod_cast h0)
    have hpos : 0 < |(k : ℚ) * 2 ^ e| := by
      rw [abs_mul, abs_of_pos (show (0 : ℚ) < 2 ^ e by positivity)]
      positivity
    have hlog : Int.log 2 |(k : ℚ) * 2 ^ e| < 24 + e := by
      rw [← Int.lt_zpow_iff_log_lt Nat.one_lt_two hpos, abs_mul, abs_of_pos (show (0 : ℚ) < 2 ^ e by positivity), Nat.cast_ofNat, zpow_add₀ (two_ne_zero)]
      apply mul_lt_mul_of_pos_right _ (by positivity)
      have : ((|k| : Int) : ℚ) < ((2 ^ 24 : Int) : ℚ) := by exact_mod_cast hk
      rw [Int.cast_abs] at this
      exact_mod_cast this
    set w := max (Int.log 2 |(k : ℚ) * 2 ^ e| + 1 - 24) (-149) with hw
    have hwe : w ≤ e := by
      rw [hw]
      exact max_le (by omega) he
    obtain ⟨j, hj⟩ := Int.eq_ofNat_of_zero_le (show 0 ≤ e - w by omega)
    have hq : quantum ((k : ℚ) * 2 ^ e) = 2 ^ w := rfl
    have hdiv : (k : ℚ) * 2 ^ e / 2 ^ w = ((k * 2 ^ j : Int) : ℚ) := by
      rw [show e = (j : Int) + w by omega, zpow_add₀ (two_ne_zero), zpow_natCast, ← mul_assoc, mul_div_assoc, div_self (by positivity), mul_one]
      push_cast
      rfl
    unfold nearest
    rw [hq, hdiv, roundEven_int, ← hdiv, div_mul_cancel₀ _ (by positivity)]

/-- The finite values of all bit patterns are numbers of at most 24 digits, within the bounds. -/
theorem ofBits_form {n : Nat} (h : (ofBits n).isFinite = true) : ∃ k e : Int, (ofBits n).val = k * 2 ^ e ∧ |k| < 2 ^ 24 ∧ -149 ≤ e ∧ e ≤ 104 := by
  have hm : n % 2 ^ 23 < 2 ^ 23 := Nat.mod_lt _ (by norm_num)
  have he8 : n / 2 ^ 23 % 2 ^ 8 < 2 ^ 8 := Nat.mod_lt _ (by norm_num)
  unfold ofBits at h ⊢
  simp only at h ⊢
  split at h
  · split at h <;> cases h
  · rename_i h255
    rw [if_neg h255]
    have key : ∀ x : ℚ, ∀ k e : Int, x = k * 2 ^ e → |k| < 2 ^ 24 → -149 ≤ e → e ≤ 104 →
        ∃ k e : Int, (if x = 0 then (if n / 2 ^ 31 % 2 = 1 then F32.minusZero else .num 0) else .num (if n / 2 ^ 31 % 2 = 1 then -x else x)).val = k * 2 ^ e ∧ |k| < 2 ^ 24 ∧ -149 ≤ e ∧ e ≤ 104 := by
      intro x k e hx hk he he2
      split
      · exact ⟨0, 0, by split <;> simp [val], by norm_num, by norm_num, by norm_num⟩
      · split
        · exact ⟨-k, e, by simp [val, hx], by rwa [abs_neg], he, he2⟩
        · exact ⟨k, e, by simp [val, hx], hk, he, he2⟩
    split
    · apply key _ ((n % 2 ^ 23 : Nat) : Int) (-149) (by push_cast; rfl) _ (le_refl _) (by norm_num)
      rw [abs_of_nonneg (by positivity)]
      omega
    · apply key _ (2 ^ 23 + (n % 2 ^ 23 : Nat)) ((n / 2 ^ 23 % 2 ^ 8 : Nat) - 150) (by push_cast; rfl) _ (by omega) (by omega)
      rw [abs_of_nonneg (by positivity)]
      omega

/-- The finite values of all bit patterns are fixed by rounding, up to the sign of zero. -/
theorem nearest_ofBits {n : Nat} (h : (ofBits n).isFinite = true) : nearest (ofBits n).val = (ofBits n).val := by
  obtain ⟨k, e, h1, h2, h3, -⟩ := ofBits_form h
  rw [h1]
  exact nearest_fix h2 h3

theorem ofBits_bound {n : Nat} (h : (ofBits n).isFinite = true) : |(ofBits n).val| < 2 ^ 128 := by
  obtain ⟨k, e, h1, h2, -, h4⟩ := ofBits_form h
  rw [h1, abs_mul, abs_of_pos (show (0 : ℚ) < 2 ^ e by positivity), show (2 : ℚ) ^ 128 = 2 ^ 24 * 2 ^ (104 : Int) by norm_num]
  have g1 : |(k : ℚ)| < 2 ^ 24 := by
    have : ((|k| : Int) : ℚ) < ((2 ^ 24 : Int) : ℚ) := by exact_mod_cast h2
    rw [Int.cast_abs] at this
    exact_mod_cast this
  have g2 : (2 : ℚ) ^ e ≤ 2 ^ (104 : Int) := zpow_le_zpow_right₀ (by norm_num) h4
  calc |(k : ℚ)| * 2 ^ e ≤ |(k : ℚ)| * 2 ^ (104 : Int) := mul_le_mul_of_nonneg_left g2 (abs_nonneg _)
    _ < 2 ^ 24 * 2 ^ (104 : Int) := mul_lt_mul_of_pos_right g1 (by positivity)

/-- Rounding does not change a value of type `f32`. -/
theorem round_ofBits {n : Nat} (h : (ofBits n).isFinite = true) (hz : ofBits n ≠ .minusZero) : round (ofBits n).val = ofBits n := by
  have h1 := nearest_ofBits h
  have h2 := ofBits_bound h
  have h0 : ∀ x, ofBits n = .num x → round x = .num x := by
    intro x hx
    rw [hx] at h1 h2
    have h1 : nearest x = x := h1
    have h2 : |x| < 2 ^ 128 := h2
    unfold round
    rw [h1, if_neg (not_le.mpr h2)]
    by_cases hx0 : x = 0
    · subst hx0; simp
    · rw [if_neg hx0]
  cases e : ofBits n with
  | num x => exact h0 x e
  | minusZero => exact absurd e hz
  | inf s => rw [e] at h; cases h
  | nan => rw [e] at h; cases h

theorem plain_zero : Plain (.num 0) := ⟨rfl, by simp, 0, by simp [val]⟩

end F32

end NextPlaid.Single
