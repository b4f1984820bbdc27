import Verif.Model.Double
import Mathlib.Tactic.Ring
import Mathlib.Tactic.Linarith
import Mathlib.Tactic.FieldSimp
import Mathlib.Tactic.Positivity
import Mathlib.Algebra.Order.Field.Power

/-!
Proofs: binary rounding is lawful.
-/

namespace NextPlaid.Fusion

theorem roundEven_bounds (x : ℚ) : ⌊x⌋ ≤ roundEven x ∧ roundEven x ≤ ⌊x⌋ + 1 := by
  unfold roundEven
  split
  · omega
  · split
    · omega
    · split <;> omega

theorem roundEven_int (n : Int) : roundEven (n : ℚ) = n := by
  unfold roundEven
  rw [Int.floor_intCast]
  rw [if_pos (by simp)]

theorem roundEven_mono {x y : ℚ} (h : x ≤ y) : roundEven x ≤ roundEven y := by
  have hf : ⌊x⌋ ≤ ⌊y⌋ := Int.floor_mono h
  rcases lt_or_eq_of_le hf with hlt | heq
  · have h1 := (roundEven_bounds x).2
    have h2 := (roundEven_bounds y).1
    omega
  · unfold roundEven
    rw [← heq]
    have hxy : x - (⌊x⌋ : ℚ) ≤ y - (⌊x⌋ : ℚ) := by linarith
    by_cases h1 : x - (⌊x⌋ : ℚ) < 1 / 2
    · rw [if_pos h1]
      split
      · exact le_refl _
      · split
        · omega
        · split <;> omega
    · rw [if_neg h1]
      have h2 : ¬ y - (⌊x⌋ : ℚ) < 1 / 2 := by intro h; exact h1 (lt_of_le_of_lt hxy h)
      rw [if_neg h2]
      by_cases h3 : 1 / 2 < x - (⌊x⌋ : ℚ)
      · rw [if_pos h3, if_pos (lt_of_lt_of_le h3 hxy)]
      · rw [if_neg h3]
        split
        · split <;> omega
        · split <;> omega

theorem roundEven_near (x : ℚ) : |(roundEven x : ℚ) - x| ≤ 1 / 2 := by
  have h1 := Int.floor_le x
  have h2 := Int.lt_floor_add_one x
  rw [abs_le]
  unfold roundEven
  split
  · constructor <;> linarith
  · rename_i h3
    have h3 := not_lt.mp h3
    split
    · push_cast
      constructor <;> linarith
    · rename_i h4
      have h4 := not_lt.mp h4
      split
      · constructor <;> linarith
      · push_cast
        constructor <;> linarith

/-- The unit in the last place. -/
def ulp (prec : Nat) (x : ℚ) : ℚ := 2 ^ (Int.log 2 x + 1 - prec)

theorem ulp_pos (prec : Nat) (x : ℚ) : 0 < ulp prec x := by unfold ulp; positivity

theorem roundPos_eq (prec : Nat) (x : ℚ) : roundPos prec x = roundEven (x / ulp prec x) * ulp prec x := rfl

theorem mantissa {prec : Nat} (hp : 0 < prec) {x : ℚ} (hx : 0 < x) : ((2 ^ (prec - 1) : Nat) : ℚ) ≤ x / ulp prec x ∧ x / ulp prec x < ((2 ^ prec : Nat) : ℚ) := by
  have h1 : ((2 : ℕ) : ℚ) ^ Int.log 2 x ≤ x := Int.zpow_log_le_self Nat.one_lt_two hx
  have h2 : x < ((2 : ℕ) : ℚ) ^ (Int.log 2 x + 1) := Int.lt_zpow_succ_log_self Nat.one_lt_two x
  have hu := ulp_pos prec x
  rw [le_div_iff₀ hu, div_lt_iff₀ hu]
  unfold ulp
  have e1 : ((2 ^ (prec - 1) : Nat) : ℚ) = (2 : ℚ) ^ ((prec : Int) - 1) := by
    rw [Nat.cast_pow, Nat.cast_ofNat, ← zpow_natCast]
    congr 1
    omega
  have e2 : ((2 ^ prec : Nat) : ℚ) = (2 : ℚ) ^ (prec : Int) := by
    rw [Nat.cast_pow, Nat.cast_ofNat, ← zpow_natCast]
  rw [e1, e2, ← zpow_add₀ (two_ne_zero), ← zpow_add₀ (two_ne_zero)]
  rw [Nat.cast_ofNat] at h1 h2
  constructor
  · refine le_trans (le_of_eq ?_) h1
    congr 1
    omega
  · refine lt_of_lt_of_le h2 (le_of_eq ?_)
    congr 1
    omega

theorem roundPos_bounds {prec : Nat} (hp : 0 < prec) {x : ℚ} (hx : 0 < x) :
    (2 : ℚ) ^ Int.log 2 x ≤ roundPos prec x ∧ roundPos prec x ≤ (2 : ℚ) ^ (Int.log 2 x + 1) := by
  obtain ⟨h1, h2⟩ := mantissa hp hx
  have hu := ulp_pos prec x
  have g1 : ((2 ^ (prec - 1) : Nat) : Int) ≤ roundEven (x / ulp prec x) := by
    have := roundEven_mono h1
    have e := roundEven_int ((2 ^ (prec - 1) : Nat) : Int)
    rw [Int.cast_natCast] at e
    rwa [e] at this
  have g2 : roundEven (x / ulp prec x) ≤ ((2 ^ prec : Nat) : Int) := by
    have := roundEven_mono (le_of_lt h2)
    have e := roundEven_int ((2 ^ prec : Nat) : Int)
    rw [Int.cast_natCast] at e
    rwa [e] at this
  have g1' : ((2 ^ (prec - 1) : Nat) : ℚ) ≤ (roundEven (x / ulp prec x) : ℚ) := by exact_mod_cast g1
  have g2' : (roundEven (x / ulp prec x) : ℚ) ≤ ((2 ^ prec : Nat) : ℚ) := by exact_mod_cast g2
  rw [roundPos_eq]
  constructor
  · refine le_trans (le_of_eq ?_) (mul_le_mul_of_nonneg_right g1' (le_of_lt hu))
    unfold ulp
    rw [Nat.cast_pow, Nat.cast_ofNat, ← zpow_natCast, ← zpow_add₀ (two_ne_zero)]
    congr 1
    omega
  · refine le_trans (mul_le_mul_of_nonneg_right g2' (le_of_lt hu)) (le_of_eq ?_)
    unfold ulp
    rw [Nat.cast_pow, Nat.cast_ofNat, ← zpow_natCast, ← zpow_add₀ (two_ne_zero)]
    congr 1
    omega

theorem roundPos_pos {prec : Nat} (hp : 0 < prec) {x : ℚ} (hx : 0 < x) : 0 < roundPos prec x :=
  lt_of_lt_of_le (by positivity) (roundPos_bounds hp hx).1

theorem roundPos_mono {prec : Nat} (hp : 0 < prec) {x y : ℚ} (hx : 0 < x) (h : x ≤ y) : roundPos prec x ≤ roundPos prec y := by
  have hy : 0 < y := lt_of_lt_of_le hx h
  have hl : Int.log 2 x ≤ Int.log 2 y := Int.log_mono_right hx h
  rcases lt_or_eq_of_le hl with hlt | heq
  · refine le_trans (roundPos_bounds hp hx).2 (le_trans ?_ (roundPos_bounds hp hy).1)
    exact zpow_le_zpow_right₀ (by norm_num) (by omega)
  · have hu : ulp prec x = ulp prec y := by unfold ulp; rw [heq]
    rw [roundPos_eq, roundPos_eq, ← hu]
    apply mul_le_mul_of_nonneg_right _ (le_of_lt (ulp_pos prec x))
    have := roundEven_mono (div_le_div_of_nonneg_right h (le_of_lt (ulp_pos prec x)))
    exact_mod_cast this

/-- A number with `prec` binary digits is not changed. -/
theorem roundPos_of_int {prec : Nat} (hp : 0 < prec) {m e : Int} (hm : 0 < m) (hle : m ≤ 2 ^ prec) : roundPos prec ((m : ℚ) * 2 ^ e) = (m : ℚ) * 2 ^ e := by
  have hmq : (0 : ℚ) < (m : ℚ) := by exact_mod_cast hm
  have hx : 0 < (m : ℚ) * 2 ^ e := by positivity
  -- the exponent is not smaller than that of a number with all digits
  rcases lt_or_eq_of_le hle with hlt | heq
  · have hlog : Int.log 2 ((m : ℚ) * 2 ^ e) + 1 - prec ≤ e := by
      have h1 : ((2 : ℕ) : ℚ) ^ Int.log 2 ((m : ℚ) * 2 ^ e) ≤ (m : ℚ) * 2 ^ e := Int.zpow_log_le_self Nat.one_lt_two hx
      have h2 : (m : ℚ) * 2 ^ e < (2 : ℚ) ^ ((prec : Int) + e) := by
        rw [zpow_add₀ two_ne_zero, zpow_natCast]
        apply mul_lt_mul_of_pos_right _ (by positivity)
        exact_mod_cast hlt
      rw [Nat.cast_ofNat] at h1
      have := lt_of_le_of_lt h1 h2
      rw [zpow_lt_zpow_iff_right₀ (by norm_num)] at this
      omega
    obtain ⟨k, hk⟩ : ∃ k : Nat, e = Int.log 2 ((m : ℚ) * 2 ^ e) + 1 - prec + k := ⟨(e - (Int.log 2 ((m : ℚ) * 2 ^ e) + 1 - prec)).toNat, by omega⟩
    have hu : ulp prec ((m : ℚ) * 2 ^ e) = 2 ^ (e - k) := by
      unfold ulp
      congr 1
      omega
    rw [roundPos_eq, hu]
    have hdiv : (m : ℚ) * 2 ^ e / 2 ^ (e - (k : Int)) = ((m * 2 ^ k : Int) : ℚ) := by
      rw [zpow_sub₀ two_ne_zero, zpow_natCast]
      push_cast
      field_simp
    rw [hdiv, roundEven_int, ← hdiv]
    field_simp
  · have hx2 : (m : ℚ) * 2 ^ e = (2 : ℚ) ^ ((prec : Int) + e) := by
      rw [heq, zpow_add₀ two_ne_zero, zpow_natCast]
      push_cast
      rfl
    rw [hx2]
    have hlog : Int.log 2 ((2 : ℚ) ^ ((prec : Int) + e)) = prec + e := by
      have := Int.log_zpow (R := ℚ) (b := 2) Nat.one_lt_two ((prec : Int) + e)
      rwa [Nat.cast_ofNat] at this
    have hu : ulp prec ((2 : ℚ) ^ ((prec : Int) + e)) = 2 ^ (e + 1) := by
      unfold ulp
      rw [hlog]
      congr 1
      omega
    rw [roundPos_eq, hu]
    have hdiv : (2 : ℚ) ^ ((prec : Int) + e) / 2 ^ (e + 1) = ((2 ^ (prec - 1) : Int) : ℚ) := by
      rw [← zpow_sub₀ two_ne_zero]
      push_cast
      rw [← zpow_natCast]
      congr 1
      omega
    rw [hdiv, roundEven_int, ← hdiv]
    field_simp

theorem roundPos_idem {prec : Nat} (hp : 0 < prec) {x : ℚ} (hx : 0 < x) : roundPos prec (roundPos prec x) = roundPos prec x := by
  obtain ⟨h1, h2⟩ := mantissa hp hx
  have hpos := roundPos_pos hp hx
  rw [roundPos_eq] at hpos
  have hm : 0 < roundEven (x / ulp prec x) := by
    have := pos_of_mul_pos_left hpos (le_of_lt (ulp_pos prec x))
    exact_mod_cast this
  have hle : roundEven (x / ulp prec x) ≤ 2 ^ prec := by
    have := roundEven_mono (le_of_lt h2)
    have e := roundEven_int ((2 ^ prec : Nat) : Int)
    rw [Int.cast_natCast] at e
    rw [e] at this
    exact_mod_cast this
  rw [roundPos_eq prec x]
  exact roundPos_of_int hp hm hle

theorem roundPos_near {prec : Nat} {x : ℚ} : |roundPos prec x - x| ≤ ulp prec x / 2 := by
  have hu := ulp_pos prec x
  have h := roundEven_near (x / ulp prec x)
  rw [roundPos_eq]
  have e : (roundEven (x / ulp prec x) : ℚ) * ulp prec x - x = ((roundEven (x / ulp prec x) : ℚ) - x / ulp prec x) * ulp prec x := by
    field_simp
  rw [e, abs_mul, abs_of_pos hu]
  calc _ ≤ 1 / 2 * ulp prec x := mul_le_mul_of_nonneg_right h (le_of_lt hu)
    _ = ulp prec x / 2 := by ring

/-- Rounding to a positive number of binary digits is lawful. -/
theorem binary_lawful {prec : Nat} (hp : 0 < prec) : (binary prec).Lawful where
  mono := by
    intro a b hab
    simp only [binary]
    rcases lt_trichotomy a 0 with ha | ha | ha
    · rw [if_neg (ne_of_lt ha), if_neg (not_lt.mpr (le_of_lt ha))]
      have pa := roundPos_pos hp (neg_pos.mpr ha)
      rcases lt_trichotomy b 0 with hb | hb | hb
      · rw [if_neg (ne_of_lt hb), if_neg (not_lt.mpr (le_of_lt hb))]
        have := roundPos_mono hp (neg_pos.mpr hb) (neg_le_neg hab)
        linarith
      · rw [if_pos hb]; linarith
      · rw [if_neg (ne_of_gt hb), if_pos hb]
        have := roundPos_pos hp hb
        linarith
    · rw [if_pos ha]
      rw [ha] at hab
      rcases lt_or_eq_of_le hab with hb | hb
      · rw [if_neg (ne_of_gt hb), if_pos hb]
        exact le_of_lt (roundPos_pos hp hb)
      · rw [if_pos hb.symm]
    · have hb : 0 < b := lt_of_lt_of_le ha hab
      rw [if_neg (ne_of_gt ha), if_pos ha, if_neg (ne_of_gt hb), if_pos hb]
      exact roundPos_mono hp ha hab
  idem := by
    intro a
    simp only [binary]
    rcases lt_trichotomy a 0 with ha | ha | ha
    · have pa := roundPos_pos hp (neg_pos.mpr ha)
      rw [if_neg (ne_of_lt ha), if_neg (not_lt.mpr (le_of_lt ha)), if_neg (by linarith), if_neg (by linarith), neg_neg,
        roundPos_idem hp (neg_pos.mpr ha)]
    · simp only [if_pos ha, if_true]
    · have pa := roundPos_pos hp ha
      rw [if_neg (ne_of_gt ha), if_pos ha, if_neg (ne_of_gt pa), if_pos pa, roundPos_idem hp ha]
  zero := by simp [binary]
  one := by
    simp only [binary]
    rw [if_neg one_ne_zero, if_pos one_pos]
    have h := roundPos_of_int hp (m := 1) (e := 0) one_pos (by
      have : (1 : Int) ≤ 2 ^ prec := one_le_pow₀ (by norm_num)
      exact this)
    simpa using h

theorem double_lawful : double.Lawful := binary_lawful (by norm_num)

theorem single_lawful : single.Lawful := binary_lawful (by norm_num)

end NextPlaid.Fusion
