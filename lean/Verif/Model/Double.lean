import Verif.Model.Fusion
import Mathlib.Data.Int.Log
import Mathlib.Data.Rat.Floor
import Mathlib.Algebra.Order.Floor.Ring

/-!
The rounding of IEEE 754 binary64 ("f64" in /repo), round to nearest, ties to even, on the rationals; the exponent is not bounded, so there is
no overflow and no subnormal number.
-/

namespace NextPlaid.Fusion

/-- Round to an integer, ties to even. -/
def roundEven (x : ℚ) : Int :=
  if x - ⌊x⌋ < 1 / 2 then ⌊x⌋ else if 1 / 2 < x - ⌊x⌋ then ⌊x⌋ + 1 else if ⌊x⌋ % 2 = 0 then ⌊x⌋ else ⌊x⌋ + 1

/-- Round a positive number to `prec` binary digits. -/
def roundPos (prec : Nat) (x : ℚ) : ℚ := roundEven (x / 2 ^ (Int.log 2 x + 1 - prec)) * 2 ^ (Int.log 2 x + 1 - prec)

/-- Round to `prec` binary digits. -/
def binary (prec : Nat) : Rounding ℚ where
  rnd x := if x = 0 then 0 else if 0 < x then roundPos prec x else - roundPos prec (-x)

/-- `f64`. -/
def double : Rounding ℚ := binary 53

/-- `f32`. -/
def single : Rounding ℚ := binary 24

end NextPlaid.Fusion
