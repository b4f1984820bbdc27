import Verif.Model.Double

/-!
IEEE 754 binary32 ("f32" in /repo) with its limits: subnormal numbers, overflow to infinity, the two zeros, and not-a-number.  The arithmetic is that of
the processor: the exact result rounded to nearest, ties to even.  This is not code of /repo but what its `f32` operations mean; the one simplification
is that all not-a-numbers are one value.
-/

namespace NextPlaid.Single

/-- A value of type `f32`. -/
inductive F32 where
  /-- A finite number; zero is the positive zero. -/
  | num (x : ℚ)
  /-- The negative zero. -/
  | minusZero
  /-- An infinity. -/
  | inf (negative : Bool)
  /-- Not a number. -/
  | nan
  deriving DecidableEq

namespace F32

/-- The distance of neighbouring numbers at `x`: 24 binary digits, but not below the smallest subnormal number. -/
def quantum (x : ℚ) : ℚ := 2 ^ max (Int.log 2 |x| + 1 - 24) (-149)

/-- Round to nearest, ties to even, on the numbers with 24 binary digits and no subnormal smaller than `2^-149`; no bound above. -/
def nearest (x : ℚ) : ℚ := Fusion.roundEven (x / quantum x) * quantum x

/-- The `f32` nearest to a rational: infinite from `2^128` on, and a zero with the sign of the exact number. -/
def round (x : ℚ) : F32 :=
  if 2 ^ 128 ≤ |nearest x| then .inf (decide (x < 0))
  else if nearest x = 0 then (if x < 0 then .minusZero else .num 0)
  else .num (nearest x)

/-- The value of the 32 bits `n`: sign, 8 bits of exponent, 23 bits of fraction. -/
def ofBits (n : Nat) : F32 :=
  let negative := n / 2 ^ 31 % 2 = 1
  let e : Nat := n / 2 ^ 23 % 2 ^ 8
  let m : Nat := n % 2 ^ 23
  if e = 255 then (if m = 0 then .inf (decide negative) else .nan)
  else
    let x : ℚ := if e = 0 then m * 2 ^ (-149 : Int) else (2 ^ 23 + m) * 2 ^ ((e : Int) - 150)
    if x = 0 then (if negative then .minusZero else .num 0) else .num (if negative then -x else x)

/-- `is_finite`. -/
def isFinite : F32 → Bool
  | .num _ => true
  | .minusZero => true
  | .inf _ => false
  | .nan => false

/-- The sign bit of a value that is a number or an infinity. -/
def isNeg : F32 → Bool
  | .num x => decide (x < 0)
  | .minusZero => true
  | .inf n => n
  | .nan => false

/-- The number that a finite value stands for; the two zeros stand for the same. -/
def val : F32 → ℚ
  | .num x => x
  | .minusZero => 0
  | .inf _ => 0
  | .nan => 0

/-- `a + b`. -/
def add : F32 → F32 → F32
  | .nan, _ => .nan
  | _, .nan => .nan
  | .inf a, .inf b => if a = b then .inf a else .nan
  | .inf a, _ => .inf a
  | _, .inf b => .inf b
  | .minusZero, .minusZero => .minusZero
  | .minusZero, .num y => .num y
  | .num x, .minusZero => .num x
  | .num x, .num y => round (x + y)

/-- A zero with a sign. -/
def zero (negative : Bool) : F32 := if negative then .minusZero else .num 0

/-- `a * b`. -/
def mul (a b : F32) : F32 :=
  match a, b with
  | .nan, _ => .nan
  | _, .nan => .nan
  | .inf _, .inf _ => .inf (a.isNeg != b.isNeg)
  | .inf _, c => if c.val = 0 then .nan else .inf (a.isNeg != b.isNeg)
  | c, .inf _ => if c.val = 0 then .nan else .inf (a.isNeg != b.isNeg)
  | _, _ => if a.val * b.val = 0 then zero (a.isNeg != b.isNeg) else round (a.val * b.val)

/-- `a > b`: false if one is not a number; the two zeros are equal. -/
def gt : F32 → F32 → Bool
  | .nan, _ => false
  | _, .nan => false
  | .inf a, .inf b => !a && b
  | .inf a, _ => !a
  | _, .inf b => b
  | a, b => decide (b.val < a.val)

/-- `a.total_cmp(&b)` is `Less`, for two finite values: as numbers, and the negative zero is below the positive zero. -/
def totalLt (a b : F32) : Bool := decide (a.val < b.val) || (decide (a.val = b.val) && decide (a = .minusZero) && decide (b ≠ .minusZero))

end F32

end NextPlaid.Single
