import Mathlib.Order.Defs.LinearOrder

/-!
Shared conventions of the model.

* `Fault.err`  models a Rust `Err(..)` returned to the caller.
* `Fault.panic` models a Rust panic (index out of bounds, division by zero, `unwrap` on `None`,
  arithmetic underflow in a debug build).
-/

namespace NextPlaid

/-- The two ways a modelled call can fail. -/
inductive Fault where
  | err
  | panic
deriving DecidableEq, Repr

/-- Result of a modelled call. -/
abbrev Res (α : Type _) := Except Fault α

/-- Slice indexing `v[i]` in Rust: a panic when out of bounds. -/
def idx {α : Type _} (l : List α) (i : Nat) : Res α :=
  match l[i]? with
  | some a => .ok a
  | none => .error .panic

/-- Three-way comparison of a linear order. Models `f32::total_cmp` on finite values. -/
def cmpLin {α : Type _} [LinearOrder α] (a b : α) : Ordering :=
  if a < b then .lt else if b < a then .gt else .eq

/-- A similarity score: a finite value, or a non-finite float (NaN, +inf, -inf) identified by a tag.
Floating point arithmetic itself is not modelled; only the comparison logic of the code is. -/
inductive Score (α : Type _) where
  | fin (a : α)
  | nonfin (tag : Nat)
deriving DecidableEq, Repr

namespace Score

def isFinite {α : Type _} : Score α → Bool
  | fin _ => true
  | nonfin _ => false

/-- `cmp_f32_for_max`: /repo/next-plaid/src/codec.rs:23-30 and /repo/next-plaid/src/maxsim.rs:23-30.
Finite values beat non-finite ones; two finite values are compared by `total_cmp`; two non-finite
values are equal. -/
def cmpForMax {α : Type _} [LinearOrder α] : Score α → Score α → Ordering
  | fin a, fin b => cmpLin a b
  | fin _, nonfin _ => .gt
  | nonfin _, fin _ => .lt
  | nonfin _, nonfin _ => .eq

end Score

/-- `Iterator::max_by` of the Rust standard library: a left fold that keeps the accumulator only
when it compares `Greater`, so the LAST maximal element wins. -/
def maxBy {β : Type _} (cmp : β → β → Ordering) : List β → Option β
  | [] => none
  | x :: xs => some (xs.foldl (fun acc y => match cmp acc y with | .gt => acc | _ => y) x)

end NextPlaid
