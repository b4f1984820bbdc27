import Mathlib.Analysis.Real.Sqrt

/-!
Model of the helpers for batches, /repo/next-plaid/src/utils.rs:160-281.  An array is the list of its rows; entries of padded arrays are anything, those of
normalised ones real numbers, without the rounding of `f32`.
-/

namespace NextPlaid.Padding

variable {α : Type}

/-- An `Array2`: it has a number of columns also if it has no rows. -/
structure Arr (α : Type) where
  cols : Nat
  rows : List (List α)
  shape : ∀ r ∈ rows, r.length = cols

/-- `i64 as usize`, with 64 bits. -/
def asUsize (n : Int) : Nat := (n % (2 ^ 64 : Int)).toNat

/-- `create_mask`: /repo/next-plaid/src/utils.rs:234-245. -/
def createMask (lengths : List Int) (maxLen : Nat) : List (List Bool) :=
  lengths.map fun len => (List.range (min (asUsize len) maxLen)).foldl (fun row j => row.set j true) (List.replicate maxLen false)

/-- The inner loops of `pad_sequences`: the rows of one sequence are written from row `at` on.  `seq[[j, k]]` for `k < dim` panics if the sequence has fewer
columns; more are left out. -/
def writeRows (dim : Nat) : List (List α) → Nat → List (List α) → Option (List (List α))
  | [], _, acc => some acc
  | r :: rs, at_, acc => if r.length < dim then none else writeRows dim rs (at_ + 1) (acc.set at_ (r.take dim))

/-- The outer loop. -/
def writeAll (dim maxLen : Nat) : List (Arr α) → Nat → List (List α) → Option (List (List α))
  | [], _, acc => some acc
  | s :: ss, i, acc => (writeRows dim s.rows (i * maxLen) acc).bind (writeAll dim maxLen ss (i + 1))

/-- `pad_sequences`: /repo/next-plaid/src/utils.rs:257-281; `none` is a panic. -/
def padSequences (seqs : List (Arr α)) (pad : α) : Option (List (List α) × List Int) :=
  match seqs with
  | [] => some ([], [])
  | s0 :: _ =>
    let maxLen := (seqs.map fun s => s.rows.length).foldl max 0
    let dim := s0.cols
    (writeAll dim maxLen seqs 0 (List.replicate (seqs.length * maxLen) (List.replicate dim pad))).map fun p =>
      (p, seqs.map fun s => (s.rows.length : Int))

/-- `row_norms`: /repo/next-plaid/src/utils.rs:178-182. -/
noncomputable def rowNorms (rows : List (List ℝ)) : List ℝ := rows.map fun r => Real.sqrt ((r.map fun x => x * x).sum)

/-- `normalize_rows`: /repo/next-plaid/src/utils.rs:160-167. -/
noncomputable def normalizeRows (rows : List (List ℝ)) : List (List ℝ) :=
  rows.map fun r =>
    let norm := max (Real.sqrt ((r.map fun x => x * x).sum)) (1 / 10 ^ 12)
    r.map fun x => x / norm

end NextPlaid.Padding
