import Verif.Model.ArrayFile

/-!
What C82 says.  Values lie one after another from the offset `off` on, row by row.
-/

namespace NextPlaid.Spec.ArrayFile

open NextPlaid.ArrayFile

/-- The ways a file is opened: a raw file as `f32` or `u8`, a raw file of `i64`, an NPY file as `f32`
or `u8`, an NPY file of `i64`. -/
inductive Opens (file : List Nat) : Arr → Prop
  | raw2 {w : Nat} {a : Arr} (hw : w = 4 ∨ w = 1) (h : raw2 w file = .ok a) : Opens file a
  | raw1 {a : Arr} (h : raw1 file = .ok a) : Opens file a
  | npy2 {w : Nat} {a : Arr} (hw : w = 4 ∨ w = 1) (h : npy2 w file = .ok a) : Opens file a
  | npy1 {a : Arr} (h : npy1 file = .ok a) : Opens file a

/-- The value number `k` in the file. -/
def Elem (file : List Nat) (off width k : Nat) : List Nat := (file.drop (off + width * k)).take width

/-- `vs` is row `i`. -/
def IsRow (file : List Nat) (a : Arr) (i : Nat) (vs : List (List Nat)) : Prop :=
  vs.length = a.cols ∧ ∀ j : Nat, j < a.cols → vs[j]? = some (Elem file a.off a.width (i * a.cols + j))

/-- The bytes the header speaks of: offset and values. -/
def Size (a : Arr) : Nat := a.off + a.rows * a.cols * a.width

/-- All bytes of `vs` are a contiguous part of the file. -/
def Inside (file : List Nat) (vs : List (List Nat)) : Prop :=
  ∃ s, s + vs.flatten.length ≤ file.length ∧ vs.flatten = (file.drop s).take vs.flatten.length

end NextPlaid.Spec.ArrayFile
