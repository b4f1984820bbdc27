import Verif.Model.Npy

/-!
Model of the array files opened in place: /repo/next-plaid/src/mmap.rs:58-400 (raw files) and
lines 750-1066 (NPY files), with `usize` arithmetic of 64 bits, which wraps around in a release
build.  A file is a list of bytes; a value is the list of its bytes.
-/

namespace NextPlaid.ArrayFile

open NextPlaid.Npy

/-- `usize` multiplication, addition and subtraction. -/
def wmul (a b : Nat) : Nat := a * b % 2 ^ 64
def wadd (a b : Nat) : Nat := (a + b) % 2 ^ 64
def wsub (a b : Nat) : Nat := (a + 2 ^ 64 - b) % 2 ^ 64

/-- What a read gives: a value, a panic, or undefined behaviour (`from_raw_parts` with a length that
passes the memory it is given). -/
inductive Got (α : Type) where
  | val (a : α)
  | panic
  | undef
  deriving DecidableEq, Repr

/-- An opened array: shape, offset of the data, and bytes in a value (`f32` 4, `u8` 1, `i64` 8). -/
structure Arr where
  rows : Nat
  cols : Nat
  off : Nat
  width : Nat
  deriving DecidableEq, Repr

/-- The check of the file's size: /repo/next-plaid/src/mmap.rs:98-113, 195-210, 266-281, 793-808,
875-897, 1008-1028. -/
def openShape (file : List Nat) (rows cols off width : Nat) : Res Arr :=
  if file.length < wadd off (wmul (wmul rows cols) width) then .error .err else .ok ⟨rows, cols, off, width⟩

/-- `MmapArray2F32::from_raw_file` (width 4), /repo/next-plaid/src/mmap.rs:75-114, and
`MmapArray2U8::from_raw_file` (width 1), lines 173-211.  An `i64` read and cast to `usize` is the
number of its eight bytes. -/
def raw2 (width : Nat) (file : List Nat) : Res Arr :=
  if file.length < 16 then .error .err
  else openShape file (leVal (file.take 8)) (leVal ((file.drop 8).take 8)) 16 width

/-- `MmapArray1I64::from_raw_file`: /repo/next-plaid/src/mmap.rs:249-282. -/
def raw1 (file : List Nat) : Res Arr :=
  if file.length < 8 then .error .err else openShape file (leVal (file.take 8)) 1 8 8

/-- `MmapNpyArray2F32::from_npy_file` (width 4), /repo/next-plaid/src/mmap.rs:861-897, and
`MmapNpyArray2U8::from_npy_file` (width 1), lines 992-1029. -/
def npy2 (width : Nat) (file : List Nat) : Res Arr :=
  match parseHeader file with
  | .error e => .error e
  | .ok ([r, c], off, _) => openShape file r c off width
  | .ok (_, _, _) => .error .err

/-- `MmapNpyArray1I64::from_npy_file`: /repo/next-plaid/src/mmap.rs:778-811. -/
def npy1 (file : List Nat) : Res Arr :=
  match parseHeader file with
  | .error e => .error e
  | .ok ([], _, _) => .error .err
  | .ok (n :: _, off, _) => openShape file n 1 off 8

/-- `&mmap[s..e]`. -/
def bytesAt (file : List Nat) (s e : Nat) : Got (List Nat) :=
  if s ≤ e ∧ e ≤ file.length then .val ((file.drop s).take (e - s)) else .panic

/-- The first `n` values of `width` bytes. -/
def values (width n : Nat) (bytes : List Nat) : List (List Nat) :=
  (List.range n).map fun k => (bytes.drop (width * k)).take width

/-- Values in rows of `cols`. -/
def inRows (n cols : Nat) (vs : List (List Nat)) : List (List (List Nat)) :=
  (List.range n).map fun i => (vs.drop (i * cols)).take cols

/-- `from_shape` of `ndarray` (outside the repository) on `have_` values: the product of the lengths
that are not 0 must not pass `isize::MAX`, in values and in bytes, and the values must suffice.
(For an array without values the library counts only values, not bytes.) -/
def shapeOk (width n cols have_ : Nat) : Bool :=
  decide (max n 1 * max cols 1 * width < 2 ^ 63) && decide (n * cols ≤ have_)

/-- `load_rows`, `to_owned`, `view` and `slice_rows`: /repo/next-plaid/src/mmap.rs:144-161, 219-237,
302-309, 917-955, 1046-1058.  Values of one byte are taken from the slice itself. -/
def loadRows (file : List Nat) (a : Arr) (s e : Nat) : Got (List (List (List Nat))) :=
  match bytesAt file (wadd a.off (wmul (wmul s a.cols) a.width)) (wadd a.off (wmul (wmul e a.cols) a.width)) with
  | .panic => .panic
  | .undef => .undef
  | .val bytes =>
    let count := if a.width = 1 then bytes.length else wmul (wsub e s) a.cols
    if bytes.length < count * a.width then .undef
    else if shapeOk a.width (wsub e s) a.cols count then .val (inRows (wsub e s) a.cols (values a.width count bytes)) else .panic

/-- `row`: /repo/next-plaid/src/mmap.rs:132-141, 931-940, 1061-1065. -/
def row (file : List Nat) (a : Arr) (i : Nat) : Got (List (List Nat)) :=
  match bytesAt file (wadd a.off (wmul (wmul i a.cols) a.width)) (wadd (wadd a.off (wmul (wmul i a.cols) a.width)) (wmul a.cols a.width)) with
  | .panic => .panic
  | .undef => .undef
  | .val bytes =>
    if a.width = 1 then .val (values 1 bytes.length bytes)
    else if bytes.length < a.cols * a.width then .undef
    else if shapeOk a.width a.cols 1 a.cols then .val (values a.width a.cols bytes) else .panic

/-- `get` of an array of `i64`: /repo/next-plaid/src/mmap.rs:295-299, 841-845. -/
def get (file : List Nat) (a : Arr) (i : Nat) : Got (List Nat) :=
  bytesAt file (wadd a.off (wmul i 8)) (wadd (wadd a.off (wmul i 8)) 8)

/-- `write_array2_f32` (values of four bytes) and `write_array2_u8` (of one):
/repo/next-plaid/src/mmap.rs:313-372. -/
def write2 (cols : Nat) (rows : List (List (List Nat))) : List Nat :=
  i64Bytes rows.length ++ i64Bytes cols ++ rows.flatten.flatten

/-- `write_array1_i64`: /repo/next-plaid/src/mmap.rs:375-400. -/
def write1 (vals : List Int) : List Nat := i64Bytes vals.length ++ vals.flatMap i64Bytes

end NextPlaid.ArrayFile
