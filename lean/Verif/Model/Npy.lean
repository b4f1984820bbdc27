import Verif.Model.Basic

/-!
Model of the NPY array files, /repo/next-plaid/src/mmap.rs.  A file is a list of bytes (`Nat`s below 256).
Header text is modelled for ASCII only: `str::from_utf8` on a byte above 127 is an error here, while the code
also accepts well-formed multi-byte sequences.
-/

namespace NextPlaid.Npy

/-- `NPY_MAGIC`: /repo/next-plaid/src/mmap.rs:406. -/
def magic : List Nat := [0x93, 78, 85, 77, 80, 89]

/-- Little-endian value (`from_le_bytes`). -/
def leVal : List Nat → Nat
  | [] => 0
  | b :: l => b + 256 * leVal l

/-- Little-endian bytes (`to_le_bytes`) of an unsigned `n`-byte number. -/
def leBytes : Nat → Nat → List Nat
  | 0, _ => []
  | n + 1, v => v % 256 :: leBytes n (v / 256)

/-- `i64::to_le_bytes`, two's complement. -/
def i64Bytes (v : Int) : List Nat := leBytes 8 (v % 2 ^ 64).toNat

/-- `i64::from_le_bytes`. -/
def i64Val (b : List Nat) : Int := if leVal b < 2 ^ 63 then leVal b else (leVal b : Int) - 2 ^ 64

/-! ### Writing -/

/-- `npy_header_layout`: /repo/next-plaid/src/mmap.rs:1177-1182.  (padding, total) -/
def headerLayout (dict : List Char) : Nat × Nat :=
  let padding := (64 - ((10 + dict.length) % 64)) % 64
  (padding, 10 + dict.length + padding + 1)

/-- `{'descr': '` -/
def descrPrefix : List Char := ['{', '\'', 'd', 'e', 's', 'c', 'r', '\'', ':', ' ', '\'']

/-- `', 'fortran_order': False, 'shape': (` -/
def shapePrefix : List Char := ['\'', ',', ' ', '\'', 'f', 'o', 'r', 't', 'r', 'a', 'n', '_', 'o', 'r', 'd', 'e', 'r', '\'', ':', ' ', 'F', 'a', 'l', 's', 'e', ',', ' ', '\'', 's', 'h', 'a', 'p', 'e', '\'', ':', ' ', '(']

/-- `npy_header_dict_1d`: /repo/next-plaid/src/mmap.rs:1184-1189. -/
def dict1d (len : Nat) (dtype : List Char) : List Char :=
  descrPrefix ++ dtype ++ shapePrefix ++ Nat.toDigits 10 len ++ [',', ')', ',', ' ', '}']

/-- `npy_header_dict_2d`: /repo/next-plaid/src/mmap.rs:1191-1196. -/
def dict2d (rows cols : Nat) (dtype : List Char) : List Char :=
  descrPrefix ++ dtype ++ shapePrefix ++ Nat.toDigits 10 rows ++ [',', ' '] ++ Nat.toDigits 10 cols ++ [')', ',', ' ', '}']

/-- `npy_header_size_1d`, `npy_header_size_2d`: /repo/next-plaid/src/mmap.rs:1199-1208. -/
def headerSize1d (len : Nat) (dtype : List Char) : Nat := (headerLayout (dict1d len dtype)).2
def headerSize2d (rows cols : Nat) (dtype : List Char) : Nat := (headerLayout (dict2d rows cols dtype)).2

/-- `write_npy_header`: /repo/next-plaid/src/mmap.rs:1211-1235.  The bytes written. -/
def writeHeader (dict : List Char) : List Nat :=
  let padded := dict ++ List.replicate (headerLayout dict).1 ' ' ++ ['\n']
  magic ++ [1, 0] ++ leBytes 2 (padded.length % 2 ^ 16) ++ padded.map Char.toNat

/-! ### Reading -/

/-- The text after the first occurrence of `pat`. -/
def afterSub (pat : List Char) : List Char → Option (List Char)
  | [] => if pat = [] then some [] else none
  | c :: s => if pat.isPrefixOf (c :: s) then some ((c :: s).drop pat.length) else afterSub pat s

/-- `str::split(',')`. -/
def splitComma : List Char → List (List Char)
  | [] => [[]]
  | c :: s =>
    match splitComma s with
    | [] => []
    | w :: ws => if c = ',' then [] :: w :: ws else (c :: w) :: ws

/-- White space, in ASCII. -/
def isSpace (c : Char) : Bool := (9 ≤ c.toNat && c.toNat ≤ 13) || c.toNat == 32

/-- `str::trim`. -/
def trim (s : List Char) : List Char := ((s.dropWhile isSpace).reverse.dropWhile isSpace).reverse

def decVal (s : List Char) : Nat := s.foldl (fun n c => 10 * n + (c.toNat - '0'.toNat)) 0

/-- `str::parse::<usize>` on a 64-bit target: an optional plus sign and digits, below `2^64`. -/
def parseUsize (s : List Char) : Option Nat :=
  let t := if s.head? = some '+' then s.drop 1 else s
  if t = [] then none
  else if t.all Char.isDigit && decide (decVal t < 2 ^ 64) then some (decVal t) else none

/-- The loop over the comma-separated parts: /repo/next-plaid/src/mmap.rs:738-746. -/
def parseDims : List (List Char) → Res (List Nat)
  | [] => .ok []
  | p :: ps =>
    if trim p = [] then parseDims ps
    else match parseUsize (trim p) with
      | none => .error .err
      | some d => (parseDims ps).map (d :: ·)

/-- `parse_shape_from_header`: /repo/next-plaid/src/mmap.rs:720-749.  The slice between the parentheses
panics when the first `)` comes before the first `(`. -/
def parseShape (header : List Char) : Res (List Nat) :=
  match afterSub ['\'', 's', 'h', 'a', 'p', 'e', '\'', ':'] header with
  | none => .error .err
  | some rest =>
    if '(' ∉ rest ∨ ')' ∉ rest then .error .err
    else if rest.idxOf ')' < rest.idxOf '(' + 1 then .error .panic
    else parseDims (splitComma ((rest.take (rest.idxOf ')')).drop (rest.idxOf '(' + 1)))

/-- `str::from_utf8`, ASCII only. -/
def fromUtf8 (b : List Nat) : Res (List Char) :=
  if b.all (· < 128) then .ok (b.map Char.ofNat) else .error .err

/-- Header text and end: the first part of `parse_npy_header`, /repo/next-plaid/src/mmap.rs:660-707, and of
`detect_npy_dtype`, lines 428-477. -/
def headerText (file : List Nat) : Res (List Char × Nat) :=
  if file.length < 10 then .error .err
  else if file.take 6 ≠ magic then .error .err
  else if file.getD 6 0 = 1 then
    let stop := 10 + leVal ((file.drop 8).take 2)
    if file.length < stop then .error .err
    else (fromUtf8 ((file.take stop).drop 10)).map fun s => (s, stop)
  else if file.getD 6 0 = 2 then
    if file.length < 12 then .error .err
    else
      let stop := 12 + leVal ((file.drop 8).take 4)
      if file.length < stop then .error .err
      else (fromUtf8 ((file.take stop).drop 12)).map fun s => (s, stop)
  else .error .err

/-- `parse_npy_header`: /repo/next-plaid/src/mmap.rs:660-717.  (shape, data offset, Fortran order) -/
def parseHeader (file : List Nat) : Res (List Nat × Nat × Bool) :=
  match headerText file with
  | .error e => .error e
  | .ok (s, stop) =>
    match parseShape s with
    | .error e => .error e
    | .ok shape => .ok (shape, stop, (afterSub ['\'', 'f', 'o', 'r', 't', 'r', 'a', 'n', '_', 'o', 'r', 'd', 'e', 'r', '\'', ':', ' ', 'T', 'r', 'u', 'e'] s).isSome)

/-- `parse_dtype_from_header`: /repo/next-plaid/src/mmap.rs:409-425. -/
def parseDtype (header : List Char) : Res (List Char) :=
  match afterSub ['\'', 'd', 'e', 's', 'c', 'r', '\'', ':'] header with
  | none => .error .err
  | some rest =>
    match afterSub ['\''] rest with
    | none => .error .err
    | some q => if '\'' ∉ q then .error .err else .ok (q.take (q.idxOf '\''))

/-- `detect_npy_dtype`: /repo/next-plaid/src/mmap.rs:428-478. -/
def detectDtype (file : List Nat) : Res (List Char) :=
  match headerText file with
  | .error e => .error e
  | .ok (s, _) => parseDtype s

/-- `MmapNpyArray1I64::from_npy_file`: /repo/next-plaid/src/mmap.rs:778-815.  (length, data offset) -/
def load1I64 (file : List Nat) : Res (Nat × Nat) :=
  match parseHeader file with
  | .error e => .error e
  | .ok ([], _, _) => .error .err
  | .ok (n :: _, off, _) => if file.length < off + n * 8 then .error .err else .ok (n, off)

/-- `MmapNpyArray1I64::get`: /repo/next-plaid/src/mmap.rs:841-845. -/
def get1I64 (file : List Nat) (off i : Nat) : Res Int :=
  if file.length < off + i * 8 + 8 then .error .panic else .ok (i64Val ((file.drop (off + i * 8)).take 8))

/-- `MmapNpyArray2U8::from_npy_file`: /repo/next-plaid/src/mmap.rs:992-1029.  (rows, columns, data offset) -/
def load2U8 (file : List Nat) : Res (Nat × Nat × Nat) :=
  match parseHeader file with
  | .error e => .error e
  | .ok ([r, c], off, _) => if file.length < off + r * c then .error .err else .ok (r, c, off)
  | .ok (_, _, _) => .error .err

/-- `MmapNpyArray2U8::row`: /repo/next-plaid/src/mmap.rs:1061-1065. -/
def row2U8 (file : List Nat) (cols off i : Nat) : Res (List Nat) :=
  if file.length < off + i * cols + cols then .error .panic else .ok ((file.drop (off + i * cols)).take cols)

end NextPlaid.Npy
