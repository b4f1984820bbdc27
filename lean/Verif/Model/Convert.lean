import Verif.Model.Npy
import Mathlib.Logic.Function.Basic

/-!
Model of the conversion of legacy indexes, /repo/next-plaid/src/mmap.rs:481-655 and 1757-1811.

`usize` products wrap around, as in a release build.  I/O errors are not modelled.  The widening of a half to a
single (crate `half`) is a parameter: from the two bytes to the four bytes.
-/

namespace NextPlaid.Convert
open NextPlaid.Npy

abbrev Bytes := List Nat
abbrev Name := List Char

/-- The header text and its end, as the conversion functions find them: lines 493-509, 556-572, 618-634.  Any
version other than 1 is read like version 2; slices outside the file panic. -/
def rawHeader (data : Bytes) : Res (List Char × Nat) :=
  if data.length < 10 ∨ data.take 6 ≠ magic then .error .err
  else if data.getD 6 0 = 1 then
    let stop := 10 + leVal ((data.drop 8).take 2)
    if data.length < stop then .error .panic
    else (fromUtf8 ((data.take stop).drop 10)).map fun s => (s, stop)
  else if data.length < 12 then .error .panic
  else
    let stop := 12 + leVal ((data.drop 8).take 4)
    if data.length < stop then .error .panic
    else (fromUtf8 ((data.take stop).drop 12)).map fun s => (s, stop)

/-- Shape and data offset. -/
def rawShape (data : Bytes) : Res (List Nat × Nat) :=
  match rawHeader data with
  | .error e => .error e
  | .ok (s, stop) => (parseShape s).map fun shape => (shape, stop)

def byteAt (data : Bytes) (i : Nat) : Nat := data.getD i 0

/-- `i64 as i32`, then `to_le_bytes`. -/
def i32Bytes (v : Int) : Bytes := leBytes 4 (v % 2 ^ 32).toNat

/-- `i32::from_le_bytes`. -/
def i32Val (b : Bytes) : Int := if leVal b < 2 ^ 31 then leVal b else (leVal b : Int) - 2 ^ 32

/-- The file after a conversion, and the result.  The file is emptied by `File::create` before it is written. -/
abbrev Outcome := Bytes × Res Unit

/-- `convert_f16_to_f32_npy`: /repo/next-plaid/src/mmap.rs:481-541. -/
def convF16 (widen : Nat → Nat → Bytes) (data : Bytes) : Outcome :=
  match rawShape data with
  | .error e => (data, .error e)
  | .ok (shape, off) =>
    let total := shape.prod % 2 ^ 64
    if data.length < off + total * 2 % 2 ^ 64 then (data, .error .panic)
    else
      let body := (List.range (total * 2 % 2 ^ 64 / 2)).flatMap fun i =>
        widen (byteAt data (off + 2 * i)) (byteAt data (off + 2 * i + 1))
      match shape with
      | [n] => (writeHeader (dict1d n ['<', 'f', '4']) ++ body, .ok ())
      | [r, c] => (writeHeader (dict2d r c ['<', 'f', '4']) ++ body, .ok ())
      | _ => ([], .error .err)

/-- `convert_i64_to_i32_npy`: /repo/next-plaid/src/mmap.rs:544-600. -/
def convI64 (data : Bytes) : Outcome :=
  match rawShape data with
  | .error e => (data, .error e)
  | .ok (shape, off) =>
    match shape with
    | [n] =>
      if data.length < off + n * 8 % 2 ^ 64 then (data, .error .panic)
      else (writeHeader (dict1d n ['<', 'i', '4']) ++
        (List.range (n * 8 % 2 ^ 64 / 8)).flatMap fun i => i32Bytes (i64Val ((data.drop (off + 8 * i)).take 8)), .ok ())
    | _ => (data, .error .err)

/-- `normalize_u8_npy`: /repo/next-plaid/src/mmap.rs:606-655. -/
def convU8 (data : Bytes) : Outcome :=
  match rawShape data with
  | .error e => (data, .error e)
  | .ok (shape, off) =>
    match shape with
    | [r, c] =>
      if data.length < off + r * c % 2 ^ 64 then (data, .error .panic)
      else (writeHeader (dict2d r c ['|', 'u', '1']) ++ (data.drop off).take (r * c % 2 ^ 64), .ok ())
    | _ => (data, .error .err)

inductive Kind
  | float
  | lengths
  | residuals
deriving DecidableEq

/-- The data type that is converted. -/
def Kind.legacy : Kind → List Char
  | .float => ['<', 'f', '2']
  | .lengths => ['<', 'i', '8']
  | .residuals => ['<', 'u', '1']

def Kind.conv (widen : Nat → Nat → Bytes) : Kind → Bytes → Outcome
  | .float => convF16 widen
  | .lengths => convI64
  | .residuals => convU8

/-- One file that exists: detect, convert if need be.  The file afterwards and whether it was converted. -/
def convFile (widen : Nat → Nat → Bytes) (k : Kind) (data : Bytes) : Bytes × Res Bool :=
  match detectDtype data with
  | .error e => (data, .error e)
  | .ok t =>
    if t = k.legacy then ((k.conv widen data).1, (k.conv widen data).2.map fun _ => true)
    else (data, .ok false)

/-- A directory: its files, and the names `read_dir` returns, in any order. -/
structure Dir where
  files : Name → Option Bytes
  listing : List Name

def floatFiles : List Name :=
  [['c', 'e', 'n', 't', 'r', 'o', 'i', 'd', 's', '.', 'n', 'p', 'y'],
   ['a', 'v', 'g', '_', 'r', 'e', 's', 'i', 'd', 'u', 'a', 'l', '.', 'n', 'p', 'y'],
   ['b', 'u', 'c', 'k', 'e', 't', '_', 'c', 'u', 't', 'o', 'f', 'f', 's', '.', 'n', 'p', 'y'],
   ['b', 'u', 'c', 'k', 'e', 't', '_', 'w', 'e', 'i', 'g', 'h', 't', 's', '.', 'n', 'p', 'y']]

def lengthsFile : Name := ['i', 'v', 'f', '_', 'l', 'e', 'n', 'g', 't', 'h', 's', '.', 'n', 'p', 'y']

def residualSuffix : Name := ['.', 'r', 'e', 's', 'i', 'd', 'u', 'a', 'l', 's', '.', 'n', 'p', 'y']

/-- The files considered, in order, with their kinds. -/
def targets (d : Dir) : List (Name × Kind) :=
  floatFiles.map (·, Kind.float) ++ [(lengthsFile, Kind.lengths)] ++
  (d.listing.filter fun n => residualSuffix.isSuffixOf n).map (·, Kind.residuals)

/-- The loops of `convert_fastplaid_to_nextplaid` (lines 1768-1808): a missing file is skipped, an error stops
everything.  (A listed residual file always exists.) -/
def convAll (widen : Nat → Nat → Bytes) : List (Name × Kind) → (Name → Option Bytes) → Bool →
    (Name → Option Bytes) × Res Bool
  | [], files, conv => (files, .ok conv)
  | (n, k) :: ts, files, conv =>
    match files n with
    | none => convAll widen ts files conv
    | some data =>
      match (convFile widen k data).2 with
      | .error e => (Function.update files n (some (convFile widen k data).1), .error e)
      | .ok b => convAll widen ts (Function.update files n (some (convFile widen k data).1)) (conv || b)

/-- `convert_fastplaid_to_nextplaid`: /repo/next-plaid/src/mmap.rs:1757-1811. -/
def convert (widen : Nat → Nat → Bytes) (d : Dir) : Dir × Res Bool :=
  ({ d with files := (convAll widen (targets d) d.files false).1 }, (convAll widen (targets d) d.files false).2)

end NextPlaid.Convert
