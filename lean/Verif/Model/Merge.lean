import Verif.Model.Npy

/-!
Model of the merged-file cache, /repo/next-plaid/src/mmap.rs:1060-1743.

One model serves `merge_codes_chunks` and `merge_residuals_chunks`; `Kind` holds what differs.  A chunk file is
its modification time, its column count and its rows, each row being the bytes written for it.  Times are
whole nanoseconds (the code compares `f64` seconds).  File locks and concurrent processes are not modelled;
neither are I/O errors.
-/

namespace NextPlaid.Merge
open NextPlaid.Npy

structure ChunkFile where
  mtime : Int
  cols : Nat
  rows : List (List Nat)
deriving DecidableEq

/-- `ChunkManifestEntry`: /repo/next-plaid/src/mmap.rs:1074-1077. -/
structure Entry where
  rows : Nat
  mtime : Int
deriving DecidableEq

/-- `MergeManifest`: /repo/next-plaid/src/mmap.rs:1081-1099.  The key of a chunk is its number. -/
structure Manifest where
  chunks : List (Nat × Entry)
  padding : Nat
  numChunks : Nat
  metaMtime : Int
  totalRows : Nat
  ncols : Nat
deriving DecidableEq

/-- The files involved.  `metaMtime` is the modification time of `metadata.json`, 0 if it cannot be read. -/
structure Dir where
  chunks : Nat → Option ChunkFile
  metaMtime : Int
  merged : Option (List Nat)
  manifest : Option Manifest

/-- What differs between codes and residuals. -/
structure Kind where
  header : Nat → Nat → List Nat
  headerSize : Nat → Nat → Nat
  width : Nat → Nat
  needCols : Bool

/-- `merge_codes_chunks`: one-dimensional, 8 bytes per row, `ncols` stays 0. -/
def codes : Kind where
  header r _ := writeHeader (dict1d r ['<', 'i', '8'])
  headerSize r _ := headerSize1d r ['<', 'i', '8']
  width _ := 8
  needCols := false

/-- `merge_residuals_chunks`: two-dimensional, one byte per column. -/
def residuals : Kind where
  header r c := writeHeader (dict2d r c ['|', 'u', '1'])
  headerSize r c := headerSize2d r c ['|', 'u', '1']
  width c := c
  needCols := true

/-- The existing chunk files among the first `n`, with their numbers. -/
def present (chunks : Nat → Option ChunkFile) (n : Nat) : List (Nat × ChunkFile) :=
  (List.range n).filterMap fun i => (chunks i).map fun f => (i, f)

/-- The chunks pushed to `chunks` in the scan: /repo/next-plaid/src/mmap.rs:1317-1353, 1533-1569. -/
def scanned (chunks : Nat → Option ChunkFile) (n : Nat) : List (Nat × ChunkFile) :=
  (present chunks n).filter fun p => decide (0 < p.2.rows.length)

/-- `ncols` after the scan: the column count of the last existing chunk (line 1544); always 0 for codes. -/
def ncolsOf (k : Kind) (chunks : Nat → Option ChunkFile) (n : Nat) : Nat :=
  if k.needCols then ((present chunks n).getLast?.map fun p => p.2.cols).getD 0 else 0

def totalRows (cs : List (Nat × ChunkFile)) : Nat := (cs.map fun p => p.2.rows.length).sum

/-- Is this chunk as recorded in the old manifest?  Lines 1334-1341, 1550-1557. -/
def isClean (old : Option Manifest) (p : Nat × ChunkFile) : Bool :=
  match old with
  | none => false
  | some m =>
    match m.chunks.find? (fun e => e.1 == p.1) with
    | none => false
    | some e => e.2.mtime == p.2.mtime && e.2.rows == p.2.rows.length

/-- The bytes written by a full rewrite: lines 1386-1408, 1609-1631. -/
def body (k : Kind) (chunks : Nat → Option ChunkFile) (n p : Nat) : List Nat :=
  k.header (totalRows (scanned chunks n) + p) (ncolsOf k chunks n) ++
  ((scanned chunks n).map fun c => c.2.rows.flatten).flatten ++
  (List.replicate p (List.replicate (k.width (ncolsOf k chunks n)) 0)).flatten

/-- The manifest saved at the end: lines 1456-1474, 1683-1701. -/
def newManifest (k : Kind) (d : Dir) (n p : Nat) : Manifest where
  chunks := (scanned d.chunks n).map fun c => (c.1, { rows := c.2.rows.length, mtime := c.2.mtime })
  padding := p
  numChunks := n
  metaMtime := d.metaMtime
  totalRows := totalRows (scanned d.chunks n) + p
  ncols := ncolsOf k d.chunks n

/-- The fast path: lines 1281-1302, 1499-1518. -/
def fastOk (k : Kind) (d : Dir) (n p : Nat) : Bool :=
  match d.manifest, d.merged with
  | some m, some f =>
    m.numChunks == n && m.padding == p && m.chunks.length == n && decide (0 < m.totalRows) &&
    (!k.needCols || decide (0 < m.ncols)) && decide (0 < m.metaMtime) &&
    decide (m.metaMtime - d.metaMtime < 1000000 ∧ d.metaMtime - m.metaMtime < 1000000) &&
    f.length == k.headerSize m.totalRows m.ncols + m.totalRows * k.width m.ncols
  | _, _ => false

/-- `needs_full_rewrite`: lines 1369-1379, 1585-1602. -/
def needsRewrite (k : Kind) (d : Dir) (n p : Nat) : Bool :=
  d.merged.isNone || (scanned d.chunks n).any (fun c => !isClean d.manifest c) ||
  match d.manifest with
  | none => true
  | some m => m.padding != p || m.totalRows != totalRows (scanned d.chunks n) + p ||
      (m.ncols != ncolsOf k d.chunks n && m.ncols != 0)

/-- A full rewrite with its size check, then the new manifest: lines 1381-1437 and 1456-1476. -/
def rewrite (k : Kind) (d : Dir) (n p : Nat) : Res Dir :=
  if (body k d.chunks n p).length ≠
      (k.header (totalRows (scanned d.chunks n) + p) (ncolsOf k d.chunks n)).length +
        (totalRows (scanned d.chunks n) + p) * k.width (ncolsOf k d.chunks n)
  then .error .err
  else .ok { d with merged := some (body k d.chunks n p), manifest := some (newManifest k d n p) }

/-- `merge_codes_chunks` (lines 1266-1477) and `merge_residuals_chunks` (lines 1483-1704). -/
def merge (k : Kind) (d : Dir) (n p : Nat) : Res Dir :=
  if fastOk k d n p then .ok d
  else if totalRows (scanned d.chunks n) = 0 ∨ (k.needCols = true ∧ ncolsOf k d.chunks n = 0) then .error .err
  else if needsRewrite k d n p then rewrite k d n p
  else if (d.merged.getD []).length <
      64 + (totalRows (scanned d.chunks n) + p) * k.width (ncolsOf k d.chunks n) then
    -- the file is deleted with its manifest and the function starts again
    rewrite k { d with merged := none, manifest := none } n p
  else .ok { d with manifest := some (newManifest k d n p) }

/-- `clear_merged_files`: lines 1714-1743. -/
def clear (d : Dir) : Dir := { d with merged := none, manifest := none }

end NextPlaid.Merge
