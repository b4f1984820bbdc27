import Verif.Proofs.Npy
import Mathlib.Tactic.IntervalCases

/-!
C21: array files are read back as written.
-/

namespace NextPlaid.Props
open NextPlaid.Npy

/-- C21: the header written for a one-dimensional array, whatever data follows, is parsed as the same length,
C order, and exactly the offset at which the data begins. -/
theorem C21_header_1d (len : Nat) (dtype : List Char)
    (hd : dtype ∈ [['<', 'i', '8'], ['|', 'u', '1'], ['<', 'f', '4'], ['<', 'i', '4']]) (h : len < 2 ^ 64) (data : List Nat) :
    ∃ off, parseHeader (writeHeader (dict1d len dtype) ++ data) = .ok ([len], off, false) ∧
      off = (writeHeader (dict1d len dtype)).length ∧ (writeHeader (dict1d len dtype) ++ data).drop off = data := by
  refine ⟨_, parse_1d len dtype hd h data, (writeHeader_length _).symm, ?_⟩
  exact List.drop_left' (writeHeader_length _)

/-- C21: the same for a two-dimensional array. -/
theorem C21_header_2d (r c : Nat) (dtype : List Char)
    (hd : dtype ∈ [['<', 'i', '8'], ['|', 'u', '1'], ['<', 'f', '4'], ['<', 'i', '4']]) (hr : r < 2 ^ 64) (hc : c < 2 ^ 64)
    (data : List Nat) :
    ∃ off, parseHeader (writeHeader (dict2d r c dtype) ++ data) = .ok ([r, c], off, false) ∧
      off = (writeHeader (dict2d r c dtype)).length ∧ (writeHeader (dict2d r c dtype) ++ data).drop off = data := by
  refine ⟨_, parse_2d r c dtype hd hr hc data, (writeHeader_length _).symm, ?_⟩
  exact List.drop_left' (writeHeader_length _)

/-- The bytes of a code file: header and 8 bytes per value. -/
def codesFile (vals : List Int) : List Nat :=
  writeHeader (dict1d vals.length ['<', 'i', '8']) ++ vals.flatMap i64Bytes

/-- The bytes of a residual file: header and rows. -/
def rowsFile (rows : List (List Nat)) (cols : Nat) : List Nat :=
  writeHeader (dict2d rows.length cols ['|', 'u', '1']) ++ rows.flatten

theorem flatMap_length8 (vals : List Int) : (vals.flatMap i64Bytes).length = vals.length * 8 := by
  induction vals with
  | nil => rfl
  | cons v l ih => rw [List.flatMap_cons, List.length_append, ih, i64Bytes_length, List.length_cons]; omega

theorem flatMap_slice8 (vals : List Int) (i : Nat) (h : i < vals.length) :
    ((vals.flatMap i64Bytes).drop (i * 8)).take 8 = i64Bytes vals[i] := by
  induction vals generalizing i with
  | nil => simp at h
  | cons v l ih =>
    rw [List.flatMap_cons]
    cases i with
    | zero => simp [i64Bytes_length, List.take_left']
    | succ i =>
      have : (i + 1) * 8 = (i64Bytes v).length + i * 8 := by rw [i64Bytes_length]; omega
      rw [this, List.drop_append, List.drop_eq_nil_of_le (by omega), List.nil_append, Nat.add_sub_cancel_left]
      exact ih i (by simpa using h)

theorem flatten_lengthC (rows : List (List Nat)) (cols : Nat) (hc : ∀ r ∈ rows, r.length = cols) :
    rows.flatten.length = rows.length * cols := by
  induction rows with
  | nil => simp
  | cons r l ih =>
    rw [List.flatten_cons, List.length_append, ih (fun x hx => hc x (List.mem_cons_of_mem _ hx)),
      hc r List.mem_cons_self, List.length_cons, Nat.succ_mul]
    omega

theorem flatten_sliceC (rows : List (List Nat)) (cols : Nat) (hc : ∀ r ∈ rows, r.length = cols) (i : Nat)
    (h : i < rows.length) : (rows.flatten.drop (i * cols)).take cols = rows[i] := by
  induction rows generalizing i with
  | nil => simp at h
  | cons r l ih =>
    have hr := hc r List.mem_cons_self
    rw [List.flatten_cons]
    cases i with
    | zero => simp [List.take_left' hr]
    | succ i =>
      have : (i + 1) * cols = r.length + i * cols := by rw [hr, Nat.succ_mul]; omega
      rw [this, List.drop_append, List.drop_eq_nil_of_le (by omega), List.nil_append, Nat.add_sub_cancel_left]
      exact ih (fun x hx => hc x (List.mem_cons_of_mem _ hx)) i (by simpa using h)

/-- C21: a file of 64-bit values opens, has the right length, and every value is read back. -/
theorem C21_values (vals : List Int) (hlen : vals.length < 2 ^ 64) (hv : ∀ v ∈ vals, -2 ^ 63 ≤ v ∧ v < 2 ^ 63) :
    ∃ off, load1I64 (codesFile vals) = .ok (vals.length, off) ∧
      ∀ i (h : i < vals.length), get1I64 (codesFile vals) off i = .ok vals[i] := by
  have hp := parse_1d vals.length ['<', 'i', '8'] (by decide) hlen (vals.flatMap i64Bytes)
  have hl := writeHeader_length (dict1d vals.length ['<', 'i', '8'])
  have hfl : (codesFile vals).length = headerSize1d vals.length ['<', 'i', '8'] + vals.length * 8 := by
    unfold codesFile headerSize1d
    rw [List.length_append, hl, flatMap_length8]
  refine ⟨headerSize1d vals.length ['<', 'i', '8'], ?_, ?_⟩
  · unfold load1I64
    rw [show parseHeader (codesFile vals) = _ from hp]
    simp only
    rw [if_neg (by omega)]
  · intro i h
    unfold get1I64
    rw [if_neg (by omega)]
    have : ((codesFile vals).drop (headerSize1d vals.length ['<', 'i', '8'] + i * 8)).take 8 = i64Bytes vals[i] := by
      unfold codesFile headerSize1d
      rw [← hl, List.drop_append, List.drop_eq_nil_of_le (by omega), List.nil_append, Nat.add_sub_cancel_left,
        flatMap_slice8 vals i h]
    rw [this, i64_round _ (hv _ (List.getElem_mem h)).1 (hv _ (List.getElem_mem h)).2]

/-- C21: a file of byte rows opens, has the right shape, and every row is read back. -/
theorem C21_rows (rows : List (List Nat)) (cols : Nat) (hlen : rows.length < 2 ^ 64) (hcols : cols < 2 ^ 64)
    (hc : ∀ r ∈ rows, r.length = cols) :
    ∃ off, load2U8 (rowsFile rows cols) = .ok (rows.length, cols, off) ∧
      ∀ i (h : i < rows.length), row2U8 (rowsFile rows cols) cols off i = .ok rows[i] := by
  have hp := parse_2d rows.length cols ['|', 'u', '1'] (by decide) hlen hcols rows.flatten
  have hl := writeHeader_length (dict2d rows.length cols ['|', 'u', '1'])
  have hfl : (rowsFile rows cols).length = headerSize2d rows.length cols ['|', 'u', '1'] + rows.length * cols := by
    unfold rowsFile headerSize2d
    rw [List.length_append, hl, flatten_lengthC rows cols hc]
  refine ⟨headerSize2d rows.length cols ['|', 'u', '1'], ?_, ?_⟩
  · unfold load2U8
    rw [show parseHeader (rowsFile rows cols) = _ from hp]
    simp only
    rw [if_neg (by omega)]
  · intro i h
    unfold row2U8
    have hle : i * cols + cols ≤ rows.length * cols := by
      rw [← Nat.succ_mul]; exact Nat.mul_le_mul_right _ h
    rw [if_neg (by omega)]
    have : ((rowsFile rows cols).drop (headerSize2d rows.length cols ['|', 'u', '1'] + i * cols)).take cols = rows[i] := by
      unfold rowsFile headerSize2d
      rw [← hl, List.drop_append, List.drop_eq_nil_of_le (by omega), List.nil_append, Nat.add_sub_cancel_left,
        flatten_sliceC rows cols hc i h]
    rw [this]

/-- A file cut off anywhere before its last byte is refused; nothing is read from it. -/
theorem C21_truncated_refused (vals : List Int) (hlen : vals.length < 2 ^ 64) (n : Nat)
    (hn : n < (codesFile vals).length) : load1I64 ((codesFile vals).take n) = .error .err := by
  obtain ⟨f1, f2⟩ := dict1d_facts vals.length ['<', 'i', '8'] (by decide) hlen
  have hl := writeHeader_length (dict1d vals.length ['<', 'i', '8'])
  have hpl := padText_length (dict1d vals.length ['<', 'i', '8'])
  by_cases h : (headerLayout (dict1d vals.length ['<', 'i', '8'])).2 ≤ n
  · -- the header is complete
    have ht : (codesFile vals).take n = writeHeader (dict1d vals.length ['<', 'i', '8']) ++
        (vals.flatMap i64Bytes).take (n - (headerLayout (dict1d vals.length ['<', 'i', '8'])).2) := by
      unfold codesFile
      rw [List.take_append, List.take_of_length_le (by omega), hl]
    have hp := parse_1d vals.length ['<', 'i', '8'] (by decide) hlen
      ((vals.flatMap i64Bytes).take (n - (headerLayout (dict1d vals.length ['<', 'i', '8'])).2))
    unfold load1I64
    rw [ht, hp]
    simp only
    rw [if_pos]
    have h1 : (codesFile vals).length = (headerLayout (dict1d vals.length ['<', 'i', '8'])).2 + vals.length * 8 := by
      unfold codesFile
      rw [List.length_append, hl, flatMap_length8]
    rw [List.length_append, hl, List.length_take, flatMap_length8]
    unfold headerSize1d
    omega
  · have hlt : ((codesFile vals).take n).length = n := by rw [List.length_take]; omega
    have hht : headerText ((codesFile vals).take n) = .error .err := by
      unfold headerText
      by_cases h10 : n < 10
      · rw [if_pos (by omega)]
      · rw [if_neg (by omega)]
        have hw := writeHeader_eq (dict1d vals.length ['<', 'i', '8'])
        obtain ⟨b0, b1, hb⟩ : ∃ b0 b1, leBytes 2 ((padText (dict1d vals.length ['<', 'i', '8'])).length % 2 ^ 16) = [b0, b1] :=
          ⟨_, _, rfl⟩
        have hv : leVal [b0, b1] = (padText (dict1d vals.length ['<', 'i', '8'])).length := by
          rw [← hb, leVal_leBytes]
          have : (padText (dict1d vals.length ['<', 'i', '8'])).length < 2 ^ 16 := by
            unfold padText headerLayout
            simp
            omega
          omega
        have hform : ∃ rest, (codesFile vals).take n = [0x93, 78, 85, 77, 80, 89, 1, 0, b0, b1] ++ rest := by
          unfold codesFile
          rw [hw, hb]
          obtain ⟨m, rfl⟩ : ∃ m, n = 10 + m := ⟨n - 10, by omega⟩
          refine ⟨((((padText (dict1d vals.length ['<', 'i', '8'])).map Char.toNat)) ++ vals.flatMap i64Bytes).take m, ?_⟩
          rw [show (10 + m) = [0x93, 78, 85, 77, 80, 89, 1, 0, b0, b1].length + m from rfl, ← List.take_length_add_append]
          simp
        obtain ⟨rest, hrest⟩ := hform
        rw [hrest] at hlt ⊢
        rw [if_neg (by simp [magic]), if_pos (by rfl)]
        have h2 : leVal ((([0x93, 78, 85, 77, 80, 89, 1, 0, b0, b1] ++ rest).drop 8).take 2) =
            (padText (dict1d vals.length ['<', 'i', '8'])).length := by rw [← hv]; rfl
        simp only [h2]
        rw [if_pos (by omega)]
    unfold load1I64 parseHeader
    rw [hht]

/-- The data never begins at an aligned address: the header is padded to a multiple of 64 and then a newline
is added (/repo/next-plaid/src/mmap.rs:1177-1182), so the offset is 1 modulo 64.  `MmapNpyArray2F32`, which
reinterprets the bytes at this offset as `f32` (lines 909-921), is given a misaligned address by a file
converted from a legacy index. -/
theorem C21_data_never_aligned (dict : List Char) : (headerLayout dict).2 % 64 = 1 ∧ (headerLayout dict).2 % 4 ≠ 0 := by
  unfold headerLayout
  simp only
  omega

example : load1I64 (codesFile [5, -1, 9223372036854775807]) = .ok (3, 129) ∧
    get1I64 (codesFile [5, -1, 9223372036854775807]) 129 1 = .ok (-1) := by decide +kernel

example : load2U8 (rowsFile [[1, 2], [3, 4], [5, 255]] 2) = .ok (3, 2, 129) ∧
    row2U8 (rowsFile [[1, 2], [3, 4], [5, 255]] 2) 2 129 2 = .ok [5, 255] := by decide +kernel

end NextPlaid.Props
