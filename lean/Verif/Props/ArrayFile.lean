import Verif.Proofs.ArrayFile

/-!
Property theorems C82: array files opened in place.
-/

namespace NextPlaid.Props
open NextPlaid NextPlaid.Npy NextPlaid.ArrayFile NextPlaid.Spec.ArrayFile

/-- C82: a written raw file of `f32` (values of four bytes) or `u8` (of one) opens with its shape,
and every range of rows is read back as written. -/
theorem C82_raw_rows (w cols : Nat) (hw : w = 4 ∨ w = 1) (rows : List (List (List Nat))) (hc : ∀ r ∈ rows, r.length = cols)
    (hv : ∀ r ∈ rows, ∀ v ∈ r, v.length = w) (hsz : 16 + max rows.length 1 * max cols 1 * w < 2 ^ 63) :
    ∃ a, raw2 w (write2 cols rows) = .ok a ∧ a.rows = rows.length ∧ a.cols = cols ∧
      (∀ s e, s ≤ e → e ≤ rows.length → loadRows (write2 cols rows) a s e = .val ((rows.drop s).take (e - s))) ∧
      ∀ i r, rows[i]? = some r → row (write2 cols rows) a i = .val r := by
  have hmul : rows.length * cols * w ≤ max rows.length 1 * max cols 1 * w := prod_le_max ⟨rows.length, cols, 16, w⟩
  have hge : ∀ m n : Nat, m ≤ max m 1 * max n 1 := fun m n => Nat.le_trans (by omega) (Nat.le_mul_of_pos_right _ (by omega))
  have hr1 : rows.length ≤ max rows.length 1 * max cols 1 * w := Nat.le_trans (hge _ _) (Nat.le_mul_of_pos_right _ (by omega))
  have hr2 : cols ≤ max rows.length 1 * max cols 1 * w := by
    have := Nat.le_trans (hge cols rows.length) (Nat.le_mul_of_pos_right _ (show 0 < w by omega))
    rwa [Nat.mul_comm (max cols 1)] at this
  obtain ⟨h1, h2, h3⟩ := write2_raw w cols rows hc hv (by omega) (by omega) (by omega)
  refine ⟨_, h1, rfl, rfl, ?_, ?_⟩
  · intro s e hse he
    obtain ⟨rs, g1, g2, g3⟩ := loadRows_ok (file := write2 cols rows) (a := ⟨rows.length, cols, 16, w⟩) (by simp only []; omega)
      (by unfold Size; simp only []; omega) (by omega) (by simp only []; omega) hse he
    rw [g1]
    congr 1
    apply List.ext_getElem?
    intro i
    by_cases hi : i < e - s
    · obtain ⟨vs, k1, k2, k3⟩ := g3 i hi
      have hri : rows[s + i]? = some rows[s + i] := List.getElem?_eq_getElem (by omega)
      rw [k1, List.getElem?_take, if_pos hi, List.getElem?_drop, hri, Option.some.injEq]
      have hrl : rows[s + i].length = cols := hc _ (List.getElem_mem _)
      apply List.ext_getElem?
      intro j
      by_cases hj : j < cols
      · rw [k3 j hj]
        have hjv : rows[s + i][j]? = some rows[s + i][j] := List.getElem?_eq_getElem (by omega)
        rw [hjv]
        exact congrArg some (h3 (s + i) j _ _ hri hjv)
      · rw [List.getElem?_eq_none (by rw [k2]; simp only []; omega), List.getElem?_eq_none (by omega)]
    · rw [List.getElem?_eq_none (by omega), List.getElem?_eq_none (by rw [List.length_take]; omega)]
  · intro i r hri
    have hil : i < rows.length := (List.getElem?_eq_some_iff.1 hri).1
    obtain ⟨vs, g1, g2, g3⟩ := row_ok (file := write2 cols rows) (a := ⟨rows.length, cols, 16, w⟩) (by simp only []; omega)
      (by unfold Size; simp only []; omega) (by omega) (by simp only []; omega) hil
    rw [g1]
    congr 1
    have hrl : r.length = cols := hc _ (List.mem_of_getElem? hri)
    apply List.ext_getElem?
    intro j
    by_cases hj : j < cols
    · rw [g3 j hj]
      have hjv : r[j]? = some r[j] := List.getElem?_eq_getElem (by omega)
      rw [hjv]
      exact congrArg some (h3 i j _ _ hri hjv)
    · rw [List.getElem?_eq_none (by rw [g2]; simp only []; omega), List.getElem?_eq_none (by omega)]

/-- C82: a written raw file of `i64` opens with its length, and every value is read back. -/
theorem C82_raw_values (vals : List Int) (hv : ∀ v ∈ vals, -2 ^ 63 ≤ v ∧ v < 2 ^ 63) (hsz : 8 + vals.length * 8 < 2 ^ 63) :
    ∃ a, raw1 (write1 vals) = .ok a ∧ a.rows = vals.length ∧
      ∀ i v, vals[i]? = some v → ∃ b, get (write1 vals) a i = .val b ∧ i64Val b = v := by
  obtain ⟨h1, h2, h3⟩ := write1_raw vals hsz
  refine ⟨_, h1, rfl, ?_⟩
  intro i v hi
  have hil : i < vals.length := (List.getElem?_eq_some_iff.1 hi).1
  refine ⟨_, get_ok rfl rfl (by unfold Size; simp only []; omega) (by omega) hil, ?_⟩
  rw [h3 i v hi]
  have := hv v (List.mem_of_getElem? hi)
  exact i64_round v this.1 this.2

/-- C82 (restricted to headers whose size in bytes does not pass `isize::MAX`): a file that opens, raw
or NPY, whoever wrote it, holds all the values its header speaks of; every row and every range of rows
is read, without a panic, as the bytes at their place. -/
theorem C82_reads_partial (file : List Nat) (a : Arr) (h : Opens file a) (hf : file.length < 2 ^ 63)
    (hshape : max a.rows 1 * max a.cols 1 * a.width < 2 ^ 63) :
    Size a ≤ file.length ∧
      (∀ i, i < a.rows → ∃ vs, row file a i = .val vs ∧ IsRow file a i vs) ∧
      ∀ s e, s ≤ e → e ≤ a.rows → ∃ rs, loadRows file a s e = .val rs ∧ rs.length = e - s ∧
        ∀ i, i < e - s → ∃ vs, rs[i]? = some vs ∧ IsRow file a (s + i) vs := by
  have hsz := opens_size h hf (Nat.lt_of_le_of_lt (prod_le_max a) hshape)
  have hw := (opens_checked h).1
  exact ⟨hsz, fun i hi => row_ok hw hsz hf hshape hi, fun s e h1 h2 => loadRows_ok hw hsz hf hshape h1 h2⟩

/-- C82 (with the same restriction): every value of an array of `i64` that opens, raw or NPY, is read as its eight bytes. -/
theorem C82_get_partial (file : List Nat) (a : Arr) (h : raw1 file = .ok a ∨ npy1 file = .ok a) (hf : file.length < 2 ^ 63) (hn : a.rows * 8 < 2 ^ 63)
    (i : Nat) (hi : i < a.rows) : get file a i = .val (Elem file a.off 8 i) := by
  have hw : a.width = 8 ∧ a.cols = 1 := by
    rcases h with h | h
    · unfold raw1 at h
      split at h
      · cases h
      · rw [(openShape_ok h).1]
        exact ⟨rfl, rfl⟩
    · unfold npy1 at h
      split at h
      · cases h
      · cases h
      · rw [(openShape_ok h).1]
        exact ⟨rfl, rfl⟩
  have ho : Opens file a := by
    rcases h with h | h
    · exact .raw1 h
    · exact .npy1 h
  have hsz := opens_size ho hf (by rw [hw.1, hw.2, Nat.mul_one]; exact hn)
  exact get_ok hw.1 hw.2 hsz hf hi

/-- C82: NPY files with the header the library writes, and enough bytes after it, open with their shape and with the data after the header. -/
theorem C82_npy_shape (r c : Nat) (w : Nat) (dtype : List Char) (hd : (w, dtype) ∈ [(4, ['<', 'f', '4']), (1, ['|', 'u', '1'])]) (data : List Nat)
    (hsz : (writeHeader (dict2d r c dtype)).length + r * c * w < 2 ^ 63) (hr : r < 2 ^ 63) (hc : c < 2 ^ 63) (hdata : r * c * w ≤ data.length) :
    npy2 w (writeHeader (dict2d r c dtype) ++ data) = .ok ⟨r, c, (writeHeader (dict2d r c dtype)).length, w⟩ := by
  have hd' : dtype ∈ dtypes ∧ 1 ≤ w := by
    simp only [List.mem_cons, Prod.mk.injEq, List.not_mem_nil, or_false] at hd
    rcases hd with ⟨rfl, rfl⟩ | ⟨rfl, rfl⟩ <;> exact ⟨by decide, by decide⟩
  have hl : (writeHeader (dict2d r c dtype)).length = headerSize2d r c dtype := writeHeader_length _
  have hle : r * c ≤ r * c * w := Nat.le_mul_of_pos_right _ hd'.2
  unfold npy2
  rw [parse_2d r c dtype hd'.1 (by omega) (by omega)]
  simp only []
  unfold openShape
  rw [← hl, wmul_of_lt (a := r) (by omega), wmul_of_lt (by omega), wadd_of_lt (by omega), List.length_append, if_neg (by omega)]

/-- C82: the same for `i64`. -/
theorem C82_npy_length (n : Nat) (data : List Nat) (hsz : (writeHeader (dict1d n ['<', 'i', '8'])).length + n * 8 < 2 ^ 63) (hdata : n * 8 ≤ data.length) :
    npy1 (writeHeader (dict1d n ['<', 'i', '8']) ++ data) = .ok ⟨n, 1, (writeHeader (dict1d n ['<', 'i', '8'])).length, 8⟩ := by
  have hl : (writeHeader (dict1d n ['<', 'i', '8'])).length = headerSize1d n ['<', 'i', '8'] := writeHeader_length _
  unfold npy1
  rw [parse_1d n _ (by decide) (by omega)]
  simp only []
  unfold openShape
  rw [← hl, wmul_of_lt (a := n) (by omega), Nat.mul_one, wmul_of_lt (by omega), wadd_of_lt (by omega), List.length_append, if_neg (by omega)]

/-- C82: whatever the file says, values that are returned are bytes of the file, in one piece. -/
theorem C82_inside (file : List Nat) (a : Arr) :
    (∀ i vs, row file a i = .val vs → Inside file vs) ∧
    (∀ s e rs, loadRows file a s e = .val rs → Inside file rs.flatten) ∧
    (∀ i b, get file a i = .val b → Inside file [b]) := by
  refine ⟨fun i vs h => row_inside h, fun s e rs h => loadRows_inside h, ?_⟩
  intro i b h
  obtain ⟨h1, h2, h3, h4⟩ := bytesAt_val h
  refine ⟨wadd a.off (wmul i 8), ?_, ?_⟩
  · simp only [List.flatten_cons, List.flatten_nil, List.append_nil]
    omega
  · simp only [List.flatten_cons, List.flatten_nil, List.append_nil]
    rw [h4]
    exact h3

/-- C82: the restriction is needed.  A file of sixteen bytes opens as an array of `2^62` rows, since the
size of the rows wraps around to 0; its first row cannot be read, and reading all rows makes a slice
that passes the file (undefined behaviour). -/
theorem C82_wraps :
    ∃ (file : List Nat) (a : Arr), Opens file a ∧ file.length = 16 ∧ a.rows = 2 ^ 62 ∧ a.cols = 1 ∧ file.length < Size a ∧
      row file a 0 = .panic ∧ loadRows file a 0 a.rows = .undef := by
  refine ⟨i64Bytes (2 ^ 62) ++ i64Bytes 1, ⟨2 ^ 62, 1, 16, 4⟩, .raw2 (w := 4) (Or.inl rfl) ?_, ?_, rfl, rfl, ?_, ?_, ?_⟩ <;> decide +kernel

/-- C82: the same for an NPY file that is a header only. -/
theorem C82_wraps_npy :
    ∃ (file : List Nat) (a : Arr), npy2 4 file = .ok a ∧ a.rows = 2 ^ 62 ∧ a.cols = 1 ∧ a.off = file.length ∧
      loadRows file a 0 a.rows = .undef := by
  have hp := parse_2d (2 ^ 62) 1 ['<', 'f', '4'] (by decide) (by decide) (by decide) []
  rw [List.append_nil] at hp
  have hl := writeHeader_length (dict2d (2 ^ 62) 1 ['<', 'f', '4'])
  have hs : headerSize2d (2 ^ 62) 1 ['<', 'f', '4'] < 1000 := by
    unfold headerSize2d headerLayout
    simp only []
    have : (dict2d (2 ^ 62) 1 ['<', 'f', '4']).length < 500 := by decide +kernel
    omega
  have hlen : (writeHeader (dict2d (2 ^ 62) 1 ['<', 'f', '4'])).length = headerSize2d (2 ^ 62) 1 ['<', 'f', '4'] := hl
  refine ⟨writeHeader (dict2d (2 ^ 62) 1 ['<', 'f', '4']), ⟨2 ^ 62, 1, headerSize2d (2 ^ 62) 1 ['<', 'f', '4'], 4⟩, ?_, rfl, rfl, hlen.symm, ?_⟩
  · unfold npy2
    rw [hp]
    simp only []
    unfold openShape wmul wadd
    rw [if_neg (by omega)]
  · unfold loadRows
    simp only []
    have h0 : wadd (headerSize2d (2 ^ 62) 1 ['<', 'f', '4']) (wmul (wmul 0 1) 4) = headerSize2d (2 ^ 62) 1 ['<', 'f', '4'] := by
      unfold wmul wadd; omega
    have h1 : wadd (headerSize2d (2 ^ 62) 1 ['<', 'f', '4']) (wmul (wmul (2 ^ 62) 1) 4) = headerSize2d (2 ^ 62) 1 ['<', 'f', '4'] := by
      unfold wmul wadd; omega
    rw [h0, h1, bytesAt_ok (Nat.le_refl _) (by omega)]
    simp only [Nat.sub_self, List.take_zero]
    rfl

/-- Two rows of three bytes; a raw file of two `i64`. -/
example : raw2 1 (write2 3 [[[1], [2], [3]], [[4], [5], [6]]]) = .ok ⟨2, 3, 16, 1⟩ ∧
    loadRows (write2 3 [[[1], [2], [3]], [[4], [5], [6]]]) ⟨2, 3, 16, 1⟩ 1 2 = .val [[[4], [5], [6]]] ∧
    raw2 1 ((write2 3 [[[1], [2], [3]], [[4], [5], [6]]]).take 21) = .error .err ∧
    raw2 4 (write2 1 [[[0, 0, 128, 63]], [[0, 0, 0, 64]]]) = .ok ⟨2, 1, 16, 4⟩ ∧
    row (write2 1 [[[0, 0, 128, 63]], [[0, 0, 0, 64]]]) ⟨2, 1, 16, 4⟩ 1 = .val [[0, 0, 0, 64]] ∧
    raw1 (write1 [-1, 300]) = .ok ⟨2, 1, 8, 8⟩ ∧ get (write1 [-1, 300]) ⟨2, 1, 8, 8⟩ 1 = .val [44, 1, 0, 0, 0, 0, 0, 0] := by
  decide +kernel

end NextPlaid.Props
