import Verif.Model.Gpu
import Verif.Spec.Gpu
import Verif.Proofs.IndexLists
import Verif.Proofs.Codec2

/-!
Proofs about the GPU: the kernels and the matrix product.
-/

namespace NextPlaid.Gpu

open NextPlaid.Spec
open NextPlaid.Index (mapM_ok)

variable {γ α β : Type}

theorem asI32_of_lt {x : Nat} (h : x < 2147483648) : asI32 x = (x : Int) := by
  unfold asI32
  have h1 : x % 4294967296 = x := Nat.mod_eq_of_lt (by omega)
  rw [h1, if_pos h]

/-! ### Writes in any order -/

/-- Writes inside the buffer, of values that depend on the place only. -/
theorem store_all (f : Nat → β) : ∀ (ws : List (Nat × β)) (buf : List β), (∀ w ∈ ws, w.1 < buf.length ∧ w.2 = f w.1) →
    ∃ out, ws.foldlM store buf = .ok out ∧ out.length = buf.length ∧ (∀ a ∈ ws.map (·.1), out[a]? = some (f a)) ∧
      ∀ a, a ∉ ws.map (·.1) → out[a]? = buf[a]?
  | [], buf, _ => ⟨buf, rfl, rfl, by simp, fun _ _ => rfl⟩
  | w :: ws, buf, h => by
    have hw := h w (by simp)
    obtain ⟨out, e, hl, hin, hout⟩ := store_all f ws (buf.set w.1 w.2) (by
      intro v hv
      rw [List.length_set]
      exact h v (by simp [hv]))
    refine ⟨out, ?_, by rw [hl, List.length_set], ?_, ?_⟩
    · rw [List.foldlM_cons]
      have : store buf w = .ok (buf.set w.1 w.2) := by unfold store; rw [if_pos hw.1]
      rw [this]
      exact e
    · intro a ha
      by_cases hm : a ∈ ws.map (·.1)
      · exact hin a hm
      · rw [List.map_cons, List.mem_cons] at ha
        rcases ha with rfl | ha
        · rw [hout _ hm, hw.2, List.getElem?_set_self hw.1]
        · exact absurd ha hm
    · intro a ha
      rw [List.map_cons, List.mem_cons, not_or] at ha
      rw [hout a ha.2, List.getElem?_set_ne (Ne.symm ha.1)]

/-- If every place of the buffer is written then what was there does not matter, nor the order. -/
theorem store_covers (f : Nat → β) (ws : List (Nat × β)) (buf : List β) (h : ∀ w ∈ ws, w.1 < buf.length ∧ w.2 = f w.1)
    (hc : ∀ a < buf.length, a ∈ ws.map (·.1)) : ws.foldlM store buf = .ok ((List.range buf.length).map f) := by
  obtain ⟨out, e, hl, hin, -⟩ := store_all f ws buf h
  rw [e]
  congr 1
  apply List.ext_getElem?
  intro a
  by_cases ha : a < buf.length
  · rw [hin a (hc a ha), List.getElem?_map, List.getElem?_range ha]
    rfl
  · rw [List.getElem?_eq_none (by omega), List.getElem?_eq_none (by simpa using ha)]

theorem mem_threads {grid block b t : Nat} : (b, t) ∈ threads grid block ↔ b < grid ∧ t < block := by
  unfold threads
  simp only [List.mem_flatMap, List.mem_range, List.mem_map, Prod.mk.injEq]
  constructor
  · rintro ⟨x, hx, y, hy, rfl, rfl⟩
    exact ⟨hx, hy⟩
  · rintro ⟨hb, ht⟩
    exact ⟨b, hb, t, ht, rfl, rfl⟩

/-- A kernel all of whose threads stay inside their buffers, write what `f` says and together write every place. -/
theorem launch_spec (f : Nat → β) (grid block : Nat) (thread : Nat → Nat → Res (List (Nat × β))) (g : Nat → Nat → List (Nat × β)) (order : List (Nat × β) → List (Nat × β)) (horder : ∀ l, (order l).Perm l)
    (buf : List β) (hg : grid ≠ 0) (hb : block ≠ 0) (ht : ∀ b t, b < grid → t < block → thread b t = .ok (g b t))
    (hw : ∀ b t, b < grid → t < block → ∀ w ∈ g b t, w.1 < buf.length ∧ w.2 = f w.1)
    (hc : ∀ a < buf.length, ∃ b t, b < grid ∧ t < block ∧ a ∈ (g b t).map Prod.fst) :
    launch grid block thread order buf = .ok ((List.range buf.length).map f) := by
  unfold launch
  rw [if_neg (by omega)]
  rw [mapM_ok (fun p => thread p.1 p.2) (fun p => g p.1 p.2) (threads grid block) (by
    rintro ⟨b, t⟩ h
    exact ht b t (mem_threads.mp h).1 (mem_threads.mp h).2)]
  show (order _).foldlM store buf = _
  apply store_covers
  · intro w hw'
    have := (horder _).subset hw'
    rw [List.mem_flatten] at this
    obtain ⟨l, hl, hwl⟩ := this
    obtain ⟨⟨b, t⟩, hp, rfl⟩ := List.mem_map.mp hl
    exact hw b t (mem_threads.mp hp).1 (mem_threads.mp hp).2 w hwl
  · intro a ha
    obtain ⟨b, t, h1, h2, h3⟩ := hc a ha
    obtain ⟨w, hw1, hw2⟩ := List.mem_map.mp h3
    refine List.mem_map.mpr ⟨w, ?_, hw2⟩
    apply (horder _).symm.subset
    rw [List.mem_flatten]
    exact ⟨_, List.mem_map.mpr ⟨(b, t), mem_threads.mpr ⟨h1, h2⟩, rfl⟩, hw1⟩

/-! ### Rows of a flat buffer -/

theorem flat_get (dim : Nat) : ∀ (rows : List (List γ)), (∀ r ∈ rows, r.length = dim) → ∀ (r i : Nat), i < dim →
    rows.flatten[r * dim + i]? = (rows[r]?).bind (·[i]?)
  | [], _, r, i, _ => by simp
  | x :: rows, h, r, i, hi => by
    have hx := h x (by simp)
    rw [List.flatten_cons]
    cases r with
    | zero =>
      rw [List.getElem?_append_left (by omega)]
      simp
    | succ r =>
      rw [List.getElem?_append_right (by rw [hx, Nat.succ_mul]; omega)]
      have : (r + 1) * dim + i - x.length = r * dim + i := by rw [hx, Nat.succ_mul]; omega
      rw [this, flat_get dim rows (fun y hy => h y (by simp [hy])) r i hi]
      simp

theorem flat_length (dim : Nat) : ∀ (rows : List (List γ)), (∀ r ∈ rows, r.length = dim) → rows.flatten.length = rows.length * dim
  | [], _ => by simp
  | x :: rows, h => by
    rw [List.flatten_cons, List.length_append, flat_length dim rows (fun y hy => h y (by simp [hy])), h x (by simp), List.length_cons, Nat.succ_mul]
    omega

theorem idx_ok {l : List β} {i : Nat} {a : β} (h : l[i]? = some a) : idx l i = .ok a := by unfold idx; rw [h]

theorem mapM_range' {f : Nat → Res β} : ∀ (row : List β) (s : Nat), (∀ i a, row[i]? = some a → f (s + i) = .ok a) →
    (List.range' s row.length).mapM f = .ok row
  | [], _, _ => rfl
  | a :: row, s, h => by
    rw [List.length_cons, List.range'_succ, List.mapM_cons]
    have h0 := h 0 a rfl
    rw [Nat.add_zero] at h0
    rw [h0, mapM_range' row (s + 1) (by
      intro i b hb
      have := h (i + 1) b (by simpa using hb)
      rwa [show s + (i + 1) = s + 1 + i by omega] at this)]
    rfl

/-- Reading a row of a flat buffer. -/
theorem read_row (dim : Nat) (rows : List (List γ)) (h : ∀ r ∈ rows, r.length = dim) (r : Nat) (row : List γ) (hr : rows[r]? = some row) :
    (List.range dim).mapM (fun i => idx rows.flatten (r * dim + i)) = .ok row := by
  have hl : row.length = dim := h row (List.mem_of_getElem? hr)
  rw [List.range_eq_range', ← hl]
  apply mapM_range'
  intro i a ha
  apply idx_ok
  have hi : i < dim := by rw [← hl]; exact (List.getElem?_eq_some_iff.mp ha).1
  rw [Nat.zero_add, hl, flat_get dim rows h r i hi, hr]
  exact ha

/-! ### The matrix product -/

/-- The scores of tokens `rows`, as the device stores them. -/
def scoreAt (dot : List γ → List γ → Score α) (cents rows : List (List γ)) (a : Nat) : Score α :=
  dot ((cents[a % cents.length]?).getD []) ((rows[a / cents.length]?).getD [])

theorem gemm_spec (dot : List γ → List γ → Score α) (dim : Nat) (cents rows : List (List γ)) (hc : ∀ c ∈ cents, c.length = dim)
    (hr : ∀ r ∈ rows, r.length = dim) (buf : List (Score α)) (hbuf : buf.length = rows.length * cents.length) :
    gemm dot cents.length rows.length dim dim dim cents.length cents.flatten rows.flatten buf =
      .ok ((List.range (rows.length * cents.length)).map (scoreAt dot cents rows)) := by
  unfold gemm
  rw [if_neg (by omega)]
  simp only [Int.toNat_natCast]
  rw [mapM_ok _ (fun p => (p.1 * cents.length + p.2, scoreAt dot cents rows (p.1 * cents.length + p.2))) (threads rows.length cents.length) (by
    rintro ⟨i, c⟩ hp
    obtain ⟨hi, hcl⟩ := mem_threads.mp hp
    unfold gemmAt
    simp only
    rw [read_row dim cents hc c cents[c] (List.getElem?_eq_getElem hcl), read_row dim rows hr i rows[i] (List.getElem?_eq_getElem hi)]
    show Except.ok _ = _
    congr 2
    unfold scoreAt
    have h1 : (i * cents.length + c) % cents.length = c := by
      rw [Nat.add_comm, Nat.add_mul_mod_self_right, Nat.mod_eq_of_lt hcl]
    have h2 : (i * cents.length + c) / cents.length = i := by
      rw [Nat.add_comm, Nat.add_mul_div_right _ _ (by omega), Nat.div_eq_of_lt hcl, Nat.zero_add]
    rw [h1, h2, List.getElem?_eq_getElem hcl, List.getElem?_eq_getElem hi]
    rfl)]
  show (List.map _ _).foldlM store buf = _
  rw [← hbuf]
  apply store_covers
  · intro w hw
    obtain ⟨⟨i, c⟩, hp, rfl⟩ := List.mem_map.mp hw
    obtain ⟨hi, hcl⟩ := mem_threads.mp hp
    refine ⟨?_, rfl⟩
    show i * cents.length + c < _
    rw [hbuf]
    calc i * cents.length + c < i * cents.length + cents.length := by omega
      _ = (i + 1) * cents.length := by rw [Nat.succ_mul]
      _ ≤ rows.length * cents.length := Nat.mul_le_mul_right _ hi
  · intro a ha
    rw [hbuf] at ha
    have hpos : 0 < cents.length := by
      rcases Nat.eq_zero_or_pos cents.length with h | h
      · rw [h, Nat.mul_zero] at ha; omega
      · exact h
    refine List.mem_map.mpr ⟨_, List.mem_map.mpr ⟨(a / cents.length, a % cents.length), mem_threads.mpr ⟨?_, Nat.mod_lt _ hpos⟩, rfl⟩, ?_⟩
    · exact Nat.div_lt_of_lt_mul (by rwa [Nat.mul_comm] at ha)
    · show a / cents.length * cents.length + a % cents.length = a
      rw [Nat.mul_comm]
      exact Nat.div_add_mod a cents.length

/-! ### The greatest score of a row -/

/-- One round of the kernel's loop. -/
def better [LinearOrder α] (s : Nat → Score α) (st : Score α × Nat) (j : Nat) : Score α × Nat := if gt (s j) st.1 then (s j, j) else st

theorem argmaxLoop_ok [LinearOrder α] (row : Nat → Res (Score α)) (s : Nat → Score α) : ∀ (js : List Nat) (v : Score α) (b : Nat),
    (∀ j ∈ js, row j = .ok (s j)) → argmaxLoop row js v b = .ok (js.foldl (better s) (v, b)).2
  | [], _, _, _ => rfl
  | j :: js, v, b, h => by
    rw [argmaxLoop, h j (by simp), List.foldl_cons]
    simp only
    unfold better
    split
    · exact argmaxLoop_ok row s js _ _ fun x hx => h x (by simp [hx])
    · exact argmaxLoop_ok row s js _ _ fun x hx => h x (by simp [hx])

/-- The code the kernel finds for a row of scores. -/
def gpuCode [LinearOrder α] (scores : List (Score α)) : Nat :=
  ((List.range' 1 (scores.length - 1)).foldl (better fun j => (scores[j]?).getD (.nonfin 0)) ((scores[0]?).getD (.nonfin 0), 0)).2

theorem better_inv [LinearOrder α] (s : Nat → Score α) (hs : ∃ a, s 0 = .fin a) : ∀ m, (∀ j ≤ m, ∃ a, s j = .fin a) →
    ∃ a b, (List.range' 1 m).foldl (better s) (s 0, 0) = (.fin a, b) ∧ b ≤ m ∧ s b = .fin a ∧ (∀ j ≤ m, ∀ x, s j = .fin x → x ≤ a) ∧
      ∀ j < b, ∀ x, s j = .fin x → x < a
  | 0, _ => by
    obtain ⟨a, ha⟩ := hs
    refine ⟨a, 0, by rw [ha]; rfl, Nat.le_refl _, ha, ?_, fun j hj => by omega⟩
    intro j hj x hx
    obtain rfl : j = 0 := by omega
    rw [ha] at hx
    injection hx with hx
    exact le_of_eq hx.symm
  | m + 1, h => by
    obtain ⟨a, b, e, hb, hsb, hle, hlt⟩ := better_inv s hs m fun j hj => h j (by omega)
    obtain ⟨y, hy⟩ := h (m + 1) (Nat.le_refl _)
    have h1 : 1 + m = m + 1 := by omega
    rw [List.range'_concat, List.foldl_append, e, Nat.one_mul, h1]
    simp only [List.foldl_cons, List.foldl_nil, better, hy]
    by_cases hg : a < y
    · have : gt (Score.fin y) (Score.fin a) = true := by simpa [gt] using hg
      rw [if_pos this]
      refine ⟨y, m + 1, rfl, Nat.le_refl _, hy, ?_, ?_⟩
      · intro j hj x hx
        rcases Nat.lt_or_ge j (m + 1) with hj' | hj'
        · exact le_of_lt (lt_of_le_of_lt (hle j (by omega) x hx) hg)
        · obtain rfl : j = m + 1 := by omega
          rw [hy] at hx
          injection hx with hx
          exact le_of_eq hx.symm
      · intro j hj x hx
        exact lt_of_le_of_lt (hle j (by omega) x hx) hg
    · have : ¬ gt (Score.fin y) (Score.fin a) = true := by simpa [gt] using hg
      rw [if_neg this]
      refine ⟨a, b, rfl, by omega, hsb, ?_, hlt⟩
      intro j hj x hx
      rcases Nat.lt_or_ge j (m + 1) with hj' | hj'
      · exact hle j (by omega) x hx
      · obtain rfl : j = m + 1 := by omega
        rw [hy] at hx
        injection hx with hx
        rw [← hx]
        exact not_lt.mp hg

theorem better_le [LinearOrder α] (s : Nat → Score α) (m : Nat) : ∀ (js : List Nat) (st : Score α × Nat), (∀ j ∈ js, j ≤ m) → st.2 ≤ m →
    (js.foldl (better s) st).2 ≤ m
  | [], _, _, h => h
  | j :: js, st, hj, hst => by
    rw [List.foldl_cons]
    refine better_le s m js _ (fun x hx => hj x (by simp [hx])) ?_
    unfold better
    split
    · exact hj j (by simp)
    · exact hst

theorem gpuCode_lt [LinearOrder α] (scores : List (Score α)) (h : scores ≠ []) : gpuCode scores < scores.length := by
  have hl : 0 < scores.length := List.length_pos_iff.mpr h
  have := better_le (fun j => (scores[j]?).getD (.nonfin 0)) (scores.length - 1) (List.range' 1 (scores.length - 1))
    ((scores[0]?).getD (.nonfin 0), 0) (by
      intro j hj
      rw [List.mem_range'_1] at hj
      omega) (Nat.zero_le _)
  unfold gpuCode
  omega

/-- The kernel finds the first best score, if all are numbers. -/
theorem gpuCode_first [LinearOrder α] (scores : List (Score α)) (hne : scores ≠ []) (hf : AllFinite scores) : FirstBestAt scores (gpuCode scores) := by
  have hl : 0 < scores.length := List.length_pos_iff.mpr hne
  set s : Nat → Score α := fun j => (scores[j]?).getD (.nonfin 0) with hs
  have hval : ∀ j (hj : j < scores.length), s j = scores[j] := by
    intro j hj
    rw [hs]
    simp only
    rw [List.getElem?_eq_getElem hj]
    rfl
  obtain ⟨a, b, e, hb, hsb, hle, hlt⟩ := better_inv s (by
      obtain ⟨a, ha⟩ := hf scores[0] (List.getElem_mem hl)
      exact ⟨a, by rw [hval 0 hl, ha]⟩) (scores.length - 1) (by
      intro j hj
      have hj' : j < scores.length := by omega
      obtain ⟨a, ha⟩ := hf scores[j] (List.getElem_mem hj')
      exact ⟨a, by rw [hval j hj', ha]⟩)
  have hcode : gpuCode scores = b := by
    show ((List.range' 1 (scores.length - 1)).foldl (better s) (s 0, 0)).2 = b
    rw [e]
  have hbl : b < scores.length := by omega
  have hmax : ∀ x, Score.fin x ∈ scores → x ≤ a := by
    intro x hx
    obtain ⟨j, hj, hje⟩ := List.mem_iff_getElem.mp hx
    exact hle j (by omega) x (by rw [hval j hj, hje])
  rw [hcode]
  refine ⟨⟨a, ?_, hmax⟩, ?_⟩
  · rw [List.getElem?_eq_getElem hbl, ← hval b hbl, hsb]
  · rintro j hj ⟨x, hx, hxm⟩
    have hjl : j < scores.length := by omega
    have h1 : s j = .fin x := by
      rw [hval j hjl]
      rw [List.getElem?_eq_getElem hjl] at hx
      exact Option.some.inj hx
    have h2 := hlt j hj x h1
    have h3 := hxm a (by rw [← hsb, hval b hbl]; exact List.getElem_mem hbl)
    exact absurd h2 (not_lt.mpr h3)

/-- A NaN in the first place is never replaced. -/
theorem gpuCode_nan [LinearOrder α] (scores : List (Score α)) (h : scores[0]? = some (.nonfin 0)) : gpuCode scores = 0 := by
  unfold gpuCode
  rw [h]
  show ((List.range' 1 (scores.length - 1)).foldl _ (Score.nonfin 0, 0)).2 = 0
  have : ∀ js : List Nat, js.foldl (better fun j => (scores[j]?).getD (.nonfin 0)) (Score.nonfin 0, 0) = (Score.nonfin 0, 0) := by
    intro js
    induction js with
    | nil => rfl
    | cons j js ih =>
      rw [List.foldl_cons]
      have hb : better (fun j => (scores[j]?).getD (.nonfin 0)) (Score.nonfin 0, 0) j = (Score.nonfin 0, 0) := by
        unfold better
        have hg : ∀ x : Score α, gt x (Score.nonfin 0) = false := by
          intro x
          cases x with
          | fin a => rfl
          | nonfin t => simp [gt]
        rw [if_neg (by rw [hg]; decide)]
      rw [hb]
      exact ih
  rw [this]

/-! ### The kernels -/

theorem scores_get (dot : List γ → List γ → Score α) (cents rows : List (List γ)) (i j : Nat) (hi : i < rows.length) (hj : j < cents.length) :
    ((List.range (rows.length * cents.length)).map (scoreAt dot cents rows))[i * cents.length + j]? = some (dot cents[j] rows[i]) := by
  have hlt : i * cents.length + j < rows.length * cents.length :=
    calc i * cents.length + j < i * cents.length + cents.length := by omega
      _ = (i + 1) * cents.length := by rw [Nat.succ_mul]
      _ ≤ rows.length * cents.length := Nat.mul_le_mul_right _ hi
  rw [List.getElem?_map, List.getElem?_range hlt]
  show some (scoreAt dot cents rows _) = _
  unfold scoreAt
  have h1 : (i * cents.length + j) % cents.length = j := by rw [Nat.add_comm, Nat.add_mul_mod_self_right, Nat.mod_eq_of_lt hj]
  have h2 : (i * cents.length + j) / cents.length = i := by
    rw [Nat.add_comm, Nat.add_mul_div_right _ _ (by omega), Nat.div_eq_of_lt hj, Nat.zero_add]
  rw [h1, h2, List.getElem?_eq_getElem hj, List.getElem?_eq_getElem hi]
  rfl

/-- The code of a token on the device. -/
def codeOf [LinearOrder α] (dot : List γ → List γ → Score α) (cents : List (List γ)) (e : List γ) : Nat := gpuCode (cents.map fun c => dot c e)

theorem argmaxRow_ok [LinearOrder α] (dot : List γ → List γ → Score α) (cents rows : List (List γ)) (hne : cents ≠ []) (i : Nat) (hi : i < rows.length) :
    argmaxRow ((List.range (rows.length * cents.length)).map (scoreAt dot cents rows)) cents.length i = .ok [(i, codeOf dot cents rows[i])] := by
  have hk : 0 < cents.length := List.length_pos_iff.mpr hne
  unfold argmaxRow
  have h0 := scores_get dot cents rows i 0 hi hk
  rw [Nat.add_zero] at h0
  rw [idx_ok h0]
  simp only [Bind.bind, Except.bind]
  rw [argmaxLoop_ok _ (fun j => ((cents.map fun c => dot c rows[i])[j]?).getD (.nonfin 0)) _ _ _ (by
    intro j hj
    rw [List.mem_range'_1] at hj
    have hj' : j < cents.length := by omega
    rw [idx_ok (scores_get dot cents rows i j hi hj')]
    congr 1
    rw [List.getElem?_map, List.getElem?_eq_getElem hj']
    rfl)]
  show Except.ok _ = _
  congr 3
  unfold codeOf gpuCode
  rw [List.length_map, List.getElem?_map, List.getElem?_eq_getElem hk]
  rfl

theorem argmax_kernel [LinearOrder α] (dot : List γ → List γ → Score α) (cents rows : List (List γ)) (hne : cents ≠ []) (hrows : rows ≠ [])
    (order : List (Nat × Nat) → List (Nat × Nat)) (horder : ∀ l, (order l).Perm l) :
    launch ((rows.length + 255) / 256) 256 (argmaxThread ((List.range (rows.length * cents.length)).map (scoreAt dot cents rows)) rows.length cents.length 256)
      order (List.replicate rows.length 0) = .ok (rows.map (codeOf dot cents)) := by
  have hn : 0 < rows.length := List.length_pos_iff.mpr hrows
  rw [launch_spec (fun i => codeOf dot cents ((rows[i]?).getD [])) ((rows.length + 255) / 256) 256 _
    (fun b t => if rows.length ≤ b * 256 + t then [] else [(b * 256 + t, codeOf dot cents ((rows[b * 256 + t]?).getD []))]) order horder _
    (by omega) (by omega) ?_ ?_ ?_]
  · congr 1
    rw [List.length_replicate]
    apply List.ext_getElem?
    intro i
    rw [List.getElem?_map, List.getElem?_map]
    by_cases hi : i < rows.length
    · rw [List.getElem?_range hi, List.getElem?_eq_getElem hi]
      simp [List.getElem?_eq_getElem hi]
    · rw [List.getElem?_eq_none (by simpa using hi), List.getElem?_eq_none (by simpa using hi)]
      rfl
  · intro b t _ _
    unfold argmaxThread
    by_cases h : rows.length ≤ b * 256 + t
    · rw [if_pos (by exact_mod_cast h), if_pos h]
    · rw [if_neg (by exact_mod_cast h), if_neg h, Int.toNat_natCast, argmaxRow_ok dot cents rows hne _ (by omega), List.getElem?_eq_getElem (by omega)]
      rfl
  · intro b t _ _ w hw
    split at hw
    · cases hw
    · rw [List.mem_singleton] at hw
      subst hw
      exact ⟨by rw [List.length_replicate]; omega, rfl⟩
  · intro a ha
    rw [List.length_replicate] at ha
    refine ⟨a / 256, a % 256, ?_, Nat.mod_lt _ (by omega), ?_⟩
    · omega
    · have : a / 256 * 256 + a % 256 = a := by omega
      rw [if_neg (by omega)]
      simp [this]

theorem strided_mem (dim stride : Nat) (hs : 0 < stride) : ∀ (fuel d x : Nat), x ∈ strided dim stride fuel d → d ≤ x ∧ x < dim ∧ (x - d) % stride = 0
  | 0, _, _, h => by cases h
  | fuel + 1, d, x, h => by
    rw [strided] at h
    split at h
    · rename_i hd
      rw [List.mem_cons] at h
      rcases h with rfl | h
      · exact ⟨Nat.le_refl _, hd, by rw [Nat.sub_self]; exact Nat.zero_mod _⟩
      · obtain ⟨h1, h2, h3⟩ := strided_mem dim stride hs fuel (d + stride) x h
        refine ⟨by omega, h2, ?_⟩
        have : x - d = (x - (d + stride)) + stride := by omega
        rw [this, Nat.add_mod_right]
        exact h3
    · cases h

theorem strided_covers (dim stride : Nat) (hs : 0 < stride) : ∀ (fuel d q : Nat), d + q * stride < dim → dim ≤ d + fuel → d + q * stride ∈ strided dim stride fuel d
  | 0, d, q, h, hf => by omega
  | fuel + 1, d, q, h, hf => by
    rw [strided, if_pos (by omega)]
    cases q with
    | zero => simp
    | succ q =>
      apply List.mem_cons_of_mem
      have := strided_covers dim stride hs fuel (d + stride) q (by rw [Nat.succ_mul] at h; omega) (by omega)
      rwa [show d + stride + q * stride = d + (q + 1) * stride by rw [Nat.succ_mul]; omega] at this

/-- The residual of a token on the device. -/
def residualOf (sub : γ → γ → γ) (cents : List (List γ)) (e : List γ) (code : Nat) : List γ := List.zipWith sub e ((cents[code]?).getD [])

theorem gather_kernel (sub : γ → γ → γ) (zero : γ) (dim : Nat) (hdim : 0 < dim) (cents rows : List (List γ))
    (hc : ∀ c ∈ cents, c.length = dim) (hr : ∀ r ∈ rows, r.length = dim) (codes : List Nat) (hcl : codes.length = rows.length)
    (hcodes : ∀ k ∈ codes, k < cents.length) (hrows : rows ≠ [])
    (order : List (Nat × γ) → List (Nat × γ)) (horder : ∀ l, (order l).Perm l) :
    launch rows.length (min dim 256) (gatherThread sub rows.flatten cents.flatten codes rows.length dim (min dim 256)) order
      (List.replicate (rows.length * dim) zero) = .ok ((rows.zip codes).map fun p => residualOf sub cents p.1 p.2).flatten := by
  have hn : 0 < rows.length := List.length_pos_iff.mpr hrows
  set out := ((rows.zip codes).map fun p => residualOf sub cents p.1 p.2) with hout
  have hcode : ∀ b (hb : b < rows.length), codes[b]'(by omega) < cents.length := fun b hb => hcodes _ (List.getElem_mem _)
  have hrl : ∀ b (hb : b < rows.length), out[b]? = some (List.zipWith sub rows[b] (cents[codes[b]'(by omega)]'(hcode b hb))) := by
    intro b hb
    rw [hout, List.getElem?_map, List.getElem?_eq_getElem (by simp; omega)]
    simp [residualOf, List.getElem?_eq_getElem (hcode b hb)]
  have hol : ∀ r ∈ out, r.length = dim := by
    intro r hr'
    obtain ⟨⟨e, k⟩, hp, rfl⟩ := List.mem_map.mp hr'
    have h1 := hr e (List.of_mem_zip hp).1
    have h2 := hcodes k (List.of_mem_zip hp).2
    unfold residualOf
    rw [List.length_zipWith, h1, List.getElem?_eq_getElem h2, Option.getD_some, hc _ (List.getElem_mem h2)]
    omega
  have hlen : out.length = rows.length := by rw [hout]; simp; omega
  have hget : ∀ b d (hb : b < rows.length) (hd : d < dim), ∃ e c, rows.flatten[b * dim + d]? = some e ∧
      cents.flatten[codes[b]'(by omega) * dim + d]? = some c ∧ out.flatten[b * dim + d]? = some (sub e c) := by
    intro b d hb hd
    have h1 : rows[b].length = dim := hr _ (List.getElem_mem hb)
    have h2 : (cents[codes[b]'(by omega)]'(hcode b hb)).length = dim := hc _ (List.getElem_mem _)
    refine ⟨rows[b][d], (cents[codes[b]'(by omega)]'(hcode b hb))[d], ?_, ?_, ?_⟩
    · rw [flat_get dim rows hr b d hd, List.getElem?_eq_getElem hb]
      simp only [Option.bind_some]
      exact List.getElem?_eq_getElem _
    · rw [flat_get dim cents hc _ d hd, List.getElem?_eq_getElem (hcode b hb)]
      simp only [Option.bind_some]
      exact List.getElem?_eq_getElem _
    · rw [flat_get dim out hol b d hd, hrl b hb]
      simp only [Option.bind_some]
      rw [List.getElem?_zipWith, List.getElem?_eq_getElem (by omega), List.getElem?_eq_getElem (by omega)]
  rw [launch_spec (fun a => (out.flatten[a]?).getD zero) rows.length (min dim 256) _
    (fun b t => (strided dim (min dim 256) dim t).map fun d => (b * dim + d, (out.flatten[b * dim + d]?).getD zero)) order horder _
    (by omega) (by omega) ?_ ?_ ?_]
  · congr 1
    have hfl : out.flatten.length = rows.length * dim := by rw [flat_length dim out hol, hlen]
    rw [List.length_replicate]
    apply List.ext_getElem?
    intro a
    rw [List.getElem?_map]
    by_cases ha : a < rows.length * dim
    · rw [List.getElem?_range ha]
      have : out.flatten[a]? = some (out.flatten[a]'(by omega)) := List.getElem?_eq_getElem _
      rw [Option.map_some, this]
      rfl
    · rw [List.getElem?_eq_none (by simpa using ha), List.getElem?_eq_none (by omega)]
      rfl
  · intro b t hb ht
    unfold gatherThread
    rw [if_neg (by omega), Int.toNat_natCast]
    unfold gatherRow
    rw [idx_ok (List.getElem?_eq_getElem (l := codes) (i := b) (by omega))]
    simp only [Bind.bind, Except.bind]
    apply mapM_ok
    intro d hd
    obtain ⟨h1, h2, -⟩ := strided_mem dim (min dim 256) (by omega) dim t d hd
    obtain ⟨e, c, he, hcc, ho⟩ := hget b d hb h2
    unfold gatherAt
    rw [idx_ok he]
    simp only [Bind.bind, Except.bind]
    rw [idx_ok hcc, ho]
    rfl
  · intro b t hb ht w hw
    obtain ⟨d, hd, rfl⟩ := List.mem_map.mp hw
    obtain ⟨h1, h2, -⟩ := strided_mem dim (min dim 256) (by omega) dim t d hd
    refine ⟨?_, rfl⟩
    rw [List.length_replicate]
    show b * dim + d < _
    calc b * dim + d < b * dim + dim := by omega
      _ = (b + 1) * dim := by rw [Nat.succ_mul]
      _ ≤ rows.length * dim := Nat.mul_le_mul_right _ hb
  · intro a ha
    rw [List.length_replicate] at ha
    set s := min dim 256 with hs
    have hsp : 0 < s := by omega
    have hdl : a % dim < dim := Nat.mod_lt _ hdim
    refine ⟨a / dim, a % dim % s, Nat.div_lt_of_lt_mul (by rwa [Nat.mul_comm] at ha), Nat.mod_lt _ hsp, ?_⟩
    rw [List.map_map]
    refine List.mem_map.mpr ⟨a % dim, ?_, ?_⟩
    · have he : a % dim % s + a % dim / s * s = a % dim := by rw [Nat.mul_comm]; exact Nat.mod_add_div _ _
      have := strided_covers dim s hsp dim (a % dim % s) (a % dim / s) (by rw [he]; exact hdl) (by omega)
      rwa [he] at this
    · show a / dim * dim + a % dim = a
      rw [Nat.mul_comm]
      exact Nat.div_add_mod a dim

end NextPlaid.Gpu
