import Verif.Proofs.Gpu
import Mathlib.Data.List.Induction

/-!
Proofs about the GPU: batches, the CPU and chunks.
-/

namespace NextPlaid.Gpu

open NextPlaid.Spec
open NextPlaid.Index (mapM_ok)

variable {γ α β : Type}

/-- The device's kernels may run in any order, but each write happens once. -/
structure Sound (dev : Device γ α) : Prop where
  codes : ∀ b l, (dev.orderC b l).Perm l
  residuals : ∀ b l, (dev.orderR b l).Perm l

/-- The matrices have width `dim`, and sizes fit 31 bits. -/
structure Sized (dim : Nat) (cents : List (List γ)) : Prop where
  ne : cents ≠ []
  width : ∀ c ∈ cents, c.length = dim
  k_lt : cents.length < 2147483648
  dim_lt : dim < 2147483648
  dim_pos : 0 < dim

theorem batchCodes_ok [LinearOrder α] (dev : Device γ α) (hs : Sound dev) (dim : Nat) (cents rows : List (List γ)) (hz : Sized dim cents)
    (hr : ∀ r ∈ rows, r.length = dim) (hrows : rows ≠ []) (hlt : rows.length < 2147483648) (b : Nat) :
    batchCodes dev b rows.length cents.length dim cents.flatten rows.flatten = .ok (rows.map (codeOf dev.dot cents)) ∨
      (batchCodes dev b rows.length cents.length dim cents.flatten rows.flatten = .error .err ∧ ∃ c, dev.ok b c = false) := by
  unfold batchCodes
  rw [asI32_of_lt hz.k_lt, asI32_of_lt hz.dim_lt, asI32_of_lt hlt,
    gemm_spec dev.dot dim cents rows hz.width hr (List.replicate (rows.length * cents.length) dev.zeroScore) (by simp)]
  simp only [Bind.bind, Except.bind]
  rw [argmax_kernel dev.dot cents rows hz.ne hrows (dev.orderC b) (hs.codes b)]
  cases h0 : dev.ok b 0
  · exact .inr ⟨rfl, 0, h0⟩
  cases h1 : dev.ok b 1
  · exact .inr ⟨rfl, 1, h1⟩
  cases h2 : dev.ok b 2
  · exact .inr ⟨rfl, 2, h2⟩
  cases h3 : dev.ok b 3
  · exact .inr ⟨rfl, 3, h3⟩
  cases h4 : dev.ok b 4
  · exact .inr ⟨rfl, 4, h4⟩
  cases h5 : dev.ok b 5
  · exact .inr ⟨rfl, 5, h5⟩
  exact .inl rfl

theorem codeOf_lt [LinearOrder α] (dot : List γ → List γ → Score α) (cents : List (List γ)) (hne : cents ≠ []) (e : List γ) :
    codeOf dot cents e < cents.length := by
  have := gpuCode_lt (cents.map fun c => dot c e) (by simpa using hne)
  rwa [List.length_map] at this

theorem zip_map_self (f : β → γ) : ∀ l : List β, l.zip (l.map f) = l.map fun x => (x, f x)
  | [] => rfl
  | a :: l => by simp [zip_map_self f l]

/-- The residual of a token with the code the device gives it. -/
def tokenResidual [LinearOrder α] (dev : Device γ α) (cents : List (List γ)) (e : List γ) : List γ :=
  residualOf dev.sub cents e (codeOf dev.dot cents e)

theorem tokenResidual_length [LinearOrder α] (dev : Device γ α) (dim : Nat) (cents : List (List γ)) (hz : Sized dim cents) (e : List γ)
    (he : e.length = dim) : (tokenResidual dev cents e).length = dim := by
  unfold tokenResidual residualOf
  have h := codeOf_lt dev.dot cents hz.ne e
  rw [List.length_zipWith, List.getElem?_eq_getElem h, Option.getD_some, hz.width _ (List.getElem_mem h), he, Nat.min_self]

theorem batchResiduals_ok [LinearOrder α] (dev : Device γ α) (hs : Sound dev) (dim : Nat) (cents rows : List (List γ)) (hz : Sized dim cents)
    (hr : ∀ r ∈ rows, r.length = dim) (hrows : rows ≠ []) (hlt : rows.length < 2147483648) (b : Nat) :
    batchResiduals dev b rows.length dim cents.flatten rows.flatten (rows.map (codeOf dev.dot cents)) = .ok (rows.map (tokenResidual dev cents)).flatten ∨
      (batchResiduals dev b rows.length dim cents.flatten rows.flatten (rows.map (codeOf dev.dot cents)) = .error .err ∧ ∃ c, dev.ok b c = false) := by
  unfold batchResiduals
  rw [asI32_of_lt hz.dim_lt, asI32_of_lt hlt,
    gather_kernel dev.sub dev.zero dim hz.dim_pos cents rows hz.width hr (rows.map (codeOf dev.dot cents)) (by simp) (by
      intro k hk
      obtain ⟨e, -, rfl⟩ := List.mem_map.mp hk
      exact codeOf_lt dev.dot cents hz.ne e) hrows (dev.orderR b) (hs.residuals b)]
  rw [zip_map_self, List.map_map]
  cases h6 : dev.ok b 6
  · exact .inr ⟨rfl, 6, h6⟩
  cases h7 : dev.ok b 7
  · exact .inr ⟨rfl, 7, h7⟩
  cases h8 : dev.ok b 8
  · exact .inr ⟨rfl, 8, h8⟩
  exact .inl rfl

theorem slice_rows (emb : List (List γ)) (start bs : Nat) (h : start < emb.length) (hbs : 0 < bs) :
    let rows := (emb.drop start).take (min (start + bs) emb.length - start)
    rows.length = min (start + bs) emb.length - start ∧ rows ≠ [] ∧ (∀ r ∈ rows, r ∈ emb) ∧ rows ++ emb.drop (start + bs) = emb.drop start := by
  intro rows
  have hl : rows.length = min (start + bs) emb.length - start := by
    show ((emb.drop start).take _).length = _
    rw [List.length_take, List.length_drop]
    omega
  refine ⟨hl, ?_, fun r hr => List.mem_of_mem_drop (List.mem_of_mem_take hr), ?_⟩
  · intro h0
    rw [h0] at hl
    simp at hl
    omega
  · show (emb.drop start).take _ ++ _ = _
    rcases Nat.le_total (start + bs) emb.length with hle | hle
    · rw [Nat.min_eq_left hle, Nat.add_sub_cancel_left, ← List.drop_drop]
      exact List.take_append_drop _ _
    · rw [Nat.min_eq_right hle, List.drop_of_length_le hle, List.append_nil, List.take_of_length_le (by simp)]

theorem codesLoop_ok [LinearOrder α] (dev : Device γ α) (hs : Sound dev) (dim : Nat) (cents emb : List (List γ)) (hz : Sized dim cents)
    (he : ∀ r ∈ emb, r.length = dim) (bs : Nat) (hbs : 0 < bs) (hlt : bs < 2147483648) :
    ∀ (fuel start b : Nat) (acc : List Nat), emb.length ≤ start + fuel * bs →
      codesLoop dev cents.length dim cents.flatten emb b (Codec.batchRanges emb.length bs fuel start) acc =
          .ok (acc ++ (emb.drop start).map (codeOf dev.dot cents)) ∨
        (codesLoop dev cents.length dim cents.flatten emb b (Codec.batchRanges emb.length bs fuel start) acc = .error .err ∧ ∃ b c, dev.ok b c = false) := by
  intro fuel
  induction fuel with
  | zero =>
    intro start b acc h
    left
    rw [List.drop_of_length_le (by omega)]
    simp [Codec.batchRanges, codesLoop]
  | succ fuel ih =>
    intro start b acc h
    unfold Codec.batchRanges
    split
    · rename_i hst
      obtain ⟨hl, hne, hmem, happ⟩ := slice_rows emb start bs hst hbs
      set rows := (emb.drop start).take (min (start + bs) emb.length - start) with hrows
      have hsl : slice emb (start, min (start + bs) emb.length) = rows.flatten := rfl
      simp only [codesLoop]
      rw [hsl, ← hl]
      rcases batchCodes_ok dev hs dim cents rows hz (fun r hr => he r (hmem r hr)) hne (by omega) b with h1 | ⟨h1, c, hc⟩
      · rw [h1]
        simp only [Bind.bind, Except.bind]
        rcases ih (start + bs) (b + 1) (acc ++ rows.map (codeOf dev.dot cents)) (by rw [Nat.succ_mul] at h; omega) with h2 | h2
        · left
          rw [h2, ← happ, List.map_append, List.append_assoc]
        · exact .inr h2
      · right
        rw [h1]
        exact ⟨rfl, b, c, hc⟩
    · left
      rw [List.drop_of_length_le (by omega)]
      simp [codesLoop]

theorem residualsLoop_ok [LinearOrder α] (dev : Device γ α) (hs : Sound dev) (dim : Nat) (cents emb : List (List γ)) (hz : Sized dim cents)
    (he : ∀ r ∈ emb, r.length = dim) (bs : Nat) (hbs : 0 < bs) (hlt : bs < 2147483648) :
    ∀ (fuel start b : Nat) (acc : List Nat) (done : List γ), emb.length ≤ start + fuel * bs → done.length = min start emb.length * dim →
      residualsLoop dev cents.length dim cents.flatten emb b (Codec.batchRanges emb.length bs fuel start) acc
            (done ++ List.replicate ((emb.length - start) * dim) dev.zero) =
          .ok (acc ++ (emb.drop start).map (codeOf dev.dot cents), done ++ ((emb.drop start).map (tokenResidual dev cents)).flatten) ∨
        (residualsLoop dev cents.length dim cents.flatten emb b (Codec.batchRanges emb.length bs fuel start) acc
            (done ++ List.replicate ((emb.length - start) * dim) dev.zero) = .error .err ∧ ∃ b c, dev.ok b c = false) := by
  intro fuel
  induction fuel with
  | zero =>
    intro start b acc done h hd
    left
    rw [List.drop_of_length_le (by omega), Nat.sub_eq_zero_of_le (by omega)]
    simp [Codec.batchRanges, residualsLoop]
  | succ fuel ih =>
    intro start b acc done h hd
    unfold Codec.batchRanges
    split
    · rename_i hst
      obtain ⟨hl, hne, hmem, happ⟩ := slice_rows emb start bs hst hbs
      set rows := (emb.drop start).take (min (start + bs) emb.length - start) with hrows
      set stop := min (start + bs) emb.length with hstop
      have hsl : slice emb (start, stop) = rows.flatten := rfl
      have hw : ∀ r ∈ rows, r.length = dim := fun r hr => he r (hmem r hr)
      simp only [residualsLoop]
      rw [hsl, ← hl]
      rcases batchCodes_ok dev hs dim cents rows hz hw hne (by omega) b with h1 | ⟨h1, c, hc⟩
      · rw [h1]
        simp only [Bind.bind, Except.bind]
        rcases batchResiduals_ok dev hs dim cents rows hz hw hne (by omega) b with h2 | ⟨h2, c, hc⟩
        · rw [h2]
          simp only
          have hres : (rows.map (tokenResidual dev cents)).flatten.length = (stop - start) * dim := by
            rw [flat_length dim _ (by
              intro r hr
              obtain ⟨e, hem, rfl⟩ := List.mem_map.mp hr
              exact tokenResidual_length dev dim cents hz e (hw e hem)), List.length_map, hl]
          have hmin : min start emb.length = start := Nat.min_eq_left (by omega)
          rw [hmin] at hd
          have hle : start ≤ stop := by omega
          have hle' : stop ≤ emb.length := by omega
          have hsd : start * dim ≤ stop * dim := Nat.mul_le_mul_right _ hle
          have hed : stop * dim ≤ emb.length * dim := Nat.mul_le_mul_right _ hle'
          have hcopy : copyAt (done ++ List.replicate ((emb.length - start) * dim) dev.zero) (start * dim) (stop * dim)
              (rows.map (tokenResidual dev cents)).flatten =
              .ok (done ++ (rows.map (tokenResidual dev cents)).flatten ++ List.replicate ((emb.length - (start + bs)) * dim) dev.zero) := by
            unfold copyAt
            rw [if_pos ⟨by rw [hres, Nat.sub_mul], by
              rw [List.length_append, List.length_replicate, hd, Nat.sub_mul]; omega⟩]
            congr 2
            · rw [List.take_append_of_le_length (by omega), ← hd, List.take_length]
            · rw [List.drop_append, List.drop_of_length_le (by omega), List.nil_append, List.drop_replicate, hd]
              congr 1
              rcases Nat.le_total (start + bs) emb.length with hc | hc
              · have h2 : stop = start + bs := by omega
                rw [← h2, Nat.sub_mul, Nat.sub_mul]
                omega
              · have h2 : stop = emb.length := by omega
                rw [Nat.sub_eq_zero_of_le hc, Nat.sub_mul, ← h2]
                omega
          rw [hcopy]
          simp only
          rcases ih (start + bs) (b + 1) (acc ++ rows.map (codeOf dev.dot cents)) (done ++ (rows.map (tokenResidual dev cents)).flatten)
            (by rw [Nat.succ_mul] at h; omega) (by
              rw [List.length_append, hd, hres, ← Nat.add_mul]
              congr 1
              omega) with h3 | h3
          · left
            rw [h3, ← happ]
            simp only [List.map_append, List.flatten_append, List.append_assoc]
          · exact .inr h3
        · right
          rw [h2]
          exact ⟨rfl, b, c, hc⟩
      · right
        rw [h1]
        exact ⟨rfl, b, c, hc⟩
    · left
      rw [List.drop_of_length_le (by omega), Nat.sub_eq_zero_of_le (by omega)]
      simp [residualsLoop]

theorem rowsOf_flatten (dim : Nat) : ∀ (rows : List (List γ)), (∀ r ∈ rows, r.length = dim) → rowsOf rows.length dim rows.flatten = rows := by
  intro rows h
  unfold rowsOf
  apply List.ext_getElem?
  intro i
  rw [List.getElem?_map]
  by_cases hi : i < rows.length
  · rw [List.getElem?_range hi, List.getElem?_eq_getElem hi, Option.map_some]
    congr 1
    have hw : rows[i].length = dim := h _ (List.getElem_mem hi)
    apply List.ext_getElem?
    intro j
    by_cases hj : j < dim
    · rw [List.getElem?_take_of_lt hj, List.getElem?_drop, flat_get dim rows h i j hj, List.getElem?_eq_getElem hi]
      rfl
    · rw [List.getElem?_take_eq_none (by omega), List.getElem?_eq_none (by omega)]
  · rw [List.getElem?_eq_none (by simpa using hi), List.getElem?_eq_none (by omega)]
    rfl

theorem batchSize_pos {n k dim mem : Nat} (h : 0 < n) : 0 < batchSize n k dim mem := by unfold batchSize; omega

theorem batchSizeResiduals_pos {n k dim mem : Nat} (h : 0 < n) : 0 < batchSizeResiduals n k dim mem := by unfold batchSizeResiduals; omega

theorem div_small {m d : Nat} (hm : m ≤ 17179869184) (hd : 12 ≤ d) : m / d < 2147483648 :=
  calc m / d ≤ m / 12 := Nat.div_le_div_left hd (by omega)
    _ < 2147483648 := by omega

theorem batchSize_lt {n k dim mem : Nat} (hk : 0 < k) (hd : 0 < dim) (hm : mem ≤ 17179869184) : batchSize n k dim mem < 2147483648 := by
  unfold batchSize
  have := div_small (m := mem - k * dim * 4) (d := dim * 4 + k * 4 + 4) (by omega) (by omega)
  omega

theorem batchSizeResiduals_lt {n k dim mem : Nat} (hk : 0 < k) (hd : 0 < dim) (hm : mem ≤ 17179869184) : batchSizeResiduals n k dim mem < 2147483648 := by
  unfold batchSizeResiduals
  have := div_small (m := mem - k * dim * 4) (d := dim * 4 + k * 4 + 4 + dim * 4) (by omega) (by omega)
  omega

theorem compressCuda_ok [LinearOrder α] (dev : Device γ α) (hs : Sound dev) (mem dim : Nat) (hm : mem ≤ 17179869184) (cents emb : List (List γ))
    (hz : Sized dim cents) (he : ∀ r ∈ emb, r.length = dim) :
    compressCuda dev mem dim cents emb = .ok (emb.map (codeOf dev.dot cents)) ∨
      (compressCuda dev mem dim cents emb = .error .err ∧ ∃ b c, dev.ok b c = false) := by
  unfold compressCuda
  split
  · rename_i h
    left
    rw [List.eq_nil_of_length_eq_zero h]
    rfl
  · rename_i h
    cases h9 : dev.ok 0 9
    · exact .inr ⟨rfl, 0, 9, h9⟩
    · have hp : 0 < batchSize emb.length cents.length dim mem := batchSize_pos (by omega)
      have := codesLoop_ok dev hs dim cents emb hz he (batchSize emb.length cents.length dim mem) hp
        (batchSize_lt (List.length_pos_iff.mpr hz.ne) hz.dim_pos hm) emb.length 0 0 [] (by
          rw [Nat.zero_add]
          exact Nat.le_mul_of_pos_right _ hp)
      simp only [List.nil_append, List.drop_zero] at this
      have hcall : call true = .ok () := rfl
      rw [hcall]
      exact this

theorem residualsCuda_ok [LinearOrder α] (dev : Device γ α) (hs : Sound dev) (mem dim : Nat) (hm : mem ≤ 17179869184) (cents emb : List (List γ))
    (hz : Sized dim cents) (he : ∀ r ∈ emb, r.length = dim) :
    residualsCuda dev mem dim cents emb = .ok (emb.map (codeOf dev.dot cents), emb.map (tokenResidual dev cents)) ∨
      (residualsCuda dev mem dim cents emb = .error .err ∧ ∃ b c, dev.ok b c = false) := by
  unfold residualsCuda
  split
  · rename_i h
    left
    rw [List.eq_nil_of_length_eq_zero h]
    rfl
  · rename_i h
    cases h9 : dev.ok 0 9
    · exact .inr ⟨rfl, 0, 9, h9⟩
    · have hp : 0 < batchSizeResiduals emb.length cents.length dim mem := batchSizeResiduals_pos (by omega)
      have := residualsLoop_ok dev hs dim cents emb hz he (batchSizeResiduals emb.length cents.length dim mem) hp
        (batchSizeResiduals_lt (List.length_pos_iff.mpr hz.ne) hz.dim_pos hm) emb.length 0 0 [] [] (by
          rw [Nat.zero_add]
          exact Nat.le_mul_of_pos_right _ hp) (by simp)
      simp only [List.nil_append, Nat.sub_zero, List.drop_zero] at this
      have hcall : call true = .ok () := rfl
      rw [hcall]
      simp only [Bind.bind, Except.bind]
      rcases this with h1 | ⟨h1, h2⟩
      · left
        rw [h1]
        show Except.ok _ = _
        have hfl := rowsOf_flatten dim (emb.map (tokenResidual dev cents)) (by
          intro r hr
          obtain ⟨e, hem, rfl⟩ := List.mem_map.mp hr
          exact tokenResidual_length dev dim cents hz e (he e hem))
        rw [List.length_map] at hfl
        rw [hfl]
      · right
        rw [h1]
        exact ⟨rfl, h2⟩

/-! ### The CPU -/

theorem cpuCodes [LinearOrder α] {ε : Type} (memory : Nat) (score : ε → ε → Score α) (cents emb : List ε) (hc : cents ≠ []) :
    Codec.compressIntoCodesCpu memory score cents emb = .ok (emb.map fun e => Codec.argmaxRow (cents.map (score e))) := by
  have hcl : cents.length ≠ 0 := fun h => hc (List.eq_nil_of_length_eq_zero h)
  unfold Codec.compressIntoCodesCpu
  simp only [if_neg hcl]
  split
  · rename_i h
    rw [List.eq_nil_of_length_eq_zero h]; rfl
  · have := Codec.batch_flatten (fun e => Codec.argmaxRow (cents.map (score e))) emb
      (max 1 (min 1024 (memory / (cents.length * 4)))) (by omega) emb.length 0
      (by
        rw [Nat.zero_add]
        exact Nat.le_mul_of_pos_right _ (by omega))
    rw [this]
    simp

theorem subRow_zipWith (sub : γ → γ → γ) : ∀ (r c : List γ), r.length = c.length → subRow sub r c = List.zipWith sub r c
  | [], [], _ => rfl
  | r :: rs, c :: cs, h => by
    rw [subRow, List.zipWith_cons_cons, subRow_zipWith sub rs cs (by simpa using h)]
  | [], _ :: _, h => by simp at h
  | _ :: _, [], h => by simp at h

theorem cpuCode_lt [LinearOrder α] (row : List (Score α)) (h : row ≠ []) : Codec.argmaxRow row < row.length := by
  obtain ⟨m, hm, -⟩ := Codec.argmaxRow_spec row h
  exact (List.getElem?_eq_some_iff.mp hm).1

theorem cpuCode_best [LinearOrder α] (row : List (Score α)) (h : row ≠ []) (hf : AllFinite row) : BestAt row (Codec.argmaxRow row) := by
  obtain ⟨m, hm, hge⟩ := Codec.argmaxRow_spec row h
  obtain ⟨a, rfl⟩ := hf m (List.mem_of_getElem? hm)
  exact ⟨a, hm, fun b hb => Score.ge_fin.mp (hge _ hb)⟩

/-- The residual of a token with the code of the CPU. -/
def cpuResidual [LinearOrder α] (score : List γ → List γ → Score α) (sub : γ → γ → γ) (cents : List (List γ)) (e : List γ) : List γ :=
  residualOf sub cents e (Codec.argmaxRow (cents.map (score e)))

theorem residualsCpu_ok [LinearOrder α] (memory : Nat) (score : List γ → List γ → Score α) (sub : γ → γ → γ) (dim : Nat) (cents emb : List (List γ))
    (hne : cents ≠ []) (hw : ∀ c ∈ cents, c.length = dim) (he : ∀ r ∈ emb, r.length = dim) :
    residualsCpu memory score sub cents emb =
      .ok (emb.map fun e => Codec.argmaxRow (cents.map (score e)), emb.map (cpuResidual score sub cents)) := by
  unfold residualsCpu
  rw [cpuCodes memory score cents emb hne]
  simp only [Bind.bind, Except.bind]
  rw [zip_map_self]
  have hm : (emb.map fun x => (x, Codec.argmaxRow (cents.map (score x)))).mapM (cpuRow sub cents) = .ok (emb.map (cpuResidual score sub cents)) := by
    rw [mapM_ok (cpuRow sub cents) (fun p => residualOf sub cents p.1 p.2)]
    · rw [List.map_map]
      rfl
    · intro p hp
      obtain ⟨e, hem, rfl⟩ := List.mem_map.mp hp
      have hlt := cpuCode_lt (cents.map (score e)) (by simpa using hne)
      rw [List.length_map] at hlt
      unfold cpuRow residualOf
      simp only
      rw [idx_ok (List.getElem?_eq_getElem hlt), List.getElem?_eq_getElem hlt]
      simp only [Bind.bind, Except.bind]
      rw [subRow_zipWith sub e _ (by rw [he e hem, hw _ (List.getElem_mem hlt)])]
      rfl
  rw [hm]
  rfl

/-! ### The last of the best -/

theorem maxBy_concat {cmp : β → β → Ordering} (l : List β) (y : β) : maxBy cmp (l ++ [y]) =
    some (match maxBy cmp l with | none => y | some acc => match cmp acc y with | .gt => acc | _ => y) := by
  cases l with
  | nil => rfl
  | cons x xs =>
    rw [List.cons_append, maxBy, maxBy, List.foldl_append]
    rfl

theorem maxBy_last [LinearOrder α] : ∀ row : List (Score α), row ≠ [] → AllFinite row →
    ∃ k a, maxBy (fun (a b : Nat × Score α) => Score.cmpForMax a.2 b.2) ((List.range row.length).zip row) = some (k, .fin a) ∧ row[k]? = some (.fin a) ∧
      (∀ b, Score.fin b ∈ row → b ≤ a) ∧ ∀ j b, k < j → row[j]? = some (.fin b) → b < a := by
  intro row
  induction row using List.reverseRecOn with
  | nil => intro h; exact absurd rfl h
  | append_singleton row y ih =>
    intro _ hf
    obtain ⟨c, rfl⟩ := hf y (by simp)
    have hz : (List.range (row ++ [Score.fin c]).length).zip (row ++ [Score.fin c]) = (List.range row.length).zip row ++ [(row.length, Score.fin c)] := by
      rw [List.length_append, List.length_singleton, List.range_succ, List.zip_append (by simp)]
      rfl
    rw [hz, maxBy_concat]
    by_cases hr : row = []
    · subst hr
      refine ⟨0, c, rfl, rfl, ?_, ?_⟩
      · intro b hb
        simp only [List.nil_append, List.mem_singleton, Score.fin.injEq] at hb
        exact le_of_eq hb
      · intro j b hj hb
        rw [List.getElem?_eq_none (by simp; omega)] at hb
        cases hb
    · obtain ⟨k, a, hm, hk, hle, hlt⟩ := ih hr fun s hs => hf s (by simp [hs])
      rw [hm]
      simp only
      have hkl : k < row.length := (List.getElem?_eq_some_iff.mp hk).1
      have hmem : ∀ b, Score.fin b ∈ row ++ [Score.fin c] → Score.fin b ∈ row ∨ b = c := by
        intro b hb
        rcases List.mem_append.mp hb with hb | hb
        · exact .inl hb
        · rw [List.mem_singleton] at hb
          exact .inr (Score.fin.inj hb)
      have hcmp : Score.cmpForMax (Score.fin a) (Score.fin c) = cmpLin a c := rfl
      rw [hcmp]
      by_cases hca : c < a
      · have hgt : cmpLin a c = .gt := by
          unfold cmpLin
          rw [if_neg (not_lt.mpr (le_of_lt hca)), if_pos hca]
        rw [hgt]
        refine ⟨k, a, rfl, by rw [List.getElem?_append_left hkl]; exact hk, ?_, ?_⟩
        · intro b hb
          rcases hmem b hb with hb | rfl
          · exact hle b hb
          · exact le_of_lt hca
        · intro j b hj hb
          rcases Nat.lt_or_ge j row.length with hjl | hjl
          · rw [List.getElem?_append_left hjl] at hb
            exact hlt j b hj hb
          · rw [List.getElem?_append_right hjl] at hb
            have hj0 : j - row.length = 0 := by
              have := (List.getElem?_eq_some_iff.mp hb).1
              simp at this
              omega
            rw [hj0] at hb
            simp only [List.getElem?_cons_zero, Option.some.injEq, Score.fin.injEq] at hb
            rw [← hb]
            exact hca
      · have hac : a ≤ c := not_lt.mp hca
        have hngt : cmpLin a c ≠ .gt := by
          unfold cmpLin
          split
          · decide
          · decide
        refine ⟨row.length, c, ?_, by simp, ?_, ?_⟩
        · cases h : cmpLin a c with
          | gt => exact absurd h hngt
          | lt => rfl
          | eq => rfl
        · intro b hb
          rcases hmem b hb with hb | rfl
          · exact le_trans (hle b hb) hac
          · exact le_refl _
        · intro j b hj hb
          rw [List.getElem?_eq_none (by simp; omega)] at hb
          cases hb

/-- The CPU takes the last of the best scores. -/
theorem cpuCode_last [LinearOrder α] (row : List (Score α)) (h : row ≠ []) (hf : AllFinite row) : LastBestAt row (Codec.argmaxRow row) := by
  obtain ⟨k, a, hm, hk, hle, hlt⟩ := maxBy_last row h hf
  have hcode : Codec.argmaxRow row = k := by
    unfold Codec.argmaxRow
    rw [hm]
  rw [hcode]
  refine ⟨⟨a, hk, hle⟩, ?_⟩
  rintro j hj ⟨b, hb, hbm⟩
  have h1 := hlt j b hj hb
  have h2 := hbm a (List.mem_of_getElem? hk)
  exact absurd h1 (not_lt.mpr h2)

/-! ### Compression, whoever does it -/

theorem residualOf_difference (sub : γ → γ → γ) (dim : Nat) (cents : List (List γ)) (hw : ∀ c ∈ cents, c.length = dim) (e : List γ) (he : e.length = dim)
    (k : Nat) (c : List γ) (hk : cents[k]? = some c) : IsDifference sub e c (residualOf sub cents e k) := by
  have hc := hw c (List.mem_of_getElem? hk)
  unfold residualOf
  rw [hk, Option.getD_some]
  refine ⟨by rw [List.length_zipWith]; omega, ?_⟩
  intro j x y hx hy
  rw [List.getElem?_zipWith, hx, hy]

theorem compressed_of [LinearOrder α] (score : List γ → List γ → Score α) (sub : γ → γ → γ) (dim : Nat) (cents emb : List (List γ)) (hne : cents ≠ [])
    (hw : ∀ c ∈ cents, c.length = dim) (he : ∀ r ∈ emb, r.length = dim) (code : List γ → Nat) (hlt : ∀ e, code e < cents.length)
    (hbest : ∀ e, AllFinite (cents.map (score e)) → BestAt (cents.map (score e)) (code e)) :
    Compressed score sub cents emb (emb.map code) (emb.map fun e => residualOf sub cents e (code e)) := by
  refine ⟨by simp, by simp, ?_⟩
  intro i e hi
  refine ⟨code e, cents[code e]'(hlt e), residualOf sub cents e (code e), ?_, List.getElem?_eq_getElem _, ?_, ?_, hbest e⟩
  · rw [List.getElem?_map, hi]; rfl
  · rw [List.getElem?_map, hi]; rfl
  · exact residualOf_difference sub dim cents hw e (he e (List.mem_of_getElem? hi)) _ _ (List.getElem?_eq_getElem _)

theorem cuda_compressed [LinearOrder α] (dev : Device γ α) (dim : Nat) (cents emb : List (List γ)) (hz : Sized dim cents) (he : ∀ r ∈ emb, r.length = dim) :
    Compressed (fun e c => dev.dot c e) dev.sub cents emb (emb.map (codeOf dev.dot cents)) (emb.map (tokenResidual dev cents)) :=
  compressed_of (fun e c => dev.dot c e) dev.sub dim cents emb hz.ne hz.width he (codeOf dev.dot cents) (codeOf_lt dev.dot cents hz.ne)
    fun e hf => (gpuCode_first _ (by simpa using hz.ne) hf).1

theorem cpu_compressed [LinearOrder α] (score : List γ → List γ → Score α) (sub : γ → γ → γ) (dim : Nat) (cents emb : List (List γ)) (hne : cents ≠ [])
    (hw : ∀ c ∈ cents, c.length = dim) (he : ∀ r ∈ emb, r.length = dim) :
    Compressed score sub cents emb (emb.map fun e => Codec.argmaxRow (cents.map (score e))) (emb.map (cpuResidual score sub cents)) :=
  compressed_of score sub dim cents emb hne hw he (fun e => Codec.argmaxRow (cents.map (score e)))
    (fun e => by
      have := cpuCode_lt (cents.map (score e)) (by simpa using hne)
      rwa [List.length_map] at this)
    fun e hf => cpuCode_best _ (by simpa using hne) hf

theorem assign_ok (dim : Nat) (emb : List (List γ)) (he : ∀ r ∈ emb, r.length = dim) : emb.mapM (assignRow dim) = .ok emb := by
  rw [mapM_ok (assignRow dim) id emb (by
    intro r hr
    unfold assignRow
    rw [if_pos (he r hr)]
    rfl), List.map_id]

end NextPlaid.Gpu
