import Verif.Spec.ArrayFile
import Verif.Proofs.Npy

/-!
Proofs for C82: array files opened in place.
-/

namespace NextPlaid.ArrayFile

open NextPlaid.Npy NextPlaid.Spec.ArrayFile

theorem wmul_of_lt {a b : Nat} (h : a * b < 2 ^ 64) : wmul a b = a * b := Nat.mod_eq_of_lt h
theorem wadd_of_lt {a b : Nat} (h : a + b < 2 ^ 64) : wadd a b = a + b := Nat.mod_eq_of_lt h
theorem wsub_of_le {a b : Nat} (h : b ≤ a) (ha : a < 2 ^ 64) : wsub a b = a - b := by
  unfold wsub
  omega

theorem bytesAt_val {file : List Nat} {s e : Nat} {b : List Nat} (h : bytesAt file s e = .val b) :
    s ≤ e ∧ e ≤ file.length ∧ b = (file.drop s).take (e - s) ∧ b.length = e - s := by
  unfold bytesAt at h
  split at h
  · rename_i hc
    cases h
    refine ⟨hc.1, hc.2, rfl, ?_⟩
    rw [List.length_take, List.length_drop]
    omega
  · cases h

theorem bytesAt_ok {file : List Nat} {s e : Nat} (h : s ≤ e) (h' : e ≤ file.length) :
    bytesAt file s e = .val ((file.drop s).take (e - s)) := if_pos ⟨h, h'⟩

theorem values_length (w n : Nat) (b : List Nat) : (values w n b).length = n := by
  unfold values; rw [List.length_map, List.length_range]

theorem values_get (w n : Nat) (b : List Nat) {k : Nat} (h : k < n) : (values w n b)[k]? = some ((b.drop (w * k)).take w) := by
  unfold values
  rw [List.getElem?_map, List.getElem?_range h]
  rfl

/-- A value inside a segment of the file. -/
theorem segment_value (file : List Nat) (off w m k : Nat) (h : k < m) (s : Nat) :
    (((file.drop (off + w * s)).take (m * w)).drop (w * k)).take w = Elem file off w (s + k) := by
  have hle : w * k + w ≤ m * w := by
    rw [Nat.mul_comm m w, ← Nat.mul_succ]
    exact Nat.mul_le_mul_left _ h
  unfold Elem
  rw [List.drop_take, List.drop_drop, List.take_take, Nat.min_eq_left (by omega)]
  congr 2
  rw [Nat.mul_add]
  omega

theorem flatten_take_chunks (w : Nat) : ∀ (n : Nat) (b : List Nat), n * w ≤ b.length → (values w n b).flatten = b.take (n * w) := by
  intro n
  induction n with
  | zero => intro b _; unfold values; simp
  | succ n ih =>
    intro b h
    have h' : n * w + w ≤ b.length := by rw [← Nat.succ_mul]; exact h
    have hi := ih b (by omega)
    unfold values at hi ⊢
    rw [List.range_succ, List.map_append, List.flatten_append, hi]
    simp only [List.map_cons, List.map_nil, List.flatten_cons, List.flatten_nil, List.append_nil]
    rw [Nat.succ_mul, List.take_add, Nat.mul_comm w n]

/-- Rows put one after another are the values. -/
theorem inRows_flatten (c : Nat) : ∀ (n : Nat) (vs : List (List Nat)), (inRows n c vs).flatten = vs.take (n * c) := by
  intro n
  induction n with
  | zero => intro vs; unfold inRows; simp
  | succ n ih =>
    intro vs
    have hi := ih vs
    unfold inRows at hi ⊢
    rw [List.range_succ, List.map_append, List.flatten_append, hi]
    simp only [List.map_cons, List.map_nil, List.flatten_cons, List.flatten_nil, List.append_nil]
    rw [Nat.succ_mul, List.take_add]

/-- A range of rows, when nothing wraps around. -/
theorem loadRows_ok {file : List Nat} {a : Arr} (hw : 1 ≤ a.width) (hsz : Size a ≤ file.length) (hf : file.length < 2 ^ 63)
    (hshape : max a.rows 1 * max a.cols 1 * a.width < 2 ^ 63) {s e : Nat} (hse : s ≤ e) (he : e ≤ a.rows) :
    ∃ rs, loadRows file a s e = .val rs ∧ rs.length = e - s ∧ ∀ i, i < e - s → ∃ vs, rs[i]? = some vs ∧ IsRow file a (s + i) vs := by
  unfold Size at hsz
  have hm1 : e * a.cols ≤ a.rows * a.cols := Nat.mul_le_mul_right _ he
  have hm2 : s * a.cols ≤ e * a.cols := Nat.mul_le_mul_right _ hse
  have hw1 : ∀ n, n ≤ n * a.width := fun n => Nat.le_mul_of_pos_right n hw
  have hm3 : e * a.cols * a.width ≤ a.rows * a.cols * a.width := Nat.mul_le_mul_right _ hm1
  have hm4 : s * a.cols * a.width ≤ e * a.cols * a.width := Nat.mul_le_mul_right _ hm2
  have hm5 := hw1 (a.rows * a.cols)
  have hrows : a.rows < 2 ^ 63 := by
    have h1 : max a.rows 1 ≤ max a.rows 1 * max a.cols 1 * a.width :=
      Nat.le_trans (Nat.le_mul_of_pos_right _ (by omega)) (hw1 _)
    omega
  have hb1 : wadd a.off (wmul (wmul s a.cols) a.width) = a.off + s * a.cols * a.width := by
    rw [wmul_of_lt (a := s) (by omega), wmul_of_lt (by omega), wadd_of_lt (by omega)]
  have hb2 : wadd a.off (wmul (wmul e a.cols) a.width) = a.off + e * a.cols * a.width := by
    rw [wmul_of_lt (a := e) (by omega), wmul_of_lt (by omega), wadd_of_lt (by omega)]
  have hsub : wsub e s = e - s := wsub_of_le hse (by omega)
  have hdiff : (e - s) * a.cols = e * a.cols - s * a.cols := Nat.sub_mul _ _ _
  have hdiff' : (e - s) * a.cols * a.width = e * a.cols * a.width - s * a.cols * a.width := by rw [hdiff, Nat.sub_mul]
  have hblen : ((file.drop (a.off + s * a.cols * a.width)).take (a.off + e * a.cols * a.width - (a.off + s * a.cols * a.width))).length =
      (e - s) * a.cols * a.width := by
    rw [List.length_take, List.length_drop, hdiff']
    omega
  have hcount : (if a.width = 1 then ((file.drop (a.off + s * a.cols * a.width)).take (a.off + e * a.cols * a.width - (a.off + s * a.cols * a.width))).length
      else wmul (wsub e s) a.cols) = (e - s) * a.cols := by
    split
    · rename_i h1
      rw [hblen, h1, Nat.mul_one]
    · rw [hsub, wmul_of_lt (by omega)]
  have hsh : shapeOk a.width (e - s) a.cols ((e - s) * a.cols) = true := by
    unfold shapeOk
    rw [Bool.and_eq_true, decide_eq_true_eq, decide_eq_true_eq]
    refine ⟨?_, Nat.le_refl _⟩
    refine Nat.lt_of_le_of_lt ?_ hshape
    apply Nat.mul_le_mul_right
    apply Nat.mul_le_mul_right
    omega
  refine ⟨inRows (e - s) a.cols (values a.width ((e - s) * a.cols)
    ((file.drop (a.off + s * a.cols * a.width)).take (a.off + e * a.cols * a.width - (a.off + s * a.cols * a.width)))), ?_, ?_, ?_⟩
  · unfold loadRows
    rw [hb1, hb2, bytesAt_ok (by omega) (by omega)]
    simp only []
    rw [hcount, hblen, if_neg (by omega), hsub, if_pos hsh]
  · unfold inRows; rw [List.length_map, List.length_range]
  · intro i hi
    have hrow : i * a.cols + a.cols ≤ (e - s) * a.cols := by
      rw [← Nat.succ_mul]
      exact Nat.mul_le_mul_right _ hi
    refine ⟨_, by unfold inRows; rw [List.getElem?_map, List.getElem?_range hi]; rfl, ?_, ?_⟩
    · rw [List.length_take, List.length_drop, values_length]
      omega
    · intro j hj
      rw [List.getElem?_take, if_pos hj, List.getElem?_drop, values_get _ _ _ (by omega)]
      have hlen' : a.off + e * a.cols * a.width - (a.off + s * a.cols * a.width) = (e - s) * a.cols * a.width := by
        rw [hdiff']; omega
      rw [hlen', show a.off + s * a.cols * a.width = a.off + a.width * (s * a.cols) by rw [Nat.mul_comm a.width]]
      rw [segment_value file a.off a.width ((e - s) * a.cols) (i * a.cols + j) (by omega) (s * a.cols)]
      rw [Nat.add_mul, Nat.add_assoc]

/-- One row, when nothing wraps around. -/
theorem row_ok {file : List Nat} {a : Arr} (hw : 1 ≤ a.width) (hsz : Size a ≤ file.length) (hf : file.length < 2 ^ 63)
    (hshape : max a.rows 1 * max a.cols 1 * a.width < 2 ^ 63) {i : Nat} (hi : i < a.rows) :
    ∃ vs, row file a i = .val vs ∧ IsRow file a i vs := by
  unfold Size at hsz
  have hm1 : (i + 1) * a.cols ≤ a.rows * a.cols := Nat.mul_le_mul_right _ hi
  have hw1 : ∀ n, n ≤ n * a.width := fun n => Nat.le_mul_of_pos_right n hw
  have hm3 : (i + 1) * a.cols * a.width ≤ a.rows * a.cols * a.width := Nat.mul_le_mul_right _ hm1
  have hm5 := hw1 (a.rows * a.cols)
  rw [Nat.succ_mul] at hm1
  rw [Nat.succ_mul, Nat.add_mul] at hm3
  have hb1 : wadd a.off (wmul (wmul i a.cols) a.width) = a.off + i * a.cols * a.width := by
    rw [wmul_of_lt (a := i) (by omega), wmul_of_lt (by omega), wadd_of_lt (by omega)]
  have hb2 : wadd (a.off + i * a.cols * a.width) (wmul a.cols a.width) = a.off + i * a.cols * a.width + a.cols * a.width := by
    rw [wmul_of_lt (by omega), wadd_of_lt (by omega)]
  have hblen : ((file.drop (a.off + i * a.cols * a.width)).take (a.off + i * a.cols * a.width + a.cols * a.width - (a.off + i * a.cols * a.width))).length =
      a.cols * a.width := by
    rw [List.length_take, List.length_drop]
    omega
  have hres : row file a i = .val (values a.width a.cols
      ((file.drop (a.off + i * a.cols * a.width)).take (a.off + i * a.cols * a.width + a.cols * a.width - (a.off + i * a.cols * a.width)))) := by
    unfold row
    rw [hb1, hb2, bytesAt_ok (by omega) (by omega)]
    simp only []
    split
    · rename_i h1
      rw [hblen, h1, Nat.mul_one]
    · rw [hblen, if_neg (by omega), if_pos]
      unfold shapeOk
      rw [Bool.and_eq_true, decide_eq_true_eq, decide_eq_true_eq]
      refine ⟨?_, by omega⟩
      refine Nat.lt_of_le_of_lt ?_ hshape
      apply Nat.mul_le_mul_right
      rw [show max 1 1 = 1 from rfl, Nat.mul_one]
      exact Nat.le_mul_of_pos_left _ (by omega)
  refine ⟨_, hres, values_length _ _ _, ?_⟩
  intro j hj
  rw [values_get _ _ _ hj]
  have hlen' : a.off + i * a.cols * a.width + a.cols * a.width - (a.off + i * a.cols * a.width) = a.cols * a.width := by omega
  rw [hlen', show a.off + i * a.cols * a.width = a.off + a.width * (i * a.cols) by rw [Nat.mul_comm a.width]]
  rw [segment_value file a.off a.width a.cols j hj (i * a.cols)]

/-- What is returned was in the file. -/
theorem inside_of_values {file : List Nat} {s e w n : Nat} {b : List Nat} (h : bytesAt file s e = .val b) (hn : n * w ≤ b.length) :
    ∃ t, t + (values w n b).flatten.length ≤ file.length ∧ (values w n b).flatten = (file.drop t).take (values w n b).flatten.length := by
  obtain ⟨h1, h2, h3, h4⟩ := bytesAt_val h
  refine ⟨s, ?_, ?_⟩
  · rw [flatten_take_chunks w n b hn, List.length_take]
    omega
  · rw [flatten_take_chunks w n b hn, List.length_take, h3, List.take_take, List.length_take, List.length_drop]
    congr 1
    omega

theorem row_inside {file : List Nat} {a : Arr} {i : Nat} {vs} (h : row file a i = .val vs) : Inside file vs := by
  unfold row at h
  split at h
  · cases h
  · cases h
  · rename_i b hb
    split at h
    · cases h
      exact inside_of_values hb (by omega)
    · split at h
      · cases h
      · split at h
        · cases h
          exact inside_of_values hb (by omega)
        · cases h

theorem take_values (w n m : Nat) (b : List Nat) : (values w n b).take m = values w (min m n) b := by
  unfold values
  rw [← List.map_take, List.take_range]

theorem loadRows_inside {file : List Nat} {a : Arr} {s e : Nat} {rs} (h : loadRows file a s e = .val rs) : Inside file rs.flatten := by
  unfold loadRows at h
  split at h
  · cases h
  · cases h
  · rename_i b hb
    simp only [] at h
    generalize (if a.width = 1 then b.length else wmul (wsub e s) a.cols) = count at h
    split at h
    · cases h
    · rename_i hlt
      split at h
      · cases h
        rw [inRows_flatten, take_values]
        refine inside_of_values hb ?_
        refine Nat.le_trans (Nat.mul_le_mul_right _ (Nat.min_le_right _ _)) ?_
        omega
      · cases h

theorem openShape_ok {file : List Nat} {r c o w : Nat} {a : Arr} (h : openShape file r c o w = .ok a) :
    a = ⟨r, c, o, w⟩ ∧ wadd o (wmul (wmul r c) w) ≤ file.length := by
  unfold openShape at h
  split at h
  · cases h
  · cases h
    exact ⟨rfl, by omega⟩

theorem headerText_stop {file : List Nat} {t : List Char} {stop : Nat} (h : headerText file = .ok (t, stop)) : stop ≤ file.length := by
  unfold headerText at h
  split at h
  · cases h
  · split at h
    · cases h
    · split at h
      · simp only [] at h
        split at h
        · cases h
        · rename_i hn
          cases hu : fromUtf8 ((file.take (10 + leVal ((file.drop 8).take 2))).drop 10) with
          | error e => rw [hu] at h; cases h
          | ok u =>
            rw [hu] at h
            cases h
            omega
      · split at h
        · split at h
          · cases h
          · simp only [] at h
            split at h
            · cases h
            · rename_i hn
              cases hu : fromUtf8 ((file.take (12 + leVal ((file.drop 8).take 4))).drop 12) with
              | error e => rw [hu] at h; cases h
              | ok u =>
                rw [hu] at h
                cases h
                omega
        · cases h

theorem parseHeader_off {file : List Nat} {shape : List Nat} {off : Nat} {f : Bool} (h : parseHeader file = .ok (shape, off, f)) : off ≤ file.length := by
  unfold parseHeader at h
  split at h
  · cases h
  · rename_i t stop ht
    split at h
    · cases h
    · cases h
      exact headerText_stop ht

/-- What opening checks. -/
theorem opens_checked {file : List Nat} {a : Arr} (h : Opens file a) :
    1 ≤ a.width ∧ a.off ≤ file.length ∧ wadd a.off (wmul (wmul a.rows a.cols) a.width) ≤ file.length := by
  cases h with
  | raw2 hw h =>
    unfold ArrayFile.raw2 at h
    split at h
    · cases h
    · obtain ⟨rfl, h2⟩ := openShape_ok h
      exact ⟨by simp only []; omega, by simp only []; omega, h2⟩
  | raw1 h =>
    unfold ArrayFile.raw1 at h
    split at h
    · cases h
    · obtain ⟨rfl, h2⟩ := openShape_ok h
      exact ⟨by simp only []; omega, by simp only []; omega, h2⟩
  | npy2 hw h =>
    unfold ArrayFile.npy2 at h
    split at h
    · cases h
    · rename_i hp
      obtain ⟨rfl, h2⟩ := openShape_ok h
      exact ⟨by simp only []; omega, parseHeader_off hp, h2⟩
    · cases h
  | npy1 h =>
    unfold ArrayFile.npy1 at h
    split at h
    · cases h
    · cases h
    · rename_i hp
      obtain ⟨rfl, h2⟩ := openShape_ok h
      exact ⟨by simp only []; omega, parseHeader_off hp, h2⟩

/-- Without overflow the whole array lies in the file. -/
theorem opens_size {file : List Nat} {a : Arr} (h : Opens file a) (hf : file.length < 2 ^ 63)
    (hshape : a.rows * a.cols * a.width < 2 ^ 63) : Size a ≤ file.length := by
  obtain ⟨h1, h2, h3⟩ := opens_checked h
  have hw1 : a.rows * a.cols ≤ a.rows * a.cols * a.width := Nat.le_mul_of_pos_right _ h1
  rw [wmul_of_lt (a := a.rows) (by omega), wmul_of_lt (by omega), wadd_of_lt (by omega)] at h3
  exact h3

theorem prod_le_max (a : Arr) : a.rows * a.cols * a.width ≤ max a.rows 1 * max a.cols 1 * a.width :=
  Nat.mul_le_mul_right _ (Nat.mul_le_mul (by omega) (by omega))

/-! ### Written files -/

theorem flatten_len {β : Type} {w : Nat} : ∀ {l : List (List β)}, (∀ r ∈ l, r.length = w) → l.flatten.length = l.length * w := by
  intro l
  induction l with
  | nil => intro _; simp
  | cons r l ih =>
    intro h
    rw [List.flatten_cons, List.length_append, ih (fun x hx => h x (List.mem_cons_of_mem _ hx)), h r List.mem_cons_self, List.length_cons, Nat.succ_mul]
    omega

theorem flatten_part {β : Type} {w : Nat} : ∀ {l : List (List β)}, (∀ r ∈ l, r.length = w) → ∀ {i : Nat} {r : List β}, l[i]? = some r →
    (l.flatten.drop (i * w)).take w = r := by
  intro l
  induction l with
  | nil => intro _ i r h; cases i <;> cases h
  | cons x l ih =>
    intro h i r hr
    have hx := h x List.mem_cons_self
    rw [List.flatten_cons]
    cases i with
    | zero =>
      simp only [List.getElem?_cons_zero, Option.some.injEq] at hr
      subst hr
      rw [Nat.zero_mul, List.drop_zero, List.take_left' hx]
    | succ i =>
      rw [List.getElem?_cons_succ] at hr
      have : (i + 1) * w = x.length + i * w := by rw [hx, Nat.succ_mul]; omega
      rw [this, List.drop_append, List.drop_eq_nil_of_le (by omega), List.nil_append, Nat.add_sub_cancel_left]
      exact ih (fun y hy => h y (List.mem_cons_of_mem _ hy)) hr

theorem flatten_at {β : Type} {w : Nat} {l : List (List β)} (h : ∀ r ∈ l, r.length = w) {i j : Nat} {r : List β} (hr : l[i]? = some r) (hj : j < w) :
    l.flatten[i * w + j]? = r[j]? := by
  rw [← flatten_part h hr, List.getElem?_take, if_pos hj, List.getElem?_drop]

theorem leVal_i64 {n : Nat} (h : n < 2 ^ 64) : leVal (i64Bytes n) = n := by
  unfold i64Bytes
  rw [leVal_leBytes]
  have : ((n : Int) % 2 ^ 64).toNat = n := by omega
  rw [this]
  exact Nat.mod_eq_of_lt h

theorem write2_raw (w cols : Nat) (rows : List (List (List Nat))) (hc : ∀ r ∈ rows, r.length = cols) (hv : ∀ r ∈ rows, ∀ v ∈ r, v.length = w)
    (hr : rows.length < 2 ^ 64) (hcl : cols < 2 ^ 64) (hsz : 16 + rows.length * cols * w < 2 ^ 63) :
    raw2 w (write2 cols rows) = .ok ⟨rows.length, cols, 16, w⟩ ∧ (write2 cols rows).length = 16 + rows.length * cols * w ∧
      ∀ (i j : Nat) r v, rows[i]? = some r → r[j]? = some v → Elem (write2 cols rows) 16 w (i * cols + j) = v := by
  have hfl : rows.flatten.flatten.length = rows.length * cols * w := by
    rw [flatten_len (w := w), flatten_len hc]
    intro v hv'
    obtain ⟨r, hr1, hr2⟩ := List.mem_flatten.1 hv'
    exact hv r hr1 v hr2
  have hlen : (write2 cols rows).length = 16 + rows.length * cols * w := by
    unfold write2
    rw [List.length_append, List.length_append, i64Bytes_length, i64Bytes_length, hfl]
  refine ⟨?_, hlen, ?_⟩
  · unfold raw2
    rw [if_neg (by omega)]
    have h1 : (write2 cols rows).take 8 = i64Bytes rows.length := by
      unfold write2
      rw [List.append_assoc, List.take_left' (i64Bytes_length _)]
    have h2 : ((write2 cols rows).drop 8).take 8 = i64Bytes cols := by
      unfold write2
      rw [List.append_assoc, List.drop_left' (i64Bytes_length _), List.take_left' (i64Bytes_length _)]
    rw [h1, h2, leVal_i64 hr, leVal_i64 hcl]
    unfold openShape
    rw [if_neg]
    have e0 : wmul (wmul rows.length cols) w ≤ rows.length * cols * w := by
      unfold wmul
      exact Nat.le_trans (Nat.mod_le _ _) (Nat.mul_le_mul_right _ (Nat.mod_le _ _))
    have e1 : wadd 16 (wmul (wmul rows.length cols) w) ≤ 16 + wmul (wmul rows.length cols) w := Nat.mod_le _ _
    omega
  · intro i j r v hri hj
    have hrmem := List.mem_of_getElem? hri
    have hjc : j < cols := by rw [← hc r hrmem]; exact (List.getElem?_eq_some_iff.1 hj).1
    have hat : rows.flatten[i * cols + j]? = some v := by rw [flatten_at hc hri hjc]; exact hj
    unfold Elem
    have hd : (write2 cols rows).drop (16 + w * (i * cols + j)) = rows.flatten.flatten.drop (w * (i * cols + j)) := by
      unfold write2
      rw [← List.drop_drop, List.drop_left' (by rw [List.length_append, i64Bytes_length, i64Bytes_length])]
    rw [hd, Nat.mul_comm]
    refine flatten_part ?_ hat
    intro v' hv'
    obtain ⟨r', hr1, hr2⟩ := List.mem_flatten.1 hv'
    exact hv r' hr1 v' hr2

theorem write1_raw (vals : List Int) (hsz : 8 + vals.length * 8 < 2 ^ 63) :
    raw1 (write1 vals) = .ok ⟨vals.length, 1, 8, 8⟩ ∧ (write1 vals).length = 8 + vals.length * 8 ∧
      ∀ (i : Nat) v, vals[i]? = some v → Elem (write1 vals) 8 8 i = i64Bytes v := by
  have hall : ∀ r ∈ vals.map i64Bytes, r.length = 8 := by
    intro r hr
    obtain ⟨v, _, rfl⟩ := List.mem_map.1 hr
    exact i64Bytes_length v
  have hlen : (write1 vals).length = 8 + vals.length * 8 := by
    unfold write1
    rw [List.length_append, i64Bytes_length, List.flatMap_def, flatten_len hall, List.length_map]
  refine ⟨?_, hlen, ?_⟩
  · unfold raw1
    rw [if_neg (by omega)]
    have h1 : (write1 vals).take 8 = i64Bytes vals.length := by
      unfold write1
      rw [List.take_left' (i64Bytes_length _)]
    rw [h1, leVal_i64 (by omega)]
    unfold openShape
    rw [if_neg]
    have e0 : wmul (wmul vals.length 1) 8 ≤ vals.length * 1 * 8 := by
      unfold wmul
      exact Nat.le_trans (Nat.mod_le _ _) (Nat.mul_le_mul_right _ (Nat.mod_le _ _))
    have e1 : wadd 8 (wmul (wmul vals.length 1) 8) ≤ 8 + wmul (wmul vals.length 1) 8 := Nat.mod_le _ _
    omega
  · intro i v hv
    unfold Elem
    have hd : (write1 vals).drop (8 + 8 * i) = (vals.map i64Bytes).flatten.drop (8 * i) := by
      unfold write1
      rw [← List.drop_drop, List.drop_left' (i64Bytes_length _), List.flatMap_def]
    rw [hd, Nat.mul_comm]
    refine flatten_part hall ?_
    rw [List.getElem?_map, hv]
    rfl

theorem get_ok {file : List Nat} {a : Arr} (hw : a.width = 8) (hc : a.cols = 1) (hsz : Size a ≤ file.length) (hf : file.length < 2 ^ 63)
    {i : Nat} (hi : i < a.rows) : get file a i = .val (Elem file a.off 8 i) := by
  unfold Size at hsz
  rw [hw, hc] at hsz
  unfold get
  have h1 : wadd a.off (wmul i 8) = a.off + i * 8 := by rw [wmul_of_lt (by omega), wadd_of_lt (by omega)]
  have h2 : wadd (a.off + i * 8) 8 = a.off + i * 8 + 8 := wadd_of_lt (by omega)
  rw [h1, h2, bytesAt_ok (by omega) (by omega)]
  unfold Elem
  rw [Nat.mul_comm 8 i]
  congr 2
  omega

end NextPlaid.ArrayFile
