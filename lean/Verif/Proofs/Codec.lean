import Verif.Model.Codec

namespace NextPlaid.Codec

/-- value of key `i` (of `nbits` bits) inside byte `v`, read bit by bit in the encoder's order. -/
def keyOf (nbits v i : Nat) : Nat :=
  (List.range nbits).foldl (fun acc b => acc + if v.testBit (7 - (i * nbits + b)) then 2 ^ b else 0) 0

theorem table1 : ∀ v < 256, lookupRow 1 (revByte 1 v) = (List.range (8 / 1)).map (keyOf 1 v) := by
  decide +kernel
theorem table2 : ∀ v < 256, lookupRow 2 (revByte 2 v) = (List.range (8 / 2)).map (keyOf 2 v) := by
  decide +kernel
theorem table4 : ∀ v < 256, lookupRow 4 (revByte 4 v) = (List.range (8 / 4)).map (keyOf 4 v) := by
  decide +kernel
theorem table8 : ∀ v < 256, lookupRow 8 (revByte 8 v) = (List.range (8 / 8)).map (keyOf 8 v) := by
  decide +kernel

theorem nbits_cases {nbits : Nat} (h0 : nbits ≠ 0) (h8 : 8 % nbits = 0) :
    nbits = 1 ∨ nbits = 2 ∨ nbits = 4 ∨ nbits = 8 := by
  have hle : nbits ≤ 8 := Nat.le_of_dvd (by decide) (Nat.dvd_of_mod_eq_zero h8)
  have : nbits = 0 ∨ nbits = 1 ∨ nbits = 2 ∨ nbits = 3 ∨ nbits = 4 ∨ nbits = 5 ∨ nbits = 6 ∨
    nbits = 7 ∨ nbits = 8 := by omega
  rcases this with h|h|h|h|h|h|h|h|h <;> subst h <;> simp_all

theorem table_all {nbits : Nat} (h0 : nbits ≠ 0) (h8 : 8 % nbits = 0) {v : Nat} (hv : v < 256) :
    lookupRow nbits (revByte nbits v) = (List.range (8 / nbits)).map (keyOf nbits v) := by
  rcases nbits_cases h0 h8 with h | h | h | h <;> subst h
  · exact table1 v hv
  · exact table2 v hv
  · exact table4 v hv
  · exact table8 v hv

theorem revByte_lt (nbits v : Nat) : revByte nbits v < 256 := Nat.mod_lt _ (by decide)

theorem foldl_ext' {α β : Type _} {f g : β → α → β} {l : List α} {s : β}
    (h : ∀ acc, ∀ a ∈ l, f acc a = g acc a) : l.foldl f s = l.foldl g s := by
  induction l generalizing s with
  | nil => rfl
  | cons a l ih =>
    rw [List.foldl_cons, List.foldl_cons, h s a (by simp)]
    exact ih fun acc b hb => h acc b (by simp [hb])

/-- bits of a number below `2^n`, summed up, give the number. -/
theorem sum_bits (n k : Nat) (h : k < 2 ^ n) :
    (List.range n).foldl (fun acc b => acc + if k.testBit b then 2 ^ b else 0) 0 = k := by
  have key : ∀ n, (List.range n).foldl (fun acc b => acc + if k.testBit b then 2 ^ b else 0) 0
      = k % 2 ^ n := by
    intro n
    induction n with
    | zero => simp [Nat.mod_one]
    | succ n ih =>
      rw [List.range_succ, List.foldl_append, ih]
      simp only [List.foldl_cons, List.foldl_nil]
      rw [Nat.pow_succ, Nat.mod_mul, Nat.testBit_eq_decide_div_mod_eq]
      rcases Nat.mod_two_eq_zero_or_one (k / 2 ^ n) with h | h <;> simp [h]
  rw [key, Nat.mod_eq_of_lt h]

/-! ### The encoder -/

/-- bit number `i` of a packed row, in the encoder's order. -/
def getBit (row : List Nat) (i : Nat) : Bool := (row[i / 8]?.getD 0).testBit (7 - i % 8)

structure PackInv (packedDim : Nat) (bits : List Nat) (st : List Nat × Nat) : Prop where
  len : st.1.length = packedDim
  idx : st.2 = bits.length
  lt : ∀ b ∈ st.1, b < 256
  bit : ∀ i, getBit st.1 i = decide (bits[i]? = some 1)

theorem packInv_init (packedDim : Nat) : PackInv packedDim [] (List.replicate packedDim 0, 0) := by
  refine ⟨by simp, by simp, ?_, ?_⟩
  · intro b hb
    simp at hb
    omega
  · intro i
    simp only [getBit, List.getElem?_replicate, List.getElem?_nil]
    split <;> simp

theorem packBit_inv {packedDim : Nat} {bits : List Nat} {st : List Nat × Nat} {bit : Nat}
    (h : PackInv packedDim bits st) (hb : bit = 0 ∨ bit = 1) (hroom : bits.length < 8 * packedDim) :
    ∃ st', packBit st bit = .ok st' ∧ PackInv packedDim (bits ++ [bit]) st' := by
  obtain ⟨row, n⟩ := st
  obtain ⟨hlen, hidx, hlt, hbit⟩ := h
  simp only at hlen hidx hlt hbit
  subst hidx
  have hin : bits.length / 8 < row.length := by omega
  refine ⟨(row.modify (bits.length / 8) (fun byte => byte ||| (bit <<< (7 - bits.length % 8))),
    bits.length + 1), by simp [packBit, hin], ?_⟩
  refine ⟨by simpa using hlen, by simp, ?_, ?_⟩
  · intro b hbm
    simp only [List.mem_iff_getElem?, List.getElem?_modify, Option.map_eq_map] at hbm
    obtain ⟨i, hi⟩ := hbm
    rcases hrow : row[i]? with _ | x
    · simp [hrow] at hi
    · have hx : x < 256 := hlt x (List.mem_iff_getElem?.2 ⟨i, hrow⟩)
      rw [hrow] at hi
      simp only [Option.map_some, Option.some.injEq] at hi
      split at hi
      · subst hi
        apply Nat.or_lt_two_pow (n := 8) hx
        rw [Nat.shiftLeft_eq]
        have h7 : 2 ^ (7 - bits.length % 8) ≤ 2 ^ 7 := Nat.pow_le_pow_right (by decide) (by omega)
        rcases hb with hb | hb <;> subst hb <;> omega
      · subst hi; exact hx
  · intro i
    have hold := hbit i
    simp only [getBit, List.getElem?_modify, Option.map_eq_map]
    by_cases hi8 : bits.length / 8 = i / 8
    · have hin' : i / 8 < row.length := by omega
      simp only [hi8, List.getElem?_eq_getElem hin', Option.map_some, if_true, Option.getD_some,
        Nat.testBit_or, Nat.testBit_shiftLeft]
      simp only [getBit, List.getElem?_eq_getElem hin', Option.getD_some] at hold
      rw [hold]
      by_cases hi : i = bits.length
      · subst hi
        simp
        rcases hb with hb | hb <;> subst hb <;> simp
      · have happ : (bits ++ [bit])[i]? = if i < bits.length then bits[i]? else none := by
          rw [List.getElem?_append]
          split
          · rfl
          · rw [List.getElem?_eq_none]
            simp; omega
        rw [happ]
        by_cases hlt' : i < bits.length
        · simp only [hlt', if_true, decide_eq_decide, Bool.or_eq_left_iff_imp, Bool.and_eq_true,
            decide_eq_true_eq]
          intro ⟨hge, htb⟩
          have hpos : 0 < 7 - i % 8 - (7 - bits.length % 8) := by omega
          rcases hb with hb | hb <;> subst hb
          · simp at htb
          · rw [Nat.testBit_one_eq_true_iff_self_eq_zero] at htb
            omega
        · have hnone : bits[i]? = none := List.getElem?_eq_none (by omega)
          have hgt : i > bits.length := by omega
          have : ¬ (7 - bits.length % 8 ≤ 7 - i % 8) := by omega
          simp [hlt', hnone, this]
    · simp only [hi8, if_false, Option.map_id_fun', id_eq]
      simp only [getBit] at hold
      rw [hold]
      by_cases hlt' : i < bits.length
      · rw [List.getElem?_append_left hlt']
      · have h1 : bits[i]? = none := List.getElem?_eq_none (by omega)
        have h2 : (bits ++ [bit])[i]? = none := List.getElem?_eq_none (by
          simp; 
          have : i ≠ bits.length := by intro h; subst h; exact hi8 rfl
          omega)
        rw [h1, h2]

theorem packBits_inv {packedDim : Nat} (new : List Nat) :
    ∀ {bits : List Nat} {st : List Nat × Nat}, PackInv packedDim bits st →
    (∀ b ∈ new, b = 0 ∨ b = 1) → (bits ++ new).length ≤ 8 * packedDim →
    ∃ st', new.foldlM packBit st = .ok st' ∧ PackInv packedDim (bits ++ new) st' := by
  induction new with
  | nil =>
    intro bits st h _ _
    exact ⟨st, rfl, by simpa using h⟩
  | cons b new ih =>
    intro bits st h hb hlen
    obtain ⟨st1, e1, h1⟩ := packBit_inv h (hb b (by simp)) (by simp at hlen; omega)
    obtain ⟨st2, e2, h2⟩ := ih h1 (fun x hx => hb x (by simp [hx])) (by simpa using hlen)
    refine ⟨st2, ?_, by simpa using h2⟩
    rw [List.foldlM_cons, e1]
    exact e2

theorem packBits_overflow {packedDim : Nat} (new : List Nat) :
    ∀ {bits : List Nat} {st : List Nat × Nat}, PackInv packedDim bits st →
    (∀ b ∈ new, b = 0 ∨ b = 1) → bits.length ≤ 8 * packedDim → 8 * packedDim < (bits ++ new).length →
    new.foldlM packBit st = .error .panic := by
  induction new with
  | nil => intro bits st h _ _ h2; simp at h2; omega
  | cons b new ih =>
    intro bits st h hb hle hlen
    by_cases hroom : bits.length < 8 * packedDim
    · obtain ⟨st1, e1, h1⟩ := packBit_inv h (hb b (by simp)) hroom
      rw [List.foldlM_cons, e1]
      exact ih h1 (fun x hx => hb x (by simp [hx])) (by simp; omega) (by simpa using hlen)
    · rw [List.foldlM_cons]
      have : packBit st b = .error .panic := by
        obtain ⟨hl, hi, _, _⟩ := h
        simp only [packBit]
        rw [if_neg (by omega)]
      rw [this]
      rfl

/-- bits emitted for one bucket -/
def bucketBits (nbits bucket : Nat) : List Nat := (List.range nbits).map fun b => (bucket >>> b) &&& 1

theorem packBucket_eq (nbits : Nat) (st : List Nat × Nat) (bucket : Nat) :
    packBucket nbits st bucket = (bucketBits nbits bucket).foldlM packBit st := by
  simp [packBucket, bucketBits, List.foldlM_map]

theorem foldlM_packBucket {α : Type _} (nbits : Nat) (f : α → Nat) (row : List α) :
    ∀ st, row.foldlM (fun st val => packBucket nbits st (f val)) st =
      (row.flatMap fun v => bucketBits nbits (f v)).foldlM packBit st := by
  induction row with
  | nil => intro st; rfl
  | cons a row ih =>
    intro st
    rw [List.foldlM_cons, List.flatMap_cons, List.foldlM_append, packBucket_eq]
    congr 1
    funext st'
    exact ih st'

theorem bucketBits_bit (nbits bucket : Nat) : ∀ b ∈ bucketBits nbits bucket, b = 0 ∨ b = 1 := by
  intro b hb
  simp only [bucketBits, List.mem_map] at hb
  obtain ⟨k, _, rfl⟩ := hb
  rw [Nat.and_one_is_mod]
  omega

theorem flatBits_length {α : Type _} (nbits : Nat) (f : α → Nat) (row : List α) :
    (row.flatMap fun v => bucketBits nbits (f v)).length = row.length * nbits := by
  induction row with
  | nil => simp
  | cons a row ih => rw [List.flatMap_cons, List.length_append, ih]; simp [bucketBits, Nat.succ_mul]; omega

theorem flatBits_get {α : Type _} (nbits : Nat) (f : α → Nat) (row : List α) :
    ∀ (j b : Nat) (hj : j < row.length), b < nbits →
    (row.flatMap fun v => bucketBits nbits (f v))[j * nbits + b]? =
      some ((f row[j] >>> b) &&& 1) := by
  induction row with
  | nil => intro j b hj; simp at hj
  | cons a row ih =>
    intro j b hj hb
    rw [List.flatMap_cons]
    cases j with
    | zero =>
      rw [List.getElem?_append_left (by simp [bucketBits]; exact hb)]
      simp [bucketBits, hb]
    | succ j =>
      rw [List.getElem?_append_right (by simp [bucketBits, Nat.succ_mul]; omega)]
      have : (j + 1) * nbits + b - (bucketBits nbits (f a)).length = j * nbits + b := by
        simp [bucketBits, Nat.succ_mul]; omega
      rw [this, ih j b (by simpa using hj) hb]
      simp

theorem mod8_of (x : Nat) (h : x % 8 = 0) : 8 * (x / 8) = x := by omega

/-- The encoder succeeds on aligned rows, and its output has the buckets' bits. -/
theorem quantizeRow_ok {α : Type _} [LinearOrder α] (nbits : Nat) (cutoffs row : List α)
    (hal : row.length * nbits % 8 = 0) :
    ∃ packed, quantizeRow nbits cutoffs row = .ok packed ∧
      packed.length = row.length * nbits / 8 ∧ (∀ b ∈ packed, b < 256) ∧
      ∀ (j b : Nat) (hj : j < row.length), b < nbits →
        getBit packed (j * nbits + b) = (bucketOf cutoffs row[j]).testBit b := by
  obtain ⟨st, e, h⟩ := packBits_inv (packedDim := row.length * nbits / 8)
    (row.flatMap fun v => bucketBits nbits (bucketOf cutoffs v)) (packInv_init _)
    (by
      intro b hb
      simp only [List.mem_flatMap] at hb
      obtain ⟨v, _, hb⟩ := hb
      exact bucketBits_bit _ _ b hb)
    (by rw [List.nil_append, flatBits_length, mod8_of _ hal]; exact Nat.le_refl _)
  refine ⟨st.1, ?_, h.len, h.lt, ?_⟩
  · simp only [quantizeRow, foldlM_packBucket, e]
    rfl
  · intro j b hj hb
    rw [h.bit, List.nil_append, flatBits_get nbits _ row j b hj hb]
    simp only [Option.some.injEq]
    rw [Nat.testBit, ← Nat.and_comm]
    have : (1 &&& bucketOf cutoffs row[j] >>> b) = (bucketOf cutoffs row[j] >>> b) % 2 := by
      rw [Nat.and_comm, Nat.and_one_is_mod]
    rw [this]
    rcases Nat.mod_two_eq_zero_or_one (bucketOf cutoffs row[j] >>> b) with h | h <;> simp [h]

theorem quantizeRow_panic {α : Type _} [LinearOrder α] (nbits : Nat) (cutoffs row : List α)
    (hal : row.length * nbits % 8 ≠ 0) : quantizeRow nbits cutoffs row = .error .panic := by
  have := packBits_overflow (packedDim := row.length * nbits / 8)
    (row.flatMap fun v => bucketBits nbits (bucketOf cutoffs v)) (packInv_init _)
    (by
      intro b hb
      simp only [List.mem_flatMap] at hb
      obtain ⟨v, _, hb⟩ := hb
      exact bucketBits_bit _ _ b hb)
    (by simp)
    (by rw [List.nil_append, flatBits_length]; omega)
  simp only [quantizeRow, foldlM_packBucket, this]
  rfl

/-! ### The decoder -/

/-- The sequence of table indices the decoder visits. -/
def decodedKeys (nbits : Nat) (packed : List Nat) : List Nat :=
  packed.flatMap fun v => (List.range (8 / nbits)).map (keyOf nbits v)

theorem decodedKeys_get {nbits : Nat} (h0 : nbits ≠ 0) (h8 : 8 % nbits = 0) (packed : List Nat) :
    ∀ (j : Nat), j < packed.length * (8 / nbits) →
    (decodedKeys nbits packed)[j]? = some ((List.range nbits).foldl
      (fun acc b => acc + if getBit packed (j * nbits + b) then 2 ^ b else 0) 0) := by
  have hk : 8 / nbits * nbits = 8 := Nat.div_mul_cancel (Nat.dvd_of_mod_eq_zero h8)
  have hkpos : 0 < 8 / nbits := by
    rcases Nat.eq_zero_or_pos (8 / nbits) with h | h
    · rw [h] at hk; omega
    · exact h
  induction packed with
  | nil => intro j hj; simp at hj
  | cons v packed ih =>
    intro j hj
    rw [decodedKeys, List.flatMap_cons]
    by_cases hjk : j < 8 / nbits
    · rw [List.getElem?_append_left (by simpa using hjk)]
      simp only [List.getElem?_map, List.getElem?_range hjk, Option.map_some, Option.some.injEq]
      unfold keyOf
      have hcong : ∀ b ∈ List.range nbits, getBit (v :: packed) (j * nbits + b) =
          v.testBit (7 - (j * nbits + b)) := by
        intro b hb
        have hb' : b < nbits := List.mem_range.1 hb
        have hlt : j * nbits + b < 8 := by
          have : (j + 1) * nbits ≤ 8 / nbits * nbits := Nat.mul_le_mul_right _ hjk
          rw [Nat.succ_mul] at this
          omega
        have e1 : (j * nbits + b) / 8 = 0 := by omega
        have e2 : (j * nbits + b) % 8 = j * nbits + b := by omega
        simp [getBit, e1, e2]
      refine foldl_ext' ?_
      intro acc b hb
      rw [hcong b hb]
    · rw [List.getElem?_append_right (by simp; omega)]
      have hj' : j - 8 / nbits < packed.length * (8 / nbits) := by
        simp only [List.length_cons, Nat.succ_mul] at hj
        omega
      have := ih (j - 8 / nbits) hj'
      rw [decodedKeys] at this
      simp only [List.length_map, List.length_range]
      rw [this]
      congr 1
      refine foldl_ext' ?_
      intro acc b hb
      have hsub : (j - 8 / nbits) * nbits = j * nbits - 8 := by
        rw [Nat.sub_mul, hk]
      have hge : 8 ≤ j * nbits := by
        calc 8 = 8 / nbits * nbits := hk.symm
          _ ≤ j * nbits := Nat.mul_le_mul_right _ (by omega)
      have hbit : getBit packed ((j - 8 / nbits) * nbits + b) = getBit (v :: packed) (j * nbits + b) := by
        rw [hsub]
        simp only [getBit]
        have e1 : (j * nbits + b) / 8 = (j * nbits - 8 + b) / 8 + 1 := by omega
        have e2 : (j * nbits + b) % 8 = (j * nbits - 8 + b) % 8 := by omega
        rw [e1, e2]
        simp
      rw [hbit]

theorem decodedKeys_length (nbits : Nat) (packed : List Nat) :
    (decodedKeys nbits packed).length = packed.length * (8 / nbits) := by
  induction packed with
  | nil => simp [decodedKeys]
  | cons v packed ih =>
    have : decodedKeys nbits (v :: packed) =
      (List.range (8 / nbits)).map (keyOf nbits v) ++ decodedKeys nbits packed := rfl
    rw [this, List.length_append, ih]
    simp [Nat.succ_mul]; omega

/-- Decoding an encoded row gives the buckets. -/
theorem decodedKeys_quantizeRow {α : Type _} [LinearOrder α] {nbits : Nat} (h0 : nbits ≠ 0)
    (h8 : 8 % nbits = 0) (cutoffs row : List α) (hal : row.length * nbits % 8 = 0)
    (hcut : cutoffs.length < 2 ^ nbits) :
    ∃ packed, quantizeRow nbits cutoffs row = .ok packed ∧
      packed.length = row.length * nbits / 8 ∧ (∀ b ∈ packed, b < 256) ∧
      decodedKeys nbits packed = row.map (bucketOf cutoffs) := by
  obtain ⟨packed, e, hlen, hlt, hbit⟩ := quantizeRow_ok nbits cutoffs row hal
  refine ⟨packed, e, hlen, hlt, ?_⟩
  have hk : 8 / nbits * nbits = 8 := Nat.div_mul_cancel (Nat.dvd_of_mod_eq_zero h8)
  have hnum : packed.length * (8 / nbits) = row.length := by
    have h1 : packed.length * (8 / nbits) * nbits = row.length * nbits := by
      rw [Nat.mul_assoc, hk, hlen, Nat.mul_comm, mod8_of _ hal]
    exact Nat.eq_of_mul_eq_mul_right (Nat.pos_of_ne_zero h0) h1
  apply List.ext_getElem?
  intro j
  by_cases hj : j < row.length
  · rw [decodedKeys_get h0 h8 packed j (by omega)]
    rw [List.getElem?_map, List.getElem?_eq_getElem hj, Option.map_some]
    congr 1
    have hb : bucketOf cutoffs row[j] < 2 ^ nbits :=
      Nat.lt_of_le_of_lt (List.length_filter_le _ _) hcut
    rw [← sum_bits nbits (bucketOf cutoffs row[j]) hb]
    refine foldl_ext' ?_
    intro acc b hbm
    rw [hbit j b hj (List.mem_range.1 hbm)]
  · rw [List.getElem?_eq_none (by rw [decodedKeys_length]; omega),
      List.getElem?_eq_none (by simp; omega)]

theorem foldlM_flatMap {σ β γ : Type _} {m : Type _ → Type _} [Monad m] [LawfulMonad m]
    (f : σ → γ → m σ) (g : β → List γ) (l : List β) :
    ∀ s, l.foldlM (fun s b => (g b).foldlM f s) s = (l.flatMap g).foldlM f s := by
  induction l with
  | nil => intro s; rfl
  | cons b l ih =>
    intro s
    rw [List.foldlM_cons, List.flatMap_cons, List.foldlM_append]
    congr 1
    funext s'
    exact ih s'

/-- The decoding fold over table indices. -/
theorem decompressIndices_ok {α : Type _} [Add α] (dim : Nat) (centroid weights : List α)
    (hc : centroid.length = dim) (keys : List Nat) :
    ∀ out : List α, (∀ k ∈ keys, k < weights.length) → out.length + keys.length = dim →
    ∃ res, decompressIndices dim centroid weights out keys = .ok res ∧ res.length = dim ∧
      (∀ i, i < out.length → res[i]? = out[i]?) ∧
      ∀ (i : Nat) (hi : i < keys.length), ∃ cv wv,
        centroid[out.length + i]? = some cv ∧ weights[keys[i]]? = some wv ∧
        res[out.length + i]? = some (cv + wv) := by
  induction keys with
  | nil =>
    intro out _ hlen
    exact ⟨out, rfl, by simpa using hlen, fun i _ => rfl, fun i hi => by simp at hi⟩
  | cons k keys ih =>
    intro out hk hlen
    have hol : out.length < dim := by simp at hlen; omega
    have hcl : out.length < centroid.length := by omega
    have hkw : k < weights.length := hk k (by simp)
    obtain ⟨res, e, hrl, hold, hnew⟩ := ih (out ++ [centroid[out.length] + weights[k]])
      (fun x hx => hk x (by simp [hx])) (by simp at hlen ⊢; omega)
    refine ⟨res, ?_, hrl, ?_, ?_⟩
    · rw [← e]
      simp only [decompressIndices, List.foldlM_cons, hol, if_true]
      simp [idx, List.getElem?_eq_getElem hcl, List.getElem?_eq_getElem hkw]
      rfl
    · intro i hi
      rw [hold i (by simp; omega), List.getElem?_append_left hi]
    · intro i hi
      cases i with
      | zero =>
        refine ⟨centroid[out.length], weights[k], by simp [List.getElem?_eq_getElem hcl],
          by simp [List.getElem?_eq_getElem hkw], ?_⟩
        rw [Nat.add_zero, hold out.length (by simp)]
        simp
      | succ i =>
        obtain ⟨cv, wv, h1, h2, h3⟩ := hnew i (by simpa using hi)
        have e : (out ++ [centroid[out.length] + weights[k]]).length + i = out.length + (i + 1) := by
          simp; omega
        rw [e] at h1 h3
        exact ⟨cv, wv, h1, by simpa using h2, h3⟩

/-- The table walk of `decompressRow` visits `decodedKeys`. -/
theorem table_walk {α : Type _} [Add α] {nbits dim : Nat} (h0 : nbits ≠ 0) (h8 : 8 % nbits = 0)
    (centroid weights : List α) (packed : List Nat) (hlt : ∀ b ∈ packed, b < 256) :
    ∀ out : List α,
    packed.foldlM (fun out byteVal => do
      let reversed ← idx ((List.range 256).map (revByte nbits)) byteVal
      let indices ← idx ((List.range 256).map (lookupRow nbits)) reversed
      decompressIndices dim centroid weights out indices) out
    = decompressIndices dim centroid weights out (decodedKeys nbits packed) := by
  induction packed with
  | nil => intro out; rfl
  | cons v packed ih =>
    intro out
    have hv : v < 256 := hlt v (by simp)
    have e1 : idx ((List.range 256).map (revByte nbits)) v = .ok (revByte nbits v) := by
      simp [idx, hv]
    have e2 : idx ((List.range 256).map (lookupRow nbits)) (revByte nbits v) =
        .ok (lookupRow nbits (revByte nbits v)) := by
      simp [idx, revByte_lt]
    rw [List.foldlM_cons]
    have hstep : (do
      let reversed ← idx ((List.range 256).map (revByte nbits)) v
      let indices ← idx ((List.range 256).map (lookupRow nbits)) reversed
      decompressIndices dim centroid weights out indices) =
      decompressIndices dim centroid weights out ((List.range (8 / nbits)).map (keyOf nbits v)) := by
      rw [e1]
      simp only [Bind.bind, Except.bind]
      rw [e2]
      simp only [table_all h0 h8 hv]
    rw [hstep]
    have : decodedKeys nbits (v :: packed) =
      (List.range (8 / nbits)).map (keyOf nbits v) ++ decodedKeys nbits packed := rfl
    rw [this]
    conv => rhs; rw [decompressIndices, List.foldlM_append]
    show decompressIndices dim centroid weights out _ >>= _ = decompressIndices dim centroid weights out _ >>= _
    congr 1
    funext out'
    exact ih (fun b hb => hlt b (by simp [hb])) out'

end NextPlaid.Codec
