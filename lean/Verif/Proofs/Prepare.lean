import Verif.Model.Prepare
import Verif.Spec.Prepare
import Verif.Proofs.Encode

/-! Lemmas about `Model/Prepare`. -/

namespace NextPlaid.Prepare

open NextPlaid.Spec

variable {K T : Type}

theorem idx_ok {α : Type} {l : List α} {i : Nat} {a : α} (h : l[i]? = some a) : idx l i = .ok a := by unfold idx; rw [h]

/-- Tensors of which the first entries are written. -/
def mk (k : Kind) (w : List (Nat × Nat × Nat)) (n : Nat) : Arrays :=
  ⟨w.map (·.1) ++ List.replicate n (if k.expand then k.maskId else k.padId), w.map (·.2.1) ++ List.replicate n (if k.expand then 1 else 0),
    w.map (·.2.2) ++ List.replicate n 0⟩

theorem blank_mk (k : Kind) (n : Nat) : blank k n = mk k [] n := by simp [blank, mk]

theorem set_end {α : Type} (l : List α) (x y : α) (n : Nat) : (l ++ List.replicate (n + 1) x).set l.length y = (l ++ [y]) ++ List.replicate n x := by
  rw [List.set_append_right _ _ (Nat.le_refl _)]
  simp [List.replicate_succ]

theorem put_mk (k : Kind) (w : List (Nat × Nat × Nat)) (n i m t : Nat) : put (mk k w (n + 1)) w.length i m t = .ok (mk k (w ++ [(i, m, t)]) n) := by
  unfold put
  rw [if_pos (by simp [mk])]
  congr 1
  have h (f : Nat × Nat × Nat → Nat) (x y : Nat) : (w.map f ++ List.replicate (n + 1) x).set w.length y = (w.map f ++ [y]) ++ List.replicate n x := by
    have := set_end (w.map f) x y n
    rwa [List.length_map] at this
  simp only [mk, h, List.map_append, List.map_cons, List.map_nil]

/-- The document is read as these cells. -/
def Reads (ids : List Nat) (maskAt : Nat → Res Nat) (types : List Nat) (cells : List (Nat × Nat × Nat)) : Prop :=
  ∀ s c, cells[s]? = some c → idx ids s = .ok c.1 ∧ maskAt s = .ok c.2.1 ∧ idx types s = .ok c.2.2

theorem copy_ok {k : Kind} {ids : List Nat} {maskAt : Nat → Res Nat} {types : List Nat} {cells : List (Nat × Nat × Nat)} (h : Reads ids maskAt types cells)
    {w : List (Nat × Nat × Nat)} {n src : Nat} {toks : List Nat} {c : Nat × Nat × Nat} (hc : cells[src]? = some c) :
    copy ids maskAt types (mk k w (n + 1), toks) w.length src = .ok (mk k (w ++ [c]) n, toks ++ [c.1]) := by
  obtain ⟨h1, h2, h3⟩ := h src c hc
  unfold copy
  rw [h1, h2, h3]
  show (put (mk k w (n + 1)) w.length c.1 c.2.1 c.2.2 >>= _) = _
  rw [put_mk]
  rfl

theorem copyLoop_ok {k : Kind} {ids : List Nat} {maskAt : Nat → Res Nat} {types : List Nat} {cells : List (Nat × Nat × Nat)} (h : Reads ids maskAt types cells)
    (r : Nat) : ∀ (n src : Nat) (w : List (Nat × Nat × Nat)) (toks : List Nat), src + n ≤ cells.length →
    copyLoop ids maskAt types n w.length src (mk k w (n + r), toks) =
      .ok (mk k (w ++ (cells.drop src).take n) r, toks ++ ((cells.drop src).take n).map (·.1))
  | 0, src, w, toks, _ => by simp [copyLoop]
  | n + 1, src, w, toks, hl => by
    have hs : src < cells.length := by omega
    have hc : cells[src]? = some cells[src] := List.getElem?_eq_getElem hs
    have hd : cells.drop src = cells[src] :: cells.drop (src + 1) := List.drop_eq_getElem_cons hs
    unfold copyLoop
    rw [show n + 1 + r = n + r + 1 by omega, copy_ok h hc]
    show copyLoop ids maskAt types n (w.length + 1) (src + 1) _ = _
    have hw : w.length + 1 = (w ++ [cells[src]]).length := by simp
    rw [hw, copyLoop_ok h r n (src + 1) _ _ (by omega), hd, List.take_succ_cons, List.map_cons, List.append_assoc, List.append_assoc]
    rfl

/-- The row of a document, without padding. -/
def rowCells (k : Kind) (pre : Nat) (cells : List (Nat × Nat × Nat)) : List (Nat × Nat × Nat) := sequence k.maxLen (pre, 1, 0) cells

theorem shorten_length {α : Type} (n : Nat) (l : List α) (hn : 1 ≤ n) : (shorten n l).length = min l.length n := by
  unfold shorten
  split
  · omega
  · rename_i h
    have hne : l ≠ [] := by rintro rfl; simp at h
    rw [List.length_append, List.length_take, List.getLast?_eq_some_getLast hne]
    simp only [Option.toList_some, List.length_cons, List.length_nil]
    omega

theorem withPrefix_length {α : Type} (p : α) (l : List α) : (withPrefix p l).length = l.length + 1 := by cases l <;> simp [withPrefix]

theorem sequence_length {α : Type} (m : Nat) (p : α) (l : List α) (hm : 2 ≤ m) : (sequence m p l).length = min l.length (m - 1) + 1 := by
  unfold sequence
  rw [withPrefix_length, shorten_length _ _ (by omega)]

theorem sequence_map {α β : Type} (f : α → β) (m : Nat) (p : α) (l : List α) : (sequence m p l).map f = sequence m (f p) (l.map f) := by
  have h1 : (shorten (m - 1) l).map f = shorten (m - 1) (l.map f) := by
    unfold shorten
    rw [List.length_map]
    split
    · rfl
    · rw [List.map_append, List.map_take, List.getLast?_map]
      cases l.getLast? <;> rfl
  unfold sequence
  rw [← h1]
  cases shorten (m - 1) l <;> rfl

theorem finalLen_eq (k : Kind) (pre : Nat) (cells : List (Nat × Nat × Nat)) (hm : 3 ≤ k.maxLen) : (rowCells k pre cells).length = finalLen k cells.length := by
  unfold rowCells finalLen
  rw [sequence_length _ _ _ (by omega)]
  split <;> omega

theorem row_ok {k : Kind} {pre len : Nat} {ids : List Nat} {maskAt : Nat → Res Nat} {types : List Nat} {cells : List (Nat × Nat × Nat)}
    (hm : 3 ≤ k.maxLen) (h : Reads ids maskAt types cells) (h1 : 1 ≤ cells.length) {w : List (Nat × Nat × Nat)} {i r : Nat} (hw : w.length = i * len) :
    row k pre len (mk k w ((rowCells k pre cells).length + r)) i cells.length ids maskAt types =
      .ok (mk k (w ++ rowCells k pre cells) r, (rowCells k pre cells).map (·.1)) := by
  have hl := finalLen_eq k pre cells hm
  cases hcs : cells with
  | nil => rw [hcs] at h1; simp at h1
  | cons c0 rest =>
    rw [← hcs]
    have hc0 : cells[0]? = some c0 := by rw [hcs]; rfl
    have hl2 : 2 ≤ (rowCells k pre cells).length := by rw [hl]; unfold finalLen; split <;> omega
    obtain ⟨n, hn⟩ : ∃ n, (rowCells k pre cells).length = n + 2 := ⟨(rowCells k pre cells).length - 2, by omega⟩
    have hlen2 : (w ++ [c0] ++ [(pre, 1, 0)]).length = i * len + 2 := by simp [hw]
    have hlen1 : (w ++ [c0]).length = i * len + 1 := by simp [hw]
    unfold row
    rw [hn, ← hw, show n + 2 + r = (n + 1 + r) + 1 by omega, copy_ok h hc0]
    show (put (mk k (w ++ [c0]) (n + 1 + r)) (w.length + 1) pre 1 0 >>= _) = _
    have hw1 : w.length + 1 = (w ++ [c0]).length := by simp
    rw [hw1, show n + 1 + r = (n + r) + 1 by omega, put_mk]
    have hd1 : cells.drop 1 = rest := by rw [hcs]; rfl
    have hwp : (w ++ [c0]).length + 1 = (w ++ [c0] ++ [(pre, 1, 0)]).length := by simp
    by_cases hcut : cells.length > k.maxLen - 1
    · have hfin : n + 2 = k.maxLen := by rw [← hn, hl]; unfold finalLen; rw [if_pos hcut]
      have hcont : k.maxLen - 1 - 1 - 1 = n - 1 := by omega
      have hn1 : n = (n - 1) + 1 := by omega
      rw [if_pos hcut]
      show (copyLoop ids maskAt types (k.maxLen - 1 - 1 - 1) (w.length + 2) 1 (mk k (w ++ [c0] ++ [(pre, 1, 0)]) (n + r), ([] ++ [c0.1]) ++ [pre]) >>= _) = _
      have e2 : w.length + 2 = (w ++ [c0] ++ [(pre, 1, 0)]).length := by simp
      rw [hcont, e2, show n + r = (n - 1) + (1 + r) by omega, copyLoop_ok h (1 + r) (n - 1) 1 _ _ (by omega)]
      show (if cells.length > k.maxLen - 1 then copy ids maskAt types (mk k (w ++ [c0] ++ [(pre, 1, 0)] ++ (cells.drop 1).take (n - 1)) (1 + r), _)
        ((w ++ [c0] ++ [(pre, 1, 0)]).length + (n - 1)) _ else _) = _
      rw [if_pos hcut]
      obtain ⟨cl, hcl⟩ : ∃ cl, cells[cells.length - 1]? = some cl := ⟨_, List.getElem?_eq_getElem (by omega)⟩
      have e3 : (w ++ [c0] ++ [(pre, 1, 0)]).length + (n - 1) = (w ++ [c0] ++ [(pre, 1, 0)] ++ (cells.drop 1).take (n - 1)).length := by
        simp only [List.length_append, List.length_cons, List.length_nil, List.length_take, List.length_drop]; omega
      rw [e3, show 1 + r = r + 1 by omega, copy_ok h hcl]
      have hrow : rowCells k pre cells = c0 :: (pre, 1, 0) :: (rest.take (n - 1) ++ [cl]) := by
        unfold rowCells sequence shorten
        rw [if_neg (by omega), List.getLast?_eq_getElem?, hcl, hcs, show k.maxLen - 1 - 1 = (n - 1) + 1 by omega]
        rfl
      rw [hrow, hd1]
      simp
    · have hfin : n + 2 = cells.length + 1 := by rw [← hn, hl]; unfold finalLen; rw [if_neg hcut]
      rw [if_neg hcut]
      show (copyLoop ids maskAt types (cells.length - 1) (w.length + 2) 1 (mk k (w ++ [c0] ++ [(pre, 1, 0)]) (n + r), ([] ++ [c0.1]) ++ [pre]) >>= _) = _
      have e2 : w.length + 2 = (w ++ [c0] ++ [(pre, 1, 0)]).length := by simp
      rw [e2, show n + r = (cells.length - 1) + r by omega, copyLoop_ok h r (cells.length - 1) 1 _ _ (by omega)]
      have hrow : rowCells k pre cells = c0 :: (pre, 1, 0) :: rest := by
        unfold rowCells sequence shorten
        rw [if_pos (by omega), hcs]
        rfl
      have ht : rest.take (cells.length - 1) = rest := by rw [hcs]; simp
      rw [hrow, hd1, ht]
      show (if cells.length > k.maxLen - 1 then _ else Except.ok (mk k (w ++ [c0] ++ [(pre, 1, 0)] ++ rest) r, ([] ++ [c0.1]) ++ [pre] ++ rest.map (·.1))) = _
      rw [if_neg hcut]
      simp

/-- The row of a document, with padding. -/
def padded (k : Kind) (pre len : Nat) (cells : List (Nat × Nat × Nat)) : List (Nat × Nat × Nat) :=
  rowCells k pre cells ++
    List.replicate (len - (rowCells k pre cells).length) (if k.expand then k.maskId else k.padId, if k.expand then 1 else 0, 0)

theorem mk_fill (k : Kind) (w : List (Nat × Nat × Nat)) (n r : Nat) :
    mk k w (n + r) = mk k (w ++ List.replicate n (if k.expand then k.maskId else k.padId, if k.expand then 1 else 0, 0)) r := by
  unfold mk
  simp only [List.replicate_add, List.map_append, List.map_replicate, List.append_assoc]

/-- What a document is to the loop over rows. -/
def AsCells (d : Nat × List Nat × (Nat → Res Nat) × List Nat) (cells : List (Nat × Nat × Nat)) : Prop :=
  d.1 = cells.length ∧ 1 ≤ cells.length ∧ Reads d.2.1 d.2.2.1 d.2.2.2 cells

theorem rows_ok (k : Kind) (pre len : Nat) (hm : 3 ≤ k.maxLen) : ∀ (ds : List (Nat × List Nat × (Nat → Res Nat) × List Nat)) (cs : List (List (Nat × Nat × Nat)))
    (i : Nat) (w : List (Nat × Nat × Nat)) (toks : List (List Nat)), List.Forall₂ AsCells ds cs → w.length = i * len →
    (∀ c ∈ cs, (rowCells k pre c).length ≤ len) →
    rows k pre len i ds (mk k w (cs.length * len), toks) =
      .ok (mk k (w ++ cs.flatMap (padded k pre len)) 0, toks ++ cs.map fun c => (rowCells k pre c).map (·.1))
  | [], [], i, w, toks, _, _, _ => by simp [rows]
  | [], _ :: _, _, _, _, h, _, _ => by cases h
  | _ :: _, [], _, _, _, h, _, _ => by cases h
  | d :: ds, c :: cs, i, w, toks, h, hw, hlen => by
    obtain ⟨⟨hd1, hd2, hd3⟩, hrest⟩ := List.forall₂_cons.mp h
    obtain ⟨real, ids, maskAt, types⟩ := d
    simp only at hd1 hd3
    subst hd1
    have hc := hlen c (List.mem_cons_self ..)
    unfold rows
    have e1 : (c :: cs).length * len = (rowCells k pre c).length + ((len - (rowCells k pre c).length) + cs.length * len) := by
      simp only [List.length_cons, Nat.succ_mul]; omega
    rw [e1, row_ok hm hd3 hd2 hw]
    show rows k pre len (i + 1) ds (mk k (w ++ rowCells k pre c) ((len - (rowCells k pre c).length) + cs.length * len), toks ++ [(rowCells k pre c).map (·.1)]) = _
    rw [mk_fill, List.append_assoc]
    rw [rows_ok k pre len hm ds cs (i + 1) _ _ hrest ?_ fun x hx => hlen x (List.mem_cons_of_mem _ hx)]
    · simp [padded]
    · simp only [List.length_append, List.length_replicate, Nat.succ_mul]; omega

theorem padded_length (k : Kind) (pre len : Nat) (c : List (Nat × Nat × Nat)) (h : (rowCells k pre c).length ≤ len) : (padded k pre len c).length = len := by
  simp [padded]; omega

theorem rowOf_flatMap {α β : Type} (f : α → List β) (len : Nat) : ∀ (l : List α), (∀ a ∈ l, (f a).length = len) → ∀ (i : Nat) (a : α), l[i]? = some a →
    rowOf (l.flatMap f) len i = f a
  | [], _, _, _, h => by simp at h
  | x :: l, hl, 0, a, h => by
    simp only [List.getElem?_cons_zero, Option.some.injEq] at h
    subst h
    have := hl x (List.mem_cons_self ..)
    unfold rowOf
    rw [List.flatMap_cons, Nat.zero_mul, List.drop_zero, List.take_left' this]
  | x :: l, hl, i + 1, a, h => by
    have hx := hl x (List.mem_cons_self ..)
    have := rowOf_flatMap f len l (fun b hb => hl b (List.mem_cons_of_mem _ hb)) i a (by simpa using h)
    unfold rowOf at this ⊢
    rw [List.flatMap_cons, ← this, Nat.succ_mul, Nat.add_comm, ← List.drop_drop]
    congr 2
    rw [← hx, List.drop_left]

theorem rowOf_map {α β : Type} (f : α → β) (l : List α) (len i : Nat) : rowOf (l.map f) len i = (rowOf l len i).map f := by
  unfold rowOf; rw [List.map_take, List.map_drop]

/-! ### Lengths -/

theorem foldl_max_ge : ∀ (l : List Nat) (a : Nat), a ≤ l.foldl max a ∧ ∀ x ∈ l, x ≤ l.foldl max a
  | [], a => by simp
  | y :: l, a => by
    obtain ⟨h1, h2⟩ := foldl_max_ge l (max a y)
    refine ⟨by simp only [List.foldl_cons]; omega, ?_⟩
    intro x hx
    simp only [List.foldl_cons]
    rcases List.mem_cons.mp hx with rfl | hx
    · omega
    · exact h2 x hx

theorem foldl_max_le (b : Nat) : ∀ (l : List Nat) (a : Nat), a ≤ b → (∀ x ∈ l, x ≤ b) → l.foldl max a ≤ b
  | [], a, h, _ => h
  | y :: l, a, h, hl => by
    simp only [List.foldl_cons]
    have := hl y (List.mem_cons_self ..)
    exact foldl_max_le b l _ (by omega) fun x hx => hl x (List.mem_cons_of_mem _ hx)

theorem batchLen_ge (k : Kind) (lens : List Nat) (pad : Option Nat) (hm : 1 ≤ k.maxLen) {n : Nat} (hn : n ∈ lens) : effective k n ≤ batchLen k lens pad := by
  have h1 := (foldl_max_ge (lens.map (effective k)) 0).2 _ (List.mem_map.mpr ⟨n, hn, rfl⟩)
  unfold batchLen
  simp only
  split
  · unfold effective; split <;> omega
  · cases pad with
    | none => exact h1
    | some p => simp only; omega

theorem batchLen_le (k : Kind) (lens : List Nat) (pad : Option Nat) (hm : 1 ≤ k.maxLen) : batchLen k lens pad ≤ k.maxLen := by
  have h1 := foldl_max_le k.maxLen (lens.map (effective k)) 0 (by omega) (by
    intro x hx
    obtain ⟨n, _, rfl⟩ := List.mem_map.mp hx
    unfold effective; split <;> omega)
  unfold batchLen
  simp only
  split
  · omega
  · cases pad with
    | none => exact h1
    | some p => simp only; omega

theorem batchLen_expand (k : Kind) (lens : List Nat) (pad : Option Nat) (h : k.expand = true) : batchLen k lens pad = k.maxLen := by
  unfold batchLen; simp [h]

end NextPlaid.Prepare
