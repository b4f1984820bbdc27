import Verif.Model.Index
import Mathlib.Tactic.Common

/-! List lemmas used for the on-disk index. -/

namespace NextPlaid.Index

theorem mapM_ok {α β : Type} (f : α → Res β) (g : α → β) :
    ∀ (l : List α), (∀ x ∈ l, f x = .ok (g x)) → l.mapM f = .ok (l.map g)
  | [], _ => rfl
  | a :: l, h => by
    rw [List.mapM_cons, h a (by simp), mapM_ok f g l (fun x hx => h x (by simp [hx]))]
    rfl

/-! ### sort + dedup -/

theorem mem_dedupAdj (x : Int) : ∀ (l : List Int), x ∈ dedupAdj l ↔ x ∈ l
  | [] => by simp [dedupAdj]
  | [a] => by simp [dedupAdj]
  | a :: b :: l => by
    rw [dedupAdj]
    split
    · next h => rw [mem_dedupAdj x (b :: l)]; subst h; simp
    · rw [List.mem_cons, mem_dedupAdj x (b :: l), List.mem_cons (a := x) (b := a)]

theorem dedupAdj_sorted : ∀ (l : List Int), l.Pairwise (· ≤ ·) → (dedupAdj l).Pairwise (· < ·)
  | [], _ => by simp [dedupAdj]
  | [a], _ => by simp [dedupAdj]
  | a :: b :: l, h => by
    rw [dedupAdj]
    have h' := List.pairwise_cons.1 h
    split
    · exact dedupAdj_sorted (b :: l) h'.2
    · next hne =>
      refine List.pairwise_cons.2 ⟨?_, dedupAdj_sorted (b :: l) h'.2⟩
      intro x hx
      rw [mem_dedupAdj] at hx
      have hab : a ≤ b := h'.1 b (by simp)
      have h2 := List.pairwise_cons.1 h'.2
      rcases List.mem_cons.1 hx with rfl | hx
      · omega
      · have := h2.1 x hx; omega

theorem strict_ext : ∀ (l₁ l₂ : List Int), l₁.Pairwise (· < ·) → l₂.Pairwise (· < ·) →
    (∀ x, x ∈ l₁ ↔ x ∈ l₂) → l₁ = l₂
  | [], [], _, _, _ => rfl
  | [], b :: l, _, _, h => by have := (h b).2 (by simp); simp at this
  | a :: l, [], _, _, h => by have := (h a).1 (by simp); simp at this
  | a :: l₁, b :: l₂, h₁, h₂, h => by
    have h₁' := List.pairwise_cons.1 h₁
    have h₂' := List.pairwise_cons.1 h₂
    have hab : a = b := by
      have ha := (h a).1 (by simp)
      have hb := (h b).2 (by simp)
      rcases List.mem_cons.1 ha with e | e
      · exact e
      · rcases List.mem_cons.1 hb with e' | e'
        · exact e'.symm
        · have := h₂'.1 a e; have := h₁'.1 b e'; omega
    subst hab
    rw [strict_ext l₁ l₂ h₁'.2 h₂'.2]
    intro x
    constructor
    · intro hx
      have := (h x).1 (by simp [hx])
      rcases List.mem_cons.1 this with e | e
      · have := h₁'.1 x hx; omega
      · exact e
    · intro hx
      have := (h x).2 (by simp [hx])
      rcases List.mem_cons.1 this with e | e
      · have := h₂'.1 x hx; omega
      · exact e

theorem mem_insertSorted (a x : Int) : ∀ (l : List Int), x ∈ insertSorted a l ↔ x = a ∨ x ∈ l
  | [] => by simp [insertSorted]
  | b :: l => by
    rw [insertSorted]
    split
    · simp
    · rw [List.mem_cons, mem_insertSorted a x l, List.mem_cons]
      exact ⟨fun h => by rcases h with h | h | h <;> simp [h], fun h => by rcases h with h | h | h <;> simp [h]⟩

theorem insertSorted_sorted (a : Int) : ∀ (l : List Int), l.Pairwise (· ≤ ·) → (insertSorted a l).Pairwise (· ≤ ·)
  | [], _ => by simp [insertSorted]
  | b :: l, h => by
    have h' := List.pairwise_cons.1 h
    rw [insertSorted]
    split
    · next hab =>
      refine List.pairwise_cons.2 ⟨?_, h⟩
      intro x hx
      rcases List.mem_cons.1 hx with rfl | hx
      · exact hab
      · exact Int.le_trans hab (h'.1 x hx)
    · next hab =>
      refine List.pairwise_cons.2 ⟨?_, insertSorted_sorted a l h'.2⟩
      intro x hx
      rcases (mem_insertSorted a x l).1 hx with rfl | hx
      · omega
      · exact h'.1 x hx

theorem sortInts_sorted : ∀ (l : List Int), (sortInts l).Pairwise (· ≤ ·)
  | [] => by simp [sortInts]
  | a :: l => insertSorted_sorted a _ (sortInts_sorted l)

theorem mem_sortInts (x : Int) : ∀ (l : List Int), x ∈ sortInts l ↔ x ∈ l
  | [] => by simp [sortInts]
  | a :: l => by rw [sortInts, mem_insertSorted, mem_sortInts x l, List.mem_cons]

/-- `sortInts` is a sorting function. -/
theorem sortInts_perm : ∀ (l : List Int), (sortInts l).Perm l
  | [] => List.Perm.refl _
  | a :: l => by
    have key : ∀ (m : List Int), (insertSorted a m).Perm (a :: m) := by
      intro m
      induction m with
      | nil => exact List.Perm.refl _
      | cons b m ih =>
        rw [insertSorted]
        split
        · exact List.Perm.refl _
        · exact (List.Perm.cons b ih).trans (List.Perm.swap a b m)
    exact (key _).trans (List.Perm.cons a (sortInts_perm l))

theorem sortDedup_sorted (l : List Int) : (sortDedup l).Pairwise (· < ·) :=
  dedupAdj_sorted _ (sortInts_sorted l)

theorem mem_sortDedup (x : Int) (l : List Int) : x ∈ sortDedup l ↔ x ∈ l := by
  unfold sortDedup
  rw [mem_dedupAdj, mem_sortInts]

theorem sortDedup_eq {l r : List Int} (hr : r.Pairwise (· < ·)) (h : ∀ x, x ∈ l ↔ x ∈ r) :
    sortDedup l = r :=
  strict_ext _ _ (sortDedup_sorted l) hr (fun x => (mem_sortDedup x l).trans (h x))

/-! ### Postings -/

variable {Pk : Type}

/-- The documents, numbered from `b`, that have a token with code `c`. -/
def postingFrom (b : Int) : List (List (Nat × Pk)) → Nat → List Int
  | [], _ => []
  | doc :: docs, c =>
    if ∃ t ∈ doc, t.1 = c then b :: postingFrom (b + 1) docs c else postingFrom (b + 1) docs c

theorem postingFrom_ge (c : Nat) : ∀ (docs : List (List (Nat × Pk))) (b x : Int),
    x ∈ postingFrom b docs c → b ≤ x ∧ x < b + docs.length
  | [], b, x, h => by simp [postingFrom] at h
  | doc :: docs, b, x, h => by
    rw [postingFrom] at h
    have key : x ∈ postingFrom (b + 1) docs c → b ≤ x ∧ x < b + (doc :: docs).length := by
      intro hx
      have := postingFrom_ge c docs (b + 1) x hx
      simp only [List.length_cons]
      omega
    split at h
    · rcases List.mem_cons.1 h with e | e
      · subst e; simp only [List.length_cons]; omega
      · exact key e
    · exact key h

theorem postingFrom_sorted (c : Nat) : ∀ (docs : List (List (Nat × Pk))) (b : Int),
    (postingFrom b docs c).Pairwise (· < ·)
  | [], b => by simp [postingFrom]
  | doc :: docs, b => by
    rw [postingFrom]
    split
    · refine List.pairwise_cons.2 ⟨?_, postingFrom_sorted c docs (b + 1)⟩
      intro x hx
      have := postingFrom_ge c docs (b + 1) x hx
      omega
    · exact postingFrom_sorted c docs (b + 1)

theorem mem_postingFrom (c : Nat) : ∀ (docs : List (List (Nat × Pk))) (b x : Int),
    x ∈ postingFrom b docs c ↔ ∃ i : Nat, x = b + i ∧ ∃ doc, docs[i]? = some doc ∧ ∃ t ∈ doc, t.1 = c
  | [], b, x => by simp [postingFrom]
  | doc :: docs, b, x => by
    have step : x ∈ postingFrom (b + 1) docs c ↔
        ∃ i : Nat, x = b + (i + 1 : Nat) ∧ ∃ doc, docs[i]? = some doc ∧ ∃ t ∈ doc, t.1 = c := by
      rw [mem_postingFrom c docs (b + 1) x]
      constructor
      · rintro ⟨i, h, r⟩; exact ⟨i, by omega, r⟩
      · rintro ⟨i, h, r⟩; exact ⟨i, by omega, r⟩
    have split0 : (∃ i : Nat, x = b + i ∧ ∃ d, (doc :: docs)[i]? = some d ∧ ∃ t ∈ d, t.1 = c) ↔
        (x = b ∧ ∃ t ∈ doc, t.1 = c) ∨
        ∃ i : Nat, x = b + (i + 1 : Nat) ∧ ∃ doc, docs[i]? = some doc ∧ ∃ t ∈ doc, t.1 = c := by
      constructor
      · rintro ⟨i, h, d, hd, r⟩
        cases i with
        | zero =>
          simp only [List.getElem?_cons_zero, Option.some.injEq] at hd
          subst hd
          exact Or.inl ⟨by omega, r⟩
        | succ i => exact Or.inr ⟨i, h, d, by simpa using hd, r⟩
      · rintro (⟨h, r⟩ | ⟨i, h, d, hd, r⟩)
        · exact ⟨0, by omega, doc, rfl, r⟩
        · exact ⟨i + 1, h, d, by simpa using hd, r⟩
    rw [split0, ← step, postingFrom]
    split
    · next h => rw [List.mem_cons]; simp only [h, and_true]
    · next h => simp only [h, and_false, false_or]

theorem postingFrom_append (c : Nat) : ∀ (l₁ l₂ : List (List (Nat × Pk))) (b : Int),
    postingFrom b (l₁ ++ l₂) c = postingFrom b l₁ c ++ postingFrom (b + l₁.length) l₂ c
  | [], l₂, b => by simp [postingFrom]
  | doc :: l₁, l₂, b => by
    have : b + 1 + (l₁.length : Int) = b + ((doc :: l₁).length : Int) := by
      simp only [List.length_cons]; omega
    rw [List.cons_append, postingFrom, postingFrom, postingFrom_append c l₁ l₂ (b + 1), this]
    split <;> rfl

theorem postingFrom_nil_of_lt (c : Nat) : ∀ (docs : List (List (Nat × Pk))) (b : Int),
    (∀ doc ∈ docs, ∀ t ∈ doc, t.1 < c) → postingFrom b docs c = []
  | [], b, _ => rfl
  | doc :: docs, b, h => by
    rw [postingFrom, if_neg, postingFrom_nil_of_lt c docs (b + 1) (fun d hd => h d (by simp [hd]))]
    rintro ⟨t, ht, e⟩
    have := h doc (by simp) t ht
    omega

theorem mem_pidsOf (pairs : List (Nat × Int)) (c : Nat) (x : Int) :
    x ∈ pidsOf pairs c ↔ (c, x) ∈ pairs := by
  unfold pidsOf
  simp only [List.mem_map, List.mem_filter, decide_eq_true_eq]
  constructor
  · rintro ⟨⟨a, b⟩, ⟨h, rfl⟩, rfl⟩; exact h
  · intro h; exact ⟨(c, x), ⟨h, rfl⟩, rfl⟩

theorem mem_newPairs (c : Nat) : ∀ (docs : List (List (Nat × Pk))) (b x : Int),
    (c, x) ∈ newPairs b (docs.map fun d => d.map (·.1)) ↔ x ∈ postingFrom b docs c
  | [], b, x => by simp [newPairs, postingFrom]
  | doc :: docs, b, x => by
    rw [List.map_cons, newPairs, List.mem_append, mem_newPairs c docs (b + 1) x, postingFrom]
    have h1 : (c, x) ∈ (doc.map (·.1)).map (fun c => (c, b)) ↔ (x = b ∧ ∃ t ∈ doc, t.1 = c) := by
      simp only [List.mem_map, Prod.mk.injEq]
      constructor
      · rintro ⟨_, ⟨t, ht, rfl⟩, hc, hx⟩; exact ⟨hx.symm, t, ht, hc⟩
      · rintro ⟨rfl, t, ht, hc⟩; exact ⟨t.1, ⟨t, ht, rfl⟩, hc, rfl⟩
    rw [h1]
    split
    · next h => rw [List.mem_cons]; simp only [h, and_true]
    · next h => simp only [h, and_false, false_or]

theorem ivfPairs_eq : ∀ (docs : List (List Nat)) (b : Int),
    ivfPairs b (docs.map List.length) docs.flatten = .ok (newPairs b docs)
  | [], b => rfl
  | doc :: docs, b => by
    rw [List.map_cons, ivfPairs, List.flatten_cons, if_neg (by simp), List.drop_left,
      ivfPairs_eq docs (b + 1), List.take_left]
    rfl

/-! ### Chunk slices -/

theorem chunkSlice_map {α β : Type} (f : α → β) (l : List α) (b i : Nat) :
    chunkSlice (l.map f) b i = (chunkSlice l b i).map f := by
  simp [chunkSlice, List.map_take, List.map_drop]

theorem chunk_flatten_aux {α : Type} (b : Nat) (hb : 0 < b) : ∀ (n : Nat) (l : List α),
    l.length ≤ n * b → ((List.range n).map (chunkSlice l b)).flatten = l
  | 0, l, h => by
    have : l = [] := List.length_eq_zero_iff.1 (by omega)
    simp [this]
  | n + 1, l, h => by
    rw [List.range_succ_eq_map, List.map_cons, List.flatten_cons, List.map_map]
    have : (List.range n).map (chunkSlice l b ∘ Nat.succ) =
        (List.range n).map (chunkSlice (l.drop b) b) := by
      apply List.map_congr_left
      intro i _
      simp only [chunkSlice, Function.comp, List.drop_drop, Nat.succ_eq_add_one]
      rw [Nat.add_mul, Nat.one_mul, Nat.add_comm]
    rw [this, chunk_flatten_aux b hb n (l.drop b) (by rw [List.length_drop]; rw [Nat.add_mul] at h; omega)]
    simp [chunkSlice]

theorem numChunksFor_bound (n b : Nat) (hb : 0 < b) : n ≤ numChunksFor n b * b := by
  unfold numChunksFor
  have := Nat.div_add_mod (n + b - 1) b
  have h2 := Nat.mod_lt (n + b - 1) hb
  rw [Nat.mul_comm] at this
  omega

theorem numChunksFor_pos (n b : Nat) (hb : 0 < b) (hn : 0 < n) : 0 < numChunksFor n b :=
  Nat.div_pos (by omega) hb

theorem chunk_flatten {α : Type} (l : List α) (b : Nat) (hb : 0 < b) :
    ((List.range (numChunksFor l.length b)).map (chunkSlice l b)).flatten = l :=
  chunk_flatten_aux b hb _ l (numChunksFor_bound _ _ hb)

/-! ### Removal -/

/-- The elements, numbered from `b`, whose number is not in `ids`. -/
def removeFrom {α : Type} (ids : List Int) : Int → List α → List α
  | _, [] => []
  | b, a :: l => if b ∈ ids then removeFrom ids (b + 1) l else a :: removeFrom ids (b + 1) l

theorem removeFrom_append {α : Type} (ids : List Int) : ∀ (l₁ l₂ : List α) (b : Int),
    removeFrom ids b (l₁ ++ l₂) = removeFrom ids b l₁ ++ removeFrom ids (b + l₁.length) l₂
  | [], l₂, b => by simp [removeFrom]
  | a :: l₁, l₂, b => by
    have : b + 1 + (l₁.length : Int) = b + ((a :: l₁).length : Int) := by
      simp only [List.length_cons]; omega
    rw [List.cons_append, removeFrom, removeFrom, removeFrom_append ids l₁ l₂ (b + 1), this]
    split <;> rfl

theorem removeFrom_map {α β : Type} (ids : List Int) (f : α → β) : ∀ (l : List α) (b : Int),
    removeFrom ids b (l.map f) = (removeFrom ids b l).map f
  | [], b => rfl
  | a :: l, b => by
    rw [List.map_cons, removeFrom, removeFrom, removeFrom_map ids f l (b + 1)]
    split <;> rfl

theorem removeFrom_length_le {α : Type} (ids : List Int) : ∀ (l : List α) (b : Int),
    (removeFrom ids b l).length ≤ l.length
  | [], b => by simp [removeFrom]
  | a :: l, b => by
    have := removeFrom_length_le ids l (b + 1)
    rw [removeFrom]
    split <;> simp only [List.length_cons] <;> omega

theorem removeFrom_eq_self {α : Type} (ids : List Int) : ∀ (l : List α) (b : Int),
    ¬ (removeFrom ids b l).length < l.length → removeFrom ids b l = l
  | [], b, _ => rfl
  | a :: l, b, h => by
    have hle := removeFrom_length_le ids l (b + 1)
    rw [removeFrom] at h ⊢
    split at h
    · simp only [List.length_cons] at h; omega
    · next hb =>
      rw [if_neg hb, removeFrom_eq_self ids l (b + 1) (by simp only [List.length_cons] at h; omega)]

theorem removeFrom_mem {α : Type} (ids : List Int) (x : α) : ∀ (l : List α) (b : Int),
    x ∈ removeFrom ids b l → x ∈ l
  | [], b, h => by simp [removeFrom] at h
  | a :: l, b, h => by
    rw [removeFrom] at h
    split at h
    · exact List.mem_cons_of_mem _ (removeFrom_mem ids x l (b + 1) h)
    · rcases List.mem_cons.1 h with e | e
      · simp [e]
      · exact List.mem_cons_of_mem _ (removeFrom_mem ids x l (b + 1) e)

theorem removeFrom_congr {α : Type} {ids ids' : List Int} (h : ∀ x, x ∈ ids ↔ x ∈ ids') :
    ∀ (l : List α) (b : Int), removeFrom ids b l = removeFrom ids' b l
  | [], _ => rfl
  | a :: l, b => by
    rw [removeFrom, removeFrom, removeFrom_congr h l (b + 1)]
    by_cases hb : b ∈ ids
    · rw [if_pos hb, if_pos ((h b).1 hb)]
    · rw [if_neg hb, if_neg (fun e => hb ((h b).2 e))]

theorem removeFrom_none {α : Type} (ids : List Int) : ∀ (l : List α) (b : Int),
    (∀ x ∈ ids, ¬ (b ≤ x ∧ x < b + l.length)) → removeFrom ids b l = l
  | [], _, _ => rfl
  | a :: l, b, h => by
    rw [removeFrom, if_neg, removeFrom_none ids l (b + 1)]
    · intro x hx hc
      apply h x hx
      simp only [List.length_cons]; omega
    · intro hb
      apply h b hb
      simp only [List.length_cons]; omega

theorem removeFrom_all {α : Type} (ids : List Int) : ∀ (l : List α) (b : Int),
    (∀ i : Nat, i < l.length → b + i ∈ ids) → removeFrom ids b l = []
  | [], _, _ => rfl
  | a :: l, b, h => by
    have h0 := h 0 (by simp)
    have e0 : b + ((0 : Nat) : Int) = b := by omega
    rw [e0] at h0
    rw [removeFrom, if_pos h0, removeFrom_all ids l (b + 1)]
    intro i hi
    have := h (i + 1) (by simp; omega)
    have e : b + 1 + (i : Int) = b + ((i + 1 : Nat) : Int) := by omega
    rw [e]; exact this

/-- Removal as a filter on numbered elements. -/
theorem removeFrom_eq_filter {α : Type} (ids : List Int) : ∀ (l : List α) (n : Nat),
    removeFrom ids (n : Int) l = ((l.zipIdx n).filter fun p => decide ((p.2 : Int) ∉ ids)).map (·.1)
  | [], n => rfl
  | a :: l, n => by
    have := removeFrom_eq_filter ids l (n + 1)
    rw [Int.natCast_add, Int.natCast_one] at this
    rw [removeFrom, List.zipIdx_cons, List.filter_cons, this]
    by_cases hb : (n : Int) ∈ ids <;> simp [hb]

theorem keepMask_eq (ids : List Int) {α : Type} : ∀ (c : List (List α)) (b : Int),
    (keepMask ids b (c.map List.length)).1 = (removeFrom ids b c).map List.length
  | [], b => rfl
  | a :: c, b => by
    rw [List.map_cons, keepMask, removeFrom]
    simp only
    split
    · exact keepMask_eq ids c (b + 1)
    · rw [List.map_cons, ← keepMask_eq ids c (b + 1)]

theorem zip_filter_append {α : Type} (l₁ l₂ : List α) (m₁ m₂ : List Bool)
    (h : l₁.length = m₁.length) :
    applyMask (l₁ ++ l₂) (m₁ ++ m₂) = applyMask l₁ m₁ ++ applyMask l₂ m₂ := by
  unfold applyMask
  rw [List.zip_append h, List.filter_append, List.map_append]

theorem applyMask_replicate_true {α : Type} : ∀ (l : List α), applyMask l (List.replicate l.length true) = l
  | [] => rfl
  | a :: l => by
    have := applyMask_replicate_true l
    simp only [applyMask, List.length_cons, List.replicate_succ, List.zip_cons_cons] at *
    rw [List.filter_cons_of_pos (by rfl), List.map_cons, this]

theorem applyMask_replicate_false {α : Type} : ∀ (l : List α), applyMask l (List.replicate l.length false) = []
  | [] => rfl
  | a :: l => by
    have := applyMask_replicate_false l
    simp only [applyMask, List.length_cons, List.replicate_succ, List.zip_cons_cons] at *
    rw [List.filter_cons_of_neg (by simp), this]

theorem applyMask_keep (ids : List Int) {α β : Type} (f : α → β) : ∀ (c : List (List α)) (b : Int),
    applyMask (c.flatten.map f) (keepMask ids b (c.map List.length)).2 =
      (removeFrom ids b c).flatten.map f
  | [], b => rfl
  | a :: c, b => by
    have ih := applyMask_keep ids f c (b + 1)
    rw [List.map_cons, keepMask, removeFrom, List.flatten_cons, List.map_append]
    simp only
    have t : applyMask (a.map f) (List.replicate a.length true) = a.map f := by
      simpa using applyMask_replicate_true (a.map f)
    have t' : applyMask (a.map f) (List.replicate a.length false) = [] := by
      simpa using applyMask_replicate_false (a.map f)
    split
    · rw [zip_filter_append _ _ _ _ (by simp), t', List.nil_append, ih]
    · rw [zip_filter_append _ _ _ _ (by simp), t, ih, List.flatten_cons, List.map_append]

theorem keepMask_length (ids : List Int) {α : Type} : ∀ (c : List (List α)) (b : Int),
    (keepMask ids b (c.map List.length)).2.length = c.flatten.length
  | [], b => rfl
  | a :: c, b => by
    have ih := keepMask_length ids c (b + 1)
    rw [List.map_cons, keepMask, List.flatten_cons, List.length_append, ← ih]
    simp only
    split <;> simp

theorem applyMaskRows_eq {β : Type} : ∀ (l : List β) (mask : List Bool), l.length = mask.length →
    applyMaskRows l mask = .ok (applyMask l mask)
  | [], [], _ => rfl
  | [], _ :: _, h => by simp at h
  | a :: l, [], h => by simp at h
  | a :: l, k :: mask, h => by
    rw [applyMaskRows, applyMaskRows_eq l mask (by simpa using h)]
    cases k <;> simp [applyMask, bind, Except.bind]

theorem shiftOf_succ (ids : List Int) (hnd : ids.Nodup) (b : Int) :
    shiftOf ids (b + 1) = shiftOf ids b + if b ∈ ids then 1 else 0 := by
  unfold shiftOf
  induction ids with
  | nil => simp
  | cons a ids ih =>
    have hnd' := List.nodup_cons.1 hnd
    have ih := ih hnd'.2
    rw [List.filter_cons, List.filter_cons]
    by_cases h1 : a < b
    · rw [if_pos (by simpa using (by omega : a < b + 1)), if_pos (by simpa using h1)]
      have : (b ∈ a :: ids) ↔ b ∈ ids := by
        rw [List.mem_cons]; constructor
        · rintro (e | e)
          · omega
          · exact e
        · exact Or.inr
      simp only [List.length_cons, ih, this]
      omega
    · by_cases h2 : a = b
      · subst h2
        rw [if_pos (by simpa using (by omega : a < a + 1)), if_neg (by simp)]
        simp only [List.length_cons, ih, if_neg hnd'.1, List.mem_cons_self, if_true]
      · rw [if_neg (by simpa using (by omega : b + 1 ≤ a)), if_neg (by simpa using h1)]
        have : (b ∈ a :: ids) ↔ b ∈ ids := by
          rw [List.mem_cons]; constructor
          · rintro (e | e)
            · exact absurd e.symm h2
            · exact e
          · exact Or.inr
        simp only [ih, this]

theorem shiftOf_nonneg (ids : List Int) (h : ∀ x ∈ ids, 0 ≤ x) : shiftOf ids 0 = 0 := by
  unfold shiftOf
  rw [List.length_eq_zero_iff, List.filter_eq_nil_iff]
  intro x hx
  have := h x hx
  simpa using this

theorem patch_posting (ids : List Int) (hnd : ids.Nodup) (c : Nat) :
    ∀ (docs : List (List (Nat × Pk))) (b : Int),
    patchList ids (postingFrom b docs c) =
      postingFrom (b - (shiftOf ids b : Int)) (removeFrom ids b docs) c
  | [], b => rfl
  | doc :: docs, b => by
    have ih := patch_posting ids hnd c docs (b + 1)
    rw [shiftOf_succ ids hnd b] at ih
    rw [postingFrom, removeFrom]
    by_cases hb : b ∈ ids
    · rw [if_pos hb] at ih ⊢
      have e : (b + 1 - ((shiftOf ids b + 1 : Nat) : Int)) = b - (shiftOf ids b : Int) := by omega
      rw [e] at ih
      split
      · rw [← ih]; unfold patchList; rw [List.filter_cons_of_neg (by simpa using hb)]
      · exact ih
    · rw [if_neg hb] at ih ⊢
      have e : (b + 1 - ((shiftOf ids b + 0 : Nat) : Int)) = b - (shiftOf ids b : Int) + 1 := by omega
      rw [e] at ih
      rw [postingFrom, ← ih]
      split
      · unfold patchList; rw [List.filter_cons_of_pos (by simpa using hb), List.map_cons]
      · rfl

theorem patchIvf_eq (ids : List Int) : ∀ (lists : List (List Int)) (pre : List Int),
    patchIvf ids (pre ++ lists.flatten) (lists.map List.length) pre.length =
      .ok (lists.map (patchList ids))
  | [], pre => rfl
  | l :: lists, pre => by
    rw [List.map_cons, patchIvf, if_neg (by simp), List.flatten_cons]
    have := patchIvf_eq ids lists (pre ++ l)
    rw [List.append_assoc, List.length_append] at this
    rw [this, List.drop_left, List.take_left]
    rfl

theorem cleanRows_eq (ids : List Int) {β : Type} : ∀ (docs : List (List β)) (b : Int),
    cleanRows ids b (docs.map List.length) docs.flatten =
      ((removeFrom ids b docs).flatten, (removeFrom ids b docs).map List.length)
  | [], b => rfl
  | doc :: docs, b => by
    rw [List.map_cons, cleanRows, List.flatten_cons, List.drop_left, cleanRows_eq ids docs (b + 1),
      removeFrom, List.take_left]
    simp only
    split <;> simp

theorem splitRows_eq {β : Type} : ∀ (docs : List (List β)),
    splitRows (docs.map List.length) docs.flatten = docs
  | [] => rfl
  | doc :: docs => by
    rw [List.map_cons, splitRows, List.flatten_cons, if_neg (by simp), List.take_left,
      List.drop_left, splitRows_eq docs]

/-! ### Offsets and slices -/

theorem offsetsFrom_get : ∀ (lens : List Nat) (s i : Nat), i ≤ lens.length →
    (offsetsFrom s lens)[i]? = some (s + (lens.take i).sum)
  | lens, s, 0, _ => by cases lens <;> simp [offsetsFrom]
  | [], s, i + 1, h => by simp at h
  | l :: lens, s, i + 1, h => by
    rw [offsetsFrom, List.getElem?_cons_succ, offsetsFrom_get lens (s + l) i (by simpa using h)]
    simp; omega

theorem offsetsFrom_length : ∀ (lens : List Nat) (s : Nat), (offsetsFrom s lens).length = lens.length + 1
  | [], s => rfl
  | l :: lens, s => by rw [offsetsFrom, List.length_cons, offsetsFrom_length lens]; rfl

theorem flatten_slice {β : Type} : ∀ (L : List (List β)) (i : Nat) (x : List β) (tail : List β),
    L[i]? = some x →
    ((L.flatten ++ tail).drop ((L.map List.length).take i).sum).take x.length = x ∧
    ((L.map List.length).take i).sum + x.length ≤ L.flatten.length
  | [], i, x, tail, h => by simp at h
  | l :: L, 0, x, tail, h => by
    simp only [List.getElem?_cons_zero, Option.some.injEq] at h
    subst h
    simp
  | l :: L, i + 1, x, tail, h => by
    rw [List.getElem?_cons_succ] at h
    obtain ⟨h1, h2⟩ := flatten_slice L i x tail h
    constructor
    · rw [List.map_cons, List.take_succ_cons, List.sum_cons, List.flatten_cons, List.append_assoc,
        ← List.drop_drop, List.drop_left]
      exact h1
    · rw [List.map_cons, List.take_succ_cons, List.sum_cons, List.flatten_cons, List.length_append]
      omega

theorem take_succ_sum (l : List Nat) (i x : Nat) (h : l[i]? = some x) :
    (l.take (i + 1)).sum = (l.take i).sum + x := by
  rw [List.take_succ, h]; simp

theorem slice_flatten {β γ : Type} (f : β → γ) (L : List (List β)) (i : Nat) (x : List β)
    (tail : List γ) (h : L[i]? = some x) :
    slice (L.flatten.map f ++ tail) ((L.map List.length).take i).sum
      ((L.map List.length).take (i + 1)).sum = .ok (x.map f) := by
  have hx : (L.map (List.map f))[i]? = some (x.map f) := by simp [h]
  obtain ⟨h1, h2⟩ := flatten_slice (L.map (List.map f)) i (x.map f) tail hx
  have hl : (L.map (List.map f)).map List.length = L.map List.length := by simp [Function.comp_def]
  have hf : (L.map (List.map f)).flatten = L.flatten.map f := by rw [List.map_flatten]
  rw [hl, hf] at h1 h2
  have hs := take_succ_sum (L.map List.length) i x.length (by simp [h])
  rw [List.length_map] at h1 h2
  unfold slice
  rw [hs, if_neg (by rw [List.length_append]; omega), Nat.add_sub_cancel_left, h1]

theorem oldPids_eq (lists : List (List Int)) (c : Nat) (x : List Int) (h : lists[c]? = some x) :
    oldPids lists.flatten (lists.map List.length) c = .ok x := by
  have hlt : c < lists.length := (List.getElem?_eq_some_iff.1 h).1
  obtain ⟨h1, h2⟩ := flatten_slice lists c x [] h
  rw [List.append_nil] at h1
  unfold oldPids idx
  rw [offsetsFrom_get _ 0 c (by simp; omega)]
  simp only [bind, Except.bind, Nat.zero_add]
  have : ((lists.map List.length)[c]?).getD 0 = x.length := by simp [h]
  rw [this]
  by_cases hx : 0 < x.length
  · rw [if_pos ⟨hx, h2⟩, h1]
  · rw [if_neg (fun e => hx e.1)]
    have : x = [] := List.length_eq_zero_iff.1 (by omega)
    rw [this]

end NextPlaid.Index
