import Verif.Model.Padding
import Mathlib.Tactic.Linarith
import Mathlib.Tactic.Positivity
import Mathlib.Tactic.FieldSimp

namespace NextPlaid.Padding

variable {α : Type}

theorem writeRows_eq (dim : Nat) : ∀ (rs : List (List α)) (a : Nat) (acc : List (List α)),
    (∀ r ∈ rs, dim ≤ r.length) → a + rs.length ≤ acc.length →
    writeRows dim rs a acc = some (acc.take a ++ rs.map (List.take dim) ++ acc.drop (a + rs.length))
  | [], a, acc, _, _ => by simp [writeRows]
  | r :: rs, a, acc, h, hl => by
    have hr := h r (by simp)
    simp only [List.length_cons] at hl
    unfold writeRows
    rw [if_neg (by omega), writeRows_eq dim rs (a + 1) _ (fun r hr => h r (by simp [hr])) (by simp; omega)]
    congr 1
    have h1 : (acc.set a (r.take dim)).take (a + 1) = acc.take a ++ [r.take dim] := by
      rw [List.take_add_one]
      simp [List.take_set_of_le, List.getElem?_set, show a < acc.length by omega]
    have h2 : (acc.set a (r.take dim)).drop (a + 1 + rs.length) = acc.drop (a + (rs.length + 1)) := by
      rw [List.drop_set_of_lt (by omega)]; congr 1; omega
    rw [h1, h2]; simp

theorem writeRows_none (dim : Nat) : ∀ (rs : List (List α)) (a : Nat) (acc : List (List α)),
    (writeRows dim rs a acc = none ↔ ∃ r ∈ rs, r.length < dim)
  | [], a, acc => by simp [writeRows]
  | r :: rs, a, acc => by
    unfold writeRows
    by_cases h : r.length < dim
    · simp [h]
    · rw [if_neg h, writeRows_none dim rs]; simp [h]

/-- The part of the padded array which belongs to one sequence. -/
def block (dim m : Nat) (pad : α) (s : Arr α) : List (List α) :=
  s.rows.map (List.take dim) ++ List.replicate (m - s.rows.length) (List.replicate dim pad)

theorem block_length {dim m : Nat} {pad : α} {s : Arr α} (h : s.rows.length ≤ m) : (block dim m pad s).length = m := by
  simp [block]; omega

theorem writeAll_eq (dim m : Nat) (pad : α) : ∀ (ss : List (Arr α)) (i : Nat) (front : List (List α)), front.length = i * m →
    (∀ s ∈ ss, s.rows.length ≤ m) → (∀ s ∈ ss, ∀ r ∈ s.rows, dim ≤ r.length) →
    writeAll dim m ss i (front ++ List.replicate (ss.length * m) (List.replicate dim pad)) = some (front ++ ss.flatMap (block dim m pad))
  | [], i, front, _, _, _ => by simp [writeAll]
  | s :: ss, i, front, hf, hm, hd => by
    have hs := hm s (by simp)
    have hlen : (s :: ss).length * m = m + ss.length * m := by simp [Nat.add_mul]; omega
    unfold writeAll
    rw [writeRows_eq dim _ _ _ (hd s (by simp)) (by rw [List.length_append, List.length_replicate, hf, hlen]; omega), Option.bind_some]
    have : (front ++ List.replicate ((s :: ss).length * m) (List.replicate dim pad)).take (i * m) ++ s.rows.map (List.take dim)
        ++ (front ++ List.replicate ((s :: ss).length * m) (List.replicate dim pad)).drop (i * m + s.rows.length)
        = (front ++ block dim m pad s) ++ List.replicate (ss.length * m) (List.replicate dim pad) := by
      rw [← hf, List.take_left, List.drop_append, hlen]
      simp only [block, List.append_assoc]
      congr 2
      rw [List.drop_eq_nil_of_le (by omega), List.nil_append, List.drop_replicate, List.replicate_append_replicate]
      congr 1; omega
    rw [this, writeAll_eq dim m pad ss (i + 1) _ (by simp [block_length hs, hf, Nat.add_mul]) (fun t ht => hm t (by simp [ht]))
      (fun t ht => hd t (by simp [ht]))]
    simp

theorem writeAll_none (dim m : Nat) : ∀ (ss : List (Arr α)) (i : Nat) (acc : List (List α)),
    (writeAll dim m ss i acc = none ↔ ∃ s ∈ ss, ∃ r ∈ s.rows, r.length < dim)
  | [], i, acc => by simp [writeAll]
  | s :: ss, i, acc => by
    unfold writeAll
    cases h : writeRows dim s.rows (i * m) acc with
    | none =>
      obtain ⟨r, hr, hl⟩ := (writeRows_none _ _ _ _).1 h
      simp only [Option.bind_none, true_iff]
      exact ⟨s, by simp, r, hr, hl⟩
    | some a =>
      have hn : ¬ ∃ r ∈ s.rows, r.length < dim := fun hx => by rw [(writeRows_none _ _ _ _).2 hx] at h; cases h
      rw [Option.bind_some, writeAll_none dim m ss]
      constructor
      · rintro ⟨t, ht, hx⟩; exact ⟨t, by simp [ht], hx⟩
      · rintro ⟨t, ht, hx⟩
        rcases List.mem_cons.1 ht with rfl | ht
        · exact absurd hx hn
        · exact ⟨t, ht, hx⟩

/-- The largest number of rows. -/
def longest (seqs : List (Arr α)) : Nat := (seqs.map fun s => s.rows.length).foldl max 0

theorem le_foldl_max : ∀ (l : List Nat) (a : Nat), a ≤ l.foldl max a ∧ ∀ x ∈ l, x ≤ l.foldl max a
  | [], a => by simp
  | y :: l, a => by
    have := le_foldl_max l (max a y)
    refine ⟨by simp only [List.foldl_cons]; omega, fun x hx => ?_⟩
    rcases List.mem_cons.1 hx with rfl | hx
    · simp only [List.foldl_cons]; omega
    · exact this.2 x hx

theorem foldl_max_mem : ∀ (l : List Nat) (a : Nat), l.foldl max a = a ∨ l.foldl max a ∈ l
  | [], a => by simp
  | y :: l, a => by
    rcases foldl_max_mem l (max a y) with h | h
    · simp only [List.foldl_cons, h, List.mem_cons]
      rcases Nat.le_total a y with h' | h'
      · right; left; omega
      · left; omega
    · right; simp [h]

theorem le_longest (seqs : List (Arr α)) : ∀ s ∈ seqs, s.rows.length ≤ longest seqs := fun s hs =>
  (le_foldl_max _ 0).2 _ (List.mem_map.2 ⟨s, hs, rfl⟩)

theorem longest_attained (seqs : List (Arr α)) : longest seqs = 0 ∨ ∃ s ∈ seqs, s.rows.length = longest seqs := by
  rcases foldl_max_mem (seqs.map fun s => s.rows.length) 0 with h | h
  · exact .inl h
  · obtain ⟨s, hs, h'⟩ := List.mem_map.1 h
    exact .inr ⟨s, hs, h'⟩

theorem padSequences_eq (s0 : Arr α) (ss : List (Arr α)) (pad : α) (h : ∀ s ∈ s0 :: ss, s.rows = [] ∨ s0.cols ≤ s.cols) :
    padSequences (s0 :: ss) pad = some ((s0 :: ss).flatMap (block s0.cols (longest (s0 :: ss)) pad), (s0 :: ss).map fun s => (s.rows.length : Int)) := by
  have := writeAll_eq s0.cols (longest (s0 :: ss)) pad (s0 :: ss) 0 [] (by simp) (le_longest _) (fun s hs r hr => by
    rcases h s hs with h | h
    · rw [h] at hr; cases hr
    · rw [s.shape r hr]; exact h)
  rw [List.nil_append, List.nil_append] at this
  show (writeAll s0.cols (longest (s0 :: ss)) (s0 :: ss) 0
    (List.replicate ((s0 :: ss).length * longest (s0 :: ss)) (List.replicate s0.cols pad))).map _ = _
  rw [this]; rfl

theorem padSequences_none (s0 : Arr α) (ss : List (Arr α)) (pad : α) :
    padSequences (s0 :: ss) pad = none ↔ ∃ s ∈ s0 :: ss, s.rows ≠ [] ∧ s.cols < s0.cols := by
  show (writeAll s0.cols (longest (s0 :: ss)) (s0 :: ss) 0 _).map _ = none ↔ _
  rw [Option.map_eq_none_iff, writeAll_none]
  constructor
  · rintro ⟨s, hs, r, hr, hl⟩; exact ⟨s, hs, List.ne_nil_of_mem hr, by rw [s.shape r hr] at hl; exact hl⟩
  · rintro ⟨s, hs, hne, hl⟩
    obtain ⟨r, hr⟩ := List.exists_mem_of_ne_nil _ hne
    exact ⟨s, hs, r, hr, by rw [s.shape r hr]; exact hl⟩

theorem flatMap_get {β γ : Type} (f : β → List γ) (m : Nat) : ∀ (l : List β) (i j : Nat) (b : β), (∀ x ∈ l, (f x).length = m) → l[i]? = some b → j < m →
    (l.flatMap f)[i * m + j]? = (f b)[j]?
  | [], i, j, b, _, h, _ => by simp at h
  | x :: l, 0, j, b, hm, h, hj => by
    simp at h; subst h
    simp only [List.flatMap_cons, Nat.zero_mul, Nat.zero_add]
    rw [List.getElem?_append_left (by rw [hm x (by simp)]; exact hj)]
  | x :: l, i + 1, j, b, hm, h, hj => by
    have hx := hm x (by simp)
    simp only [List.flatMap_cons]
    rw [List.getElem?_append_right (by rw [hx, Nat.add_mul]; omega), hx, show (i + 1) * m + j - m = i * m + j by rw [Nat.add_mul]; omega]
    exact flatMap_get f m l i j b (fun y hy => hm y (by simp [hy])) (by simpa using h) hj

theorem flatMap_len {β γ : Type} (f : β → List γ) (m : Nat) : ∀ (l : List β), (∀ x ∈ l, (f x).length = m) → (l.flatMap f).length = l.length * m
  | [], _ => by simp
  | x :: l, h => by simp only [List.flatMap_cons, List.length_append, h x (by simp), List.length_cons,
      flatMap_len f m l (fun y hy => h y (by simp [hy])), Nat.add_mul]; omega

/-! ### The mask -/

theorem mask_fold (m : Nat) : ∀ k, k ≤ m →
    (List.range k).foldl (fun row j => row.set j true) (List.replicate m false) = List.replicate k true ++ List.replicate (m - k) false
  | 0, _ => by simp
  | k + 1, h => by
    rw [List.range_succ, List.foldl_append, mask_fold m k (by omega)]
    obtain ⟨d, hd⟩ : ∃ d, m - k = d + 1 := ⟨m - k - 1, by omega⟩
    simp only [List.foldl_cons, List.foldl_nil, hd, List.replicate_succ', show m - (k + 1) = d by omega]
    rw [List.set_append_right _ _ (by simp)]
    simp only [List.length_replicate, Nat.sub_self]
    rw [← List.replicate_succ', List.replicate_succ, List.set_cons_zero]
    simp

theorem createMask_eq (ls : List Int) (m : Nat) :
    createMask ls m = ls.map fun n => List.replicate (min (asUsize n) m) true ++ List.replicate (m - min (asUsize n) m) false := by
  unfold createMask
  exact List.map_congr_left fun n _ => mask_fold m _ (by omega)

theorem asUsize_nat {n : Nat} (h : n < 2 ^ 64) : asUsize n = n := by
  unfold asUsize; omega

/-- The rows at which a list of marks is `true`. -/
def pick (rows : List α) (marks : List Bool) : List α := (rows.zip marks).filterMap fun p => if p.2 then some p.1 else none

theorem pick_append {a b : List α} {x y : List Bool} (h : a.length = x.length) : pick (a ++ b) (x ++ y) = pick a x ++ pick b y := by
  simp [pick, List.zip_append h]

theorem pick_true : ∀ a : List α, pick a (List.replicate a.length true) = a
  | [] => rfl
  | x :: a => by
    have := pick_true a
    simp only [pick] at this ⊢
    simp [List.replicate_succ, this]

theorem pick_false : ∀ (a : List α) (n : Nat), pick a (List.replicate n false) = []
  | [], n => by simp [pick]
  | x :: a, 0 => by simp [pick]
  | x :: a, n + 1 => by
    have := pick_false a n
    simp only [pick] at this ⊢
    simp [List.replicate_succ, this]

theorem pick_blocks (dim m : Nat) (pad : α) (hm64 : m < 2 ^ 64) : ∀ ss : List (Arr α), (∀ s ∈ ss, s.rows.length ≤ m) → 
    pick (ss.flatMap (block dim m pad)) (createMask (ss.map fun s => (s.rows.length : Int)) m).flatten = ss.flatMap fun s => s.rows.map (List.take dim)
  | [], _ => by simp [pick]
  | s :: ss, h => by
    have hs := h s (by simp)
    have ih := pick_blocks dim m pad hm64 ss (fun t ht => h t (by simp [ht]))
    rw [createMask_eq] at ih ⊢
    simp only [List.flatMap_cons, List.map_cons, List.flatten_cons]
    rw [asUsize_nat (by omega), Nat.min_eq_left hs, pick_append (by simp [block_length hs]; omega), ih]
    congr 1
    unfold block
    rw [pick_append (by simp), pick_false, List.append_nil]
    have := pick_true (s.rows.map (List.take dim))
    rwa [List.length_map] at this

/-! ### Norms -/

noncomputable def norm2 (r : List ℝ) : ℝ := Real.sqrt ((r.map fun x => x * x).sum)

theorem sumsq_nonneg : ∀ r : List ℝ, 0 ≤ (r.map fun x => x * x).sum
  | [] => by simp
  | x :: r => by
    have := sumsq_nonneg r
    have := mul_self_nonneg x
    simp only [List.map_cons, List.sum_cons]; linarith

theorem sumsq_div (c : ℝ) : ∀ r : List ℝ, ((r.map fun x => x / c).map fun x => x * x).sum = (r.map fun x => x * x).sum / (c * c)
  | [] => by simp
  | x :: r => by
    have := sumsq_div c r
    simp only [List.map_cons, List.sum_cons] at this ⊢
    rw [this, add_div, div_mul_div_comm]

theorem norm2_div {c : ℝ} (hc : 0 < c) (r : List ℝ) : norm2 (r.map fun x => x / c) = norm2 r / c := by
  unfold norm2
  rw [sumsq_div, Real.sqrt_div (sumsq_nonneg r), Real.sqrt_mul_self hc.le]

end NextPlaid.Padding
