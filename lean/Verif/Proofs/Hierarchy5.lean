import Verif.Proofs.Hierarchy4
import Mathlib.Algebra.Group.Nat.Even

/-!
Proofs: the condensed distance matrix, and the linkage in exact arithmetic.
-/

namespace NextPlaid.Hier

open NextPlaid.Fusion NextPlaid.Spec

/-- The number of entries before row `i`. -/
def rowStart (n : Nat) : Nat → Nat
  | 0 => 0
  | i + 1 => rowStart n i + (n - (i + 1))

theorem rowStart_eq (n : Nat) : ∀ (i : Nat), i ≤ n → 2 * rowStart n i + i * (i + 1) = 2 * (n * i) := by
  intro i
  induction i with
  | zero => intro _; rfl
  | succ i ih =>
    intro h
    have h1 := ih (by omega)
    obtain ⟨k, rfl⟩ : ∃ k, n = i + 1 + k := ⟨n - (i + 1), by omega⟩
    rw [rowStart, show i + 1 + k - (i + 1) = k by omega]
    nlinarith

theorem even_half (i : Nat) : 2 * (i * (i + 1) / 2) = i * (i + 1) := by
  have := Nat.even_mul_succ_self i
  obtain ⟨k, hk⟩ := this
  omega

theorem condensed_eq {n i j : Nat} (hij : i < j) (hj : j < n) : condensed n i j = rowStart n i + (j - (i + 1)) := by
  have h1 := rowStart_eq n i (by omega)
  have h2 := even_half i
  unfold condensed
  omega

theorem rowStart_total (n : Nat) : rowStart n n = n * (n - 1) / 2 := by
  have h1 := rowStart_eq n n (Nat.le_refl _)
  cases n with
  | zero => rfl
  | succ m =>
    have h2 := even_half m
    have h3 : (m + 1) * (m + 1 + 1) = m * (m + 1) + 2 * (m + 1) := by ring
    have h4 : (m + 1) * (m + 1) = m * (m + 1) + (m + 1) := by ring
    have h5 : (m + 1) * (m + 1 - 1) = m * (m + 1) := by rw [Nat.add_sub_cancel]; ring
    rw [h5]
    omega

theorem rowStart_mono (n : Nat) : ∀ (k i : Nat), rowStart n i ≤ rowStart n (i + k) := by
  intro k
  induction k with
  | zero => intro i; exact Nat.le_refl _
  | succ k ih =>
    intro i
    exact Nat.le_trans (ih i) (by rw [← Nat.add_assoc, rowStart]; omega)

theorem condensed_lt {n i j : Nat} (hij : i < j) (hj : j < n) : condensed n i j < n * (n - 1) / 2 := by
  rw [condensed_eq hij hj, ← rowStart_total]
  have := rowStart_mono n (n - (i + 1)) (i + 1)
  rw [show i + 1 + (n - (i + 1)) = n by omega, rowStart] at this
  omega

section
variable {K : Type}

theorem pdist_prefix (d : Nat → Nat → Option K) (n : Nat) : ∀ (i : Nat),
    ((List.range i).flatMap fun i => (List.range' (i + 1) (n - (i + 1))).map (d i)).length = rowStart n i := by
  intro i
  induction i with
  | zero => rfl
  | succ i ih =>
    rw [List.range_succ, List.flatMap_append, List.length_append, ih, rowStart, List.flatMap_cons, List.flatMap_nil, List.append_nil, List.length_map,
      List.length_range']

theorem pdist_length (d : Nat → Nat → Option K) (n : Nat) : (pdist d n).length = n * (n - 1) / 2 := by
  unfold pdist
  rw [pdist_prefix, rowStart_total]

theorem pdist_get (d : Nat → Nat → Option K) {n i j : Nat} (hij : i < j) (hj : j < n) : (pdist d n)[condensed n i j]? = some (d i j) := by
  unfold pdist
  have hr : List.range n = List.range i ++ List.range' i (n - i) := by
    have h := List.range'_append_1 (s := 0) (m := i) (n := n - i)
    rw [Nat.zero_add, show i + (n - i) = n by omega] at h
    rw [List.range_eq_range', List.range_eq_range', h]
  rw [hr, List.flatMap_append, condensed_eq hij hj, List.getElem?_append_right (by rw [pdist_prefix]; omega), pdist_prefix, Nat.add_sub_cancel_left]
  obtain ⟨m, hm⟩ : ∃ m, n - i = m + 1 := ⟨n - i - 1, by omega⟩
  rw [hm, List.range'_succ, List.flatMap_cons, List.getElem?_append_left (by rw [List.length_map, List.length_range']; omega), List.getElem?_map,
    List.getElem?_range' (by omega)]
  simp only [Option.map_some, Option.some.injEq]
  congr 1
  omega

end

variable {K : Type} [Field K] [LinearOrder K] [IsStrictOrderedRing K]

/-- The squared distances of a condensed matrix. -/
def sqOf (n : Nat) (ds : List (Option K)) (i j : Nat) : K :=
  if i = j then 0 else ((ds[condensed n (min i j) (max i j)]?.join).getD 0) * ((ds[condensed n (min i j) (max i j)]?.join).getD 0)

theorem sqOf_symm (n : Nat) (ds : List (Option K)) (i j : Nat) : sqOf n ds i j = sqOf n ds j i := by
  unfold sqOf
  rw [Nat.min_comm, Nat.max_comm]
  by_cases h : i = j
  · rw [if_pos h, if_pos h.symm]
  · rw [if_neg h, if_neg (Ne.symm h)]

theorem begin_exact {r : Rounding K} (hr : ∀ x, r.rnd x = x) {n : Nat} {ds : List (Option K)} (hlen : ds.length = n * (n - 1) / 2)
    (hfin : ∀ x ∈ ds, x.isSome) : Exact n (sqOf n ds) (begin r n ds) := by
  have hdist : ∀ i j, i < n → j < n → i ≠ j → (begin r n ds).dist i j = some (sqOf n ds i j) := by
    intro i j hi hj hij
    have hlt : condensed n (min i j) (max i j) < ds.length := by
      rw [hlen]
      exact condensed_lt (by omega) (by omega)
    have hs := hfin _ (List.getElem_mem hlt)
    obtain ⟨d, hd⟩ := Option.isSome_iff_exists.mp hs
    simp only [begin, sqOf, if_neg hij, if_pos (show i < n ∧ j < n from ⟨hi, hj⟩), List.getElem?_eq_getElem hlt, hd, Option.join, Option.bind_some, id,
      Option.map_some, Option.getD_some, hr]
  constructor
  · intro i hi j hj hij
    have hi' : i < n := List.mem_range.mp hi
    have hj' : j < n := List.mem_range.mp hj
    rw [hdist i j hi' hj' hij, members_one _ hi', members_one _ hj', ward_one _ (fun i => by simp [sqOf])]
  · intro i hi j d hc
    have hi' : i < n := List.mem_range.mp hi
    have hc' : nearest (begin r n ds).dist i (List.range n) = some (j, d) := by
      have : (begin r n ds).cache i = nearest (begin r n ds).dist i (List.range n) := by
        simp only [begin]
        rw [if_pos hi']
      rw [← this]
      exact hc
    exact (nearest_least _ i _ List.pairwise_lt_range).1 j d hc'
  · intro t row h
    simp [begin] at h

theorem linkage_exact {r : Rounding K} (hr : ∀ x, r.rnd x = x) {n fuel : Nat} (hfuel : n ≤ fuel) {ds : List (Option K)}
    (hlen : ds.length = n * (n - 1) / 2) (hfin : ∀ x ∈ ds, x.isSome) :
    ∃ rows, linkage r fuel n ds = some (.ok rows) ∧ ∀ t row, rows[t]? = some row →
      row.distSq = ward (sqOf n ds) (members rows n row.a) (members rows n row.b) ∧
      ∀ c, Alive rows n t c → c ≠ row.a → c ≠ row.b →
        ward (sqOf n ds) (members rows n row.a) (members rows n row.b) ≤ ward (sqOf n ds) (members rows n row.a) (members rows n c) ∧
        ward (sqOf n ds) (members rows n row.a) (members rows n row.b) ≤ ward (sqOf n ds) (members rows n row.b) (members rows n c) := by
  unfold linkage
  by_cases hn : n ≤ 1
  · rw [if_pos hn]
    exact ⟨[], rfl, by simp⟩
  · rw [if_neg hn, if_neg (by rw [hlen]; simp)]
    obtain ⟨s, hs, he⟩ := merges_exact hr (sqOf_symm n ds) hfuel (n - 1) (begin r n ds) (begin_wf r n ds) (begin_linked r n ds) (begin_exact hr hlen hfin)
      (by simp [begin]) (by simp [begin]; omega)
    rw [hs]
    exact ⟨s.rows, rfl, he.rows⟩

end NextPlaid.Hier
