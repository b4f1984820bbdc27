import Verif.Proofs.Linkage2
import Verif.Props.Hierarchy

/-!
C80: hierarchical clustering with single, complete, average and weighted linkage.

`e i j` is the distance of observations `i` and `j`; `upperHalf e n` is the condensed matrix.  The results of single and complete linkage are stated
for any arithmetic, those of average and weighted linkage for exact numbers.
-/

namespace NextPlaid.Props

open NextPlaid.Hier NextPlaid.Fusion NextPlaid.Spec NextPlaid.Linkage

section
variable {K : Type} [Field K] [LinearOrder K]

/-- In any arithmetic and with any method: from finite distances, the result is a tree over the observations. -/
theorem C80_tree (r : Rounding K) (m : Method) {e : Nat → Nat → K} (he : ∀ i j, e i j = e j i) (n : Nat) :
    ∃ rows, linkageBy r m n ((upperHalf e n).map .fin) = .ok rows ∧ Dendrogram n rows ∧ ∀ row ∈ rows, ∃ d, row.distSq = .fin d := by
  by_cases hn : 1 < n
  · obtain ⟨s, h1, h2, h3⟩ := linkageBy_inv (r := r) (m := m) he hn (law_any r m e n)
    refine ⟨s.rows, h1, ⟨h3, h2.older, h2.once, h2.rsize⟩, ?_⟩
    intro row hrow
    obtain ⟨t, ht, e'⟩ := List.getElem_of_mem hrow
    obtain ⟨d, hd, _⟩ := h2.greedy t row (by rw [List.getElem?_eq_getElem ht, e'])
    exact ⟨d, hd⟩
  · refine ⟨[], ?_, ⟨?_, by simp, by simp, by simp⟩, by simp⟩
    · unfold linkageBy
      rw [if_pos (by omega)]
    · simp only [List.length_nil]; omega

/-- The condensed matrix of a square matrix of which the rows are written one after the other. -/
theorem C80_squareform {α : Type} (f : Nat → Nat → α) {n : Nat} (hn : n ≠ 0) :
    squareform ((List.range n).flatMap fun i => (List.range n).map (f i)) n = .ok (upperHalf f n) := by
  apply squareform_ok f hn
  intro i j hi hj
  have hlen : ∀ k, ((List.range k).flatMap fun i => (List.range n).map (f i)).length = k * n := by
    intro k
    induction k with
    | zero => simp
    | succ k ih => rw [List.range_succ, List.flatMap_append, List.length_append, ih]; simp [Nat.add_mul]
  have hr : List.range n = List.range i ++ List.range' i (n - i) := by
    have h := List.range'_append_1 (s := 0) (m := i) (n := n - i)
    rw [Nat.zero_add, show i + (n - i) = n by omega] at h
    rw [List.range_eq_range', List.range_eq_range', h]
  have hsplit : (List.range n).flatMap (fun i => (List.range n).map (f i)) =
      (List.range i).flatMap (fun i => (List.range n).map (f i)) ++ (List.range' i (n - i)).flatMap fun i => (List.range n).map (f i) := by
    rw [← List.flatMap_append, ← hr]
  rw [hsplit, List.getElem?_append_right (by rw [hlen]; omega), hlen, Nat.add_sub_cancel_left]
  obtain ⟨k, hk⟩ : ∃ k, n - i = k + 1 := ⟨n - i - 1, by omega⟩
  rw [hk, List.range'_succ, List.flatMap_cons, List.getElem?_append_left (by simpa using hj), List.getElem?_map, List.getElem?_range hj]
  rfl

variable [IsStrictOrderedRing K]

/-- Every merge joins two clusters that are nearest to each other, in the sense of the method, of all there are at that time, and the number written
is their distance. -/
theorem C80_closest {r : Rounding K} {m : Method} (hm : m = .single ∨ m = .complete ∨ ∀ x, r.rnd x = x) {e : Nat → Nat → K} (he : ∀ i j, e i j = e j i)
    {n : Nat} {rows : List (Row (D K))} (h : linkageBy r m n ((upperHalf e n).map .fin) = .ok rows) {t : Nat} {row : Row (D K)} (ht : rows[t]? = some row) :
    Alive rows n t row.a ∧ Alive rows n t row.b ∧ ∃ d, row.distSq = .fin d ∧ ClusterDist m e n rows row.a row.b d ∧
      ∀ c c', Alive rows n t c → Alive rows n t c' → c ≠ c' → ∃ d', ClusterDist m e n rows c c' d' ∧ d ≤ d' := by
  by_cases hn : 1 < n
  · obtain ⟨rows', h1, h2⟩ := result hm he hn
    rw [h, Except.ok.injEq] at h1
    subst h1
    have hf := (Dendro.tree h2.tree).fresh ht
    exact ⟨hf.1, hf.2, h2.greedy t row ht⟩
  · unfold linkageBy at h
    rw [if_pos (by omega), Except.ok.injEq] at h
    subst h
    simp at ht

/-- The distances of the merges do not decrease. -/
theorem C80_monotone {r : Rounding K} {m : Method} (hm : m = .single ∨ m = .complete ∨ ∀ x, r.rnd x = x) {e : Nat → Nat → K} (he : ∀ i j, e i j = e j i)
    {n : Nat} {rows : List (Row (D K))} (h : linkageBy r m n ((upperHalf e n).map .fin) = .ok rows) {t t' : Nat} {row row' : Row (D K)}
    (ht : rows[t]? = some row) (ht' : rows[t']? = some row') (hlt : t ≤ t') {d d' : K} (hd : row.distSq = .fin d) (hd' : row'.distSq = .fin d') : d ≤ d' := by
  by_cases hn : 1 < n
  · obtain ⟨rows', h1, h2⟩ := result hm he hn
    rw [h, Except.ok.injEq] at h1
    subst h1
    obtain ⟨g1, g2⟩ := List.getElem?_eq_some_iff.mp ht
    obtain ⟨g3, g4⟩ := List.getElem?_eq_some_iff.mp ht'
    rcases Nat.lt_or_eq_of_le hlt with hlt | rfl
    · exact List.pairwise_iff_getElem.mp h2.mono t t' g1 g3 hlt d d' (by rw [g2]; exact hd) (by rw [g4]; exact hd')
    · rw [g2] at g4
      subst g4
      rw [hd, D.fin.injEq] at hd'
      rw [hd']
  · unfold linkageBy at h
    rw [if_pos (by omega), Except.ok.injEq] at h
    subst h
    simp at ht

/-- Flat clusters up to a distance are found, and two observations have the same number if and only if some cluster that was made at not more than that
distance has both. -/
theorem C80_flat {r : Rounding K} {m : Method} (hm : m = .single ∨ m = .complete ∨ ∀ x, r.rnd x = x) {e : Nat → Nat → K} (he : ∀ i j, e i j = e j i)
    {n : Nat} (hn : 1 < n) {rows : List (Row (D K))} (h : linkageBy r m n ((upperHalf e n).map .fin) = .ok rows) (limit : K) :
    ∃ N labels, (∀ fuel, N ≤ fuel → cutAt fuel rows n limit = some (.ok labels)) ∧ labels.length = n ∧
      ∀ i j, i < n → j < n → (labels[i]? = labels[j]? ↔
        i = j ∨ ∃ t row d, rows[t]? = some row ∧ row.distSq = .fin d ∧ d ≤ limit ∧ i ∈ members rows n (n + t) ∧ j ∈ members rows n (n + t)) := by
  obtain ⟨rows', h1, h2⟩ := result hm he hn
  rw [h, Except.ok.injEq] at h1
  subst h1
  obtain ⟨N, x, hx⟩ := cutAt_ends h2 limit
  obtain ⟨labels, rfl, g1, g2⟩ := cutAt_ok h2 limit (hx N (Nat.le_refl _))
  exact ⟨N, labels, hx, g1, g2⟩

/-- Single linkage up to a distance: two observations have the same number if and only if one can be reached from the other in steps between observations
that are not longer than that distance. -/
theorem C80_components (r : Rounding K) {e : Nat → Nat → K} (he : ∀ i j, e i j = e j i) {n : Nat} (hn : 1 < n) {rows : List (Row (D K))}
    (h : linkageBy r .single n ((upperHalf e n).map .fin) = .ok rows) (limit : K) {fuel : Nat} {x : Res (List Nat)} (hx : cutAt fuel rows n limit = some x) :
    ∃ labels, x = .ok labels ∧ labels.length = n ∧ ∀ i j, i < n → j < n → (labels[i]? = labels[j]? ↔ Reaches e n limit i j) := by
  obtain ⟨rows', h1, h2⟩ := result (Or.inl rfl) he hn
  rw [h, Except.ok.injEq] at h1
  subst h1
  exact single_components he h2 limit hx

/-- Complete linkage up to a distance: observations with the same number are not farther from each other than that. -/
theorem C80_compact (r : Rounding K) {e : Nat → Nat → K} (he : ∀ i j, e i j = e j i) {n : Nat} (hn : 1 < n) {rows : List (Row (D K))}
    (h : linkageBy r .complete n ((upperHalf e n).map .fin) = .ok rows) (limit : K) {fuel : Nat} {x : Res (List Nat)} (hx : cutAt fuel rows n limit = some x) :
    ∃ labels, x = .ok labels ∧ labels.length = n ∧ ∀ i j, i < n → j < n → i ≠ j → labels[i]? = labels[j]? → e i j ≤ limit := by
  obtain ⟨rows', h1, h2⟩ := result (Or.inr (Or.inl rfl)) he hn
  rw [h, Except.ok.injEq] at h1
  subst h1
  obtain ⟨labels, g0, g1, g2⟩ := cutAt_ok h2 limit hx
  refine ⟨labels, g0, g1, ?_⟩
  intro i j hi hj hij hl
  rcases (g2 i j hi hj).mp hl with g | ⟨t, row, d, hr, hd, hle, hit, hjt⟩
  · exact (hij g).elim
  · refine complete_small he h2 limit (n + t) ?_ i hit j hjt hij
    intro t' row' hr' hle'
    obtain ⟨d', hd', _⟩ := h2.greedy t' row' hr'
    exact ⟨d', hd', le_trans (C80_monotone (Or.inr (Or.inl rfl)) he h hr' hr (by omega) hd' hd) hle⟩

end

/-- A distance that is infinite or not a number: the first observation is joined with itself. -/
theorem C80_not_finite {K : Type} [Field K] [LinearOrder K] (r : Rounding K) (m : Method) {d : D K} (hd : ∀ x, d ≠ .fin x) :
    ∃ rows, linkageBy r m 2 [d] = .ok rows ∧ rows = [⟨0, 0, .inf, 2⟩] ∧ ¬ Dendrogram 2 rows := by
  refine ⟨_, rfl, ?_, ?_⟩
  · cases d with
    | fin x => exact (hd x rfl).elim
    | inf => rfl
    | nan => rfl
  · intro h
    have hrows : (steps r m (2 - 1) (start 2 [d])).rows = [⟨0, 0, .inf, 2⟩] := by
      cases d with
      | fin x => exact (hd x rfl).elim
      | inf => rfl
      | nan => rfl
    rw [hrows] at h
    have := h.older 0 _ rfl
    simp at this

/-! ### Cases -/

/-- Observations at 0, 1, 3 and 7. -/
def places (i j : Nat) : ℚ := |([0, 1, 3, 7] : List ℚ).getD i 0 - ([0, 1, 3, 7] : List ℚ).getD j 0|

theorem places_symm (i j : Nat) : places i j = places j i := abs_sub_comm _ _

example : (upperHalf places 4) = [1, 3, 7, 2, 6, 4] := by decide +kernel

def rowsOf (m : Method) : List (Row (D ℚ)) := ((linkageBy (exact ℚ) m 4 ((upperHalf places 4).map .fin)).toOption).getD []

theorem rowsOf_ok (m : Method) : linkageBy (exact ℚ) m 4 ((upperHalf places 4).map .fin) = .ok (rowsOf m) := by
  obtain ⟨rows, h, _⟩ := C80_tree (exact ℚ) m places_symm 4
  rw [rowsOf, h]
  rfl

example : rowsOf .single = [⟨0, 1, .fin 1, 2⟩, ⟨2, 4, .fin 2, 3⟩, ⟨3, 5, .fin 4, 4⟩] := by decide +kernel

example : rowsOf .complete = [⟨0, 1, .fin 1, 2⟩, ⟨2, 4, .fin 3, 3⟩, ⟨3, 5, .fin 7, 4⟩] := by decide +kernel

example : rowsOf .average = [⟨0, 1, .fin 1, 2⟩, ⟨2, 4, .fin (5 / 2), 3⟩, ⟨3, 5, .fin (17 / 3), 4⟩] := by decide +kernel

example : rowsOf .weighted = [⟨0, 1, .fin 1, 2⟩, ⟨2, 4, .fin (5 / 2), 3⟩, ⟨3, 5, .fin (21 / 4), 4⟩] := by decide +kernel

example : cutAt 10 (rowsOf .single) 4 2 = some (.ok [1, 1, 1, 2]) := by decide +kernel

example : cutAt 10 (rowsOf .complete) 4 2 = some (.ok [1, 1, 2, 3]) := by decide +kernel

/-- 0 and 3 are at a distance of 3, but each step is not longer than 2. -/
example : Reaches places 4 2 0 2 ∧ ¬ places 0 2 ≤ 2 := by
  refine ⟨.there 0 1 2 (by decide) (by decide +kernel) (.there 1 2 2 (by decide) (by decide +kernel) (.here 2)), by decide +kernel⟩

/-- The first merge of average linkage, with the distances of all pairs. -/
example : ∃ d, (⟨0, 1, .fin 1, 2⟩ : Row (D ℚ)).distSq = .fin d ∧ ClusterDist .average places 4 (rowsOf .average) 0 1 d ∧
    ∀ c c', Alive (rowsOf .average) 4 0 c → Alive (rowsOf .average) 4 0 c' → c ≠ c' → ∃ d', ClusterDist .average places 4 (rowsOf .average) c c' d' ∧ d ≤ d' :=
  (C80_closest (r := exact ℚ) (Or.inr (Or.inr fun _ => rfl)) places_symm (rowsOf_ok .average) (t := 0) (row := ⟨0, 1, .fin 1, 2⟩) (by decide +kernel)).2.2

example : squareform [0, 1, 3, 1, 0, 2, 3, 2, 0] 3 = .ok [1, 3, 2] := by decide +kernel

end NextPlaid.Props
