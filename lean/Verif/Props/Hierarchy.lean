import Verif.Proofs.Hierarchy8
import Verif.Proofs.Double
import Verif.Props.Fusion

/-!
C59: pooling of token embeddings.
-/

namespace NextPlaid.Props

open NextPlaid.Hier NextPlaid.Fusion NextPlaid.Spec

section
variable {K : Type} [Field K] [LinearOrder K]

/-- In any arithmetic: if `linkage` returns, its result is a tree over the observations. -/
theorem C59_tree (r : Rounding K) {fuel n : Nat} {ds : List (Option K)} {rows : List (Row K)} (h : linkage r fuel n ds = some (.ok rows)) :
    Dendrogram n rows := linkage_tree r h

omit [Field K] [LinearOrder K] in
/-- The flat clusters of a tree: exactly `k` of them, numbered by first members; two observations have the same number if and only if they are in one
cluster after the first `n - k` merges. -/
theorem C59_flat {n k fuel : Nat} {rows : List (Row K)} (h : Dendrogram n rows) (hk : k ≤ n) (hk0 : 0 < k) {x : Res (List Nat)}
    (hx : maxclust fuel rows n k = some x) :
    ∃ labels, x = .ok labels ∧ labels.length = n ∧ Numbered labels k ∧
      ∀ i j, i < n → j < n → (labels[i]? = labels[j]? ↔ OneCluster rows n (n - k) i j) := by
  rcases Nat.lt_or_ge k n with hlt | hge
  · rw [maxclust_cut hlt (by omega)] at hx
    obtain ⟨labels, hl, hc⟩ := cut_ok (Dendro.tree h) (by rw [h.count]; omega) hx
    refine ⟨labels, hl, hc.length, ?_, hc.same⟩
    have := hc.numbered
    rwa [show n - (n - k) = k by omega] at this
  · have : k = n := by omega
    subst this
    unfold maxclust at hx
    rw [if_pos (Nat.le_refl _), Option.some.injEq] at hx
    have hget : ∀ i, i < k → (List.range' 1 k)[i]? = some (1 + i) := by
      intro i hi
      rw [List.getElem?_range' hi]
      simp
    refine ⟨List.range' 1 k, hx.symm, List.length_range', ⟨?_, ?_⟩, ?_⟩
    · intro l
      rw [List.mem_range'_1]
      omega
    · intro i l hl
      have hi : i < k := by
        have := (List.getElem?_eq_some_iff.mp hl).1
        rwa [List.length_range'] at this
      rw [hget i hi, Option.some.injEq] at hl
      rcases Nat.eq_zero_or_pos l with h0 | h0
      · exact Or.inl h0
      · refine Or.inr (List.mem_of_getElem? (i := l - 1) ?_)
        rw [List.getElem?_take, if_pos (by omega), hget _ (by omega), Option.some.injEq]
        omega
    · intro i j hi hj
      rw [hget i hi, hget j hj, Option.some.injEq]
      constructor
      · intro e
        exact Or.inl (by omega)
      · rintro (e | ⟨t, ht, _⟩)
        · omega
        · omega

omit [Field K] [LinearOrder K] in
/-- The flat clusters of a tree are found after finitely many steps. -/
theorem C59_flat_ends {n : Nat} {rows : List (Row K)} (h : Dendrogram n rows) (k : Nat) : ∃ N x, ∀ fuel, N ≤ fuel → maxclust fuel rows n k = some x := by
  by_cases hk : k < n
  · by_cases h0 : k = 0
    · refine ⟨0, .ok (List.replicate n 1), ?_⟩
      intro fuel _
      unfold maxclust
      rw [if_neg (by omega), if_pos h0]
    · obtain ⟨N, x, hx⟩ := cut_ends (Dendro.tree h) (m := n - k) (by have := h.count; omega)
      refine ⟨N, x, ?_⟩
      intro fuel hf
      rw [maxclust_cut hk h0]
      exact hx fuel hf
  · refine ⟨0, .ok (List.range' 1 n), ?_⟩
    intro fuel _
    unfold maxclust
    rw [if_pos (by omega)]

/-- The flat clusters up to a distance: two observations have the same number if and only if they are in one cluster after the merges before the first
one that is farther. -/
theorem C59_flat_distance {n fuel : Nat} {rows : List (Row K)} (h : Dendrogram n rows) (limitSq : K) {x : Res (List Nat)}
    (hx : distclust fuel rows n limitSq = some x) :
    ∃ labels m, x = .ok labels ∧ m ≤ rows.length ∧ (∀ row ∈ rows.take m, row.distSq ≤ limitSq) ∧ (∀ row, rows[m]? = some row → limitSq < row.distSq) ∧
      labels.length = n ∧ Numbered labels (n - m) ∧ ∀ i j, i < n → j < n → (labels[i]? = labels[j]? ↔ OneCluster rows n m i j) := by
  unfold distclust at hx
  have hsplit : ∀ l : List (Row K), (∀ row ∈ l.take (l.takeWhile fun x => x.distSq ≤ limitSq).length, row.distSq ≤ limitSq) ∧
      ∀ row, l[(l.takeWhile fun x => x.distSq ≤ limitSq).length]? = some row → limitSq < row.distSq := by
    intro l
    induction l with
    | nil => simp
    | cons y l ih =>
      by_cases hy : y.distSq ≤ limitSq
      · rw [List.takeWhile_cons_of_pos (by simpa using hy), List.length_cons, List.take_succ_cons, List.getElem?_cons_succ]
        refine ⟨?_, ih.2⟩
        intro row hrow
        rcases List.mem_cons.mp hrow with rfl | hrow
        · exact hy
        · exact ih.1 row hrow
      · rw [List.takeWhile_cons_of_neg (by simpa using hy)]
        refine ⟨by simp, ?_⟩
        intro row hrow
        simp only [List.length_nil, List.getElem?_cons_zero, Option.some.injEq] at hrow
        subst hrow
        exact not_le.mp hy
  have hle : (rows.takeWhile fun x => x.distSq ≤ limitSq).length ≤ rows.length := (List.takeWhile_prefix _).length_le
  obtain ⟨labels, hl, hc⟩ := cut_ok (Dendro.tree h) hle hx
  exact ⟨labels, _, hl, hle, (hsplit rows).1, (hsplit rows).2, hc.length, hc.numbered, hc.same⟩

/-- In any arithmetic, a pooled document has the first row of the document and then one row per cluster; every `factor` rows become one, but at
least one is left. -/
theorem C59_pooled (r q : Rounding K) (dist : List K → List K → Option K) {fuel width factor : Nat} {emb out : List (List K)} (hf : 1 < factor)
    (hlen : 2 < emb.length) (hw : ∀ row ∈ emb, row.length = width) (h : poolDocument r q dist fuel emb width (some factor) = some (.ok out)) :
    out.length = 1 + max ((emb.length - 1) / factor) 1 ∧ out.head? = emb.head? ∧ ∀ row ∈ out, row.length = width := by
  simp only [poolDocument] at h
  rw [if_pos hf] at h
  obtain ⟨rows, labels, _, hd, hc, rfl⟩ := pool_ok r q dist hf hlen h
  refine ⟨?_, ?_, ?_⟩
  · rw [List.length_append, List.length_take, List.length_map, List.length_range]
    omega
  · cases emb with
    | nil => simp at hlen
    | cons e emb => simp
  · intro row hrow
    rcases List.mem_append.mp hrow with h1 | h1
    · exact hw row (List.mem_of_mem_take h1)
    · obtain ⟨c, _, rfl⟩ := List.mem_map.mp h1
      rw [List.length_map]
      apply addRows_length
      · exact List.length_replicate
      · intro r hr
        obtain ⟨i, hi, rfl⟩ := List.mem_map.mp hr
        simp only [classOf, List.mem_filter, List.mem_range] at hi
        rw [List.getD_eq_getElem?_getD, List.getElem?_eq_getElem (by rw [List.length_drop]; omega)]
        exact hw _ (List.mem_of_mem_drop (List.getElem_mem _))

/-- The rows of a pooled document are the means of a partition of the other rows into non-empty clusters: the clusters of the tree after the first
merges.  The clusters may be found in any arithmetic; the means are exact. -/
theorem C59_means (r q : Rounding K) (hq : ∀ x, q.rnd x = x) (dist : List K → List K → Option K) {fuel width factor : Nat} {emb out : List (List K)}
    (hf : 1 < factor) (hlen : 2 < emb.length) (hw : ∀ row ∈ emb, row.length = width)
    (h : poolDocument r q dist fuel emb width (some factor) = some (.ok out)) :
    ∃ (rows : List (Row K)) (cls : List (List Nat)), linkage r fuel (emb.length - 1) (distances dist (emb.drop 1)) = some (.ok rows) ∧
      cls.flatten.Perm (List.range (emb.length - 1)) ∧ (∀ c ∈ cls, c ≠ []) ∧
      (∀ i j, i < emb.length - 1 → j < emb.length - 1 →
        ((∃ c ∈ cls, i ∈ c ∧ j ∈ c) ↔ OneCluster rows (emb.length - 1) (emb.length - 1 - cls.length) i j)) ∧
      out = emb.take 1 ++ cls.map fun c => (List.range width).map (mean (emb.drop 1) c) := by
  simp only [poolDocument] at h
  rw [if_pos hf] at h
  obtain ⟨rows, labels, hl, hd, hc, rfl⟩ := pool_ok r q dist hf hlen h
  have hk : max ((emb.length - 1) / factor) 1 < emb.length - 1 := by
    have : (emb.length - 1) / factor < emb.length - 1 := Nat.div_lt_self (by omega) hf
    omega
  have hnum := hc.numbered
  rw [show emb.length - 1 - (emb.length - 1 - max ((emb.length - 1) / factor) 1) = max ((emb.length - 1) / factor) 1 by omega] at hnum
  refine ⟨rows, (List.range (max ((emb.length - 1) / factor) 1)).map fun c => classOf labels (emb.length - 1) c, hl, ?_, ?_, ?_, ?_⟩
  · exact class_parts hc.length (fun l hl => (hnum.range l).mp hl)
  · intro c hcm
    obtain ⟨x, hx, rfl⟩ := List.mem_map.mp hcm
    exact class_nonempty hc.length hnum.range (List.mem_range.mp hx)
  · intro i j hi hj
    rw [List.length_map, List.length_range, ← hc.same i j hi hj]
    constructor
    · rintro ⟨c, hcm, h1, h2⟩
      obtain ⟨x, hx, rfl⟩ := List.mem_map.mp hcm
      simp only [classOf, List.mem_filter, List.mem_range, decide_eq_true_eq] at h1 h2
      rw [h1.2, h2.2]
    · intro e
      have hi' : i < labels.length := by rw [hc.length]; exact hi
      have g1 : labels[i]? = some labels[i] := List.getElem?_eq_getElem hi'
      have g2 := (hnum.range labels[i]).mp (List.getElem_mem hi')
      refine ⟨classOf labels (emb.length - 1) (labels[i] - 1), List.mem_map.mpr ⟨labels[i] - 1, List.mem_range.mpr (by omega), rfl⟩, ?_, ?_⟩
      · simp only [classOf, List.mem_filter, List.mem_range, decide_eq_true_eq]
        refine ⟨hi, ?_⟩
        rw [g1, Option.some.injEq]
        omega
      · simp only [classOf, List.mem_filter, List.mem_range, decide_eq_true_eq]
        refine ⟨hj, ?_⟩
        rw [← e, g1, Option.some.injEq]
        omega
  · congr 1
    rw [List.map_map]
    apply List.map_congr_left
    intro c hcm
    apply mean_row hq
    · exact class_nonempty hc.length hnum.range (List.mem_range.mp hcm)
    · intro i hi
      simp only [classOf, List.mem_filter, List.mem_range] at hi
      rw [List.length_drop]
      exact hi.1
    · intro r hr
      exact hw r (List.mem_of_mem_drop hr)

/-- Short documents, and all documents without a pool factor above one, are returned as they are. -/
theorem C59_unpooled (r q : Rounding K) (dist : List K → List K → Option K) (fuel width : Nat) (emb : List (List K)) (factor : Option Nat)
    (h : emb.length ≤ 2 ∨ ∀ f, factor = some f → f ≤ 1) : poolDocument r q dist fuel emb width factor = some (.ok emb) := by
  cases factor with
  | none => rfl
  | some f =>
    simp only [poolDocument]
    rcases h with h | h
    · split
      · unfold pool
        rw [if_pos h]
      · rfl
    · rw [if_neg (by have := h f rfl; omega)]

/-- A row that is at no finite distance from any other makes the pooling panic: one embedding with a NaN is enough. -/
theorem C59_not_finite_panics (r : Rounding K) (fuel n : Nat) (ds : List (Option K)) (hn : 2 ≤ n) (hlen : ds.length = n * (n - 1) / 2)
    (hnan : ∀ j, 0 < j → j < n → ds[condensed n 0 j]? = some none) : linkage r (fuel + 1) n ds = some (.error .panic) := by
  have hnone : nearest (begin r n ds).dist 0 (List.range n) = none := by
    cases hx : nearest (begin r n ds).dist 0 (List.range n) with
    | none => rfl
    | some v =>
      obtain ⟨j, d⟩ := v
      obtain ⟨h1, h2, h3⟩ := nearest_mem hx
      have hj : j < n := List.mem_range.mp h1
      have hd : (begin r n ds).dist 0 j = none := by
        simp only [begin, if_neg (Ne.symm h2), if_pos (show 0 < n ∧ j < n from ⟨by omega, hj⟩), Nat.zero_min, Nat.zero_max]
        rw [hnan j (by omega) hj]
        rfl
      rw [hd] at h3
      cases h3
  unfold linkage
  rw [if_neg (by omega), if_neg (by rw [hlen]; simp)]
  obtain ⟨m, hm⟩ : ∃ m, n - 1 = m + 1 := ⟨n - 2, by omega⟩
  rw [hm, merges]
  have hstart : (if (begin r n ds).chain = [] then { begin r n ds with chain := (begin r n ds).active.take 1 } else begin r n ds)
      = { begin r n ds with chain := [0] } := by
    rw [if_pos (show (begin r n ds).chain = [] from rfl)]
    have ht : (begin r n ds).active.take 1 = [0] := ?_
    · rw [ht]
    show (List.range n).take 1 = [0]
    obtain ⟨k, rfl⟩ : ∃ k, n = k + 1 := ⟨n - 1, by omega⟩
    rw [List.range_succ_eq_map]
    rfl
  rw [hstart]
  have hnear : near { begin r n ds with chain := [0] } 0 = none := by
    have hcache : (begin r n ds).cache 0 = none := by
      rw [← hnone]
      simp only [begin]
      rw [if_pos (by omega)]
    unfold near
    simp only [hcache]
    exact hnone
  unfold grow
  simp only [hnear]

end

section
variable {K : Type} [Field K] [LinearOrder K] [IsStrictOrderedRing K]

theorem total_congr {sq sq' : Nat → Nat → K} {n : Nat} (h : ∀ i j, i < n → j < n → sq i j = sq' i j) {A B : List Nat} (hA : ∀ a ∈ A, a < n)
    (hB : ∀ b ∈ B, b < n) : total sq A B = total sq' A B := by
  unfold total
  congr 1
  apply List.map_congr_left
  intro a ha
  congr 1
  apply List.map_congr_left
  intro b hb
  exact h a b (hA a ha) (hB b hb)

theorem ward_congr {sq sq' : Nat → Nat → K} {n : Nat} (h : ∀ i j, i < n → j < n → sq i j = sq' i j) {A B : List Nat} (hA : ∀ a ∈ A, a < n)
    (hB : ∀ b ∈ B, b < n) : ward sq A B = ward sq' A B := by
  unfold ward
  rw [total_congr h hA hB, total_congr h hA hA, total_congr h hB hB]

/-- In exact arithmetic, for any finite distances `e` of `n` observations, `linkage` returns.  The distance of each row is Ward's dissimilarity of the two
clusters, and of all clusters that were there none was nearer to either of them. -/
theorem C59_ward (r : Rounding K) (hr : ∀ x, r.rnd x = x) (e : Nat → Nat → K) (hsym : ∀ i j, e i j = e j i) (h0 : ∀ i, e i i = 0) (n fuel : Nat)
    (hfuel : n ≤ fuel) :
    ∃ rows, linkage r fuel n (pdist (fun i j => some (e i j)) n) = some (.ok rows) ∧
      ∀ t row, rows[t]? = some row →
        row.distSq = ward (fun i j => e i j * e i j) (members rows n row.a) (members rows n row.b) ∧
        ∀ c, Alive rows n t c → c ≠ row.a → c ≠ row.b →
          row.distSq ≤ ward (fun i j => e i j * e i j) (members rows n row.a) (members rows n c) ∧
          row.distSq ≤ ward (fun i j => e i j * e i j) (members rows n row.b) (members rows n c) := by
  have hfin : ∀ x ∈ pdist (fun i j => some (e i j)) n, x.isSome := by
    intro x hx
    simp only [pdist, List.mem_flatMap, List.mem_map] at hx
    obtain ⟨_, _, _, _, rfl⟩ := hx
    rfl
  have hsq : ∀ i j, i < n → j < n → sqOf n (pdist (fun i j => some (e i j)) n) i j = e i j * e i j := by
    intro i j hi hj
    unfold sqOf
    by_cases hij : i = j
    · rw [if_pos hij, hij, h0, mul_zero]
    · rw [if_neg hij, pdist_get _ (by omega) (by omega)]
      simp only [Option.join, Option.bind_some, id, Option.getD_some]
      rcases Nat.le_total i j with h | h
      · rw [Nat.min_eq_left h, Nat.max_eq_right h]
      · rw [Nat.min_eq_right h, Nat.max_eq_left h, hsym]
  obtain ⟨rows, h1, h2⟩ := linkage_exact hr hfuel (pdist_length _ n) hfin
  refine ⟨rows, h1, ?_⟩
  intro t row hrow
  obtain ⟨h3, h4⟩ := h2 t row hrow
  have hm : ∀ c, ∀ x ∈ members rows n c, x < n := fun c x hx => members_lt rows n c x hx
  have hw : ∀ c c', ward (sqOf n (pdist (fun i j => some (e i j)) n)) (members rows n c) (members rows n c')
      = ward (fun i j => e i j * e i j) (members rows n c) (members rows n c') := fun c c' => ward_congr hsq (hm c) (hm c')
  simp only [hw] at h3 h4
  refine ⟨h3, ?_⟩
  intro c hc1 hc2 hc3
  rw [h3]
  exact h4 c hc1 hc2 hc3

/-- In exact arithmetic every document whose rows are at finite distances is pooled. -/
theorem C59_succeeds (r q : Rounding K) (hr : ∀ x, r.rnd x = x) (dist : List K → List K → Option K) (emb : List (List K)) (width factor : Nat)
    (hf : 1 < factor) (hlen : 2 < emb.length) (hfin : ∀ a ∈ emb, ∀ b ∈ emb, (dist a b).isSome) :
    ∃ N out, ∀ fuel, N ≤ fuel → poolDocument r q dist fuel emb width (some factor) = some (.ok out) := by
  have hd : ∀ x ∈ distances dist (emb.drop 1), x.isSome := by
    intro x hx
    simp only [distances, pdist, List.mem_flatMap, List.mem_map, List.mem_range, List.mem_range'_1] at hx
    obtain ⟨i, hi, j, hj, rfl⟩ := hx
    apply hfin
    · rw [List.getD_eq_getElem?_getD, List.getElem?_eq_getElem hi]
      exact List.mem_of_mem_drop (List.getElem_mem _)
    · rw [List.getD_eq_getElem?_getD, List.getElem?_eq_getElem (show j < (emb.drop 1).length by omega)]
      exact List.mem_of_mem_drop (List.getElem_mem _)
  obtain ⟨N, out, h⟩ := pool_ends hr q dist (width := width) hf hlen hd
  refine ⟨N, out, ?_⟩
  intro fuel hfu
  simp only [poolDocument]
  rw [if_pos hf]
  exact h fuel hfu

end

/-! ### Where it goes wrong -/

/-- Points 0, 5, 100 and 101 on a line. -/
def fourPoints : List (Option ℚ) := [some 5, some 100, some 101, some 95, some 96, some 1]

/-- The merges are not in the order of their distances, so a cut into three clusters joins the points at distance 5 and not those at distance 1; and a
cut at distance 2 joins no points at all. -/
theorem C59_cut_not_by_distance :
    ∃ rows, linkage (exact ℚ) 4 4 fourPoints = some (.ok rows) ∧ rows.map (·.distSq) = [25, 1, 19208] ∧
      maxclust 4 rows 4 3 = some (.ok [1, 1, 2, 3]) ∧ distclust 4 rows 4 (2 * 2) = some (.ok [1, 2, 3, 4]) := by
  refine ⟨[⟨0, 1, 25, 2⟩, ⟨2, 3, 1, 2⟩, ⟨4, 5, 19208, 4⟩], ?_, ?_, ?_, ?_⟩ <;> decide +kernel

theorem cycle_runs (r : Rounding ℚ) : ∀ (fuel : Nat) (s : St ℚ) (x y z : Nat) (dx dy dz : ℚ) (rest : List Nat), s.chain = x :: rest →
    near s x = some (y, dx) → near s y = some (z, dy) → near s z = some (x, dz) → x ≠ y → y ≠ z → x ≠ z → rest.head? ≠ some y →
    grow r fuel s = none := by
  intro fuel
  induction fuel with
  | zero => intros; rfl
  | succ fuel ih =>
    intro s x y z dx dy dz rest hc hx hy hz hxy hyz hxz hr
    unfold grow
    rw [hc]
    simp only
    rw [hx]
    simp only
    rw [if_neg hr]
    have hnear : ∀ k v, near s k = some v → near { note s x (y, dx) with chain := y :: x :: rest } k = some v := by
      intro k v hk
      unfold near
      have hcache : ({ note s x (y, dx) with chain := y :: x :: rest } : St ℚ).cache k = if k = x then some (y, dx) else s.cache k := rfl
      rw [hcache]
      by_cases hkx : k = x
      · subst hkx
        rw [if_pos rfl, ← hx, hk]
      · rw [if_neg hkx]
        exact hk
    exact ih { note s x (y, dx) with chain := y :: x :: rest } y z x dy dz dx (x :: rest) rfl (hnear _ _ hy) (hnear _ _ hz) (hnear _ _ hx) hyz
      (Ne.symm hxz) (Ne.symm hxy) (by simp only [List.head?_cons, ne_eq, Option.some.injEq]; exact hxz)

/-- Two distances that differ in the last bit. -/
def shorter : Option ℚ := some (7757009214453180 / 9007199254740992)
def longer : Option ℚ := some (7757009214453181 / 9007199254740992)

/-- The distances of eight observations. -/
def eightPoints : List (Option ℚ) :=
  [shorter, longer, longer, shorter, longer, longer, shorter,
    longer, longer, longer, shorter, longer, shorter,
    longer, longer, longer, longer, shorter,
    longer, shorter, longer, shorter,
    longer, shorter, shorter,
    longer, shorter,
    shorter]

def stateOf (x : Option (Res (St ℚ))) : St ℚ :=
  match x with
  | some (.ok s) => s
  | _ => begin double 8 []

def returned (x : Option (Res (St ℚ))) : Bool :=
  match x with
  | some (.ok _) => true
  | _ => false

def chained (s : St ℚ) : St ℚ := if s.chain = [] then { s with chain := s.active.take 1 } else s

def eight1 : St ℚ := stateOf (grow double 9 (chained (begin double 8 eightPoints)))
def eight2 : St ℚ := stateOf (grow double 9 (chained eight1))
def eight3 : St ℚ := stateOf (grow double 9 (chained eight2))

theorem returned_eq {x : Option (Res (St ℚ))} (h : returned x = true) : x = some (.ok (stateOf x)) := by
  cases x with
  | none => cases h
  | some y =>
    cases y with
    | error f => cases h
    | ok s => rfl

set_option maxRecDepth 10000 in
theorem eight_returned : returned (grow double 9 (chained (begin double 8 eightPoints))) = true ∧ returned (grow double 9 (chained eight1)) = true ∧
    returned (grow double 9 (chained eight2)) = true := by
  refine ⟨?_, ?_, ?_⟩ <;> decide +kernel

set_option maxRecDepth 10000 in
theorem eight_cycle : (chained eight3).chain = [3] ∧ near (chained eight3) 3 = some (5, 3340172136274219 / 4503599627370496) ∧
    near (chained eight3) 5 = some (10, 6680344272548437 / 9007199254740992) ∧
    near (chained eight3) 10 = some (3, 6680344272548437 / 9007199254740992) := by
  refine ⟨?_, ?_, ?_, ?_⟩ <;> decide +kernel

/-- In doubles `linkage` may never return: after three merges of eight observations the nearest neighbours go round in a circle of three and the chain
grows for ever. -/
theorem C59_never_ends (fuel : Nat) : linkage double fuel 8 eightPoints = none := by
  cases h : linkage double fuel 8 eightPoints with
  | none => rfl
  | some x =>
    exfalso
    have h' := linkage_mono double (Nat.le_max_left fuel 9) h
    obtain ⟨g, hg⟩ : ∃ g, g = max fuel 9 := ⟨_, rfl⟩
    rw [← hg] at h'
    have h9 : 9 ≤ g := by omega
    unfold linkage at h'
    rw [if_neg (by decide), if_neg (by decide)] at h'
    have r1 : grow double g (chained (begin double 8 eightPoints)) = some (.ok eight1) := grow_mono double 9 h9 (returned_eq eight_returned.1)
    have r2 : grow double g (chained eight1) = some (.ok eight2) := grow_mono double 9 h9 (returned_eq eight_returned.2.1)
    have r3 : grow double g (chained eight2) = some (.ok eight3) := grow_mono double 9 h9 (returned_eq eight_returned.2.2)
    obtain ⟨c1, c2, c3, c4⟩ := eight_cycle
    have r4 := cycle_runs double g (chained eight3) 3 5 10 _ _ _ [] c1 c2 c3 c4 (by decide) (by decide) (by decide) (by decide)
    have hm : merges double g (8 - 1) (begin double 8 eightPoints) = none := by
      show merges double g (3 + 4) _ = none
      have s1 : ∀ m s t, grow double g (chained s) = some (.ok t) → merges double g (m + 1) s = merges double g m t := by
        intro m s t hst
        unfold chained at hst
        rw [merges, hst]
      rw [show 3 + 4 = 6 + 1 from rfl, s1 6 _ _ r1, show 6 = 5 + 1 from rfl, s1 5 _ _ r2, show 5 = 4 + 1 from rfl, s1 4 _ _ r3,
        show 4 = 3 + 1 from rfl, merges]
      unfold chained at r4
      rw [r4]
    rw [hm] at h'
    cases h'

/-! ### Examples -/

def stateRows (x : Option (Res (List (Row ℚ)))) : List (Row ℚ) :=
  match x with
  | some (.ok rows) => rows
  | _ => []

/-- The distance of two numbers. -/
@[reducible] def lineDist (a b : List ℚ) : Option ℚ := some |a.getD 0 0 - b.getD 0 0|

@[reducible] def lineDoc : List (List ℚ) := [[7], [0], [10], [1], [11], [3]]

example : poolDocument double single lineDist 10 lineDoc 1 (some 2) = some (.ok [[7], [11184811 / 8388608], [21 / 2]]) := by decide +kernel

example : poolDocument (exact ℚ) (exact ℚ) lineDist 10 lineDoc 1 (some 2) = some (.ok [[7], [4 / 3], [21 / 2]]) := by decide +kernel

example : ∃ rows, linkage double 10 5 (distances lineDist (lineDoc.drop 1)) = some (.ok rows) ∧ rows.map (fun r => (r.a, r.b, r.size)) =
    [(0, 2, 2), (1, 3, 2), (4, 5, 3), (6, 7, 5)] ∧ maxclust 10 rows 5 2 = some (.ok [1, 2, 1, 2, 1]) := by
  refine ⟨stateRows (linkage double 10 5 (distances lineDist (lineDoc.drop 1))), ?_, ?_, ?_⟩ <;> decide +kernel

example : ∀ a ∈ lineDoc, ∀ b ∈ lineDoc, (lineDist a b).isSome := by intro a _ b _; rfl

example : linkage double 3 3 [none, none, some 1] = some (.error .panic) :=
  C59_not_finite_panics double 2 3 [none, none, some 1] (by decide) (by decide) (by
    intro j h1 h2
    have h : j = 1 ∨ j = 2 := by omega
    rcases h with rfl | rfl <;> decide)

/-- The hypotheses of `C59_ward`: distances on a line. -/
example : ∃ e : Nat → Nat → ℚ, (∀ i j, e i j = e j i) ∧ (∀ i, e i i = 0) ∧ e 0 1 = 1 ∧
    ∃ rows, linkage (exact ℚ) 4 4 (pdist (fun i j => some (e i j)) 4) = some (.ok rows) ∧ rows.length = 3 := by
  refine ⟨fun i j => |(i : ℚ) - j|, fun i j => abs_sub_comm _ _, fun i => by simp, by decide +kernel, ?_⟩
  refine ⟨stateRows (linkage (exact ℚ) 4 4 (pdist (fun i j => some |(i : ℚ) - j|) 4)), ?_, ?_⟩ <;> decide +kernel

end NextPlaid.Props
