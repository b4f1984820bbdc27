import Verif.Proofs.Train2
import Mathlib.Tactic.NormNum

/-! C70: what an index learns from its documents. -/

namespace NextPlaid.Props

open NextPlaid.Spec NextPlaid.Train
open NextPlaid.Fusion (Rounding)
open NextPlaid.Codec (bucketOf)

/-! ### Centroids -/

section
variable {R : Type}

/-- k-means is given every token of the documents drawn, each of them once, and asked for at least one and at most as many centroids as
there are tokens: the number the caller wants, or else the power of two just below 16 times the root of the estimated number of tokens.
Without any token creation fails. -/
theorem C70_kmeans (d : Rounding ℚ) (train : Nat → List R → Res (List R)) (normalize : R → R) (cfg : KmeansConfig) {order : List Nat}
    {docs : List (List R)} (ho : Draw order docs.length) (hne : docs ≠ []) :
    ∃ is : List Nat, is.Nodup ∧ (∀ i ∈ is, i < docs.length) ∧ (∀ m, cfg.samples = some m → is.length = min m docs.length) ∧
      (cfg.samples = none → docs.length ≤ 30720 → is.length = docs.length) ∧
      ∀ rows, rows = is.flatMap (fun i => docs.getD i []) →
        ((rows = [] ∨ cfg.partitions = some 0) → computeKmeans d train normalize cfg order docs = .error .err) ∧
        (rows ≠ [] → cfg.partitions ≠ some 0 → ∃ k, 1 ≤ k ∧ k ≤ rows.length ∧
          computeKmeans d train normalize cfg order docs = ((train k rows).bind fun cs => .ok (cs.map normalize)) ∧
          (∀ m, cfg.partitions = some m → k = min m rows.length) ∧
          (cfg.partitions = none → ∃ j e, k = min (2 ^ j) rows.length ∧ e = d.rnd (d.rnd ((rows.length : ℚ) / is.length) * docs.length) ∧
            (1 ≤ 256 * e → ((2 : ℚ) ^ j) ^ 2 ≤ 256 * e ∧ 256 * e < (2 * (2 : ℚ) ^ j) ^ 2))) := by
  obtain ⟨h1, h2, h3⟩ := draw_take ho (drawn cfg.samples docs.length)
  have h4 := drawn_le cfg.samples docs.length
  refine ⟨order.take (drawn cfg.samples docs.length), h1, h2, ?_, ?_, ?_⟩
  · intro m hm
    rw [h3, hm]; unfold drawn; simp
  · intro hm hn
    rw [h3, hm, drawn_all hn]; simp
  · rintro rows rfl
    have hlen : (order.take (drawn cfg.samples docs.length)).length = drawn cfg.samples docs.length := by omega
    rw [hlen]
    unfold computeKmeans
    rw [if_neg hne]
    change (rowsOf docs _ = [] ∨ _ → _) ∧ (rowsOf docs _ ≠ [] → _ → ∃ k, 1 ≤ k ∧ k ≤ (rowsOf docs _).length ∧ _ = (train k (rowsOf docs _)).bind _ ∧
      (∀ m, _ → k = min m (rowsOf docs _).length) ∧ (_ → ∃ j e, k = min (2 ^ j) (rowsOf docs _).length ∧
        e = d.rnd (d.rnd (((rowsOf docs _).length : ℚ) / _) * _) ∧ _))
    generalize rowsOf docs (order.take (drawn cfg.samples docs.length)) = rows
    constructor
    · intro h
      rw [if_pos]
      unfold clusters
      rcases h with rfl | h
      · simp
      · rw [h]; simp
    · intro hr hp
      have hpos : 0 < rows.length := List.length_pos_iff.2 hr
      have hk : clusters d cfg.partitions rows.length (drawn cfg.samples docs.length) docs.length ≠ 0 := by
        unfold clusters
        cases hc : cfg.partitions with
        | none =>
          have : 0 < powerFor (estimate d rows.length (drawn cfg.samples docs.length) docs.length) := Nat.two_pow_pos _
          simp only [Option.getD_none]; omega
        | some m =>
          have : m ≠ 0 := by rintro rfl; exact hp hc
          simp only [Option.getD_some]; omega
      rw [if_neg hk]
      refine ⟨_, Nat.one_le_iff_ne_zero.2 hk, Nat.min_le_right _ _, rfl, ?_, ?_⟩
      · intro m hm; unfold clusters; rw [hm]; simp
      · intro hm
        refine ⟨_, _, by unfold clusters; rw [hm]; simp only [Option.getD_none]; unfold powerFor; rfl, rfl, ?_⟩
        intro he
        have := powerFor_spec he
        unfold powerFor at this
        push_cast at this
        refine ⟨this.1, ?_⟩
        rw [mul_pow]; norm_num
        exact this.2

/-- `estimate_num_partitions` gives the number of centroids that an index of at most 30720 documents gets, provided that the mean number of
tokens times the number of documents gives back the number of tokens. -/
theorem C70_estimate_partial (d : Rounding ℚ) {order : List Nat} {docs : List (List R)} (ho : Draw order docs.length) (hn : docs.length ≤ 30720)
    (hd : d.rnd (d.rnd ((docs.flatten.length : ℚ) / docs.length) * docs.length) = docs.flatten.length)
    (train : Nat → List R → Res (List R)) (normalize : R → R) (hne : docs.flatten ≠ []) :
    ∃ rows, rows.Perm docs.flatten ∧
      computeKmeans d train normalize ⟨none, none⟩ order docs =
        ((train (estimatePartitions d docs) rows).bind fun cs => .ok (cs.map normalize)) := by
  have hdn : docs ≠ [] := by rintro rfl; simp at hne
  have hto : order.take docs.length = order := by
    rw [List.take_of_length_le]; rw [ho.length_eq]; simp
  have hmin : min (min (1 + Nat.sqrt (30720 * docs.length)) docs.length) docs.length = docs.length := by
    have := drawn_all hn; unfold drawn at this; simpa using this
  have hlen := rowsOf_all ho
  have hk : clusters d none (rowsOf docs order).length docs.length docs.length = estimatePartitions d docs := by
    unfold clusters estimatePartitions estimate
    rw [if_neg hdn, hmin, hlen]
    rw [← tokens_eq] at hd
    rw [hd, Int.floor_natCast]
    simp
  refine ⟨rowsOf docs order, ?_, ?_⟩
  · have : docs.flatten = rowsOf docs (List.range docs.length) := by
      unfold rowsOf
      rw [List.flatMap_def]
      congr 1
      apply List.ext_getElem
      · simp
      · intro i h1 h2; simp [h1]
    rw [this]
    exact ho.flatMap_right _
  · unfold computeKmeans
    simp only [drawn_all hn, hto, hk]
    rw [if_neg hdn, if_neg]
    rw [← hk]
    unfold clusters
    have h1 : 0 < powerFor (estimate d (rowsOf docs order).length docs.length docs.length) := Nat.two_pow_pos _
    have h2 : 0 < (rowsOf docs order).length := by
      rw [hlen, tokens_eq]; exact List.length_pos_iff.2 hne
    simp only [Option.getD_none]; omega

end

example : Draw [2, 0, 1] 3 := by unfold Draw; decide

example : ∃ rows : List Nat, rows.Perm [7, 8, 9] ∧
    computeKmeans Fusion.double (fun k l => .ok (l.take k)) id ⟨none, none⟩ [1, 0] [[7, 8], [9]] =
      ((Except.ok (rows.take (estimatePartitions Fusion.double [[7, 8], [9]]))).bind fun cs => .ok (cs.map id)) :=
  C70_estimate_partial Fusion.double (docs := [[7, 8], [9]]) (by unfold Draw; decide) (by decide) (by decide +kernel) _ _ (by decide)

/-- The estimate can be wrong: for 11 documents with 15 tokens it is 14 centroids, but 15 are computed. -/
theorem C70_estimate_refuted : ∃ docs : List (List Nat), estimatePartitions Fusion.double docs = 14 ∧
    ∀ (train : Nat → List Nat → Res (List Nat)) (normalize : Nat → Nat) (order : List Nat), Draw order docs.length →
      ∃ rows, computeKmeans Fusion.double train normalize ⟨none, none⟩ order docs =
        ((train 15 rows).bind fun cs => .ok (cs.map normalize)) := by
  refine ⟨[[1, 2, 3, 4, 5], [6], [7], [8], [9], [10], [11], [12], [13], [14], [15]], by decide +kernel, ?_⟩
  intro train normalize order ho
  have hto : order.take 11 = order := by
    rw [List.take_of_length_le]; rw [ho.length_eq]; simp
  have hd : drawn none 11 = 11 := drawn_all (by decide)
  refine ⟨rowsOf [[1, 2, 3, 4, 5], [6], [7], [8], [9], [10], [11], [12], [13], [14], [15]] order, ?_⟩
  unfold computeKmeans
  have hl := rowsOf_all ho
  have hc : clusters Fusion.double none 15 11 11 = 15 := by decide +kernel
  simp only [List.length_cons, List.length_nil, Nat.zero_add, Nat.reduceAdd, hd, hto] at hl ⊢
  rw [hl, show tokens _ = 15 from by decide, hc]
  rfl

/-! ### The quantiser -/

/-- The quantiser is learned from the first rows, a twentieth of all but at most 50000, of documents that are drawn, each once. -/
theorem C70_heldout {R : Type} {order : List Nat} {docs : List (List R)} (ho : Draw order docs.length) :
    ∃ is : List Nat, is.Nodup ∧ (∀ i ∈ is, i < docs.length) ∧ (1 ≤ docs.length → 1 ≤ is.length) ∧
      (docs.length ≤ 30720 → is.length = docs.length) ∧
      heldout order docs = (is.flatMap fun i => docs.getD i []).take (min (docs.flatten.length / 20) 50000) := by
  obtain ⟨h1, h2, h3⟩ := draw_take ho (sampleCount docs.length)
  refine ⟨(order.take (sampleCount docs.length)).reverse, List.nodup_reverse.2 h1, fun i hi => h2 i (by simpa using hi), ?_, ?_, ?_⟩
  · intro hn
    rw [List.length_reverse, h3]; unfold sampleCount; omega
  · intro hn
    have : docs.length ≤ Nat.sqrt (30720 * docs.length) := by
      rw [Nat.le_sqrt]; exact Nat.mul_le_mul_right _ hn
    rw [List.length_reverse, h3]; unfold sampleCount; omega
  · rw [heldout_eq, tokens_eq]; rfl

section
variable {K : Type} [Field K] [LinearOrder K] [IsStrictOrderedRing K] {r : Rounding K} {u tiny M : K}

/-- A value between the smallest and the largest training value is replaced, when it is stored and read again, by a value that differs
from it by at most the width of its bucket and the error of the arithmetic: the buckets are the ranges between the quantiles for the
fractions `b / 2^nbits` of the training values. -/
theorem C70_error (ha : Accurate r u tiny) {values : List K} (hM : ∀ x ∈ values, |x| ≤ M) (nbits : Nat) {v : K}
    (hlo : ∃ x ∈ values, x ≤ v) (hhi : ∃ x ∈ values, v ≤ x) :
    ∃ (b : Nat) (lo hi w : K), bucketOf (cutoffs r nbits values) v = b ∧ b < 2 ^ nbits ∧
      IsQuantile values ((b : K) / 2 ^ nbits) lo ∧ IsQuantile values ((b + 1 : K) / 2 ^ nbits) hi ∧
      lo - blur u tiny M ≤ v ∧ v ≤ hi + blur u tiny M ∧
      (weights r nbits values)[b]? = some w ∧ |v - w| ≤ (hi - lo) + 2 * blur u tiny M := by
  have hne : values ≠ [] := by rintro rfl; obtain ⟨x, hx, _⟩ := hlo; simp at hx
  have hq : 0 < 2 ^ nbits := Nat.two_pow_pos nbits
  obtain ⟨b1, b2, b3⟩ := bucket_bounds ha hne hM (nbits := nbits) hlo hhi
  obtain ⟨w1, w2⟩ := weight_bounds ha hne hM b1
  refine ⟨bucketOf (cutoffs r nbits values) v, exact (sorted values) (bucketOf (cutoffs r nbits values) v) (2 ^ nbits),
    exact (sorted values) (bucketOf (cutoffs r nbits values) v + 1) (2 ^ nbits), _, rfl, b1, ?_, ?_, by linarith, b3, weights_get hne b1, ?_⟩
  · have := exact_isQuantile hne (le_of_lt b1) hq
    push_cast at this
    exact this
  · have := exact_isQuantile hne (Nat.succ_le_of_lt b1) hq
    push_cast at this
    exact this
  · rw [abs_le]; constructor <;> linarith

/-- In particular each coordinate of a row that the quantiser was learned from: `x`, in a row with `c` in its centroid, is read as
`c + w`, and `w` differs from `x - c` (rounded) by at most the width of the bucket and the error of the arithmetic. -/
theorem C70_quantiser (ha : Accurate r u tiny) (nbits : Nat) (code : List K → Nat) (centroids : List (List K)) (order : List Nat)
    (docs : List (List (List K))) {values : List K}
    (hv : values = differences r (fun row => centroids.getD (code row) []) (heldout order docs)) (hM : ∀ x ∈ values, |x| ≤ M)
    {row : List K} (hr : row ∈ heldout order docs) {j : Nat} {x c : K} (hx : row[j]? = some x)
    (hc : (centroids.getD (code row) [])[j]? = some c) :
    ∃ (b : Nat) (lo hi w : K), bucketOf (trainQuantiser r nbits code centroids order docs).1 (r.rnd (x - c)) = b ∧
      IsQuantile values ((b : K) / 2 ^ nbits) lo ∧ IsQuantile values ((b + 1 : K) / 2 ^ nbits) hi ∧
      (trainQuantiser r nbits code centroids order docs).2[b]? = some w ∧ |r.rnd (x - c) - w| ≤ (hi - lo) + 2 * blur u tiny M := by
  have he : residuals r code centroids (heldout order docs) = values := by
    rw [hv]; unfold residuals differences
    simp only [List.zip_eq_zipWith, List.map_zipWith]
  have hm : r.rnd (x - c) ∈ values := by
    rw [hv]; unfold differences
    rw [List.mem_flatMap]
    exact ⟨row, hr, List.mem_map.2 ⟨(x, c), List.mem_of_getElem? (List.getElem?_zip_eq_some.2 ⟨hx, hc⟩), rfl⟩⟩
  obtain ⟨b, lo, hi, w, h1, _, h3, h4, _, _, h7, h8⟩ := C70_error ha hM nbits ⟨_, hm, le_rfl⟩ ⟨_, hm, le_rfl⟩
  unfold trainQuantiser
  rw [he]
  exact ⟨b, lo, hi, w, h1, h3, h4, h7, h8⟩

/-- Cutoffs and weights are in order, up to the error of the arithmetic: every cutoff is below every later one, and the weight of a bucket
between its cutoffs. -/
theorem C70_order (ha : Accurate r u tiny) {values : List K} (hne : values ≠ []) (hM : ∀ x ∈ values, |x| ≤ M) (nbits : Nat) :
    (cutoffs r nbits values).length = 2 ^ nbits - 1 ∧ (weights r nbits values).length = 2 ^ nbits ∧
    (∀ (i j : Nat) (x y : K), i ≤ j → (cutoffs r nbits values)[i]? = some x → (cutoffs r nbits values)[j]? = some y →
      x ≤ y + 2 * blur u tiny M) ∧
    (∀ (i : Nat) (x w : K), (cutoffs r nbits values)[i]? = some x → (weights r nbits values)[i]? = some w → w ≤ x + 2 * blur u tiny M) ∧
    ∀ (i : Nat) (x w : K), (cutoffs r nbits values)[i]? = some x → (weights r nbits values)[i + 1]? = some w →
      x ≤ w + 2 * blur u tiny M := by
  have hq : 0 < 2 ^ nbits := Nat.two_pow_pos nbits
  have hsne : sorted values ≠ [] := by
    intro h; have := sorted_length values; rw [h] at this
    exact hne (List.eq_nil_of_length_eq_zero this.symm)
  have hsM : ∀ x ∈ sorted values, |x| ≤ M := fun x hx => hM x ((sorted_perm values).mem_iff.1 hx)
  have hc : ∀ i x, (cutoffs r nbits values)[i]? = some x → i + 1 < 2 ^ nbits ∧
      |x - exact (sorted values) (i + 1) (2 ^ nbits)| ≤ blur u tiny M := by
    intro i x hx
    obtain ⟨h1, rfl⟩ := (cutoffs_get hne).1 hx
    exact ⟨h1, quantileAt_blur ha hsM hsne (le_of_lt h1) hq⟩
  refine ⟨cutoffs_length, weights_length, ?_, ?_, ?_⟩
  · intro i j x y hij hx hy
    obtain ⟨a1, a2⟩ := hc i x hx
    obtain ⟨b1, b2⟩ := hc j y hy
    have := exact_mono (sorted_le values) hsne (by omega : i + 1 ≤ j + 1) (le_of_lt b1) hq
    have a3 := abs_le.1 a2
    have b3 := abs_le.1 b2
    linarith
  · intro i x w hx hw
    obtain ⟨a1, a2⟩ := hc i x hx
    have hi : i < 2 ^ nbits := by omega
    rw [weights_get hne hi, Option.some.injEq] at hw
    have := (weight_bounds ha hne hM hi).2
    have a3 := abs_le.1 a2
    rw [hw] at this
    linarith
  · intro i x w hx hw
    obtain ⟨a1, a2⟩ := hc i x hx
    rw [weights_get hne a1, Option.some.injEq] at hw
    have := (weight_bounds ha hne hM a1).1
    have a3 := abs_le.1 a2
    rw [hw] at this
    linarith

/-- The buckets get equal shares of the training values, up to two, if these are different from each other and the arithmetic is exact. -/
theorem C70_shares_partial (he : ∀ x, r.rnd x = x) {values : List K} (hne : values ≠ []) (hnd : values.Nodup) {nbits b : Nat}
    (hb : b < 2 ^ nbits) :
    (values.length - 1) / 2 ^ nbits ≤ (values.filter fun v => decide (bucketOf (cutoffs r nbits values) v = b)).length ∧
    (values.filter fun v => decide (bucketOf (cutoffs r nbits values) v = b)).length ≤ (values.length - 1) / 2 ^ nbits + 2 :=
  bucket_share he hne hnd hb

/-- An index made from fewer than 20 tokens learns nothing: whatever the residual, it is replaced by 0, and every token is read as its
centroid. -/
theorem C70_few_tokens (nbits : Nat) (code : List K → Nat) (centroids : List (List K)) (order : List Nat) {docs : List (List (List K))}
    (h : docs.flatten.length < 20) (v : K) :
    (trainQuantiser r nbits code centroids order docs).2[bucketOf (trainQuantiser r nbits code centroids order docs).1 v]? = some 0 := by
  have hh : heldout order docs = [] := by
    rw [heldout_eq, tokens_eq, Nat.div_eq_of_lt h]; simp
  have hb : bucketOf (cutoffs r nbits ([] : List K)) v < 2 ^ nbits := by
    have : bucketOf (cutoffs r nbits ([] : List K)) v ≤ (cutoffs r nbits ([] : List K)).length := List.length_filter_le _ _
    rw [cutoffs_length] at this
    have := Nat.two_pow_pos nbits
    omega
  unfold trainQuantiser
  rw [hh]
  simp only [residuals, List.flatMap_nil]
  generalize bucketOf (cutoffs r nbits ([] : List K)) v = b at hb
  unfold weights quantiles
  simp [hb]

end

example : ∃ (b : Nat) (lo hi w : ℚ), bucketOf (cutoffs ⟨Single.F32.nearest⟩ 2 [1, -1, 1 / 2, 0, 3]) (1 / 3) = b ∧ b < 2 ^ 2 ∧
    IsQuantile [1, -1, 1 / 2, 0, 3] ((b : ℚ) / 2 ^ 2) lo ∧ IsQuantile [1, -1, 1 / 2, 0, 3] ((b + 1 : ℚ) / 2 ^ 2) hi ∧
    lo - blur (2 ^ (-24 : Int)) (2 ^ (-150 : Int)) 3 ≤ 1 / 3 ∧ 1 / 3 ≤ hi + blur (2 ^ (-24 : Int)) (2 ^ (-150 : Int)) 3 ∧
    (weights ⟨Single.F32.nearest⟩ 2 [1, -1, 1 / 2, 0, 3])[b]? = some w ∧
    |1 / 3 - w| ≤ (hi - lo) + 2 * blur (2 ^ (-24 : Int)) (2 ^ (-150 : Int)) 3 :=
  C70_error single_accurate (by decide +kernel) 2 ⟨-1, by simp, by norm_num⟩ ⟨3, by simp, by norm_num⟩

example : ([3 / 2, 1] : List ℚ) ∈ heldout [0] [List.replicate 40 [3 / 2, (1 : ℚ)]] ∧
    differences ⟨id⟩ (fun row => ([[1, 1 / 2]] : List (List ℚ)).getD ((fun _ => 0) row) []) (heldout [0] [List.replicate 40 [3 / 2, (1 : ℚ)]]) =
      [1 / 2, 1 / 2, 1 / 2, 1 / 2] := by decide +kernel

example : ([1, -1, 1 / 2, 0, 3] : List ℚ).Nodup ∧
    (([1, -1, 1 / 2, 0, 3] : List ℚ).filter fun v => decide (bucketOf (cutoffs ⟨id⟩ 2 ([1, -1, 1 / 2, 0, 3] : List ℚ)) v = 0)).length = 2 ∧
    (([1, -1, 1 / 2, 0, 3] : List ℚ).filter fun v => decide (bucketOf (cutoffs ⟨id⟩ 2 ([1, -1, 1 / 2, 0, 3] : List ℚ)) v = 3)).length = 1 := by
  decide +kernel

/-- The cutoffs are not always in order: in single precision, for two equal training values, the 11th of 15 cutoffs is greater than the
12th. -/
theorem C70_order_refuted : ∃ (values : List ℚ) (x y : ℚ), (∀ v ∈ values, Fusion.single.rnd v = v) ∧
    (cutoffs Fusion.single 4 values)[10]? = some x ∧ (cutoffs Fusion.single 4 values)[11]? = some y ∧ y < x := by
  refine ⟨[14169249 / 67108864, 14169249 / 67108864], 14169250 / 67108864, 14169249 / 67108864, ?_⟩
  refine ⟨by decide +kernel, by decide +kernel, by decide +kernel, by norm_num⟩

end NextPlaid.Props
