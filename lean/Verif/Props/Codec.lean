import Verif.Proofs.Codec2
import Verif.Proofs.MaxSim
import Mathlib.Algebra.Order.Group.Int

/-!
Property theorems C01-C04 (residual codec, bucket choice, bit packing, centroid assignment).
-/

namespace NextPlaid.Props
open NextPlaid NextPlaid.Codec

/-! ## C01 -/

/-- C01, refusal: a codec is built exactly for the bit widths 1, 2, 4 and 8. -/
theorem C01_codec_widths {α : Type} (nbits dim : Nat) (centroids : List (List α))
    (cutoffs weights : Option (List α)) :
    (∃ c, newWithStore nbits dim centroids cutoffs weights = .ok c) ↔
      (nbits = 1 ∨ nbits = 2 ∨ nbits = 4 ∨ nbits = 8) := by
  unfold newWithStore
  constructor
  · rintro ⟨c, hc⟩
    split at hc
    · cases hc
    · rename_i h
      simp only [not_or, Decidable.not_not] at h
      exact nbits_cases h.1 h.2
  · rintro (h | h | h | h) <;> subst h <;> simp

/-- C01: for every codec that can be built, compressing any matrix of residual rows succeeds, and
decompressing the stored bytes gives back, for every row `i` and dimension `j`, the centroid value
plus the weight of the bucket of that very value, i.e. `weights[number of cutoffs below it]`
(before the row normalisation `normalize`, which is applied to each row). -/
theorem C01_codec_round_trip {α : Type} [LinearOrder α] [Add α] (zero : α)
    (normalize : List α → List α) (nbits dim : Nat) (centroids : List (List α))
    (cutoffs weights : List α) (c : ResidualCodec α)
    (hbuild : newWithStore nbits dim centroids (some cutoffs) (some weights) = .ok c)
    (hcut : cutoffs.length < 2 ^ nbits) (hw : weights.length = 2 ^ nbits)
    (hcent : ∀ r ∈ centroids, r.length = dim) (halign : dim * nbits % 8 = 0)
    (residuals : List (List α)) (hres : ∀ r ∈ residuals, r.length = dim)
    (codes : List Nat) (hlen : codes.length = residuals.length)
    (hcodes : ∀ k ∈ codes, k < centroids.length) :
    ∃ packed out, quantizeResiduals c residuals = .ok packed ∧
      decompress zero normalize c packed codes = .ok out ∧
      out.length = residuals.length ∧
      ∀ (i : Nat) (hi : i < residuals.length), ∃ raw centroid : List α,
        out[i]? = some (normalize raw) ∧ raw.length = dim ∧
        centroids[codes[i]'(by omega)]? = some centroid ∧
        ∀ (j : Nat) (hj : j < residuals[i].length), ∃ cv wv,
          centroid[j]? = some cv ∧
          weights[(cutoffs.filter fun t => decide (t < residuals[i][j])).length]? = some wv ∧
          raw[j]? = some (cv + wv) := by
  -- unfold the constructor
  unfold newWithStore at hbuild
  split at hbuild
  · cases hbuild
  rename_i hn
  simp only [not_or, Decidable.not_not] at hn
  obtain ⟨h0, h8⟩ := hn
  simp only [Except.ok.injEq] at hbuild
  subst hbuild
  -- every row encodes and decodes
  have hrow : ∀ (r : List α) (code : Nat), r.length = dim → code < centroids.length →
      ∃ packed raw centroid, quantizeRow nbits cutoffs r = .ok packed ∧
        centroids[code]? = some centroid ∧
        decompressRow zero
          { nbits := nbits, dim := dim, centroids := centroids, bucketCutoffs := some cutoffs,
            bucketWeights := some weights,
            byteReversedBitsMap := (List.range 256).map (revByte nbits),
            bucketWeightIndicesLookup := some ((List.range 256).map (lookupRow nbits)) }
          weights ((List.range 256).map (lookupRow nbits)) packed code = .ok raw ∧
        raw.length = dim ∧
        ∀ (j : Nat) (hj : j < r.length), ∃ cv wv, centroid[j]? = some cv ∧
          weights[bucketOf cutoffs r[j]]? = some wv ∧ raw[j]? = some (cv + wv) := by
    intro r code hr hcode
    obtain ⟨packed, e, _, hlt, hkeys⟩ :=
      decodedKeys_quantizeRow h0 h8 cutoffs r (by rw [hr]; exact halign) hcut
    have hcl : centroids[code].length = dim := hcent _ (List.getElem_mem hcode)
    obtain ⟨raw, e2, hrl, _, hval⟩ := decompressIndices_ok dim centroids[code] weights hcl
      (decodedKeys nbits packed) []
      (by
        rw [hkeys]
        intro k hk
        obtain ⟨v, _, rfl⟩ := List.mem_map.1 hk
        rw [hw]
        exact Nat.lt_of_le_of_lt (bucketOf_le cutoffs v) hcut)
      (by rw [hkeys]; simp [hr])
    refine ⟨packed, raw, centroids[code], e, List.getElem?_eq_getElem hcode, ?_, hrl, ?_⟩
    · have hidx : idx centroids code = .ok centroids[code] := by
        simp [idx, List.getElem?_eq_getElem hcode]
      simp only [decompressRow]
      rw [hidx]
      simp only [Bind.bind, Except.bind]
      have hwalk := table_walk (dim := dim) h0 h8 centroids[code] weights packed hlt []
      simp only [Bind.bind, Except.bind] at hwalk
      rw [hwalk, e2]
      simp [hrl]
      rfl
    · intro j hj
      have hj' : j < (decodedKeys nbits packed).length := by rw [hkeys]; simpa using hj
      obtain ⟨cv, wv, h1, h2, h3⟩ := hval j hj'
      simp only [List.length_nil, Nat.zero_add] at h1 h2 h3
      refine ⟨cv, wv, h1, ?_, h3⟩
      have : (decodedKeys nbits packed)[j] = bucketOf cutoffs r[j] := by simp [hkeys]
      rw [← this]; exact h2
  -- lift to matrices
  have hmat : ∀ (rs : List (List α)) (cs : List Nat), (∀ r ∈ rs, r.length = dim) →
      cs.length = rs.length → (∀ k ∈ cs, k < centroids.length) →
      ∃ (packed : List (List Nat)) (raws : List (List α)), rs.mapM (quantizeRow nbits cutoffs) = .ok packed ∧
        packed.length = rs.length ∧ raws.length = rs.length ∧
        (∀ (i : Nat) (hi : i < rs.length), ∃ p raw centroid, packed[i]? = some p ∧
          raws[i]? = some raw ∧ raw.length = dim ∧
          centroids[cs[i]?.getD 0]? = some centroid ∧
          decompressRow zero
            { nbits := nbits, dim := dim, centroids := centroids, bucketCutoffs := some cutoffs,
              bucketWeights := some weights,
              byteReversedBitsMap := (List.range 256).map (revByte nbits),
              bucketWeightIndicesLookup := some ((List.range 256).map (lookupRow nbits)) }
            weights ((List.range 256).map (lookupRow nbits)) p (cs[i]?.getD 0) = .ok raw ∧
          ∀ (j : Nat) (hj : j < rs[i].length), ∃ cv wv, centroid[j]? = some cv ∧
            weights[bucketOf cutoffs rs[i][j]]? = some wv ∧ raw[j]? = some (cv + wv)) := by
    intro rs
    induction rs with
    | nil => intro cs _ _ _; exact ⟨[], [], rfl, rfl, rfl, fun i hi => by simp at hi⟩
    | cons r rs ih =>
      intro cs hr hl hk
      cases cs with
      | nil => simp at hl
      | cons k cs =>
        obtain ⟨packed, raws, e, l1, l2, hi⟩ := ih cs (fun x hx => hr x (by simp [hx]))
          (by simpa using hl) (fun x hx => hk x (by simp [hx]))
        obtain ⟨p, raw, centroid, e1, e2, e3, e4, e5⟩ := hrow r k (hr r (by simp)) (hk k (by simp))
        refine ⟨p :: packed, raw :: raws, ?_, by simp [l1], by simp [l2], ?_⟩
        · rw [List.mapM_cons, e1, e]; rfl
        · intro i hil
          cases i with
          | zero => exact ⟨p, raw, centroid, rfl, rfl, e4, by simpa using e2, by simpa using e3,
              by simpa using e5⟩
          | succ i =>
            obtain ⟨p', raw', cen', a1, a2, a3, a4, a5, a6⟩ := hi i (by simpa using hil)
            exact ⟨p', raw', cen', by simpa using a1, by simpa using a2, a3, by simpa using a4,
              by simpa using a5, by simpa using a6⟩
  obtain ⟨packed, raws, e, l1, l2, hrows⟩ := hmat residuals codes hres hlen hcodes
  have hmapM : (List.range packed.length).mapM (fun i => (do
      let code ← idx codes i
      let row ← idx packed i
      decompressRow zero
          { nbits := nbits, dim := dim, centroids := centroids, bucketCutoffs := some cutoffs,
            bucketWeights := some weights,
            byteReversedBitsMap := (List.range 256).map (revByte nbits),
            bucketWeightIndicesLookup := some ((List.range 256).map (lookupRow nbits)) }
          weights ((List.range 256).map (lookupRow nbits)) row code : Res (List α))) = .ok raws := by
    have gen : ∀ (is : List Nat), (∀ i ∈ is, i < residuals.length) →
        is.mapM (fun i => (do
          let code ← idx codes i
          let row ← idx packed i
          decompressRow zero
              { nbits := nbits, dim := dim, centroids := centroids, bucketCutoffs := some cutoffs,
                bucketWeights := some weights,
                byteReversedBitsMap := (List.range 256).map (revByte nbits),
                bucketWeightIndicesLookup := some ((List.range 256).map (lookupRow nbits)) }
              weights ((List.range 256).map (lookupRow nbits)) row code : Res (List α))) =
          .ok (is.map fun i => raws[i]?.getD []) := by
      intro is
      induction is with
      | nil => intro _; rfl
      | cons i is ih =>
        intro hi
        have hil := hi i (by simp)
        obtain ⟨p, raw, centroid, a1, a2, _, _, a5, _⟩ := hrows i hil
        have hci : i < codes.length := by omega
        have c1 : idx codes i = .ok codes[i] := by simp [idx, List.getElem?_eq_getElem hci]
        have c2 : idx packed i = .ok p := by simp [idx, a1]
        have c3 : codes[i]?.getD 0 = codes[i] := by simp [List.getElem?_eq_getElem hci]
        rw [List.mapM_cons, ih (fun x hx => hi x (by simp [hx])), c1, c2]
        rw [c3] at a5
        simp only [Bind.bind, Except.bind, a5, List.map_cons, a2, Option.getD_some]
        rfl
    rw [gen _ (by intro i hi; rw [← l1]; exact List.mem_range.1 hi)]
    congr 1
    apply List.ext_getElem?
    intro i
    by_cases hi : i < raws.length
    · simp [l1, ← l2, hi]
    · rw [List.getElem?_eq_none (by simp; omega), List.getElem?_eq_none (by omega)]
  refine ⟨packed, raws.map normalize, e, ?_, by simp [l2], ?_⟩
  · simp only [decompress, Option.map_some]
    simp only [hmapM]
    rfl
  · intro i hi
    obtain ⟨p, raw, centroid, _, a2, a3, a4, _, a6⟩ := hrows i hi
    have hci : i < codes.length := by omega
    have c3 : codes[i]?.getD 0 = codes[i] := by simp [List.getElem?_eq_getElem hci]
    rw [c3] at a4
    exact ⟨raw, centroid, by simp [a2], a3, a4, a6⟩

/-- C01, boundary: when `dim * nbits` is not a multiple of 8 the encoder panics (it writes past the
packed row) for every non-empty batch, so such an index can never be written with wrong bytes. -/
theorem C01_unaligned_panics {α : Type} [LinearOrder α] (nbits dim : Nat)
    (centroids : List (List α)) (cutoffs : List α) (weights : Option (List α))
    (c : ResidualCodec α)
    (hbuild : newWithStore nbits dim centroids (some cutoffs) weights = .ok c)
    (r : List α) (rest : List (List α)) (hr : r.length * nbits % 8 ≠ 0) :
    quantizeResiduals c (r :: rest) = .error .panic := by
  unfold newWithStore at hbuild
  split at hbuild
  · cases hbuild
  simp only [Except.ok.injEq] at hbuild
  subst hbuild
  simp only [quantizeResiduals]
  rw [List.mapM_cons, quantizeRow_panic nbits cutoffs r hr]
  rfl

/-- Non-vacuity of C01: a 2-bit codec over 4 dimensions with two centroids. -/
example : (do
    let c ← newWithStore (α := Int) 2 4 [[0, 0, 0, 0], [10, 10, 10, 10]] (some [-1, 0, 1])
      (some [-2, -1, 1, 2])
    let p ← quantizeResiduals c [[-5, 0, 1, 7], [2, -3, 0, 1]]
    decompress 0 id c p [0, 1]) = .ok [[-2, -1, 1, 2], [12, 8, 9, 11]] := by decide +kernel

/-! ## C02 -/

/-- C02: with non-decreasing cutoffs the bucket `b` of `v` is characterised by
`cutoffs[i] < v` for all `i < b` and `v ≤ cutoffs[i]` for all `i ≥ b`, and it is the only such number
not exceeding the number of cutoffs. -/
theorem C02_bucket_interval {α : Type} [LinearOrder α] (cutoffs : List α)
    (hs : cutoffs.Pairwise (· ≤ ·)) (v : α) (b : Nat) (hb : b ≤ cutoffs.length) :
    bucketOf cutoffs v = b ↔
      ∀ (i : Nat) (hi : i < cutoffs.length),
        (i < b → cutoffs[i] < v) ∧ (b ≤ i → v ≤ cutoffs[i]) := by
  constructor
  · rintro rfl
    exact bucketOf_sorted cutoffs v hs
  · intro h
    have hle := bucketOf_le cutoffs v
    have hs' := bucketOf_sorted cutoffs v hs
    rcases Nat.lt_trichotomy (bucketOf cutoffs v) b with hlt | heq | hgt
    · have h1 := (hs' (bucketOf cutoffs v) (by omega)).2 (Nat.le_refl _)
      have h2 := (h (bucketOf cutoffs v) (by omega)).1 hlt
      exact absurd h2 (not_lt.2 h1)
    · exact heq
    · have h1 := (hs' b (by omega)).1 hgt
      have h2 := (h b (by omega)).2 (Nat.le_refl _)
      exact absurd h1 (not_lt.2 h2)

/-- C02: bucket choice is monotone and bounded by the number of cutoffs (for any cutoffs). -/
theorem C02_bucket_monotone {α : Type} [LinearOrder α] (cutoffs : List α) (v w : α) (h : v ≤ w) :
    bucketOf cutoffs v ≤ bucketOf cutoffs w ∧ bucketOf cutoffs w ≤ cutoffs.length :=
  ⟨bucketOf_mono cutoffs h, bucketOf_le cutoffs w⟩

example : ([-1, 0, 0, 3] : List Int).Pairwise (· ≤ ·) ∧ bucketOf ([-1, 0, 0, 3] : List Int) 0 = 1 ∧
    bucketOf ([-1, 0, 0, 3] : List Int) 2 = 3 := by decide

/-! ## C03 -/

/-- C03: unpacking packed bits returns them followed by zeros up to the next byte boundary. -/
theorem C03_pack_unpack (bits : List Nat) (hbits : ∀ b ∈ bits, b = 0 ∨ b = 1) :
    ∃ pad < 8, unpackbits (packbits bits) = bits ++ List.replicate pad 0 ∧
      (bits.length + pad) % 8 = 0 := by
  refine ⟨(8 - bits.length % 8) % 8, Nat.mod_lt _ (by decide), ?_, by omega⟩
  exact unpackbits_chunks bits.length bits hbits (Nat.le_refl _)

/-- C03: packing produces one byte value (below 256) per started group of eight bits. -/
theorem C03_pack_bytes (bits : List Nat) (hbits : ∀ b ∈ bits, b = 0 ∨ b = 1) :
    (packbits bits).length = (bits.length + 7) / 8 := by
  obtain ⟨pad, hp, he, ha⟩ := C03_pack_unpack bits hbits
  have hlen : (unpackbits (packbits bits)).length = 8 * (packbits bits).length := by
    unfold unpackbits
    induction packbits bits with
    | nil => rfl
    | cons b bs ih => rw [List.flatMap_cons, List.length_append, ih]; simp; omega
  rw [he] at hlen
  simp at hlen
  omega

example : packbits [1, 0, 1, 1, 0, 0, 0, 1, 1, 1] = [0b10110001, 0b11000000] := by decide

/-! ## C04 -/

/-- C04: whatever the memory budget (and hence the batch size), compression assigns to every token
one centroid index whose score no other centroid beats (finite scores beat NaN and infinities). -/
theorem C04_codes_are_argmax {α ε : Type} [LinearOrder α] (memory : Nat) (score : ε → ε → Score α)
    (centroids embeddings : List ε) (hc : centroids ≠ []) :
    ∃ codes, compressIntoCodesCpu memory score centroids embeddings = .ok codes ∧
      codes.length = embeddings.length ∧
      ∀ (i : Nat) (hi : i < embeddings.length), ∃ k c, codes[i]? = some k ∧ centroids[k]? = some c ∧
        ∀ c' ∈ centroids,
          Score.cmpForMax (score embeddings[i] c) (score embeddings[i] c') ≠ .lt := by
  have hcl : centroids.length ≠ 0 := fun h => hc (List.eq_nil_of_length_eq_zero h)
  have hall : compressIntoCodesCpu memory score centroids embeddings =
      .ok (embeddings.map fun emb => argmaxRow (centroids.map (score emb))) := by
    unfold compressIntoCodesCpu
    simp only [if_neg hcl]
    split
    · rename_i h
      rw [List.eq_nil_of_length_eq_zero h]; rfl
    · have := batch_flatten (fun emb => argmaxRow (centroids.map (score emb))) embeddings
        (max 1 (min 1024 (memory / (centroids.length * 4)))) (by omega) embeddings.length 0
        (by
          rw [Nat.zero_add]
          exact Nat.le_mul_of_pos_right _ (by omega))
      rw [this]
      simp
  refine ⟨_, hall, by simp, ?_⟩
  intro i hi
  have hrow : centroids.map (score embeddings[i]) ≠ [] := by simpa using hc
  obtain ⟨m, hm, hge⟩ := argmaxRow_spec _ hrow
  rw [List.getElem?_map] at hm
  cases hk : centroids[argmaxRow (centroids.map (score embeddings[i]))]? with
  | none => rw [hk] at hm; simp at hm
  | some c =>
    rw [hk] at hm
    simp only [Option.map_some, Option.some.injEq] at hm
    refine ⟨_, c, by simp [List.getElem?_eq_getElem hi], hk, ?_⟩
    intro c' hc'
    rw [hm]
    exact hge _ (List.mem_map.2 ⟨c', hc', rfl⟩)

/-- C04: the assignment does not depend on the memory budget at all. -/
theorem C04_batch_independent {α ε : Type} [LinearOrder α] (m₁ m₂ : Nat) (score : ε → ε → Score α)
    (centroids embeddings : List ε) :
    compressIntoCodesCpu m₁ score centroids embeddings =
      compressIntoCodesCpu m₂ score centroids embeddings := by
  have h : ∀ m, compressIntoCodesCpu m score centroids embeddings =
      if embeddings.length = 0 then .ok []
      else if centroids.length = 0 then .error .panic
      else .ok (embeddings.map fun emb => argmaxRow (centroids.map (score emb))) := by
    intro m
    unfold compressIntoCodesCpu
    simp only
    split
    · rfl
    · split
      · rfl
      · have := batch_flatten (fun emb => argmaxRow (centroids.map (score emb))) embeddings
          (max 1 (min 1024 (m / (centroids.length * 4)))) (by omega) embeddings.length 0
          (by
            rw [Nat.zero_add]
            exact Nat.le_mul_of_pos_right _ (by omega))
        rw [this]
        simp
  rw [h m₁, h m₂]

/-- C04 for k-means assignment: on every architecture and on both size-dependent paths, each
embedding gets an existing centroid that no other centroid beats. -/
theorem C04_kmeans_assignment {α ε : Type} [LinearOrder α] (arch : MaxSim.Arch)
    (score : ε → ε → Score α) (embeddings centroids : List ε) (hc : centroids ≠ []) :
    (MaxSim.assignToCentroids arch score embeddings centroids).length = embeddings.length ∧
      ∀ (i : Nat) (hi : i < embeddings.length), ∃ k c,
        (MaxSim.assignToCentroids arch score embeddings centroids)[i]? = some k ∧
        centroids[k]? = some c ∧
        ∀ c' ∈ centroids,
          Score.cmpForMax (score embeddings[i] c) (score embeddings[i] c') ≠ .lt := by
  have hcl : centroids.length ≠ 0 := fun h => hc (List.eq_nil_of_length_eq_zero h)
  have hex : embeddings.length ≠ 0 → ∃ f : List (Score α) → Nat,
      (∀ row, row ≠ [] → ∃ m, row[f row]? = some m ∧ ∀ s ∈ row, Score.ge m s) ∧
      MaxSim.assignToCentroids arch score embeddings centroids =
        embeddings.map fun e => f (centroids.map (score e)) := by
    intro hn
    unfold MaxSim.assignToCentroids
    simp only
    rw [if_neg (by omega)]
    split
    · exact ⟨_, MaxSim.firstBest_spec, rfl⟩
    · refine ⟨_, MaxSim.simdArgmax_spec arch, ?_⟩
      have := batch_flatten (fun emb => MaxSim.simdArgmax arch (centroids.map (score emb)))
        embeddings (min (max 1 (min 4096 (2 * 1024 * 1024 * 1024 / (centroids.length * 4))))
          embeddings.length) (by omega) embeddings.length 0
        (by
          rw [Nat.zero_add]
          exact Nat.le_mul_of_pos_right _ (by omega))
      rw [this]
      simp
  by_cases hn : embeddings.length = 0
  · have : embeddings = [] := List.eq_nil_of_length_eq_zero hn
    subst this
    exact ⟨by simp [MaxSim.assignToCentroids], fun i hi => by simp at hi⟩
  · obtain ⟨f, hf, he⟩ := hex hn
    rw [he]
    refine ⟨by simp, ?_⟩
    intro i hi
    obtain ⟨m, hm, hge⟩ := hf (centroids.map (score embeddings[i])) (by simpa using hc)
    rw [List.getElem?_map] at hm
    cases hk : centroids[f (centroids.map (score embeddings[i]))]? with
    | none => rw [hk] at hm; simp at hm
    | some c =>
      rw [hk] at hm
      simp only [Option.map_some, Option.some.injEq] at hm
      refine ⟨_, c, by simp [List.getElem?_eq_getElem hi], hk, ?_⟩
      intro c' hc'
      rw [hm]
      exact hge _ (List.mem_map.2 ⟨c', hc', rfl⟩)

/-- Non-vacuity of C04: three centroids, one of them with a NaN score. -/
example : compressIntoCodesCpu (α := Int) (ε := Int) 0
    (fun e c => if c = 7 then .nonfin 5 else .fin (e * c)) [1, 7, -1] [3, -3, 2] = .ok [0, 2, 0] := by
  decide

end NextPlaid.Props
