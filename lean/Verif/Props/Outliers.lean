import Verif.Proofs.Outliers
import Verif.Model.Codec
import Verif.Props.Index
import Mathlib.Data.Rat.Defs
import Mathlib.Algebra.Order.Ring.Rat

/-!
C38: centroid expansion.
-/

namespace NextPlaid.Props
open NextPlaid.Spec NextPlaid.Outliers NextPlaid.Index

/-- C38: for every arithmetic, floating point included, and all tile sizes, the blocked search returns, in
order and without repetition, exactly the tokens that the unblocked decision `isFar` selects. -/
theorem C38_blocked_search {R D : Type} (A : Arith R D) (T U dim : Nat) (hT : 0 < T) (hU : 0 < U)
    (rows cents : List (List R)) (hc : cents ≠ []) :
    findOutliers A T U dim rows cents = (List.range rows.length).filter fun i => isFar A dim cents (rows.getD i []) := by
  rw [findOutliers_eq A T U dim hT hU rows cents hc]
  have key : ∀ (l : List (List R)) (k : Nat),
      (l.zipIdx k).filterMap (fun p => if isFar A dim cents p.1 then some p.2 else none) =
      ((List.range l.length).filter fun i => isFar A dim cents (l.getD i [])).map (k + ·) := by
    intro l
    induction l with
    | nil => intro k; rfl
    | cons x l ih =>
      intro k
      rw [List.zipIdx_cons, List.length_cons, List.range_succ_eq_map, List.filter_cons, List.filterMap_cons, ih (k + 1),
        List.filter_map]
      have hmap : (((List.range l.length).filter fun i => isFar A dim cents (l.getD i [])).map (k + 1 + ·)) =
          (((List.range l.length).filter ((fun i => isFar A dim cents ((x :: l).getD i [])) ∘ Nat.succ)).map Nat.succ).map (k + ·) := by
        rw [List.map_map]
        congr 1
        funext i
        simp only [Function.comp]
        omega
      simp only [List.getD_cons_zero]
      split
      · rename_i h
        split at h
        · cases h
        · rename_i h2
          rw [if_neg h2, hmap]
      · rename_i j h
        split at h
        · rename_i h2
          cases h
          rw [if_pos h2, List.map_cons, hmap]
          rfl
        · cases h
  rw [key rows 0]
  simp

/-- C38: the tile sizes do not matter. -/
theorem C38_tile_sizes_irrelevant {R D : Type} (A : Arith R D) (T U T' U' dim : Nat) (hT : 0 < T) (hU : 0 < U)
    (hT' : 0 < T') (hU' : 0 < U') (rows cents : List (List R)) :
    findOutliers A T U dim rows cents = findOutliers A T' U' dim rows cents := by
  by_cases hc : cents = []
  · subst hc
    unfold findOutliers
    simp
  · rw [C38_blocked_search A T U dim hT hU rows cents hc, C38_blocked_search A T' U' dim hT' hU' rows cents hc]

/-- C38: in exact arithmetic exactly the tokens whose squared distance to every existing centroid exceeds the
squared threshold are selected, whatever the tile sizes and whatever test decides that a distance is checked
again. -/
theorem C38_exactly_the_far_tokens {K : Type} [CommRing K] [LinearOrder K] (thr : K) (near : WithTop K → Bool)
    (T U dim : Nat) (hT : 0 < T) (hU : 0 < U) (rows cents : List (List K)) (hc : cents ≠ [])
    (hr : ∀ x ∈ rows, x.length = dim) (hcs : ∀ c ∈ cents, c.length = dim) (i : Nat) (h : i < rows.length) :
    i ∈ findOutliers (exactArith thr near) T U dim rows cents ↔ ∀ c ∈ cents, thr < sqDist rows[i] c := by
  have hlen := hr rows[i] (List.getElem_mem h)
  rw [C38_blocked_search _ T U dim hT hU rows cents hc, List.mem_filter, List.mem_range]
  have hg : rows.getD i [] = rows[i] := by rw [List.getD_eq_getElem?_getD, List.getElem?_eq_getElem h]; rfl
  rw [hg]
  have := isFar_exact thr near cents rows[i] (fun c hc => by rw [hcs c hc, hlen])
  rw [hlen] at this
  rw [this]
  simp [h]

/-- C38: expansion appends: the centroids that were there keep their places, the lengths of the existing
inverted lists are kept and those of the new centroids are zero, the recorded number of centroids is right, and
nothing else in the directory changes. -/
theorem C38_existing_centroids_kept {E : Index.Env} (d : Disk E) (docs : List (List E.Row)) (thr : E.Thr) (seed : Nat)
    (ws : List (Write E)) (k : Nat) (h : updateCentroids d docs thr seed = .ok (ws, k)) (cs : List E.Cent)
    (hcs : d.centroids = some cs) :
    ∃ new : List E.Cent, new.length = k ∧ (applyAll d ws).centroids = some (cs ++ new) ∧
      (∀ lens, d.ivfLengths = some lens → (k = 0 ∨ lens.length ≤ cs.length + k) ∧ ∃ z,
        (applyAll d ws).ivfLengths = some (lens ++ List.replicate z 0) ∧ (k ≠ 0 → lens.length + z = cs.length + k)) ∧
      (∀ m, d.metadata = some m → ∃ p, (applyAll d ws).metadata = some { m with numPartitions := p } ∧
        (k ≠ 0 → p = cs.length + k)) ∧
      { applyAll d ws with centroids := d.centroids, ivfLengths := d.ivfLengths, metadata := d.metadata } = d := by
  have hnone : ws = [] ∧ k = 0 → ∃ new : List E.Cent, new.length = k ∧ (applyAll d ws).centroids = some (cs ++ new) ∧
      (∀ lens, d.ivfLengths = some lens → (k = 0 ∨ lens.length ≤ cs.length + k) ∧ ∃ z,
        (applyAll d ws).ivfLengths = some (lens ++ List.replicate z 0) ∧ (k ≠ 0 → lens.length + z = cs.length + k)) ∧
      (∀ m, d.metadata = some m → ∃ p, (applyAll d ws).metadata = some { m with numPartitions := p } ∧
        (k ≠ 0 → p = cs.length + k)) ∧
      { applyAll d ws with centroids := d.centroids, ivfLengths := d.ivfLengths, metadata := d.metadata } = d := by
    rintro ⟨rfl, rfl⟩
    refine ⟨[], rfl, by simpa [applyAll] using hcs, ?_, ?_, rfl⟩
    · intro lens hl
      exact ⟨Or.inl rfl, 0, by simpa [applyAll] using hl, fun h => absurd rfl h⟩
    · intro m hm
      exact ⟨m.numPartitions, by simpa [applyAll] using hm, fun h => absurd rfl h⟩
  unfold updateCentroids at h
  rw [hcs] at h
  simp only at h
  split at h
  · cases h
    exact hnone ⟨rfl, rfl⟩
  · rcases hex : E.expand seed cs thr docs with e | new
    · rw [hex] at h; cases h
    · rw [hex] at h
      change (if new = [] then _ else _) = _ at h
      split at h
      · cases h
        exact hnone ⟨rfl, rfl⟩
      · rename_i hne
        have hk : new.length ≠ 0 := fun h0 => hne (List.length_eq_zero_iff.1 h0)
        rcases hl : d.ivfLengths with _ | lens <;> rcases hm : d.metadata with _ | m <;> rw [hl, hm] at h <;>
          simp only [bind, Except.bind] at h
        · cases h
          exact ⟨new, rfl, rfl, (fun l hh => by cases hh), (fun m hh => by cases hh), by cases d; simp only at hcs hl hm; subst hcs hl hm; rfl⟩
        · cases h
          refine ⟨new, rfl, rfl, (fun l hh => by cases hh), ?_, by cases d; simp only at hcs hl hm; subst hcs hl hm; rfl⟩
          intro m' hh
          cases hh
          exact ⟨_, rfl, fun _ => rfl⟩
        · split at h
          · cases h
          · rename_i hle
            cases h
            refine ⟨new, rfl, rfl, ?_, (fun m hh => by cases hh), by cases d; simp only at hcs hl hm; subst hcs hl hm; rfl⟩
            intro l hh
            cases hh
            exact ⟨Or.inr (by omega), _, rfl, fun _ => by omega⟩
        · split at h
          · cases h
          · rename_i hle
            cases h
            refine ⟨new, rfl, rfl, ?_, ?_, by cases d; simp only at hcs hl hm; subst hcs hl hm; rfl⟩
            · intro l hh
              cases hh
              exact ⟨Or.inr (by omega), _, rfl, fun _ => by omega⟩
            · intro m' hh
              cases hh
              exact ⟨_, rfl, fun _ => rfl⟩

theorem idx_append_left {α : Type} (l l' : List α) (i : Nat) (h : i < l.length) : idx (l ++ l') i = idx l i := by
  unfold idx
  rw [List.getElem?_append_left h]

/-- C38: with centroids appended, all previously stored codes still denote the same vectors. -/
theorem C38_stored_codes_same_vectors {α : Type} [Add α] (zero : α) (normalize : List α → List α)
    (c : Codec.ResidualCodec α) (new : List (List α)) (packed : List (List Nat)) (codes : List Nat)
    (hcodes : ∀ code ∈ codes, code < c.centroids.length) :
    Codec.decompress zero normalize { c with centroids := c.centroids ++ new } packed codes =
      Codec.decompress zero normalize c packed codes := by
  unfold Codec.decompress
  simp only
  rcases c.bucketWeights with _ | w
  · rfl
  · simp only
    rcases c.bucketWeightIndicesLookup with _ | lk
    · rfl
    · simp only
      congr 1
      have key : ∀ l : List Nat, (l.mapM fun i => do
            let code ← idx codes i
            let row ← idx packed i
            Codec.decompressRow zero { c with centroids := c.centroids ++ new } w lk row code : Res _) =
          (l.mapM fun i => do
            let code ← idx codes i
            let row ← idx packed i
            Codec.decompressRow zero c w lk row code : Res _) := by
        intro l
        congr 1
        funext i
        rcases hi : idx codes i with e | code
        · rfl
        · have hmem : code ∈ codes := by
            unfold idx at hi
            split at hi
            · rename_i a ha
              cases hi
              exact List.mem_of_getElem? ha
            · cases hi
          simp only [bind, Except.bind]
          rcases idx packed i with e | row
          · rfl
          · simp only
            unfold Codec.decompressRow
            simp only
            rw [idx_append_left _ _ _ (hcodes code hmem)]
      exact key _

/-! ### The hypotheses are met -/

/-- Three tokens, two centroids, tiles of 2 rows and 1 centroid: token 1 is far from both. -/
example : findOutliers (exactArith (K := Int) 4 fun _ => true) 2 1 2 [[0, 0], [9, 9], [5, 6]] [[0, 1], [5, 5]] = [1] := by
  decide +kernel

example : findOutliers (exactArith (K := Int) 4 fun _ => false) 64 8 2 [[0, 0], [9, 9], [5, 6]] [[0, 1], [5, 5]] = [1] := by
  decide +kernel

/-- Two far tokens become centroids 3 and 4. -/
example : (updateCentroids (E := Toy) { ({} : Disk Toy) with centroids := some [0, 1, 2], ivfLengths := some [1, 0, 2] }
    [[5, 200], [300]] 100 0).map (·.2) = .ok 2 := rfl

/-- A codec with one centroid, decoded with a second one appended. -/
example : ∀ code ∈ [0, 0], code < [[(1 : Int), 2]].length := by decide

end NextPlaid.Props
