import Verif.Spec.Outliers
import Verif.Proofs.IndexLists
import Mathlib.Tactic.Ring
import Mathlib.Tactic.LinearCombination

namespace NextPlaid.Outliers
open NextPlaid.Spec NextPlaid.Index

theorem zipWith_maps {α β γ δ : Type} (F : β → γ → δ) (f : α → β) (g : α → γ) : ∀ l : List α,
    List.zipWith F (l.map f) (l.map g) = l.map fun x => F (f x) (g x)
  | [] => rfl
  | a :: l => by simp [zipWith_maps F f g l]

theorem zip_maps {α β γ : Type} (f : α → β) (g : α → γ) : ∀ l : List α,
    List.zip (l.map f) (l.map g) = l.map fun x => (f x, g x)
  | [] => rfl
  | a :: l => by simp [zip_maps f g l]

theorem zipWith_self_map {α γ δ : Type} (F : α → γ → δ) (g : α → γ) : ∀ l : List α,
    List.zipWith F l (l.map g) = l.map fun x => F x (g x)
  | [] => rfl
  | a :: l => by simp [zipWith_self_map F g l]

theorem zip_map_self {α β : Type} (f : α → β) : ∀ l : List α, List.zip (l.map f) l = l.map fun x => (f x, x)
  | [] => rfl
  | a :: l => by simp [zip_map_self f l]

theorem zip_self_map {α β : Type} (f : α → β) : ∀ l : List α, List.zip l (l.map f) = l.map fun x => (x, f x)
  | [] => rfl
  | a :: l => by simp [zip_self_map f l]

variable {R D : Type} (A : Arith R D)

theorem dots_fold (rows tile : List (List R)) : ∀ (ts : List Nat) (f : List R → List R → R),
    ts.foldl (dotsStep A rows tile) (rows.map fun r => tile.map fun c => f r c) =
      rows.map fun r => tile.map fun c =>
        ts.foldl (fun a t => A.add a (A.mul (r.getD t A.zero) (c.getD t A.zero))) (f r c)
  | [], f => rfl
  | t :: ts, f => by
    rw [List.foldl_cons]
    have : dotsStep A rows tile (rows.map fun r => tile.map fun c => f r c) t =
        rows.map fun r => tile.map fun c => A.add (f r c) (A.mul (r.getD t A.zero) (c.getD t A.zero)) := by
      unfold dotsStep
      rw [zipWith_self_map]
      congr 1
      funext r
      rw [zipWith_self_map]
    rw [this, dots_fold rows tile ts]
    rfl

/-- The distance of row `x` and centroid `c` as the code computes it. -/
def step (dim : Nat) (x : List R) (m : D) (c : List R) : D :=
  A.fmin m (A.dist (sqNorm A x) (sqNorm A c) (dotSeq A x c dim))

theorem tileStep_map (dim : Nat) (rows tile : List (List R)) (f : List R → D) :
    tileStep A dim rows (rows.map (sqNorm A)) tile (rows.map f) = rows.map fun x => tile.foldl (step A dim x) (f x) := by
  unfold tileStep
  have h0 : List.replicate rows.length (List.replicate tile.length A.zero) =
      rows.map fun _ => tile.map fun _ => A.zero := by
    rw [List.map_const', List.map_const']
  rw [h0, dots_fold A rows tile (List.range dim) (fun _ _ => A.zero), zip_maps, zipWith_maps]
  congr 1
  funext x
  simp only
  rw [zip_maps, List.foldl_map]
  rfl

theorem tailStep_map (dim : Nat) (rows : List (List R)) (c : List R) (f : List R → D) :
    tailStep A dim rows (rows.map (sqNorm A)) c (rows.map f) = rows.map fun x => step A dim x (f x) c := by
  unfold tailStep
  rw [zip_map_self, zipWith_maps]
  rfl

theorem tail_fold (dim : Nat) (rows : List (List R)) : ∀ (cents : List (List R)) (f : List R → D),
    cents.foldl (fun m c => tailStep A dim rows (rows.map (sqNorm A)) c m) (rows.map f) =
      rows.map fun x => cents.foldl (step A dim x) (f x)
  | [], f => rfl
  | c :: cents, f => by
    rw [List.foldl_cons, tailStep_map, tail_fold dim rows cents]
    rfl

theorem centroidLoop_map (U dim : Nat) (hU : 0 < U) (rows : List (List R)) : ∀ (fuel : Nat) (cents : List (List R))
    (f : List R → D), cents.length < fuel →
    centroidLoop A U dim rows (rows.map (sqNorm A)) fuel cents (rows.map f) =
      rows.map fun x => cents.foldl (step A dim x) (f x)
  | 0, _, _, h => by omega
  | fuel + 1, cents, f, h => by
    unfold centroidLoop
    split
    · rename_i hle
      rw [tileStep_map, centroidLoop_map U dim hU rows fuel (cents.drop U) _ (by rw [List.length_drop]; omega)]
      congr 1
      funext x
      rw [← List.foldl_append, List.take_append_drop]
    · exact tail_fold A dim rows cents f

theorem block_eq (T U dim : Nat) (hU : 0 < U) (cents rows : List (List R)) (b : Nat) :
    blockOutliers A T U dim cents rows b =
      (rows.zipIdx (b * T)).filterMap fun p => if isFar A dim cents p.1 then some p.2 else none := by
  unfold blockOutliers
  simp only
  have h0 : List.replicate rows.length A.inf = rows.map fun _ => A.inf := by rw [List.map_const']
  rw [h0, centroidLoop_map A U dim hU rows _ cents _ (Nat.lt_succ_self _), zip_self_map]
  have hz : ∀ (l : List (List R)) (g : List R → List R × D) (k : Nat),
      (l.map g).zipIdx k = (l.zipIdx k).map fun p => (g p.1, p.2) := by
    intro l
    induction l with
    | nil => intro g k; rfl
    | cons a l ih => intro g k; simp [ih]
  have hs : ∀ (l : List (List R)) (k j : Nat), l.zipIdx (k + j) = (l.zipIdx j).map fun p => (p.1, k + p.2) := by
    intro l
    induction l with
    | nil => intro k j; rfl
    | cons a l ih =>
      intro k j
      rw [List.zipIdx_cons, List.zipIdx_cons, List.map_cons, Nat.add_assoc, ih]
  rw [hz, List.filterMap_map]
  have := hs rows (b * T) 0
  rw [Nat.add_zero] at this
  rw [this, List.filterMap_map]
  rfl

theorem zipIdx_slice {α : Type} (l : List α) (T b : Nat) :
    chunkSlice l.zipIdx T b = (chunkSlice l T b).zipIdx (b * T) := by
  unfold chunkSlice
  apply List.ext_getElem
  · simp
  · intro i h1 h2
    simp

theorem findOutliers_eq (T U dim : Nat) (hT : 0 < T) (hU : 0 < U) (rows cents : List (List R)) (hc : cents ≠ []) :
    findOutliers A T U dim rows cents =
      rows.zipIdx.filterMap fun p => if isFar A dim cents p.1 then some p.2 else none := by
  unfold findOutliers
  by_cases hr : rows = []
  · subst hr
    rfl
  · rw [if_neg (by
      rw [List.length_eq_zero_iff, List.length_eq_zero_iff, not_or]
      exact ⟨hr, hc⟩)]
    have h1 : (fun b => blockOutliers A T U dim cents (chunkSlice rows T b) b) = fun b =>
        (chunkSlice rows.zipIdx T b).filterMap fun p => if isFar A dim cents p.1 then some p.2 else none := by
      funext b
      rw [block_eq A T U dim hU, zipIdx_slice]
    rw [h1]
    have h2 := chunk_flatten rows.zipIdx T hT
    rw [List.length_zipIdx] at h2
    conv => rhs; rw [← h2]
    rw [List.filterMap_flatten, List.map_map, List.flatMap_def]
    rfl

/-! ### Exact arithmetic -/

section Exact
variable {K : Type} [CommRing K] [LinearOrder K]

theorem sqLoop_exact (thr : K) (near : WithTop K → Bool) : ∀ (n : Nat) (l : List K), l.length ≤ n → ∀ s0 s1 s2 s3 : K,
    sqLoop (exactArith thr near) l s0 s1 s2 s3 = s0 + s1 + s2 + s3 + (l.map fun x => x * x).sum := by
  have hfold : ∀ (l : List K) (t : K), l.foldl (fun t x => (exactArith thr near).add t ((exactArith thr near).mul x x)) t =
      t + (l.map fun x => x * x).sum := by
    intro l
    induction l with
    | nil => intro t; simp
    | cons a l ih =>
      intro t
      rw [List.foldl_cons, ih, List.map_cons, List.sum_cons]
      change t + a * a + _ = _
      ring
  intro n
  induction n with
  | zero =>
    intro l h s0 s1 s2 s3
    have : l = [] := List.length_eq_zero_iff.1 (by omega)
    subst this
    unfold sqLoop
    rw [hfold]
    rfl
  | succ n ih =>
    intro l h s0 s1 s2 s3
    rcases l with _ | ⟨a, _ | ⟨b, _ | ⟨c, _ | ⟨d, rest⟩⟩⟩⟩
    · unfold sqLoop; rw [hfold]; rfl
    · unfold sqLoop; rw [hfold]; rfl
    · unfold sqLoop; rw [hfold]; rfl
    · unfold sqLoop; rw [hfold]; rfl
    · unfold sqLoop
      rw [ih rest (by simp at h; omega)]
      simp only [List.map_cons, List.sum_cons]
      change s0 + a * a + (s1 + b * b) + (s2 + c * c) + (s3 + d * d) + _ = _
      ring

theorem sqNorm_exact (thr : K) (near : WithTop K → Bool) (l : List K) :
    sqNorm (exactArith thr near) l = (l.map fun x => x * x).sum := by
  unfold sqNorm
  rw [sqLoop_exact thr near l.length l (Nat.le_refl _)]
  change (0 : K) + 0 + 0 + 0 + _ = _
  ring

theorem dot_exact (thr : K) (near : WithTop K → Bool) : ∀ (x c : List K), x.length = c.length →
    dotSeq (exactArith thr near) x c x.length = ((List.zip x c).map fun p => p.1 * p.2).sum := by
  have hfold : ∀ (x c : List K), x.length = c.length → ∀ s : K,
      (List.range x.length).foldl (fun a t => a + x.getD t 0 * c.getD t 0) s = s + ((List.zip x c).map fun p => p.1 * p.2).sum := by
    intro x
    induction x with
    | nil => intro c _ s; simp
    | cons a x ih =>
      intro c hc s
      rcases c with _ | ⟨b, c⟩
      · simp at hc
      · rw [List.length_cons, List.range_succ_eq_map, List.foldl_cons, List.foldl_map]
        have := ih c (by simpa using hc) (s + a * b)
        simp only [List.getD_cons_zero, Nat.succ_eq_add_one, List.getD_cons_succ]
        rw [this, List.zip_cons_cons, List.map_cons, List.sum_cons]
        ring
  intro x c h
  have := hfold x c h 0
  rw [zero_add] at this
  exact this

theorem dist_exact (thr : K) (near : WithTop K → Bool) (x c : List K) (h : x.length = c.length) :
    (exactArith thr near).dist (sqNorm (exactArith thr near) x) (sqNorm (exactArith thr near) c)
      (dotSeq (exactArith thr near) x c x.length) = ((sqDist x c : K) : WithTop K) := by
  rw [sqNorm_exact, sqNorm_exact, dot_exact thr near x c h]
  change ((_ : K) : WithTop K) = _
  congr 1
  unfold sqDist
  induction x generalizing c with
  | nil =>
    rcases c with _ | ⟨b, c⟩
    · simp
    · simp at h
  | cons a x ih =>
    rcases c with _ | ⟨b, c⟩
    · simp at h
    · have := ih c (by simpa using h)
      simp only [List.map_cons, List.sum_cons, List.zip_cons_cons]
      rw [← this]
      ring

theorem fold_min_lt (thr : K) (g : List K → K) : ∀ (cents : List (List K)) (m : WithTop K),
    (thr : WithTop K) < cents.foldl (fun m c => min m ((g c : K) : WithTop K)) m ↔
      (thr : WithTop K) < m ∧ ∀ c ∈ cents, thr < g c
  | [], m => by simp
  | c :: cents, m => by
    rw [List.foldl_cons, fold_min_lt thr g cents, lt_min_iff, WithTop.coe_lt_coe]
    simp [and_assoc]

theorem isFar_exact (thr : K) (near : WithTop K → Bool) (cents : List (List K)) (x : List K)
    (h : ∀ c ∈ cents, c.length = x.length) :
    isFar (exactArith thr near) x.length cents x = true ↔ ∀ c ∈ cents, thr < sqDist x c := by
  have hm : ∀ (l : List (List K)) (m : WithTop K), (∀ c ∈ l, c.length = x.length) →
      l.foldl (fun m c => (exactArith thr near).fmin m ((exactArith thr near).dist (sqNorm (exactArith thr near) x)
        (sqNorm (exactArith thr near) c) (dotSeq (exactArith thr near) x c x.length))) m =
      l.foldl (fun m c => min m ((sqDist x c : K) : WithTop K)) m := by
    intro l
    induction l with
    | nil => intro m _; rfl
    | cons c l ih =>
      intro m hl
      rw [List.foldl_cons, List.foldl_cons, dist_exact thr near x c (hl c List.mem_cons_self).symm,
        ih _ (fun c hc => hl c (List.mem_cons_of_mem _ hc))]
      rfl
  unfold isFar
  simp only
  rw [hm cents _ h]
  have hif : ∀ b : Bool, (if b = true then cents.foldl (fun m c => (exactArith thr near).fmin m ((exactArith thr near).precise x c)) (exactArith thr near).inf
      else cents.foldl (fun m c => min m ((sqDist x c : K) : WithTop K)) (exactArith thr near).inf) =
      cents.foldl (fun m c => min m ((sqDist x c : K) : WithTop K)) ⊤ := by
    intro b
    cases b <;> rfl
  rw [hif]
  change decide ((thr : WithTop K) < _) = true ↔ _
  rw [decide_eq_true_eq, fold_min_lt]
  simp

end Exact

end NextPlaid.Outliers
