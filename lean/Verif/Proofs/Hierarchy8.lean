import Verif.Proofs.Hierarchy5
import Verif.Proofs.Hierarchy7

/-!
Proofs: the pooled rows are the means of the clusters.
-/

namespace NextPlaid.Hier

open NextPlaid.Fusion NextPlaid.Spec

section
variable {K : Type} [Field K] [LinearOrder K]

/-- The rows that are added to cluster `c`, in order. -/
def ofClass (xs : List (List K × Nat)) (k c : Nat) : List (List K) := (xs.filter fun x => x.2 - 1 < k ∧ x.2 - 1 = c).map (·.1)

theorem sums_fold (q : Rounding K) (k : Nat) : ∀ (xs : List (List K × Nat)) (acc : List (List K × Nat)) (c : Nat),
    (xs.foldl (fun acc x => if x.2 - 1 < k then acc.modify (x.2 - 1) fun s => (addRow q s.1 x.1, s.2 + 1) else acc) acc)[c]?
      = acc[c]?.map fun s => ((ofClass xs k c).foldl (addRow q) s.1, s.2 + (ofClass xs k c).length) := by
  intro xs
  induction xs with
  | nil => intro acc c; simp [ofClass]
  | cons x xs ih =>
    intro acc c
    rw [List.foldl_cons, ih]
    by_cases h : x.2 - 1 < k
    · rw [if_pos h, List.getElem?_modify]
      by_cases hc : x.2 - 1 = c
      · have hcls : ofClass (x :: xs) k c = x.1 :: ofClass xs k c := by
          unfold ofClass
          rw [List.filter_cons, if_pos (decide_eq_true (show x.2 - 1 < k ∧ x.2 - 1 = c from ⟨h, hc⟩))]
          rfl
        rw [hcls]
        cases acc[c]? with
        | none => rfl
        | some s =>
          simp only [Option.map_eq_map, Option.map_some, if_pos hc, List.foldl_cons, List.length_cons, Option.some.injEq, Prod.mk.injEq, true_and]
          omega
      · have hcls : ofClass (x :: xs) k c = ofClass xs k c := by
          unfold ofClass
          rw [List.filter_cons_of_neg (by simp [hc])]
        rw [hcls]
        cases acc[c]? with
        | none => rfl
        | some s => simp only [Option.map_eq_map, Option.map_some, if_neg hc]
    · rw [if_neg h]
      have hcls : ofClass (x :: xs) k c = ofClass xs k c := by
        unfold ofClass
        rw [List.filter_cons_of_neg (by simp [h])]
      rw [hcls]

theorem sums_length (q : Rounding K) (k : Nat) : ∀ (xs : List (List K × Nat)) (acc : List (List K × Nat)),
    (xs.foldl (fun acc x => if x.2 - 1 < k then acc.modify (x.2 - 1) fun s => (addRow q s.1 x.1, s.2 + 1) else acc) acc).length = acc.length := by
  intro xs
  induction xs with
  | nil => intro acc; rfl
  | cons x xs ih =>
    intro acc
    rw [List.foldl_cons, ih]
    split
    · rw [List.length_modify]
    · rfl

theorem addRows_length (q : Rounding K) (width : Nat) : ∀ (rows : List (List K)) (acc : List K), acc.length = width → (∀ r ∈ rows, r.length = width) →
    (rows.foldl (addRow q) acc).length = width := by
  intro rows
  induction rows with
  | nil => intro acc h _; exact h
  | cons r rows ih =>
    intro acc h hr
    rw [List.foldl_cons]
    apply ih
    · rw [addRow, List.length_zipWith, h, hr r List.mem_cons_self, Nat.min_self]
    · exact fun r hr' => hr r (List.mem_cons_of_mem _ hr')

theorem addRows_exact {q : Rounding K} (hq : ∀ x, q.rnd x = x) (width col : Nat) (hcol : col < width) : ∀ (rows : List (List K)) (acc : List K),
    acc.length = width → (∀ r ∈ rows, r.length = width) →
    (rows.foldl (addRow q) acc).getD col 0 = acc.getD col 0 + (rows.map fun r => r.getD col 0).sum := by
  intro rows
  induction rows with
  | nil => intro acc _ _; simp
  | cons r rows ih =>
    intro acc h hr
    have hrl := hr r List.mem_cons_self
    rw [List.foldl_cons, ih]
    · rw [List.map_cons, List.sum_cons]
      have : (addRow q acc r).getD col 0 = acc.getD col 0 + r.getD col 0 := by
        simp only [List.getD_eq_getElem?_getD, addRow, List.getElem?_zipWith, List.getElem?_eq_getElem (show col < acc.length by omega),
          List.getElem?_eq_getElem (show col < r.length by omega), Option.getD_some, hq]
      rw [this]
      ring
    · rw [addRow, List.length_zipWith, h, hrl, Nat.min_self]
    · exact fun r hr' => hr r (List.mem_cons_of_mem _ hr')

/-- The observations with label `c + 1`. -/
def classOf (labels : List Nat) (n c : Nat) : List Nat := (List.range n).filter fun i => labels[i]? = some (c + 1)

theorem zip_eq (rows : List (List K)) (labels : List Nat) (h : rows.length = labels.length) :
    rows.zip labels = (List.range labels.length).map fun i => (rows.getD i [], labels.getD i 0) := by
  apply List.ext_getElem?
  intro i
  rw [List.getElem?_map]
  rcases Nat.lt_or_ge i labels.length with hi | hi
  · rw [List.getElem?_range hi]
    have e1 : rows[i]? = some rows[i] := List.getElem?_eq_getElem (by omega)
    have e2 : labels[i]? = some labels[i] := List.getElem?_eq_getElem hi
    rw [(List.getElem?_zip_eq_some (z := (rows[i], labels[i]))).mpr ⟨e1, e2⟩]
    simp only [Option.map_some, List.getD_eq_getElem?_getD, e1, e2, Option.getD_some]
  · rw [List.getElem?_eq_none (by simp; omega), List.getElem?_eq_none (by simp; omega)]
    rfl

theorem ofClass_eq {rows : List (List K)} {labels : List Nat} {n k c : Nat} (hl : labels.length = n) (hr : rows.length = n) (hc : c < k)
    (hpos : ∀ l ∈ labels, 1 ≤ l) : ofClass (rows.zip labels) k c = (classOf labels n c).map fun i => rows.getD i [] := by
  unfold ofClass classOf
  rw [zip_eq rows labels (by omega), hl, List.filter_map, List.map_map]
  congr 1
  apply List.filter_congr
  intro i hi
  have hi : i < n := List.mem_range.mp hi
  have e2 : labels[i]? = some labels[i] := List.getElem?_eq_getElem (by omega)
  have := hpos labels[i] (List.getElem_mem _)
  simp only [Function.comp_apply, List.getD_eq_getElem?_getD, e2, Option.getD_some, Option.some.injEq, decide_eq_decide]
  omega

/-- The rows that are made from the sums. -/
theorem sums_eq (q : Rounding K) {rows : List (List K)} {labels : List Nat} {n k width : Nat} (hl : labels.length = n) (hr : rows.length = n)
    (hpos : ∀ l ∈ labels, 1 ≤ l) :
    sums q rows labels k width = (List.range k).map fun c =>
      (((classOf labels n c).map fun i => rows.getD i []).foldl (addRow q) (List.replicate width 0), (classOf labels n c).length) := by
  apply List.ext_getElem?
  intro c
  unfold sums
  rw [sums_fold, List.getElem?_map, List.getElem?_replicate]
  rcases Nat.lt_or_ge c k with hc | hc
  · rw [if_pos hc, List.getElem?_range hc, ofClass_eq hl hr hc hpos]
    simp only [Option.map_some, Nat.zero_add, List.length_map]
  · rw [if_neg (by omega), List.getElem?_eq_none (by rw [List.length_range]; exact hc)]
    rfl

theorem class_parts {labels : List Nat} {n k : Nat} (hl : labels.length = n) (hrange : ∀ l ∈ labels, 1 ≤ l ∧ l ≤ k) :
    (((List.range k).map fun c => classOf labels n c).flatten).Perm (List.range n) := by
  rw [← List.flatMap_def]
  rw [List.perm_ext_iff_of_nodup _ List.nodup_range]
  · intro i
    simp only [List.mem_flatMap, classOf, List.mem_filter, List.mem_range, decide_eq_true_eq]
    constructor
    · rintro ⟨c, _, h, _⟩
      exact h
    · intro hi
      have e : labels[i]? = some labels[i] := List.getElem?_eq_getElem (by omega)
      have := hrange labels[i] (List.getElem_mem _)
      refine ⟨labels[i] - 1, by omega, hi, ?_⟩
      rw [e, Option.some.injEq]
      omega
  · rw [List.nodup_flatMap]
    refine ⟨fun c _ => List.nodup_range.filter _, ?_⟩
    apply List.nodup_range.pairwise_of_forall_ne
    intro c _ c' _ hne
    simp only [Function.onFun, List.Disjoint, classOf, List.mem_filter, List.mem_range, decide_eq_true_eq]
    intro i h1 h2
    rw [h1.2, Option.some.injEq] at h2
    omega

theorem class_nonempty {labels : List Nat} {n k c : Nat} (hl : labels.length = n) (hrange : ∀ l, l ∈ labels ↔ 1 ≤ l ∧ l ≤ k) (hc : c < k) :
    classOf labels n c ≠ [] := by
  have : c + 1 ∈ labels := (hrange (c + 1)).mpr (by omega)
  obtain ⟨i, hi, e⟩ := List.getElem_of_mem this
  have : i ∈ classOf labels n c := by
    simp only [classOf, List.mem_filter, List.mem_range, decide_eq_true_eq]
    exact ⟨by omega, by rw [List.getElem?_eq_getElem hi, e]⟩
  exact List.ne_nil_of_mem this

theorem mean_row {q : Rounding K} (hq : ∀ x, q.rnd x = x) {rows : List (List K)} {cls : List Nat} {width : Nat} (hne : cls ≠ [])
    (hin : ∀ i ∈ cls, i < rows.length) (hw : ∀ r ∈ rows, r.length = width) :
    ((cls.map fun i => rows.getD i []).foldl (addRow q) (List.replicate width 0)).map (fun x => q.rnd (x / ((max cls.length 1 : Nat) : K)))
      = (List.range width).map (mean rows cls) := by
  have hrows : ∀ r ∈ (cls.map fun i => rows.getD i []), r.length = width := by
    intro r hr
    obtain ⟨i, hi, rfl⟩ := List.mem_map.mp hr
    rw [List.getD_eq_getElem?_getD, List.getElem?_eq_getElem (hin i hi)]
    exact hw _ (List.getElem_mem _)
  have hlen := addRows_length q width _ (List.replicate width 0) List.length_replicate hrows
  have hpos : 0 < cls.length := List.length_pos_iff.mpr hne
  apply List.ext_getElem?
  intro col
  rw [List.getElem?_map, List.getElem?_map]
  rcases Nat.lt_or_ge col width with hc | hc
  · rw [List.getElem?_range hc, List.getElem?_eq_getElem (by omega)]
    have h1 := addRows_exact hq width col hc _ (List.replicate width 0) List.length_replicate hrows
    rw [List.getD_eq_getElem?_getD, List.getElem?_eq_getElem (by omega), Option.getD_some] at h1
    rw [Option.map_some, h1, hq, Option.map_some, Option.some.injEq, Nat.max_eq_left hpos]
    unfold mean
    congr 1
    rw [List.map_map]
    have : (List.replicate width (0 : K)).getD col 0 = 0 := by
      rw [List.getD_eq_getElem?_getD, List.getElem?_replicate, if_pos hc, Option.getD_some]
    rw [this, zero_add]
    rfl
  · rw [List.getElem?_eq_none (by omega), List.getElem?_eq_none (by rw [List.length_range]; exact hc)]
    rfl

/-! ### The pooled document -/

omit [Field K] [LinearOrder K] in
theorem maxclust_cut {fuel : Nat} {rows : List (Row K)} {n k : Nat} (h1 : k < n) (h2 : k ≠ 0) : maxclust fuel rows n k = cut fuel rows n (n - k) := by
  unfold maxclust
  rw [if_neg (by omega), if_neg h2]

/-- The condensed distances of the rows. -/
def distances (dist : List K → List K → Option K) (toPool : List (List K)) : List (Option K) :=
  pdist (fun i j => dist (toPool.getD i []) (toPool.getD j [])) toPool.length

theorem pool_unfold (r q : Rounding K) (dist : List K → List K → Option K) (fuel : Nat) (emb : List (List K)) (width factor : Nat) (hf : 1 < factor)
    (hlen : 2 < emb.length) :
    pool r q dist fuel emb width factor 1 =
      match linkage r fuel (emb.length - 1) (distances dist (emb.drop 1)) with
      | none => none
      | some (.error f) => some (.error f)
      | some (.ok rows) =>
        match cut fuel rows (emb.length - 1) (emb.length - 1 - max ((emb.length - 1) / factor) 1) with
        | none => none
        | some (.error f) => some (.error f)
        | some (.ok labels) =>
          some (.ok (emb.take 1 ++ (sums q (emb.drop 1) labels (max ((emb.length - 1) / factor) 1) width).map fun s =>
            s.1.map fun x => q.rnd (x / ((max s.2 1 : Nat) : K)))) := by
  have hk : max ((emb.length - 1) / factor) 1 < emb.length - 1 := by
    have : (emb.length - 1) / factor < emb.length - 1 := Nat.div_lt_self (by omega) hf
    omega
  have hd : distances dist (emb.drop 1) = pdist (fun i j => dist ((emb.drop 1).getD i []) ((emb.drop 1).getD j [])) (emb.length - 1) := by
    unfold distances
    rw [List.length_drop]
  unfold pool
  rw [if_neg (by omega), hd]
  simp only
  rw [if_neg (by omega)]
  cases linkage r fuel (emb.length - 1) (pdist (fun i j => dist ((emb.drop 1).getD i []) ((emb.drop 1).getD j [])) (emb.length - 1)) with
  | none => rfl
  | some x =>
    cases x with
    | error f => rfl
    | ok rows =>
      simp only
      rw [maxclust_cut hk (by omega)]
      rfl

omit [Field K] [LinearOrder K] in
theorem Dendro.tree {n : Nat} {rows : List (Row K)} (h : Dendrogram n rows) : Tree n rows := ⟨h.older, h.once⟩

/-- What a pooled document is, in any arithmetic. -/
theorem pool_ok (r q : Rounding K) (dist : List K → List K → Option K) {fuel : Nat} {emb : List (List K)} {width factor : Nat} (hf : 1 < factor)
    (hlen : 2 < emb.length) {out : List (List K)} (h : pool r q dist fuel emb width factor 1 = some (.ok out)) :
    ∃ rows labels, linkage r fuel (emb.length - 1) (distances dist (emb.drop 1)) = some (.ok rows) ∧ Dendrogram (emb.length - 1) rows ∧
      Cut rows (emb.length - 1) (emb.length - 1 - max ((emb.length - 1) / factor) 1) labels ∧
      out = emb.take 1 ++ (List.range (max ((emb.length - 1) / factor) 1)).map fun c =>
        (((classOf labels (emb.length - 1) c).map fun i => (emb.drop 1).getD i []).foldl (addRow q) (List.replicate width 0)).map
          fun x => q.rnd (x / ((max (classOf labels (emb.length - 1) c).length 1 : Nat) : K)) := by
  rw [pool_unfold r q dist fuel emb width factor hf hlen] at h
  cases hl : linkage r fuel (emb.length - 1) (distances dist (emb.drop 1)) with
  | none => rw [hl] at h; cases h
  | some x =>
    rw [hl] at h
    cases x with
    | error f => cases h
    | ok rows =>
      simp only at h
      have hd := linkage_tree r hl
      cases hc : cut fuel rows (emb.length - 1) (emb.length - 1 - max ((emb.length - 1) / factor) 1) with
      | none => rw [hc] at h; cases h
      | some y =>
        obtain ⟨labels, rfl, hcut⟩ := cut_ok (Dendro.tree hd) (by rw [hd.count]; omega) hc
        rw [hc] at h
        simp only [Option.some.injEq, Except.ok.injEq] at h
        refine ⟨rows, labels, rfl, hd, hcut, ?_⟩
        rw [← h, sums_eq q hcut.length (by rw [List.length_drop]) (fun l hl => ((hcut.numbered.range l).mp hl).1), List.map_map]
        rfl

end

section
variable {K : Type} [Field K] [LinearOrder K] [IsStrictOrderedRing K]

theorem grow_mono (r : Rounding K) : ∀ (f : Nat) {g : Nat} {s : St K} {x : Res (St K)}, f ≤ g → grow r f s = some x → grow r g s = some x := by
  intro f
  induction f with
  | zero => intro g s x _ h; cases h
  | succ f ih =>
    intro g s x hg h
    obtain ⟨g, rfl⟩ : ∃ g', g = g' + 1 := ⟨g - 1, by omega⟩
    unfold grow at h ⊢
    cases hc : s.chain with
    | nil => rw [hc] at h; exact h
    | cons cur below =>
      rw [hc] at h
      simp only at h ⊢
      cases hv : near s cur with
      | none => rw [hv] at h; exact h
      | some v =>
        rw [hv] at h
        simp only at h ⊢
        split at h
        · rename_i hh
          rw [if_pos hh]
          exact h
        · rename_i hh
          rw [if_neg hh]
          exact ih (by omega) h

theorem merges_mono (r : Rounding K) {f g : Nat} (hfg : f ≤ g) : ∀ (m : Nat) {s : St K} {x : Res (St K)}, merges r f m s = some x → merges r g m s = some x := by
  intro m
  induction m with
  | zero => intro s x h; exact h
  | succ m ih =>
    intro s x h
    rw [merges] at h ⊢
    cases hg : grow r f (if s.chain = [] then { s with chain := s.active.take 1 } else s) with
    | none => rw [hg] at h; cases h
    | some y =>
      rw [hg] at h
      rw [grow_mono r f hfg hg]
      cases y with
      | error e => exact h
      | ok s' => exact ih h

theorem linkage_mono (r : Rounding K) {f g n : Nat} (hfg : f ≤ g) {ds : List (Option K)} {x : Res (List (Row K))} (h : linkage r f n ds = some x) :
    linkage r g n ds = some x := by
  unfold linkage at h ⊢
  split at h
  · rename_i hn
    rw [if_pos hn]
    exact h
  · rename_i hn
    rw [if_neg hn]
    split at h
    · rename_i hd
      rw [if_pos hd]
      exact h
    · rename_i hd
      rw [if_neg hd]
      cases hm : merges r f (n - 1) (begin r n ds) with
      | none => rw [hm] at h; cases h
      | some y =>
        rw [hm] at h
        rw [merges_mono r hfg _ hm]
        exact h

theorem pool_ends {r : Rounding K} (hr : ∀ x, r.rnd x = x) (q : Rounding K) (dist : List K → List K → Option K) {emb : List (List K)} {width factor : Nat}
    (hf : 1 < factor) (hlen : 2 < emb.length) (hfin : ∀ x ∈ distances dist (emb.drop 1), x.isSome) :
    ∃ N out, ∀ fuel, N ≤ fuel → pool r q dist fuel emb width factor 1 = some (.ok out) := by
  have hdl : (distances dist (emb.drop 1)).length = (emb.length - 1) * (emb.length - 1 - 1) / 2 := by
    unfold distances
    rw [pdist_length, List.length_drop]
  -- the linkage does not depend on the fuel
  have hsame : ∃ rows, ∀ fuel, emb.length - 1 ≤ fuel → linkage r fuel (emb.length - 1) (distances dist (emb.drop 1)) = some (.ok rows) := by
    obtain ⟨rows, hrows, _⟩ := linkage_exact hr (Nat.le_refl (emb.length - 1)) hdl hfin
    exact ⟨rows, fun fuel hfu => linkage_mono r hfu hrows⟩
  obtain ⟨rows, hrows⟩ := hsame
  have hd := linkage_tree r (hrows (emb.length - 1) (Nat.le_refl _))
  obtain ⟨N, x, hx⟩ := cut_ends (Dendro.tree hd) (m := emb.length - 1 - max ((emb.length - 1) / factor) 1) (by rw [hd.count]; omega)
  obtain ⟨labels, rfl, _⟩ := cut_ok (Dendro.tree hd) (by rw [hd.count]; omega) (hx N (Nat.le_refl _))
  refine ⟨max N (emb.length - 1), emb.take 1 ++ (sums q (emb.drop 1) labels (max ((emb.length - 1) / factor) 1) width).map fun s =>
            s.1.map fun x => q.rnd (x / ((max s.2 1 : Nat) : K)), ?_⟩
  intro fuel hfu
  rw [pool_unfold r q dist fuel emb width factor hf hlen, hrows fuel (by omega)]
  simp only
  rw [hx fuel (by omega)]

end

end NextPlaid.Hier
