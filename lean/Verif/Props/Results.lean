import Verif.Proofs.Results2

/-!
C54: a search shows the best `k` files, one result per file, best first, and shows the same list every time.

Two parts of it fail.  The list can be shorter than `k` although more files match, because a bounded number of candidates is looked at
before files are put together, and because `--code-only` removes results afterwards.  And the list can differ from run to run when
candidates have equal fused scores.  Proved: among the candidates the best files are shown, for all rankings, rows and ways of reading
hash maps; and the list is the same every time if no two candidates have the same fused score.
-/

namespace NextPlaid.Props

open NextPlaid.Rank NextPlaid.Spec NextPlaid.Fusion

section
variable {K : Type} [Field K] [LinearOrder K] [IsStrictOrderedRing K] (r : Rounding K) (hr : r.Lawful) (g : Signals K)

/-- Every way of reading a hash map gives its entries in some order. -/
def Reads (o : Orders K) : Prop := (∀ l, (o.fuse l).Perm l) ∧ (∀ l, (o.files l).Perm l) ∧ ∀ l, (o.merged l).Perm l

/-- C54: hybrid search gives the best files among its candidates. -/
theorem C54_hybrid (o : Orders K) (rows : List CodeUnit) (query : List Char) (alpha : K) (topK : Nat) (sem kw : List (Int × K)) :
    BestFiles topK (pool r g o rows query alpha topK sem kw) (hybrid r g o rows query alpha topK sem kw) :=
  hybrid_best r g o rows query alpha topK sem kw

include hr in
/-- C54: the candidates are the units whose ids the two rankings give (the best `fetchK` of them by fused score if there are keyword
results), each of them once. -/
theorem C54_candidates (o : Orders K) (ho : Reads o) (rows : List CodeUnit) (hrows : (rows.map (·.id)).Nodup) (query : List Char) (alpha : K)
    (topK : Nat) (sem kw : List (Int × K)) (hs : (sem.map Prod.fst).Nodup) (hk : (kw.map Prod.fst).Nodup) :
    ∃ found : List (Int × K), (found.map Prod.fst).Nodup ∧
      (kw = [] → found = sem) ∧
      (kw ≠ [] → ∃ all, TopOf (fetchK topK rows.length) all found ∧ ∀ id s, (id, s) ∈ all ↔ FusedScore r alpha sem kw id s) ∧
      ((pool r g o rows query alpha topK sem kw).map (·.unit.id)).Nodup ∧
      ∀ u, u ∈ (pool r g o rows query alpha topK sem kw).map (·.unit) ↔ u ∈ rows ∧ u.id ∈ found.map Prod.fst := by
  have hfound : ((candidates r o rows.length alpha topK sem kw).map Prod.fst).Nodup := by
    unfold candidates
    split
    · exact hs
    · obtain ⟨all, ⟨rest, hp, _, _, _⟩, hnd, _⟩ := C29_ids r o.fuse ho.1 sem kw alpha (fetchK topK rows.length)
      refine ((hp.map Prod.fst).nodup_iff.mpr hnd).sublist ?_
      exact (List.sublist_append_left _ _).map _
  refine ⟨_, hfound, ?_, ?_, ?_, ?_⟩
  · intro h; simp [candidates, h]
  · intro h
    obtain ⟨all, h1, _, h3⟩ := C29_relative r hr o.fuse ho.1 sem kw hs hk alpha (fetchK topK rows.length)
    refine ⟨all, ?_, h3⟩
    simpa only [candidates, h, if_false] using h1
  · have := rerank_units r g o.files query (pairUp (candidates r o rows.length alpha topK sem kw) rows)
    have h2 : (pool r g o rows query alpha topK sem kw).map (·.unit.id) = ((pool r g o rows query alpha topK sem kw).map (·.unit)).map (·.id) := by
      rw [List.map_map]; rfl
    rw [h2, pool, this, List.map_map]
    exact pairUp_nodup _ _
  · intro u
    rw [pool, rerank_units]
    constructor
    · intro hm
      obtain ⟨h, hh, rfl⟩ := List.mem_map.mp hm
      obtain ⟨h1, h2⟩ := mem_pairUp _ _ h hh
      exact ⟨h1, List.mem_map.mpr ⟨_, h2, rfl⟩⟩
    · rintro ⟨h1, h2⟩
      obtain ⟨⟨i, s⟩, h3, h4⟩ := List.mem_map.mp h2
      simp only at h4
      subst h4
      exact List.mem_map.mpr ⟨_, pairUp_mem _ _ hfound hrows u s h1 h3, rfl⟩

/-- C54: what is shown for a search in one path: one result per file, best first, at most `k`, each of them the best candidate of its
file in the two searches; and no file that is left out has a better candidate. -/
theorem C54_shown (o : Orders K) (ho : Reads o) (rows : List CodeUnit) (query : List Char) (alpha : K) (k : Nat)
    (sem kw sem' kw' : List (Int × K)) :
    let p := pool r g o rows query alpha (searchTopK false k) sem kw ++ pool r g o rows query alpha (searchTopK false k) sem' kw'
    let out := shown false k [onePath r g o rows query alpha (searchTopK false k) sem kw sem' kw']
    (out.map (·.unit.file)).Nodup ∧ out.Pairwise (fun a b => b.score ≤ a.score) ∧ out.length ≤ k ∧
    (∀ h ∈ out, (∃ u ∈ p, SameUnit h.unit u.unit ∧ h.score = u.score) ∧ ∀ v ∈ p, v.unit.file = h.unit.file → v.score ≤ h.score) ∧
    ∀ v ∈ p, v.unit.file ∉ out.map (·.unit.file) → out.length = k ∧ ∀ h ∈ out, v.score ≤ h.score := by
  intro p out
  have hout : out = (sortBy inOrder (onePath r g o rows query alpha (searchTopK false k) sem kw sem' kw')).take k := by
    simp only [out, shown, List.flatten_cons, List.flatten_nil, List.append_nil, Bool.false_and, Bool.not_false, List.filter_true]
  rw [hout]
  refine cut_merged (n := searchTopK false k) (by simp [searchTopK]; omega) (hybrid_best r g o rows query alpha _ sem kw)
    (hybrid_best r g o rows query alpha _ sem' kw') (merge_merged _ _) ?_ ?_
  · exact ((sortBy_perm _).trans (sortBy_perm _)).trans (ho.2.2 _)
  · exact (sortBy_sorted inOrder_total inOrder_trans _).imp inOrder_score

/-- C54: the lines of a result are from the first to the last line of what the two searches give for its file, and no file is lost. -/
theorem C54_merged (o : Orders K) (ho : Reads o) (rows : List CodeUnit) (query : List Char) (alpha : K) (topK : Nat)
    (sem kw sem' kw' : List (Int × K)) :
    let p := hybrid r g o rows query alpha topK sem kw ++ hybrid r g o rows query alpha topK sem' kw'
    let out := onePath r g o rows query alpha topK sem kw sem' kw'
    (out.map (·.unit.file)).Nodup ∧ (∀ h ∈ out, StandsFor p h) ∧ (∀ v ∈ p, v.unit.file ∈ out.map (·.unit.file)) ∧
      out.Pairwise fun a b => b.score < a.score ∨ b.score = a.score ∧ a.unit.file < b.unit.file := by
  intro p out
  have hm := merge_merged (hybrid r g o rows query alpha topK sem kw) (hybrid r g o rows query alpha topK sem' kw')
  have hp : out.Perm (merge (hybrid r g o rows query alpha topK sem kw) (hybrid r g o rows query alpha topK sem' kw')) :=
    (sortBy_perm _).trans (ho.2.2 _)
  have hd : (out.map (·.unit.file)).Nodup := ((hp.map _).nodup_iff).mpr hm.distinct
  refine ⟨hd, fun h hh => hm.each h (hp.mem_iff.mp hh), ?_, ?_⟩
  · intro v hv
    exact (hp.map _).mem_iff.mpr (hm.complete v hv)
  · have h1 : out.Pairwise fun a b => inOrder a b = true := sortBy_sorted inOrder_total inOrder_trans _
    have h2 : out.Pairwise fun a b => a.unit.file ≠ b.unit.file := List.pairwise_map.mp hd
    refine (h1.and h2).imp ?_
    rintro a b ⟨h3, h4⟩
    simp only [inOrder, Bool.or_eq_true, decide_eq_true_eq, Bool.and_eq_true, h4, false_and, or_false] at h3
    exact h3

omit [Field K] [IsStrictOrderedRing K] in
/-- C54: several paths: the results are in order, and the best `k` of all that are found. -/
theorem C54_paths (codeOnly : Bool) (k : Nat) (paths : List (List (Hit K))) :
    (shown codeOnly k paths).Pairwise (fun a b => b.score ≤ a.score) ∧
    ∃ rest, (shown codeOnly k paths ++ rest).Perm (paths.flatten.filter fun h => !(codeOnly && h.unit.isText)) ∧
      (shown codeOnly k paths).length ≤ k ∧ (rest ≠ [] → (shown codeOnly k paths).length = k) ∧
      ∀ a ∈ shown codeOnly k paths, ∀ b ∈ rest, b.score ≤ a.score := by
  have hs : ((sortBy inOrder paths.flatten).filter fun h => !(codeOnly && h.unit.isText)).Pairwise fun a b => b.score ≤ a.score :=
    ((sortBy_sorted inOrder_total inOrder_trans paths.flatten).imp inOrder_score).sublist List.filter_sublist
  unfold shown
  refine ⟨hs.sublist (List.take_sublist _ _), ((sortBy inOrder paths.flatten).filter fun h => !(codeOnly && h.unit.isText)).drop k, ?_, ?_, ?_, ?_⟩
  · rw [List.take_append_drop]
    exact (sortBy_perm _).filter _
  · rw [List.length_take]; exact min_le_left _ _
  · intro h
    have : ¬ ((sortBy inOrder paths.flatten).filter fun h => !(codeOnly && h.unit.isText)).length ≤ k := fun hle => h (List.drop_eq_nil_of_le hle)
    rw [List.length_take]; omega
  · intro a ha b hb
    rw [← List.take_append_drop k ((sortBy inOrder paths.flatten).filter _), List.pairwise_append] at hs
    exact hs.2.2 a ha b hb

include hr in
/-- C54 (partial): the same list every time.  Missing: candidates with equal fused scores. -/
theorem C54_deterministic_partial (o o' : Orders K) (ho : Reads o) (ho' : Reads o') (rows : List CodeUnit) (query : List Char) (alpha : K)
    (topK : Nat) (sem kw sem' kw' : List (Int × K)) (hs : (sem.map Prod.fst).Nodup) (hk : (kw.map Prod.fst).Nodup)
    (hs' : (sem'.map Prod.fst).Nodup) (hk' : (kw'.map Prod.fst).Nodup) (ht : NoFusedTies r alpha sem kw) (ht' : NoFusedTies r alpha sem' kw') :
    onePath r g o rows query alpha topK sem kw sem' kw' = onePath r g o' rows query alpha topK sem kw sem' kw' := by
  have hc : ∀ {sem kw : List (Int × K)}, (sem.map Prod.fst).Nodup → (kw.map Prod.fst).Nodup → NoFusedTies r alpha sem kw →
      hybrid r g o rows query alpha topK sem kw = hybrid r g o' rows query alpha topK sem kw := by
    intro sem kw hs hk ht
    have : candidates r o rows.length alpha topK sem kw = candidates r o' rows.length alpha topK sem kw := by
      unfold candidates
      split
      · rfl
      · obtain ⟨all, h1, h2, h3⟩ := C29_relative r hr o.fuse ho.1 sem kw hs hk alpha (fetchK topK rows.length)
        obtain ⟨all', h1', h2', h3'⟩ := C29_relative r hr o'.fuse ho'.1 sem kw hs hk alpha (fetchK topK rows.length)
        have hperm : all'.Perm all := by
          refine (List.perm_ext_iff_of_nodup (List.Nodup.of_map _ h2') (List.Nodup.of_map _ h2)).mpr ?_
          rintro ⟨i, s⟩
          rw [h3, h3']
        have h1'' : TopOf (fetchK topK rows.length) all (fuseRelative r o'.fuse (sem.map Prod.fst) (sem.map Prod.snd) (kw.map Prod.fst)
            (kw.map Prod.snd) alpha (fetchK topK rows.length)) := by
          obtain ⟨rest, a1, a2, a3, a4⟩ := h1'
          exact ⟨rest, a1.trans hperm, a2, a3, by rw [a4, hperm.length_eq]⟩
        refine topOf_unique h1 h1'' ?_
        rintro ⟨i, s⟩ hi ⟨j, t⟩ hj hst
        simp only at hst
        subst hst
        have := ht i j s ((h3 i s).mp hi) ((h3 j s).mp hj)
        rw [this]
    unfold hybrid pool
    rw [this, rerank_order r g o.files o'.files ho.2.1 ho'.2.1]
  unfold onePath
  rw [hc hs hk ht, hc hs' hk' ht']
  exact sort_merged (merge_merged _ _).distinct (ho.2.2 _) (ho'.2.2 _)

end

/-! ### Examples, and where the claim fails -/

/-- Signals that are off. -/
@[reducible] def offSignals : Signals ℚ := ⟨1, 1, 1, 0, 0, 0, 0, fun _ => false, fun _ => false, fun _ => false, fun q => q, [], true⟩

@[reducible] def asRead : Orders ℚ := ⟨fun l => l, fun l => l, fun l => l⟩

@[reducible] def backwards : Orders ℚ := ⟨List.reverse, List.reverse, List.reverse⟩

theorem asRead_reads : Reads asRead := ⟨fun l => .refl l, fun l => .refl l, fun l => .refl l⟩

theorem backwards_reads : Reads backwards := ⟨List.reverse_perm, List.reverse_perm, List.reverse_perm⟩

/-- A unit of a file, in its own line. -/
@[reducible] def unitIn (file : List Char) (id : Nat) (text : Bool) : CodeUnit := ⟨id, file, id + 1, id + 3, ['f'], true, text⟩

example : (shown false 2 [onePath (exact ℚ) offSignals asRead [unitIn ['a'] 0 false, unitIn ['a'] 1 false, unitIn ['b'] 2 false, unitIn ['c'] 3 false]
      [] (1/2) (searchTopK false 2) [(0, 9), (3, 8), (1, 7), (2, 1)] [(1, 3), (3, 2)] [(1, 5)] []]).map (fun h => (h.unit.file, h.unit.line, h.unit.endLine, h.score)) =
    [(['a'], 1, 4, 5), (['c'], 4, 6, 7/16)] := by decide +kernel

/-- C54 is false: `-k 2` shows one file although two match, when more than two hundred units of the first one come before those of the second.
Two hundred candidates are looked at (`fetchK`). -/
theorem C54_fewer_than_k (g : Signals ℚ) (o : Orders ℚ) (ho : Reads o) (query : List Char) (alpha : ℚ) :
    let rows := (List.range 200).map (fun i => unitIn ['a'] i false) ++ [unitIn ['b'] 200 false]
    let all : List (Int × ℚ) := (List.range 200).map (fun i : Nat => ((i : Int), (2 : ℚ))) ++ [(200, 1)]
    let sem : List (Int × ℚ) := (List.range 200).map fun i : Nat => ((i : Int), (2 : ℚ))
    TopOf (fetchK (searchTopK false 2) rows.length) all sem ∧
    (shown false 2 [onePath (exact ℚ) g o rows query alpha (searchTopK false 2) sem [] [] []]).length ≤ 1 := by
  intro rows all sem
  constructor
  · refine ⟨[(200, 1)], .refl _, ?_, ?_, ?_⟩
    · rw [List.pairwise_map]
      exact List.pairwise_of_forall fun _ _ => le_refl _
    · intro x hx y hy
      obtain ⟨i, _, rfl⟩ := List.mem_map.mp hx
      simp only [List.mem_singleton] at hy
      subst hy
      norm_num
    · simp only [sem, all, rows, fetchK, searchTopK, List.length_map, List.length_range, List.length_append, List.length_singleton]
      norm_num
  · obtain ⟨h1, -, -, h4, -⟩ := C54_shown (exact ℚ) g o ho rows query alpha 2 sem [] [] []
    generalize shown false 2 [onePath (exact ℚ) g o rows query alpha (searchTopK false 2) sem [] [] []] = out at h1 h4
    have hfile : ∀ h ∈ out, h.unit.file = ['a'] := by
      intro h hh
      obtain ⟨⟨u, hu, hsame, _⟩, _⟩ := h4 h hh
      rw [hsame.2.1]
      have hpool : ∀ (s : List (Int × ℚ)), (∀ p ∈ s, p.1 ≠ 200) → ∀ v ∈ pool (exact ℚ) g o rows query alpha (searchTopK false 2) s [], v.unit.file = ['a'] := by
        intro s hs v hv
        have : v.unit ∈ (pool (exact ℚ) g o rows query alpha (searchTopK false 2) s []).map (·.unit) := List.mem_map_of_mem hv
        rw [pool, rerank_units] at this
        obtain ⟨w, hw, hwu⟩ := List.mem_map.mp this
        obtain ⟨h5, h6⟩ := mem_pairUp _ _ w hw
        simp only [candidates, if_true] at h6
        have h7 := hs _ h6
        rw [← hwu]
        rcases List.mem_append.mp h5 with h5 | h5
        · obtain ⟨i, _, hi⟩ := List.mem_map.mp h5
          rw [← hi]
        · rw [List.mem_singleton] at h5
          rw [h5] at h7
          exact absurd rfl h7
      rcases List.mem_append.mp hu with hu | hu
      · refine hpool sem ?_ u hu
        intro p hp
        obtain ⟨i, hi, rfl⟩ := List.mem_map.mp hp
        have := List.mem_range.mp hi
        simp only [ne_eq]
        omega
      · exact hpool [] (by simp) u hu
    match out, h1, hfile with
    | [], _, _ => simp
    | [_], _, _ => simp
    | a :: b :: l, h1, hfile =>
      have ha := hfile a (by simp)
      have hb := hfile b (by simp)
      simp [ha, hb] at h1

/-- C54 is false with `--code-only`: text files are removed after the cut, so that four of them hide all code. -/
theorem C54_code_only_empty :
    shown true 1 [onePath (exact ℚ) offSignals asRead
      [unitIn ['a'] 0 true, unitIn ['b'] 1 true, unitIn ['c'] 2 true, unitIn ['d'] 3 true, unitIn ['e'] 4 false] [] (1/2) (searchTopK true 1)
      [(0, 9), (1, 8), (2, 7), (3, 6), (4, 5)] [] [] []] = [] := by decide +kernel

/-- C54 is false for paths that overlap: the file is shown for each of them. -/
theorem C54_overlapping_paths :
    let p := onePath (exact ℚ) offSignals asRead [unitIn ['a'] 0 false] [] (1/2) (searchTopK false 5) [(0, 9)] [] [] []
    (shown false 5 [p, p]).map (·.unit.file) = [['a'], ['a']] := by decide +kernel

/-- C54 is false for equal fused scores: which unit stands for a file depends on the order in which a hash map is read. -/
theorem C54_ties_differ :
    let rows := [unitIn ['a'] 0 false, unitIn ['a'] 1 false]
    let found : List (Int × ℚ) := [(0, 1), (1, 1)]
    ((onePath (exact ℚ) offSignals asRead rows [] (1/2) 30 found found [] []).map (·.unit.id) = [0]) ∧
    ((onePath (exact ℚ) offSignals backwards rows [] (1/2) 30 found found [] []).map (·.unit.id) = [1]) := by
  constructor <;> decide +kernel

/-- There are no ties if the list that fusion gives, uncut, has none. -/
theorem noTies_of_list (alpha : ℚ) (sem kw l : List (Int × ℚ)) (hs : (sem.map Prod.fst).Nodup) (hk : (kw.map Prod.fst).Nodup) (k : Nat)
    (hl : fuseRelative (exact ℚ) (fun m => m) (sem.map Prod.fst) (sem.map Prod.snd) (kw.map Prod.fst) (kw.map Prod.snd) alpha k = l)
    (hlen : l.length < k) (hn : (l.map Prod.snd).Nodup) : NoFusedTies (exact ℚ) alpha sem kw := by
  obtain ⟨all, ⟨rest, h1, _, _, h4⟩, _, h6⟩ := C29_relative (exact ℚ) exact_lawful (fun m => m) (fun l => .refl l) sem kw hs hk alpha k
  rw [hl] at h1 h4
  have h7 := h1.length_eq
  rw [List.length_append] at h7
  have h8 : rest = [] := List.length_eq_zero_iff.mp (by omega)
  subst h8
  rw [List.append_nil] at h1
  intro a b s ha hb
  have ha := h1.mem_iff.mpr ((h6 a s).mpr ha)
  have hb := h1.mem_iff.mpr ((h6 b s).mpr hb)
  have := List.inj_on_of_nodup_map hn ha hb rfl
  exact congrArg Prod.fst this

/-- The `NoFusedTies` of `C54_deterministic_partial`, with both rankings. -/
example : NoFusedTies (exact ℚ) (3/4) [(0, 9), (3, 8), (1, 7)] [(1, 3), (3, 2)] :=
  noTies_of_list (3/4) _ _ [(0, 3/4), (3, 3/8), (1, 1/4)] (by decide) (by decide) 10 (by decide +kernel) (by decide) (by decide +kernel)

/-- `--semantic-only`: a row that is missing gives the scores of one unit to another. -/
theorem C54_missing_row_shifts_scores :
    zipUp [(0, (9 : ℚ)), (1, 5)] [unitIn ['b'] 1 false] = [⟨unitIn ['b'] 1 false, 9⟩] := by decide +kernel

end NextPlaid.Props
