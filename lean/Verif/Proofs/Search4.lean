import Verif.Proofs.Search3

/-! Search: exhaustive probing, thresholds, equality of the two probing paths, batches of queries. -/

namespace NextPlaid.Search
open NextPlaid NextPlaid.Index NextPlaid.Spec

variable {E : Env} {α : Type} [LinearOrder α]

theorem mapM_get {β γ : Type} {f : β → Res γ} : ∀ {l : List β} {r : List γ}, l.mapM f = .ok r →
    ∀ (i : Nat) a b, l[i]? = some a → r[i]? = some b → f a = .ok b
  | [], r, h, i, a, b, ha, _ => by simp at ha
  | a0 :: l, r, h, i, a, b, ha, hb => by
    rw [mapM_cons_eq] at h
    obtain ⟨b0, h1, h⟩ := bind_ok h
    obtain ⟨r', h2, h⟩ := bind_ok h
    cases h
    cases i with
    | zero => simp at ha hb; subst ha; subst hb; exact h1
    | succ i => exact mapM_get h2 i a b (by simpa using ha) (by simpa using hb)

theorem TopN.all {n : Nat} {P H : List (Entry α)} (h : TopN n P H) (hn : P.length ≤ n) {e} (he : e ∈ P) :
    e ∈ H := by
  obtain ⟨R, h1, h2, _⟩ := h
  have hl := h1.length_eq
  rw [List.length_append] at hl
  have : R = [] := List.eq_nil_iff_length_eq_zero.2 (by omega)
  subst this
  rw [List.append_nil] at h1
  exact h1.mem_iff.2 he

theorem floatGe_fin {a : Score α} {t : α} : floatGe a (.fin t) = true ↔ AtLeast a t := by
  unfold floatGe AtLeast
  cases a with
  | fin a =>
    simp only [floatGt, Bool.or_eq_true, decide_eq_true_eq, Score.fin.injEq, reduceCtorEq, or_false]
    constructor
    · rintro (h | h)
      · exact ⟨a, rfl, le_of_lt h⟩
      · exact ⟨a, rfl, le_of_eq h.symm⟩
    · rintro ⟨b, rfl, h⟩
      rcases lt_or_eq_of_le h with h | h
      · exact Or.inl h
      · exact Or.inr h.symm
  | nonfin k => simp [floatGt]

theorem not_floatGe_negInf (t : α) : floatGe (MaxSim.negInf : Score α) (.fin t) = false := by
  rw [Bool.eq_false_iff, ne_eq, floatGe_fin]
  rintro (⟨a, h, _⟩ | h) <;> cases h

/-! ### C16: threshold -/

theorem cells_near {o : Oracle α} (ho : o.Lawful) {N : Num E α} {x : Loaded E} {query : List N.Q}
    {p : Params α} {t : α} (ht : p.threshold = some (.fin t)) {cells} {eligible : Option (List Nat)} {n : Nat}
    (hsel : (0 < p.centroidBatchSize ∧ p.centroidBatchSize < x.centroids.length ∧
          probeBatched o N x.centroids query p.nIvfProbe p.centroidBatchSize p.threshold = .ok cells) ∨
        probeStandard o (scoreRows N x.centroids query) x.centroids.length eligible n p.threshold = .ok cells)
    {c : Nat} (hc : c ∈ cells) :
    ∃ cent, x.centroids[c]? = some cent ∧ ∃ q ∈ query, AtLeast (N.dot q cent) t := by
  rcases hsel with ⟨_, _, h⟩ | h
  · obtain ⟨Hs, _, _, _, h4⟩ := probeBatched_inv ho h
    rcases (h4 _ ht c hc).2 with h | ⟨q, hq, cent, h1, h2⟩
    · rw [not_floatGe_negInf] at h; cases h
    · exact ⟨cent, h1, q, hq, floatGe_fin.1 h2⟩
  · obtain ⟨pool, per, _, _, hper, hmem⟩ := probeStandard_inv ho h
    obtain ⟨hin, hthr⟩ := (hmem c).1 hc
    obtain ⟨m, hm, hge⟩ := hthr _ ht
    have hne : scoreRows N x.centroids query ≠ [] := by
      intro h0
      rw [h0] at hper
      cases hper
      simp at hin
    obtain ⟨row, hr, hrc⟩ := columnMax_spec hm hne
    obtain ⟨q, hq, rfl⟩ := List.mem_map.1 hr
    rw [List.getElem?_map] at hrc
    obtain ⟨cent, h1, h2⟩ := Option.map_eq_some_iff.1 hrc
    exact ⟨cent, h1, q, hq, by rw [h2]; exact floatGe_fin.1 hge⟩

theorem searchOne_sel {o : Oracle α} {N : Num E α} {x : Loaded E} (hs : Sound x) {query : List N.Q}
    {p : Params α} {subset r} (h : searchOne o N x query p subset = .ok r) :
    ∃ cells cands eligible, eligibleOf x subset = .ok eligible ∧
      ((0 < p.centroidBatchSize ∧ p.centroidBatchSize < x.centroids.length ∧
          probeBatched o N x.centroids query p.nIvfProbe p.centroidBatchSize p.threshold = .ok cells) ∨
        probeStandard o (scoreRows N x.centroids query) x.centroids.length eligible
            (effectiveProbe x p.nIvfProbe subset eligible) p.threshold = .ok cells) ∧
      (∀ id, id ∈ cands ↔ (∃ c ∈ cells, TokenIn x id c) ∧ ∀ sub, subset = some sub → id ∈ sub) ∧
      cands.Nodup ∧
      ((cands = [] ∧ r = emptyResult) ∨
        ∃ approx, approx.map (·.1) = cands ∧ rank N x query p approx = .ok r) := by
  obtain ⟨cells, cands, hp, hg, hr⟩ := searchOne_inv h
  obtain ⟨el, hel, _⟩ := eligibleOf_ok hs subset
  obtain ⟨l, hl, _, hm⟩ := gather_ok hs cells subset
  rw [hg] at hl; cases hl
  refine ⟨cells, cands, el, hel, ?_, hm, pairwise_lt_nodup (gather_spec hg).1, hr⟩
  rcases hp with h | ⟨el', he, _, hp⟩
  · exact Or.inl h
  · rw [hel] at he; cases he
    exact Or.inr hp

theorem search_near {o : Oracle α} (ho : o.Lawful) {N : Num E α} {x : Loaded E} (hs : Sound x)
    {query : List N.Q} {p : Params α} {t : α} (ht : p.threshold = some (.fin t)) {subset r}
    (h : searchOne o N x query p subset = .ok r) : ∀ id ∈ r.passageIds, NearQuery N x query t id := by
  obtain ⟨cells, cands, el, _, hsel, hm, hnd, hr⟩ := searchOne_sel hs h
  intro id hid
  rcases hr with ⟨_, rfl⟩ | ⟨approx, ha, hr⟩
  · cases hid
  · obtain ⟨_, r2, _⟩ := rank_spec (by rw [ha]; exact hnd) hr
    have hc := r2 id hid
    rw [ha, hm] at hc
    obtain ⟨⟨c, hcc, htok⟩, _⟩ := hc
    obtain ⟨cent, h1, h2⟩ := cells_near ho ht hsel hcc
    exact ⟨c, cent, h1, htok, h2⟩

/-! ### Lookups in the map of best scores -/

def lookupScore (ms : List (Entry α)) (c : Nat) : Option (Score α) :=
  (ms.find? fun e => decide (e.1 = c)).map (·.2)

theorem lookup_upsert (f : Score α → Score α → Score α) (c : Nat) (s : Score α) (c' : Nat) :
    ∀ (m : List (Entry α)), lookupScore (scoreUpsert f m c s) c' =
      if c' = c then some (match lookupScore m c with | some s' => f s' s | none => s) else lookupScore m c'
  | [] => by
    by_cases h : c' = c
    · subst h; simp [lookupScore, scoreUpsert]
    · have : ¬ c = c' := fun h' => h h'.symm
      simp [lookupScore, scoreUpsert, h, this]
  | (a, b) :: m => by
    unfold scoreUpsert
    by_cases hac : a = c
    · subst hac
      rw [if_pos rfl]
      by_cases h : c' = a
      · subst h; simp [lookupScore]
      · have h2 : ¬ a = c' := fun h' => h h'.symm
        simp [lookupScore, h, h2]
    · rw [if_neg hac]
      by_cases hac' : a = c'
      · subst hac'
        simp [lookupScore, hac]
      · have ih := lookup_upsert f c s c' m
        unfold lookupScore at ih ⊢
        rw [List.find?_cons_of_neg (by simpa using hac'), ih, List.find?_cons_of_neg (by simpa using hac),
          List.find?_cons_of_neg (by simpa using hac')]

/-- Every entry of `es` is reflected in the map by a finite score that is at least as large. -/
def Reflects (ms es : List (Entry α)) : Prop :=
  (∀ c s, lookupScore ms c = some s → ∃ a, s = .fin a) ∧
  ∀ e ∈ es, ∀ b, e.2 = .fin b → ∃ a, lookupScore ms e.1 = some (.fin a) ∧ b ≤ a

/-- A maximum on finite scores. -/
def FinMax (f : Score α → Score α → Score α) : Prop := ∀ a b : α, f (.fin a) (.fin b) = .fin (max a b)

theorem maxScore_fin : FinMax (maxScore (α := α)) := by
  intro a b
  unfold maxScore
  by_cases h : better (.fin b : Score α) (.fin a) = true
  · rw [if_pos h]
    have := better_iff.1 h
    simp at this
    rw [max_eq_right (le_of_lt this)]
  · rw [if_neg h]
    have := not_better.1 (Bool.eq_false_iff.2 h)
    simp at this
    rw [max_eq_left this]

theorem floatMax_fin : FinMax (floatMax (α := α)) := by
  intro a b
  unfold floatMax
  simp only [isNaN, Bool.false_eq_true, if_false, floatGt]
  by_cases h : a < b
  · simp [h, max_eq_right (le_of_lt h)]
  · simp [h, max_eq_left (not_lt.1 h)]

theorem Reflects.upsert {ms es : List (Entry α)} (h : Reflects ms es) {f} (hf : FinMax f) (c : Nat) (b : α) :
    Reflects (scoreUpsert f ms c (.fin b)) (es ++ [(c, .fin b)]) := by
  constructor
  · intro c' s hs
    rw [lookup_upsert] at hs
    split at hs
    · cases hl : lookupScore ms c with
      | none => rw [hl] at hs; cases hs; exact ⟨b, rfl⟩
      | some s' =>
        rw [hl] at hs
        obtain ⟨a, rfl⟩ := h.1 c s' hl
        cases hs
        exact ⟨_, hf a b⟩
    · exact h.1 c' s hs
  · intro e he b' hb'
    rw [lookup_upsert]
    rcases List.mem_append.1 he with he | he
    · obtain ⟨a, ha, hle⟩ := h.2 e he b' hb'
      split
      · next hec =>
        rw [← hec, ha]
        exact ⟨_, congrArg some (hf a b), le_trans hle (le_max_left _ _)⟩
      · exact ⟨a, ha, hle⟩
    · simp only [List.mem_singleton] at he
      subst he
      cases hb'
      rw [if_pos rfl]
      cases hl : lookupScore ms c with
      | none => exact ⟨b, rfl, le_refl _⟩
      | some s' =>
        obtain ⟨a, rfl⟩ := h.1 c s' hl
        exact ⟨_, congrArg some (hf a b), le_max_right _ _⟩

theorem Reflects.nil : Reflects ([] : List (Entry α)) [] := ⟨by simp [lookupScore], by simp⟩

def AllFin (es : List (Entry α)) : Prop := ∀ e ∈ es, ∃ b, e.2 = .fin b

theorem Reflects.upserts {f : Score α → Score α → Score α} (hf : FinMax f) : ∀ (l : List (Entry α)) {ms es}, Reflects ms es → AllFin l →
    Reflects (l.foldl (fun m e => scoreUpsert f m e.1 e.2) ms) (es ++ l)
  | [], ms, es, h, _ => by simpa using h
  | e :: l, ms, es, h, hl => by
    rw [List.foldl_cons]
    obtain ⟨b, hb⟩ := hl e (by simp)
    have h1 := h.upsert hf e.1 b
    rw [← hb] at h1
    have := Reflects.upserts hf l h1 (fun e' he' => hl e' (List.mem_cons_of_mem _ he'))
    simpa using this

theorem Reflects.mono {ms es es' : List (Entry α)} (h : Reflects ms es) (hs : ∀ e ∈ es', e ∈ es) :
    Reflects ms es' := ⟨h.1, fun e he => h.2 e (hs e he)⟩

/-- While the heap has room every entry is pushed. -/
theorem probeSlice_room (n start : Nat) (scores : List (Score α)) (ms : List (Entry α)) (hn : scores.length ≤ n) :
    (probeSlice n start scores ms).2 =
      (entriesFrom start scores).foldl (fun m e => scoreUpsert maxScore m e.1 e.2) ms := by
  unfold probeSlice
  have : ∀ (es : List (Entry α)) (st : List (Entry α) × List (Entry α)), st.1.length + es.length ≤ n →
      (es.foldl (fun (st : List (Entry α) × List (Entry α)) e =>
        let r := heapOffer n st.1 e
        (r.1, if r.2 then scoreUpsert maxScore st.2 e.1 e.2 else st.2)) st).2 =
      es.foldl (fun m e => scoreUpsert maxScore m e.1 e.2) st.2 := by
    intro es
    induction es with
    | nil => intro st _; rfl
    | cons e es ih =>
      intro st hst
      rw [List.length_cons] at hst
      have ho : heapOffer n st.1 e = (e :: st.1, true) := by
        unfold heapOffer; rw [if_pos (by omega)]
      rw [List.foldl_cons, List.foldl_cons]
      simp only [ho, if_true]
      refine ih (e :: st.1, _) ?_
      simp only [List.length_cons]; omega
  exact this _ ([], ms) (by simp only [List.length_nil, List.length_map, List.length_zipIdx]; omega)

theorem probeBatch_reflects (n start : Nat) : ∀ (rows : List (List (Score α))) (ms es : List (Entry α)),
    (∀ row ∈ rows, row.length ≤ n) → (∀ row ∈ rows, AllFin (entriesFrom start row)) → Reflects ms es →
    Reflects (probeBatch n start rows ms).2 (es ++ (rows.map (entriesFrom start)).flatten)
  | [], ms, es, _, _, h => by simpa [probeBatch] using h
  | row :: rows, ms, es, hn, hf, h => by
    unfold probeBatch
    simp only [List.map_cons, List.flatten_cons]
    rw [← List.append_assoc]
    refine probeBatch_reflects n start rows _ _ (fun r hr => hn r (List.mem_cons_of_mem _ hr))
      (fun r hr => hf r (List.mem_cons_of_mem _ hr)) ?_
    rw [probeSlice_room n start row ms (hn row (by simp))]
    exact Reflects.upserts maxScore_fin _ h (hf row (by simp))

theorem lookup_mem {ms : List (Entry α)} {c s} (h : lookupScore ms c = some s) : (c, s) ∈ ms := by
  unfold lookupScore at h
  obtain ⟨e, he, rfl⟩ := Option.map_eq_some_iff.1 h
  have h1 : e.1 = c := by simpa using List.find?_some he
  have h2 := List.mem_of_find?_eq_some he
  cases e; simp at h1; subst h1; exact h2

/-- When every centroid is kept by the heaps, the map of best scores is exact enough for the threshold
test: on finite scores, a centroid scoring at least `t` against some query token passes. -/
theorem mergeBatches_reflects {o : Oracle α} (n : Nat) :
    ∀ (ls : List (List (List (Entry α)) × List (Entry α))) (st : List (List (Entry α)) × List (Entry α)) (es),
      (∀ l ∈ ls, AllFin l.2) → Reflects st.2 es →
      Reflects (ls.foldl (fun st l =>
        (List.zipWith (mergeHeap o n) st.1 l.1,
          l.2.foldl (fun m e => scoreUpsert floatMax m e.1 e.2) st.2)) st).2 (es ++ (ls.map (·.2)).flatten)
  | [], st, es, _, h => by simpa using h
  | l :: ls, st, es, hf, h => by
    rw [List.foldl_cons, List.map_cons, List.flatten_cons, ← List.append_assoc]
    exact mergeBatches_reflects n ls _ _ (fun l' hl' => hf l' (List.mem_cons_of_mem _ hl'))
      (Reflects.upserts floatMax_fin _ h (hf l (by simp)))

theorem probeBatched_keeps {o : Oracle α} (ho : o.Lawful) {N : Num E α} {cents : List E.Cent}
    {query : List N.Q} {n b : Nat} {t : α} {cells} (hn : cents.length ≤ n)
    (hfin : ∀ q ∈ query, ∀ cent ∈ cents, ∃ a, N.dot q cent = .fin a)
    (h : probeBatched o N cents query n b (some (.fin t)) = .ok cells)
    {c : Nat} {cent} (hc : cents[c]? = some cent) {q} (hq : q ∈ query) (hge : AtLeast (N.dot q cent) t) :
    c ∈ cells := by
  -- the same selection without a threshold
  have hb : b ≠ 0 := by
    intro h0; unfold probeBatched at h; rw [if_pos h0] at h; cases h
  have hcl : c < cents.length := (List.getElem?_eq_some_iff.1 hc).1
  obtain ⟨cells0, h0⟩ : ∃ cells0, probeBatched o N cents query n b none = .ok cells0 := by
    unfold probeBatched; rw [if_neg hb]; exact ⟨_, rfl⟩
  have hc0 : c ∈ cells0 := by
    obtain ⟨Hs, _, h2, h3, _⟩ := probeBatched_inv ho h0
    rw [h3 rfl]
    obtain ⟨i, hi⟩ := List.mem_iff_getElem?.1 hq
    obtain ⟨H, hH, hT⟩ := h2 i q hi
    have hmem : ((c, N.dot q cent) : Entry α) ∈ entriesFrom 0 (cents.map (N.dot q)) :=
      mem_entriesFrom.2 ⟨c, by simp, by simp [hc]⟩
    have := hT.all (by rw [entriesFrom_length, List.length_map]; exact hn) hmem
    exact List.mem_map.2 ⟨_, List.mem_flatten.2 ⟨H, List.mem_of_getElem? hH, this⟩, rfl⟩
  unfold probeBatched at h h0
  rw [if_neg hb] at h h0
  simp only [Except.ok.injEq] at h h0
  rw [← h0, (ho.setOrder_perm _).mem_iff] at hc0
  rw [← h, (ho.setOrder_perm _).mem_iff, List.mem_filter]
  refine ⟨hc0, ?_⟩
  clear h h0 hc0
  -- the local maps
  obtain ⟨a, ha⟩ := hfin q hq cent (List.mem_of_getElem? hc)
  have hta : t ≤ a := by
    rcases hge with ⟨a', h1, h2⟩ | h1
    · rw [ha] at h1; cases h1; exact h2
    · rw [ha] at h1; cases h1
  have hrows : ∀ i, ∀ row ∈ scoreRows N (chunkSlice cents b i) query, row.length ≤ n := by
    intro i row hr
    rw [scoreRows_length row hr]
    unfold chunkSlice
    rw [List.length_take, List.length_drop]
    omega
  have hrfin : ∀ i, ∀ row ∈ scoreRows N (chunkSlice cents b i) query, AllFin (entriesFrom (i * b) row) := by
    intro i row hr e he
    obtain ⟨q', hq', rfl⟩ := List.mem_map.1 hr
    obtain ⟨j, _, hj⟩ := mem_entriesFrom.1 he
    rw [List.getElem?_map] at hj
    obtain ⟨cent', hc', hd⟩ := Option.map_eq_some_iff.1 hj
    rw [← hd]
    refine hfin q' hq' cent' ?_
    have := List.mem_of_getElem? hc'
    unfold chunkSlice at this
    exact List.mem_of_mem_drop (List.mem_of_mem_take this)
  have hloc : ∀ i, Reflects (probeBatch n (i * b) (scoreRows N (chunkSlice cents b i) query) []).2
      ((scoreRows N (chunkSlice cents b i) query).map (entriesFrom (i * b))).flatten := by
    intro i
    simpa using probeBatch_reflects n (i * b) (scoreRows N (chunkSlice cents b i) query) [] [] (hrows i)
      (hrfin i) Reflects.nil
  have hlocfin : ∀ i, AllFin (probeBatch n (i * b) (scoreRows N (chunkSlice cents b i) query) []).2 := by
    intro i e he
    rcases probeBatch_scores n (i * b) _ [] e he with h | ⟨row, hr, h⟩
    · cases h
    · exact hrfin i row hr e h
  have hmerged := mergeBatches_reflects (o := o) n ((List.range (numChunksFor cents.length b)).map fun i =>
      probeBatch n (i * b) (scoreRows N (chunkSlice cents b i) query) []) (List.replicate query.length [], []) []
      (by intro l hl; obtain ⟨i, _, rfl⟩ := List.mem_map.1 hl; exact hlocfin i) Reflects.nil
  -- the slice that contains c
  have hslice : ∃ i ∈ List.range (numChunksFor cents.length b), ((c, N.dot q cent) : Entry α) ∈
      entriesFrom (i * b) ((chunkSlice cents b i).map (N.dot q)) := by
    have hmem : ((c, N.dot q cent) : Entry α) ∈ entriesFrom 0 (cents.map (N.dot q)) :=
      mem_entriesFrom.2 ⟨c, by simp, by simp [hc]⟩
    have hfl := chunk_flatten (entriesFrom 0 (cents.map (N.dot q))) b (by omega)
    rw [entriesFrom_length, List.length_map] at hfl
    rw [← hfl, List.mem_flatten] at hmem
    obtain ⟨l, hl, hm⟩ := hmem
    obtain ⟨i, hi, rfl⟩ := List.mem_map.1 hl
    refine ⟨i, hi, ?_⟩
    rw [entries_chunk, chunkSlice_map] at hm
    exact hm
  obtain ⟨i, hi, hmi⟩ := hslice
  obtain ⟨a1, ha1, hle1⟩ := (hloc i).2 (c, N.dot q cent)
    (List.mem_flatten.2 ⟨_, List.mem_map.2 ⟨_, List.mem_map.2 ⟨q, hq, rfl⟩, rfl⟩, hmi⟩) a ha
  obtain ⟨a2, ha2, hle2⟩ := hmerged.2 (c, .fin a1) (by
    rw [List.nil_append]
    exact List.mem_flatten.2 ⟨_, List.mem_map.2 ⟨_, List.mem_map.2 ⟨i, hi, rfl⟩, rfl⟩, lookup_mem ha1⟩) a1 rfl
  unfold lookupScore at ha2
  unfold mergeBatches
  rw [ha2]
  exact floatGe_fin.2 (Or.inl ⟨a2, rfl, le_trans hta (le_trans hle1 hle2)⟩)

theorem probeStandard_keeps {o : Oracle α} (ho : o.Lawful) {N : Num E α} {cents : List E.Cent}
    {query : List N.Q} {el : Option (List Nat)} {n : Nat} {thr : Option (Score α)} {cells}
    (hn : (el.getD (List.range cents.length)).length ≤ n)
    (hfin : ∀ t, thr = some t → ∀ q ∈ query, ∀ cent ∈ cents, ∃ a, N.dot q cent = .fin a)
    (h : probeStandard o (scoreRows N cents query) cents.length el n thr = .ok cells)
    {c : Nat} (hcel : c ∈ el.getD (List.range cents.length)) {cent} (hc : cents[c]? = some cent) {q}
    (hq : q ∈ query) (hge : ∀ t, thr = some t → ∃ t', t = .fin t' ∧ AtLeast (N.dot q cent) t') : c ∈ cells := by
  obtain ⟨pool, per, hperm, _, hper, hmem⟩ := probeStandard_inv ho h
  rw [hmem]
  have hrow : cents.map (N.dot q) ∈ scoreRows N cents query := List.mem_map.2 ⟨q, hq, rfl⟩
  have hcp : c ∈ pool := hperm.mem_iff.2 hcel
  have hsel : c ∈ per.flatten := by
    obtain ⟨sel, hsel, hp⟩ := mapM_mem' hper _ hrow
    obtain ⟨sc, H, s1, _, s3, rfl⟩ := probeToken_inv ho hp
    rw [← s1] at hcp
    obtain ⟨e, he, rfl⟩ := List.mem_map.1 hcp
    have hl : sc.length ≤ n := by
      have := congrArg List.length s1
      rw [List.length_map] at this
      rw [this, hperm.length_eq]; exact hn
    exact List.mem_flatten.2 ⟨_, hsel, List.mem_map.2 ⟨e, s3.all hl he, rfl⟩⟩
  refine ⟨hsel, ?_⟩
  intro t ht
  obtain ⟨t', rfl, hat⟩ := hge t ht
  have hcl : c < cents.length := (List.getElem?_eq_some_iff.1 hc).1
  obtain ⟨m, hm⟩ := columnMax_ok (rows := scoreRows N cents query) (c := c) (fun row hr => by
    rw [scoreRows_length row hr]; exact hcl)
  refine ⟨m, hm, ?_⟩
  have hm0 := hm
  unfold columnMax at hm0
  obtain ⟨col, h1, h2⟩ := bind_ok hm0
  cases h2
  obtain ⟨s, hs, hi⟩ := mapM_mem' h1 _ hrow
  have hs' : s = N.dot q cent := by
    unfold idx at hi
    rw [List.getElem?_map, hc] at hi
    simp only [Option.map_some, Except.ok.injEq] at hi
    exact hi.symm
  subst hs'
  obtain ⟨m, hmax⟩ := maxBy_isSome Score.cmpForMax (List.ne_nil_of_mem hs)
  obtain ⟨hmm, hbest⟩ := maxBy_spec Score.cmpForMax Score.ge Score.ge_refl (fun _ _ _ => Score.ge_trans)
    (fun _ _ => Score.cmp_gt_ge) (fun _ _ => Score.not_gt_ge) col m hmax
  rw [hmax]
  simp only [Option.getD_some]
  obtain ⟨row, hr, hi'⟩ := mapM_mem h1 m hmm
  obtain ⟨q', hq', rfl⟩ := List.mem_map.1 hr
  unfold idx at hi'
  rw [List.getElem?_map, hc] at hi'
  simp only [Option.map_some, Except.ok.injEq] at hi'
  obtain ⟨b, hb⟩ := hfin _ ht q' hq' cent (List.mem_of_getElem? hc)
  obtain ⟨a, ha⟩ := hfin _ ht q hq cent (List.mem_of_getElem? hc)
  rw [hb] at hi'
  subst hi'
  have hge' := hbest _ hs
  rw [ha] at hge'
  simp at hge'
  rw [ha] at hat
  rw [floatGe_fin]
  rcases hat with ⟨a', e, hle⟩ | e
  · cases e
    exact Or.inl ⟨b, rfl, le_trans hle hge'⟩
  · cases e

/-! ### Exhaustive search -/

theorem rank_best {N : Num E α} {x : Loaded E} {query : List N.Q} {p : Params α} {P : Int → Prop}
    {cands : List Int} {r} (hnd : cands.Nodup) (hP : ∀ id, id ∈ cands ↔ P id)
    (hfull : AtMost P p.nFullScores) (hfull' : AtMost P (max (p.nFullScores / 4) p.topK))
    (hscore : ∀ id, P id → ∃ s, ScoreOf N x query id s)
    (hr : (cands = [] ∧ r = emptyResult) ∨
        ∃ approx, approx.map (·.1) = cands ∧ rank N x query p approx = .ok r) :
    BestK N x query p.topK P r := by
  rcases hr with ⟨h0, rfl⟩ | ⟨approx, ha, hr⟩
  · have hno : ∀ id, ¬ P id := fun id h => by have := (hP id).2 h; rw [h0] at this; cases this
    exact ⟨wellFormed_of (ps := []) (by simp) (by simp) (by simp) (by simp) 0, by simp [emptyResult],
      fun _ id h => absurd h (hno id), fun id _ h => absurd h (hno id)⟩
  · have hl : approx.length = cands.length := by rw [← ha, List.length_map]
    obtain ⟨_, _, r3⟩ := rank_spec (by rw [ha]; exact hnd) hr
    have hb := r3 (by rw [hl]; exact hfull cands hnd fun id hid => (hP id).1 hid)
      (by rw [hl]; exact hfull' cands hnd fun id hid => (hP id).1 hid)
    have hiff : ∀ id, (id ∈ approx.map (·.1) ∧ ∃ s, ScoreOf N x query id s) ↔ P id := by
      intro id
      rw [ha, hP]
      exact ⟨fun h => h.1, fun h => ⟨h, hscore id h⟩⟩
    exact ⟨hb.wellFormed, fun id hid => (hiff id).1 (hb.only id hid), fun hk id hid => hb.full hk id ((hiff id).2 hid),
      fun id s h1 h2 h3 => hb.best id s ((hiff id).2 h1) h2 h3⟩

theorem effectiveProbe_all {x : Loaded E} (hs : Sound x) {n : Nat} (hn : x.centroids.length ≤ n)
    {subset : Option (List Int)} {el} (hel : eligibleOf x subset = .ok el) :
    (el.getD (List.range x.centroids.length)).length ≤ effectiveProbe x n subset el := by
  obtain ⟨el', h1, h2, h3, h4⟩ := eligibleOf_ok hs subset
  rw [hel] at h1; cases h1
  cases subset with
  | none =>
    have := h3.2 rfl
    subst this
    simpa [effectiveProbe] using hn
  | some sub =>
    obtain ⟨l, rfl, hnd, _⟩ := h4 sub rfl
    have := nodup_le hnd (h2 l rfl)
    simp only [Option.getD_some, effectiveProbe]
    split
    · omega
    · next h => simp at h; simp [h]

/-- The documents reached by an exhaustive search, with or without a threshold. -/
theorem search_exhaustive {o : Oracle α} (ho : o.Lawful) {N : Num E α} {x : Loaded E} (hs : Sound x)
    {query : List N.Q} {p : Params α} {subset r} (hn : x.centroids.length ≤ p.nIvfProbe)
    {P : Int → Prop}
    (hP : ∀ id, P id ↔ (∃ c cent, x.centroids[c]? = some cent ∧ TokenIn x id c ∧ ∃ q ∈ query,
      ∀ t, p.threshold = some t → ∃ t', t = .fin t' ∧ AtLeast (N.dot q cent) t') ∧
      ∀ sub, subset = some sub → id ∈ sub)
    (hthr : ∀ t, p.threshold = some t → ∃ t', t = .fin t')
    (hfin : ∀ t, p.threshold = some t → ∀ q ∈ query, ∀ cent ∈ x.centroids, ∃ a, N.dot q cent = .fin a)
    (hfull : AtMost P p.nFullScores) (hfull' : AtMost P (max (p.nFullScores / 4) p.topK))
    (hdec : ∀ i toks, x.docTokens i = .ok toks → ∃ v, N.decode x.centroids x.quant toks = .ok v)
    (h : searchOne o N x query p subset = .ok r) : BestK N x query p.topK P r := by
  obtain ⟨cells, cands, el, hel, hsel, hm, hnd, hr⟩ := searchOne_sel hs h
  refine rank_best hnd ?_ hfull hfull' ?_ hr
  · intro id
    rw [hm, hP]
    refine and_congr_left fun hsub => ?_
    constructor
    · rintro ⟨c, hc, htok⟩
      have hcl : c < x.centroids.length := by
        obtain ⟨_, toks, ht, t, htm, rfl⟩ := htok
        obtain ⟨toks', ht', hlt⟩ := hs.tokens _ (docTokens_lt ht)
        rw [ht] at ht'; cases ht'
        exact hlt t htm
      cases hthr' : p.threshold with
      | some t =>
        obtain ⟨t', rfl⟩ := hthr t hthr'
        obtain ⟨cent, h1, q, hq, h2⟩ := cells_near ho hthr' hsel hc
        exact ⟨c, cent, h1, htok, q, hq, fun t e => by cases e; exact ⟨t', rfl, h2⟩⟩
      | none =>
        have : ∃ q, q ∈ query := by
          rcases hsel with ⟨_, _, h⟩ | h
          · obtain ⟨Hs, h1, _, h3, _⟩ := probeBatched_inv ho h
            rw [h3 hthr'] at hc
            cases query with
            | nil =>
              have : Hs = [] := List.eq_nil_iff_length_eq_zero.2 (by simpa using h1)
              subst this; simp at hc
            | cons q _ => exact ⟨q, by simp⟩
          · obtain ⟨pool, per, _, _, hper, hmem⟩ := probeStandard_inv ho h
            have := ((hmem c).1 hc).1
            cases query with
            | nil => cases hper; simp at this
            | cons q _ => exact ⟨q, by simp⟩
        obtain ⟨q, hq⟩ := this
        exact ⟨c, _, List.getElem?_eq_getElem hcl, htok, q, hq, by simp⟩
    · rintro ⟨c, cent, hc, htok, q, hq, hge⟩
      refine ⟨c, ?_, htok⟩
      rcases hsel with ⟨_, _, h⟩ | h
      · cases hthr' : p.threshold with
        | none =>
          rw [hthr'] at h
          obtain ⟨Hs, _, h2, h3, _⟩ := probeBatched_inv ho h
          rw [h3 rfl]
          obtain ⟨i, hi⟩ := List.mem_iff_getElem?.1 hq
          obtain ⟨H, hH, hT⟩ := h2 i q hi
          have hmem : ((c, N.dot q cent) : Entry α) ∈ entriesFrom 0 (x.centroids.map (N.dot q)) :=
            mem_entriesFrom.2 ⟨c, by simp, by simp [hc]⟩
          have := hT.all (by rw [entriesFrom_length, List.length_map]; exact hn) hmem
          exact List.mem_map.2 ⟨_, List.mem_flatten.2 ⟨H, List.mem_of_getElem? hH, this⟩, rfl⟩
        | some t =>
          obtain ⟨t', rfl, hat⟩ := hge t hthr'
          have hf := hfin _ hthr'
          rw [hthr'] at h
          exact probeBatched_keeps ho hn hf h hc hq hat
      · refine probeStandard_keeps ho (effectiveProbe_all hs hn hel) hfin h ?_ hc hq hge
        obtain ⟨el', h1, _, h3, h4⟩ := eligibleOf_ok hs subset
        rw [hel] at h1; cases h1
        cases subset with
        | none =>
          have := h3.2 rfl
          subst this
          exact List.mem_range.2 (List.getElem?_eq_some_iff.1 hc).1
        | some sub =>
          obtain ⟨l, rfl, _, hl⟩ := h4 sub rfl
          exact (hl c).2 ⟨id, hsub sub rfl, htok⟩
  · intro id hid
    obtain ⟨⟨c, cent, _, ⟨h0, toks, ht, _⟩, _⟩, _⟩ := (hP id).1 hid
    obtain ⟨v, hv⟩ := hdec _ _ ht
    have := docTokens_lt ht
    exact ⟨_, h0, by omega, toks, v, ht, hv, rfl⟩

/-! ### C17: the two probing paths -/

theorem probe_same {o o' : Oracle α} (ho : o.Lawful) (ho' : o'.Lawful) {N : Num E α} {cents : List E.Cent}
    {query : List N.Q} {n b : Nat} {cells cells'} (hties : ∀ q ∈ query, NoTies N cents q)
    (h : probeBatched o N cents query n b none = .ok cells)
    (h' : probeStandard o' (scoreRows N cents query) cents.length none n none = .ok cells') (c : Nat) :
    c ∈ cells ↔ c ∈ cells' := by
  obtain ⟨Hs, hl, h2, h3, _⟩ := probeBatched_inv ho h
  obtain ⟨pool, per, _, hpool, hper, hmem⟩ := probeStandard_inv ho' h'
  have hpool := hpool rfl
  subst hpool
  rw [h3 rfl, hmem]
  simp only [reduceCtorEq, false_implies, implies_true, and_true]
  have hnt : ∀ q ∈ query, ∀ a ∈ entriesFrom 0 (cents.map (N.dot q)), ∀ b ∈ entriesFrom 0 (cents.map (N.dot q)),
      a ≠ b → ¬ (Score.ge a.2 b.2 ∧ Score.ge b.2 a.2) := by
    intro q hq a ha b hb hab
    obtain ⟨i, hi, hai⟩ := mem_entriesFrom.1 ha
    obtain ⟨j, hj, hbj⟩ := mem_entriesFrom.1 hb
    rw [List.getElem?_map] at hai hbj
    obtain ⟨ci, hci, hda⟩ := Option.map_eq_some_iff.1 hai
    obtain ⟨cj, hcj, hdb⟩ := Option.map_eq_some_iff.1 hbj
    have hij : i ≠ j := by
      intro e; subst e
      rw [hci] at hcj; cases hcj
      exact hab (Prod.ext (by rw [hi, hj]) (by rw [← hda, ← hdb]))
    rw [← hda, ← hdb]
    rintro ⟨g1, g2⟩
    rcases hties q hq i j ci cj hci hcj hij with h | h
    · exact (Score.gt_iff.1 h) g2
    · exact (Score.gt_iff.1 h) g1
  -- per token
  have htok : ∀ (i : Nat) q, query[i]? = some q → ∃ H sel, Hs[i]? = some H ∧ per[i]? = some sel ∧
      ∀ c, c ∈ H.map (·.1) ↔ c ∈ sel := by
    intro i q hq
    obtain ⟨H, hH, hT⟩ := h2 i q hq
    obtain ⟨hi, _⟩ := List.getElem?_eq_some_iff.1 hq
    have hpl := mapM_length hper
    unfold scoreRows at hpl
    rw [List.length_map] at hpl
    have hp : probeToken o' (cents.map (N.dot q)) (List.range cents.length) n =
        .ok (per[i]'(by omega)) := mapM_get hper i _ _ (by simp [scoreRows, hq]) (List.getElem?_eq_getElem _)
    obtain ⟨sc, H', s1, s2, s3, s4⟩ := probeToken_inv ho' hp
    have hsc : sc = entriesFrom 0 (cents.map (N.dot q)) := scored_range (by rw [s1, List.length_map]) s2
    subst hsc
    refine ⟨H, _, hH, List.getElem?_eq_getElem (by omega), ?_⟩
    intro c
    rw [s4]
    have hq' := List.mem_of_getElem? hq
    constructor
    · intro hc
      obtain ⟨e, he, rfl⟩ := List.mem_map.1 hc
      exact List.mem_map.2 ⟨e, hT.unique s3 (hnt q hq') he, rfl⟩
    · intro hc
      obtain ⟨e, he, rfl⟩ := List.mem_map.1 hc
      exact List.mem_map.2 ⟨e, s3.unique hT (hnt q hq') he, rfl⟩
  have hpl := mapM_length hper
  unfold scoreRows at hpl
  rw [List.length_map] at hpl
  constructor
  · intro hc
    obtain ⟨e, he, rfl⟩ := List.mem_map.1 hc
    obtain ⟨H, hH, heH⟩ := List.mem_flatten.1 he
    obtain ⟨i, hi⟩ := List.mem_iff_getElem?.1 hH
    have hil := (List.getElem?_eq_some_iff.1 hi).1
    obtain ⟨H', sel, g1, g2, g3⟩ := htok i _ (List.getElem?_eq_getElem (by omega))
    rw [hi] at g1; cases g1
    exact List.mem_flatten.2 ⟨sel, List.mem_of_getElem? g2, (g3 _).1 (List.mem_map.2 ⟨e, heH, rfl⟩)⟩
  · intro hc
    obtain ⟨sel, hsel, hcs⟩ := List.mem_flatten.1 hc
    obtain ⟨i, hi⟩ := List.mem_iff_getElem?.1 hsel
    have hil := (List.getElem?_eq_some_iff.1 hi).1
    obtain ⟨H, sel', g1, g2, g3⟩ := htok i _ (List.getElem?_eq_getElem (by omega))
    rw [hi] at g2; cases g2
    obtain ⟨e, he, rfl⟩ := List.mem_map.1 ((g3 _).2 hcs)
    exact List.mem_map.2 ⟨e, List.mem_flatten.2 ⟨H, List.mem_of_getElem? g1, he⟩, rfl⟩

theorem candidates_congr {x : Loaded E} (hs : Sound x) {cells cells' : List Nat}
    (h : ∀ c, c ∈ cells ↔ c ∈ cells') : x.candidates cells = x.candidates cells' := by
  obtain ⟨l, h1, h2, h3⟩ := hs.cands cells
  obtain ⟨l', h1', h2', h3'⟩ := hs.cands cells'
  rw [h1, h1']
  congr 1
  apply strict_ext l l' h2 h2'
  intro p
  rw [h3, h3']
  constructor
  · rintro ⟨i, e, toks, ht, t, htm, hc⟩
    exact ⟨i, e, toks, ht, t, htm, (h _).1 hc⟩
  · rintro ⟨i, e, toks, ht, t, htm, hc⟩
    exact ⟨i, e, toks, ht, t, htm, (h _).2 hc⟩

theorem search_same {o o' : Oracle α} (ho : o.Lawful) (ho' : o'.Lawful) {N : Num E α} {x : Loaded E}
    (hs : Sound x) {query : List N.Q} {p p' : Params α} (hn : 0 < p.nIvfProbe) (ht : p.threshold = none)
    (hties : ∀ q ∈ query, NoTies N x.centroids q) (hb : 0 < p.centroidBatchSize)
    (hb' : p.centroidBatchSize < x.centroids.length) (hp' : p' = { p with centroidBatchSize := 0 }) :
    searchOne o N x query p none = searchOne o' N x query p' none := by
  subst hp'
  unfold searchOne
  rw [if_pos ⟨hb, hb'⟩, if_neg (by simp)]
  unfold searchBatched searchStandard
  simp only []
  rw [ht]
  obtain ⟨cells, hc⟩ : ∃ cells, probeBatched o N x.centroids query p.nIvfProbe p.centroidBatchSize none =
      .ok cells := by
    unfold probeBatched; rw [if_neg (by omega)]; exact ⟨_, rfl⟩
  obtain ⟨cells', hc'⟩ := probeStandard_ok ho' (rows := scoreRows N x.centroids query)
      (k := x.centroids.length) (eligible := none) (thr := none) hn scoreRows_length (by simp)
  rw [hc]
  have e1 : eligibleOf x none = .ok none := rfl
  have e2 : effectiveProbe x p.nIvfProbe none none = p.nIvfProbe := rfl
  rw [e1]
  simp only [bind, Except.bind]
  rw [e2, hc']
  simp only []
  have hg : gather x cells none = gather x cells' none := by
    unfold gather
    rw [candidates_congr hs (fun c => probe_same ho ho' hties hc hc' c)]
  rw [hg]
  obtain ⟨l, hl, hlt, _⟩ := gather_ok hs cells' none
  rw [hl]
  simp only []
  rw [approxBatched_eq hs query hlt, approxStandard_eq hs query hlt]
  rfl

/-- Without ties the standard path does not depend on the open choices either. -/
theorem searchStandard_same {o o' : Oracle α} (ho : o.Lawful) (ho' : o'.Lawful) {N : Num E α} {x : Loaded E}
    (hs : Sound x) {query : List N.Q} {p p' : Params α} (hn : 0 < p.nIvfProbe) (ht : p.threshold = none)
    (hties : ∀ q ∈ query, NoTies N x.centroids q) (hp' : p' = { p with centroidBatchSize := 0 }) :
    searchStandard o N x query p none = searchStandard o' N x query p' none := by
  subst hp'
  unfold searchStandard
  simp only []
  rw [ht]
  obtain ⟨cells0, hc0⟩ : ∃ cells, probeBatched o N x.centroids query p.nIvfProbe 1 none = .ok cells := by
    unfold probeBatched; rw [if_neg (by omega)]; exact ⟨_, rfl⟩
  obtain ⟨cells, hc⟩ := probeStandard_ok ho (rows := scoreRows N x.centroids query)
      (k := x.centroids.length) (eligible := none) (thr := none) hn scoreRows_length (by simp)
  obtain ⟨cells', hc'⟩ := probeStandard_ok ho' (rows := scoreRows N x.centroids query)
      (k := x.centroids.length) (eligible := none) (thr := none) hn scoreRows_length (by simp)
  have e1 : eligibleOf x none = .ok none := rfl
  have e2 : effectiveProbe x p.nIvfProbe none none = p.nIvfProbe := rfl
  rw [e1]
  simp only [bind, Except.bind]
  rw [e2, hc, hc']
  simp only []
  have hg : gather x cells none = gather x cells' none := by
    unfold gather
    rw [candidates_congr hs (fun c => (probe_same ho ho hties hc0 hc c).symm.trans
      (probe_same ho ho' hties hc0 hc' c))]
  rw [hg]
  rfl

end NextPlaid.Search
