import Verif.Proofs.Search

/-! Search: centroid probing. -/

namespace NextPlaid.Search
open NextPlaid NextPlaid.Index NextPlaid.Spec

variable {E : Env} {α : Type} [LinearOrder α]

/-- The entries of a row of scores, numbered from `start`. -/
def entriesFrom (start : Nat) (scores : List (Score α)) : List (Entry α) :=
  scores.zipIdx.map fun p => ((start + p.2, p.1) : Entry α)

theorem entriesFrom_get (start : Nat) (scores : List (Score α)) (i : Nat) :
    (entriesFrom start scores)[i]? = scores[i]?.map fun s => (start + i, s) := by
  unfold entriesFrom
  rw [List.getElem?_map, List.getElem?_zipIdx]
  cases scores[i]? <;> simp

theorem entriesFrom_length (start : Nat) (scores : List (Score α)) :
    (entriesFrom start scores).length = scores.length := by simp [entriesFrom]

theorem mem_entriesFrom {start : Nat} {scores : List (Score α)} {e : Entry α} :
    e ∈ entriesFrom start scores ↔ ∃ i, e.1 = start + i ∧ scores[i]? = some e.2 := by
  rw [List.mem_iff_getElem?]
  constructor
  · rintro ⟨i, hi⟩
    rw [entriesFrom_get] at hi
    obtain ⟨s, hs, rfl⟩ := Option.map_eq_some_iff.1 hi
    exact ⟨i, rfl, hs⟩
  · rintro ⟨i, h1, h2⟩
    refine ⟨i, ?_⟩
    rw [entriesFrom_get, h2]
    cases e; simp at h1; simp [h1]

theorem entries_chunk (l : List (Score α)) (b i : Nat) :
    chunkSlice (entriesFrom 0 l) b i = entriesFrom (i * b) (chunkSlice l b i) := by
  apply List.ext_getElem?
  intro j
  unfold chunkSlice
  rw [entriesFrom_get]
  by_cases hj : j < b
  · rw [List.getElem?_take_of_lt hj, List.getElem?_take_of_lt hj, List.getElem?_drop, List.getElem?_drop,
      entriesFrom_get]
    simp
  · rw [List.getElem?_eq_none (by rw [List.length_take]; omega),
      List.getElem?_eq_none (by rw [List.length_take]; omega)]
    rfl

/-! ### One token, standard path -/

theorem probeToken_inv {o : Oracle α} (ho : o.Lawful) {row : List (Score α)} {pool : List Nat} {n : Nat} {sel}
    (h : probeToken o row pool n = .ok sel) :
    ∃ sc H, sc.map (·.1) = pool ∧ (∀ e ∈ sc, row[e.1]? = some e.2) ∧ TopN n sc H ∧ sel = H.map (·.1) := by
  unfold probeToken at h
  obtain ⟨sc, h1, h⟩ := bind_ok h
  have hsc : ∀ c (e : Entry α), (do let s ← idx row c; Except.ok ((c, s) : Entry α)) = .ok e →
      e.1 = c ∧ row[c]? = some e.2 := by
    intro c e he
    obtain ⟨s, hs, he⟩ := bind_ok he
    cases he
    refine ⟨rfl, ?_⟩
    unfold idx at hs
    split at hs
    · next heq => cases hs; exact heq
    · cases hs
  have hmap : sc.map (·.1) = pool := by
    have := mapM_map (fun (e : Entry α) => e.1) id (fun c e he => (hsc c e he).1) h1
    simpa using this
  have hrow : ∀ e ∈ sc, row[e.1]? = some e.2 := by
    intro e he
    obtain ⟨c, _, hc⟩ := mapM_mem h1 e he
    obtain ⟨g1, g2⟩ := hsc c e hc
    rw [g1]; exact g2
  unfold takeBest at h
  split at h
  · next hlt =>
    split at h
    · cases h
    · next h0 =>
      cases h
      have hn : min n sc.length = n := by omega
      rw [hn] at hlt h0
      refine ⟨sc, _, hmap, hrow, TopN.selectNth ho sc n (by omega) hlt, ?_⟩
      rw [hn]
  · next hge =>
    cases h
    refine ⟨sc, sc, hmap, hrow, ⟨[], by simp, by omega, by simp⟩, ?_⟩
    rw [List.take_of_length_le (by omega)]

theorem probeToken_ok (o : Oracle α) {row : List (Score α)} {pool : List Nat} {n : Nat} (hn : 0 < n)
    (hp : ∀ c ∈ pool, c < row.length) : ∃ sel, probeToken o row pool n = .ok sel := by
  unfold probeToken
  obtain ⟨sc, hsc⟩ := mapM_exists (f := fun c => (do let s ← idx row c; Except.ok ((c, s) : Entry α)))
    (l := pool) (by
      intro c hc
      refine ⟨(c, row[c]'(hp c hc)), ?_⟩
      unfold idx
      rw [List.getElem?_eq_getElem (hp c hc)]
      rfl)
  rw [hsc]
  simp only [bind, Except.bind]
  unfold takeBest
  split
  · rw [if_neg (by omega)]
    exact ⟨_, rfl⟩
  · exact ⟨_, rfl⟩

/-- With a full-range pool the scored pool is the numbered row. -/
theorem scored_range {row : List (Score α)} {sc : List (Entry α)} (h1 : sc.map (·.1) = List.range row.length)
    (h2 : ∀ e ∈ sc, row[e.1]? = some e.2) : sc = entriesFrom 0 row := by
  apply List.ext_getElem?
  intro i
  rw [entriesFrom_get]
  have hlen : sc.length = row.length := by simpa using congrArg List.length h1
  by_cases hi : i < row.length
  · have hi' : i < sc.length := by omega
    have h3 : (sc.map (·.1))[i]? = some i := by rw [h1, List.getElem?_range hi]
    rw [List.getElem?_map, List.getElem?_eq_getElem hi'] at h3
    have h4 : (sc[i]'hi').1 = i := by simpa using h3
    have h5 := h2 _ (List.getElem_mem hi')
    rw [h4] at h5
    rw [List.getElem?_eq_getElem hi', h5]
    simp only [Option.map_some, Option.some.injEq]
    apply Prod.ext
    · simp [h4]
    · rfl
  · rw [List.getElem?_eq_none (by omega), List.getElem?_eq_none (by omega)]; rfl

/-! ### Threshold, standard path -/

theorem columnMax_spec {rows : List (List (Score α))} {c : Nat} {m} (h : columnMax rows c = .ok m)
    (hne : rows ≠ []) : ∃ row ∈ rows, row[c]? = some m := by
  unfold columnMax at h
  obtain ⟨col, h1, h2⟩ := bind_ok h
  cases h2
  have hcne : col ≠ [] := by
    have := mapM_length h1
    intro h0; rw [h0] at this
    exact hne (List.eq_nil_iff_length_eq_zero.2 this.symm)
  obtain ⟨m, hm⟩ := maxBy_isSome Score.cmpForMax hcne
  obtain ⟨hmem, _⟩ := maxBy_spec Score.cmpForMax Score.ge Score.ge_refl (fun _ _ _ => Score.ge_trans)
    (fun _ _ => Score.cmp_gt_ge) (fun _ _ => Score.not_gt_ge) col m hm
  rw [hm]
  obtain ⟨row, hr, hi⟩ := mapM_mem h1 m hmem
  refine ⟨row, hr, ?_⟩
  unfold idx at hi
  split at hi
  · next heq => cases hi; exact heq
  · cases hi

theorem columnMax_ok {rows : List (List (Score α))} {c : Nat} (h : ∀ row ∈ rows, c < row.length) :
    ∃ m, columnMax rows c = .ok m := by
  unfold columnMax
  obtain ⟨col, hcol⟩ := mapM_exists (f := fun row => idx row c) (l := rows) (by
    intro row hr
    refine ⟨row[c]'(h row hr), ?_⟩
    unfold idx
    rw [List.getElem?_eq_getElem (h row hr)])
  rw [hcol]
  exact ⟨_, rfl⟩

theorem thresholdFilter_mem {rows : List (List (Score α))} {thr : Option (Score α)} {sel kept : List Nat}
    (h : thresholdFilter rows thr sel = .ok kept) (c : Nat) :
    c ∈ kept ↔ c ∈ sel ∧ ∀ t, thr = some t → ∃ m, columnMax rows c = .ok m ∧ floatGe m t = true := by
  unfold thresholdFilter at h
  cases thr with
  | none => cases h; simp
  | some t =>
    simp only [] at h
    obtain ⟨parts, h1, h2⟩ := bind_ok h
    cases h2
    rw [List.mem_flatten]
    constructor
    · rintro ⟨l, hl, hc⟩
      obtain ⟨a, ha, hf⟩ := mapM_mem h1 l hl
      obtain ⟨m, hm, hf⟩ := bind_ok hf
      cases hf
      split at hc
      · next hge =>
        simp only [List.mem_singleton] at hc
        subst hc
        refine ⟨ha, ?_⟩
        intro t' e; cases e
        exact ⟨m, hm, hge⟩
      · simp at hc
    · rintro ⟨hc, hm⟩
      obtain ⟨m, hm, hge⟩ := hm t rfl
      obtain ⟨b, hb, hf⟩ := mapM_mem' h1 c hc
      refine ⟨b, hb, ?_⟩
      rw [hm] at hf
      simp only [bind, Except.bind, Except.ok.injEq] at hf
      rw [← hf, if_pos hge]
      simp

/-! ### All tokens, standard path -/

theorem probeStandard_inv {o : Oracle α} (ho : o.Lawful) {rows : List (List (Score α))} {k : Nat}
    {eligible : Option (List Nat)} {n : Nat} {thr} {cells}
    (h : probeStandard o rows k eligible n thr = .ok cells) :
    ∃ (pool : List Nat) (per : List (List Nat)), pool.Perm (eligible.getD (List.range k)) ∧
      (eligible = none → pool = List.range k) ∧
      rows.mapM (fun row => probeToken o row pool n) = .ok per ∧
      ∀ c, c ∈ cells ↔ c ∈ per.flatten ∧
        ∀ t, thr = some t → ∃ m, columnMax rows c = .ok m ∧ floatGe m t = true := by
  unfold probeStandard at h
  generalize hpool : poolOf o k eligible = pool at h
  obtain ⟨per, h1, h⟩ := bind_ok h
  obtain ⟨kept, h2, h⟩ := bind_ok h
  cases h
  refine ⟨pool, per, ?_, ?_, h1, ?_⟩
  · rw [← hpool]
    cases eligible with
    | none => exact .refl _
    | some el => exact ho.setOrder_perm el
  · intro he; rw [← hpool, he]; rfl
  · intro c
    rw [(ho.setOrder_perm kept).mem_iff, thresholdFilter_mem h2, mem_foldl_setInsert]
    simp

theorem probeStandard_ok {o : Oracle α} (ho : o.Lawful) {rows : List (List (Score α))} {k : Nat}
    {eligible : Option (List Nat)} {n : Nat} {thr : Option (Score α)} (hn : 0 < n)
    (hrows : ∀ row ∈ rows, row.length = k) (hel : ∀ el, eligible = some el → ∀ c ∈ el, c < k) :
    ∃ cells, probeStandard o rows k eligible n thr = .ok cells := by
  unfold probeStandard
  generalize hpool : poolOf o k eligible = pool
  have hp : ∀ c ∈ pool, c < k := by
    intro c hc
    rw [← hpool] at hc
    cases eligible with
    | none => exact List.mem_range.1 hc
    | some el => exact hel el rfl c ((ho.setOrder_perm el).mem_iff.1 hc)
  obtain ⟨per, hper⟩ := mapM_exists (f := fun row => probeToken o row pool n) (l := rows) (by
    intro row hr
    exact probeToken_ok o hn (by rw [hrows row hr]; exact hp))
  rw [hper]
  simp only [bind, Except.bind]
  have hsel : ∀ c ∈ per.flatten.foldl setInsert [], c < k := by
    intro c hc
    rw [mem_foldl_setInsert] at hc
    simp only [List.not_mem_nil, false_or, List.mem_flatten] at hc
    obtain ⟨l, hl, hc⟩ := hc
    obtain ⟨row, hr, hf⟩ := mapM_mem hper l hl
    obtain ⟨sc, H, s1, s2, s3, rfl⟩ := probeToken_inv ho hf
    obtain ⟨e, he, rfl⟩ := List.mem_map.1 hc
    exact hp _ (s1 ▸ List.mem_map.2 ⟨e, s3.mem he, rfl⟩)
  have : ∃ kept, thresholdFilter rows thr (per.flatten.foldl setInsert []) = .ok kept := by
    unfold thresholdFilter
    cases thr with
    | none => exact ⟨_, rfl⟩
    | some t =>
      simp only []
      obtain ⟨parts, hparts⟩ := mapM_exists (f := fun c => (do
        let m ← columnMax rows c
        Except.ok (if floatGe m t then [c] else []))) (l := per.flatten.foldl setInsert []) (by
          intro c hc
          obtain ⟨m, hm⟩ := columnMax_ok (rows := rows) (c := c) (fun row hr => by
            rw [hrows row hr]; exact hsel c hc)
          rw [hm]
          exact ⟨_, rfl⟩)
      rw [hparts]
      exact ⟨_, rfl⟩
  obtain ⟨kept, hk⟩ := this
  rw [hk]
  exact ⟨_, rfl⟩

/-! ### Batched path -/

theorem probeSlice_heap (n start : Nat) (scores : List (Score α)) (ms : List (Entry α)) :
    (probeSlice n start scores ms).1 = (entriesFrom start scores).foldl (fun h e => (heapOffer n h e).1) [] := by
  unfold probeSlice
  have : ∀ (es : List (Entry α)) (st : List (Entry α) × List (Entry α)),
      (es.foldl (fun (st : List (Entry α) × List (Entry α)) e =>
        let r := heapOffer n st.1 e
        (r.1, if r.2 then scoreUpsert maxScore st.2 e.1 e.2 else st.2)) st).1 =
      es.foldl (fun h e => (heapOffer n h e).1) st.1 := by
    intro es
    induction es with
    | nil => intro st; rfl
    | cons e es ih => intro st; rw [List.foldl_cons, List.foldl_cons, ih]
  exact this _ _

theorem probeBatch_heaps (n start : Nat) : ∀ (rows : List (List (Score α))) (ms : List (Entry α)),
    (probeBatch n start rows ms).1 =
      rows.map fun row => (entriesFrom start row).foldl (fun h e => (heapOffer n h e).1) []
  | [], _ => rfl
  | row :: rows, ms => by
    unfold probeBatch
    simp only [List.map_cons]
    rw [probeSlice_heap, probeBatch_heaps n start rows]

theorem mem_scoreUpsert {f : Score α → Score α → Score α} (hf : ∀ a b, f a b = a ∨ f a b = b) (c : Nat)
    (s : Score α) : ∀ (m : List (Entry α)) (e : Entry α), e ∈ scoreUpsert f m c s → e ∈ m ∨ e = (c, s)
  | [], e, h => by simp [scoreUpsert] at h; exact Or.inr h
  | (c', s') :: m, e, h => by
    unfold scoreUpsert at h
    split at h
    · next hc =>
      rcases List.mem_cons.1 h with rfl | h
      · rcases hf s' s with h | h
        · rw [h]; exact Or.inl (by simp)
        · rw [h, hc]; exact Or.inr rfl
      · exact Or.inl (List.mem_cons_of_mem _ h)
    · rcases List.mem_cons.1 h with rfl | h
      · exact Or.inl (by simp)
      · rcases mem_scoreUpsert hf c s m e h with h | h
        · exact Or.inl (List.mem_cons_of_mem _ h)
        · exact Or.inr h

theorem maxScore_or (a b : Score α) : maxScore a b = a ∨ maxScore a b = b := by
  unfold maxScore; split <;> simp

theorem floatMax_or (a b : Score α) : floatMax a b = a ∨ floatMax a b = b := by
  unfold floatMax
  split
  · simp
  · split <;> simp

theorem probeSlice_scores (n start : Nat) (scores : List (Score α)) (ms : List (Entry α)) :
    ∀ e ∈ (probeSlice n start scores ms).2, e ∈ ms ∨ e ∈ entriesFrom start scores := by
  unfold probeSlice
  have : ∀ (es : List (Entry α)) (st : List (Entry α) × List (Entry α)),
      ∀ e ∈ (es.foldl (fun (st : List (Entry α) × List (Entry α)) e =>
        let r := heapOffer n st.1 e
        (r.1, if r.2 then scoreUpsert maxScore st.2 e.1 e.2 else st.2)) st).2, e ∈ st.2 ∨ e ∈ es := by
    intro es
    induction es with
    | nil => intro st e he; exact Or.inl he
    | cons a es ih =>
      intro st e he
      rw [List.foldl_cons] at he
      rcases ih _ e he with h | h
      · simp only [] at h
        split at h
        · rcases mem_scoreUpsert maxScore_or a.1 a.2 st.2 e h with h | h
          · exact Or.inl h
          · exact Or.inr (by rw [h]; simp)
        · exact Or.inl h
      · exact Or.inr (List.mem_cons_of_mem _ h)
  intro e he
  exact this _ ([], ms) e he

theorem probeBatch_scores (n start : Nat) : ∀ (rows : List (List (Score α))) (ms : List (Entry α)),
    ∀ e ∈ (probeBatch n start rows ms).2, e ∈ ms ∨ ∃ row ∈ rows, e ∈ entriesFrom start row
  | [], _, e, he => Or.inl he
  | row :: rows, ms, e, he => by
    unfold probeBatch at he
    rcases probeBatch_scores n start rows _ e he with h | ⟨r, hr, h⟩
    · rcases probeSlice_scores n start row ms e h with h | h
      · exact Or.inl h
      · exact Or.inr ⟨row, by simp, h⟩
    · exact Or.inr ⟨r, List.mem_cons_of_mem _ hr, h⟩

/-- The merge keeps, per token, a best-n selection of everything seen. -/
theorem mergeBatches_heaps {o : Oracle α} (ho : o.Lawful) (n T : Nat)
    (cols : Nat → List (Entry α) → Prop) (f : Nat → Nat → List (Entry α))
    (locals : Nat → List (List (Entry α)) × List (Entry α))
    (hlocals : ∀ i, (locals i).1.length = T ∧
      ∀ t, t < T → ∃ L, (locals i).1[t]? = some L ∧ TopN n (f i t) L) :
    ∀ (is : List Nat) (st : List (List (Entry α)) × List (Entry α)) (done : Nat → List (Entry α)),
      (st.1.length = T ∧ ∀ t, t < T → ∃ H, st.1[t]? = some H ∧ TopN n (done t) H) →
      let r := (is.map locals).foldl (fun st l =>
        (List.zipWith (mergeHeap o n) st.1 l.1, l.2.foldl (fun m e => scoreUpsert floatMax m e.1 e.2) st.2)) st
      r.1.length = T ∧ ∀ t, t < T → ∃ H, r.1[t]? = some H ∧
        TopN n (done t ++ (is.map fun i => f i t).flatten) H := by
  intro is
  induction is with
  | nil => intro st done h; simpa using h
  | cons i is ih =>
    intro st done h
    rw [List.map_cons, List.foldl_cons]
    have := ih (List.zipWith (mergeHeap o n) st.1 (locals i).1,
      (locals i).2.foldl (fun m e => scoreUpsert floatMax m e.1 e.2) st.2) (fun t => done t ++ f i t) (by
      refine ⟨by rw [List.length_zipWith, h.1, (hlocals i).1]; simp, ?_⟩
      intro t ht
      obtain ⟨H, hH, hT⟩ := h.2 t ht
      obtain ⟨L, hL, hTL⟩ := (hlocals i).2 t ht
      refine ⟨mergeHeap o n H L, ?_, ?_⟩
      · rw [List.getElem?_zipWith, hH, hL]
      · unfold mergeHeap
        have hTL' : TopN n (f i t) (o.heapOrder L) := by
          obtain ⟨R, r1, r2, r3⟩ := hTL
          have hp := ho.heapOrder_perm L
          exact ⟨R, (hp.append_right R).trans r1, by rw [hp.length_eq, r2],
            fun h hh r hr => r3 h (hp.mem_iff.1 hh) r hr⟩
        exact TopN.compose hT hTL' (TopN.offers _ hT.self))
    simp only [List.map_cons, List.flatten_cons, ← List.append_assoc]
    exact this

theorem mergeBatches_scores {P : Entry α → Prop} :
    ∀ (ls : List (List (List (Entry α)) × List (Entry α))) (o : Oracle α) (n : Nat)
      (st : List (List (Entry α)) × List (Entry α)),
      (∀ e ∈ st.2, P e) → (∀ l ∈ ls, ∀ e ∈ l.2, P e) →
      ∀ e ∈ (ls.foldl (fun st l =>
        (List.zipWith (mergeHeap o n) st.1 l.1,
          l.2.foldl (fun m e => scoreUpsert floatMax m e.1 e.2) st.2)) st).2, P e
  | [], _, _, _, h, _ => h
  | l :: ls, o, n, st, h, hls => by
    rw [List.foldl_cons]
    refine mergeBatches_scores ls o n _ ?_ (fun l' hl' => hls l' (List.mem_cons_of_mem _ hl'))
    have : ∀ (es m : List (Entry α)), (∀ e ∈ m, P e) → (∀ e ∈ es, P e) →
        ∀ e ∈ es.foldl (fun m e => scoreUpsert floatMax m e.1 e.2) m, P e := by
      intro es
      induction es with
      | nil => intro m hm _; exact hm
      | cons a es ih =>
        intro m hm hes
        rw [List.foldl_cons]
        refine ih _ ?_ (fun e he => hes e (List.mem_cons_of_mem _ he))
        intro e he
        rcases mem_scoreUpsert floatMax_or a.1 a.2 m e he with h | h
        · exact hm e h
        · rw [h]; exact hes a (by simp)
    exact this _ _ h (hls l (by simp))

theorem probeBatched_inv {o : Oracle α} (ho : o.Lawful) {N : Num E α} {cents : List E.Cent}
    {query : List N.Q} {n b : Nat} {thr : Option (Score α)} {cells}
    (h : probeBatched o N cents query n b thr = .ok cells) :
    ∃ Hs : List (List (Entry α)), Hs.length = query.length ∧
      (∀ (t : Nat) q, query[t]? = some q → ∃ H, Hs[t]? = some H ∧ TopN n (entriesFrom 0 (cents.map (N.dot q))) H) ∧
      (thr = none → ∀ c, c ∈ cells ↔ c ∈ Hs.flatten.map (·.1)) ∧
      (∀ t, thr = some t → ∀ c ∈ cells, c ∈ Hs.flatten.map (·.1) ∧
        (floatGe (MaxSim.negInf : Score α) t = true ∨ ∃ q ∈ query, ∃ cent, cents[c]? = some cent ∧
          floatGe (N.dot q cent) t = true)) := by
  unfold probeBatched at h
  split at h
  · cases h
  · next hb =>
    simp only [Except.ok.injEq] at h
    generalize hm : mergeBatches o n query.length ((List.range (numChunksFor cents.length b)).map fun i =>
      probeBatch n (i * b) (scoreRows N (chunkSlice cents b i) query) []) = merged at h
    have hheaps := mergeBatches_heaps ho n query.length (fun _ _ => True)
      (fun i t => match query[t]? with
        | some q => entriesFrom (i * b) ((chunkSlice cents b i).map (N.dot q))
        | none => [])
      (fun i => probeBatch n (i * b) (scoreRows N (chunkSlice cents b i) query) []) (by
        intro i
        rw [probeBatch_heaps]
        refine ⟨by simp [scoreRows], ?_⟩
        intro t ht
        rw [List.getElem?_map]
        unfold scoreRows
        rw [List.getElem?_map, List.getElem?_eq_getElem ht]
        refine ⟨_, rfl, ?_⟩
        simpa using TopN.offers (entriesFrom (i * b) ((chunkSlice cents b i).map (N.dot query[t])))
          (TopN.nil n))
      (List.range (numChunksFor cents.length b)) (List.replicate query.length [], []) (fun _ => []) (by
        refine ⟨by simp, ?_⟩
        intro t ht
        exact ⟨[], by simp [ht], TopN.nil n⟩)
    have hscores := mergeBatches_scores (P := fun e => ∃ q ∈ query, ∃ cent, cents[e.1]? = some cent ∧
        e.2 = N.dot q cent) ((List.range (numChunksFor cents.length b)).map fun i =>
      probeBatch n (i * b) (scoreRows N (chunkSlice cents b i) query) []) o n
      (List.replicate query.length [], []) (by simp) (by
        intro l hl e he
        obtain ⟨i, _, rfl⟩ := List.mem_map.1 hl
        rcases probeBatch_scores n (i * b) _ [] e he with h | ⟨row, hr, h⟩
        · cases h
        · unfold scoreRows at hr
          obtain ⟨q, hq, rfl⟩ := List.mem_map.1 hr
          obtain ⟨j, j1, j2⟩ := mem_entriesFrom.1 h
          rw [List.getElem?_map] at j2
          obtain ⟨cent, hc, hc2⟩ := Option.map_eq_some_iff.1 j2
          refine ⟨q, hq, cent, ?_, hc2.symm⟩
          unfold chunkSlice at hc
          have hjb : j < b := by
            rcases Nat.lt_or_ge j b with h | h
            · exact h
            · rw [List.getElem?_eq_none (by rw [List.length_take]; omega)] at hc; cases hc
          rw [List.getElem?_take_of_lt hjb, List.getElem?_drop] at hc
          rw [j1]; exact hc)
    unfold mergeBatches at hm
    rw [hm] at hheaps hscores
    have hflat : ∀ c, c ∈ ((merged.1.map o.heapOrder).flatten.map (·.1)).foldl setInsert [] ↔
        c ∈ merged.1.flatten.map (·.1) := by
      intro c
      rw [mem_foldl_setInsert]
      simp only [List.not_mem_nil, false_or, List.mem_map, List.mem_flatten]
      constructor
      · rintro ⟨e, ⟨l, ⟨l', hl', rfl⟩, he⟩, rfl⟩
        exact ⟨e, ⟨l', hl', (ho.heapOrder_perm l').mem_iff.1 he⟩, rfl⟩
      · rintro ⟨e, ⟨l', hl', he⟩, rfl⟩
        exact ⟨e, ⟨_, ⟨l', hl', rfl⟩, (ho.heapOrder_perm l').mem_iff.2 he⟩, rfl⟩
    refine ⟨merged.1, hheaps.1, ?_, ?_, ?_⟩
    · intro t q hq
      obtain ⟨ht, hq'⟩ := List.getElem?_eq_some_iff.1 hq
      obtain ⟨H, hH, hT⟩ := hheaps.2 t ht
      refine ⟨H, hH, ?_⟩
      simp only [hq, List.nil_append] at hT
      have e1 : ((List.range (numChunksFor cents.length b)).map fun i =>
          entriesFrom (i * b) ((chunkSlice cents b i).map (N.dot q))).flatten =
          entriesFrom 0 (cents.map (N.dot q)) := by
        have e2 : ∀ i, entriesFrom (i * b) ((chunkSlice cents b i).map (N.dot q)) =
            chunkSlice (entriesFrom 0 (cents.map (N.dot q))) b i := by
          intro i; rw [entries_chunk, chunkSlice_map]
        simp only [e2]
        have := chunk_flatten (entriesFrom 0 (cents.map (N.dot q))) b (by omega)
        rw [entriesFrom_length, List.length_map] at this
        exact this
      rw [e1] at hT
      exact hT
    · intro ht c
      rw [ht] at h
      rw [← h, (ho.setOrder_perm _).mem_iff, hflat]
    · intro t ht c hc
      rw [ht] at h
      rw [← h, (ho.setOrder_perm _).mem_iff, List.mem_filter, hflat] at hc
      refine ⟨hc.1, ?_⟩
      have hge := hc.2
      cases hfind : merged.2.find? (fun e => decide (e.1 = c)) with
      | none => rw [hfind] at hge; exact Or.inl hge
      | some e =>
        rw [hfind] at hge
        have hec : e.1 = c := by simpa using List.find?_some hfind
        obtain ⟨q, hq, cent, h1, h2⟩ := hscores e (List.mem_of_find?_eq_some hfind)
        refine Or.inr ⟨q, hq, cent, hec ▸ h1, ?_⟩
        rw [← h2]; exact hge

end NextPlaid.Search
