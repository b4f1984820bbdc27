import Verif.Proofs.IndexLists

/-! Invariant of the on-disk index and its preservation by every operation. -/

namespace NextPlaid.Index

variable {E : Env}

/-- All files other than chunk files agree. -/
structure Frame (d d' : Disk E) : Prop where
  metadata : d'.metadata = d.metadata
  centroids : d'.centroids = d.centroids
  quant : d'.quant = d.quant
  threshold : d'.threshold = d.threshold
  ivf : d'.ivf = d.ivf
  ivfLengths : d'.ivfLengths = d.ivfLengths
  buffer : d'.buffer = d.buffer
  bufferLens : d'.bufferLens = d.bufferLens
  bufferInfo : d'.bufferInfo = d.bufferInfo
  embNpy : d'.embNpy = d.embNpy
  embLens : d'.embLens = d.embLens

theorem Frame.refl (d : Disk E) : Frame d d := by constructor <;> rfl

theorem Frame.trans {d d' d'' : Disk E} (h : Frame d d') (h' : Frame d' d'') : Frame d d'' := by
  constructor
  · exact h'.metadata.trans h.metadata
  · exact h'.centroids.trans h.centroids
  · exact h'.quant.trans h.quant
  · exact h'.threshold.trans h.threshold
  · exact h'.ivf.trans h.ivf
  · exact h'.ivfLengths.trans h.ivfLengths
  · exact h'.buffer.trans h.buffer
  · exact h'.bufferLens.trans h.bufferLens
  · exact h'.bufferInfo.trans h.bufferInfo
  · exact h'.embNpy.trans h.embNpy
  · exact h'.embLens.trans h.embLens

/-- The files of chunk `j` agree. -/
def SameChunk (d d' : Disk E) (j : Nat) : Prop :=
  d'.doclens j = d.doclens j ∧ d'.codes j = d.codes j ∧ d'.residuals j = d.residuals j ∧
  d'.chunkMeta j = d.chunkMeta j

theorem SameChunk.refl (d : Disk E) (j : Nat) : SameChunk d d j := ⟨rfl, rfl, rfl, rfl⟩

theorem SameChunk.trans {d d' d'' : Disk E} {j : Nat} (h : SameChunk d d' j) (h' : SameChunk d' d'' j) :
    SameChunk d d'' j :=
  ⟨h'.1.trans h.1, h'.2.1.trans h.2.1, h'.2.2.1.trans h.2.2.1, h'.2.2.2.trans h.2.2.2⟩

/-- The files of chunk `j` hold the documents `c`. -/
def HasChunk (d : Disk E) (j : Nat) (c : List (List (Nat × E.Pk))) : Prop :=
  d.doclens j = some (c.map List.length) ∧ d.codes j = some (c.flatten.map (·.1)) ∧
  d.residuals j = some (c.flatten.map (·.2)) ∧
  ∃ off, d.chunkMeta j = some ⟨c.length, c.flatten.length, off⟩

theorem HasChunk.mono {d d' : Disk E} {j : Nat} {c} (h : HasChunk d j c) (s : SameChunk d d' j) :
    HasChunk d' j c := by
  obtain ⟨h1, h2, h3, off, h4⟩ := h
  obtain ⟨s1, s2, s3, s4⟩ := s
  exact ⟨s1.trans h1, s2.trans h2, s3.trans h3, off, s4.trans h4⟩

/-- The directory holds the documents `ch.flatten`, chunk by chunk, with an exact inverted file. -/
structure StoresAt (d : Disk E) (cs : List E.Cent) (q : E.Quant)
    (ch : List (List (List (Nat × E.Pk)))) : Prop where
  metadata : d.metadata = some ⟨ch.length, cs.length, ch.flatten.flatten.length, ch.flatten.length⟩
  centroids : d.centroids = some cs
  quant : d.quant = some q
  chunk : ∀ j c, ch[j]? = some c → HasChunk d j c
  ivf : d.ivf = some ((List.range cs.length).map (postingFrom 0 ch.flatten)).flatten
  ivfLengths : d.ivfLengths =
    some (((List.range cs.length).map (postingFrom 0 ch.flatten)).map List.length)
  codes : ∀ doc ∈ ch.flatten, ∀ t ∈ doc, t.1 < cs.length

theorem applyAll_append (d : Disk E) (ws ws' : List (Write E)) :
    applyAll d (ws ++ ws') = applyAll (applyAll d ws) ws' := by
  simp [applyAll]

theorem chunk_codes (c : List (List E.Row)) (f : E.Row → Nat × E.Pk) :
    c.flatten.map f = (c.map (List.map f)).flatten := by rw [List.map_flatten]

theorem createChunk_spec (cs : List E.Cent) (q : E.Quant) (docs : List (List E.Row)) (b i : Nat)
    (d : Disk E) :
    Frame d (applyAll d (createChunk cs q docs b i)) ∧
    HasChunk (applyAll d (createChunk cs q docs b i)) i
      (chunkSlice (docs.map (List.map (E.encode cs q))) b i) ∧
    ∀ j, j ≠ i → SameChunk d (applyAll d (createChunk cs q docs b i)) j := by
  refine ⟨by constructor <;> rfl, ?_, ?_⟩
  · rw [chunkSlice_map]
    refine ⟨?_, ?_, ?_, 0, ?_⟩
    · simp [applyAll, apply, createChunk, upd, Function.comp_def]
    · simp only [applyAll, apply, createChunk, upd, List.foldl]
      rw [chunk_codes]; rfl
    · simp only [applyAll, apply, createChunk, upd, List.foldl]
      rw [chunk_codes]; rfl
    · simp only [applyAll, apply, createChunk, upd, List.foldl]
      rw [chunk_codes]; simp
  · intro j hj
    refine ⟨?_, ?_, ?_, ?_⟩ <;> simp [applyAll, apply, createChunk, upd, hj]

theorem createLoop_spec (cs : List E.Cent) (q : E.Quant) (docs : List (List E.Row)) (b : Nat) :
    ∀ (is : List Nat) (d : Disk E),
    Frame d (applyAll d (is.map (createChunk cs q docs b)).flatten) ∧
    ∀ j, (j ∈ is → HasChunk (applyAll d (is.map (createChunk cs q docs b)).flatten) j
      (chunkSlice (docs.map (List.map (E.encode cs q))) b j)) ∧
     (j ∉ is → SameChunk d (applyAll d (is.map (createChunk cs q docs b)).flatten) j)
  | [], d => ⟨Frame.refl d, fun j => ⟨by simp, fun _ => SameChunk.refl d j⟩⟩
  | i :: is, d => by
    rw [List.map_cons, List.flatten_cons, applyAll_append]
    obtain ⟨f1, c1, s1⟩ := createChunk_spec cs q docs b i d
    obtain ⟨f2, r2⟩ := createLoop_spec cs q docs b is (applyAll d (createChunk cs q docs b i))
    refine ⟨f1.trans f2, fun j => ⟨?_, ?_⟩⟩
    · intro hj
      by_cases hji : j ∈ is
      · exact (r2 j).1 hji
      · have : j = i := by simpa [hji] using hj
        subst this
        exact c1.mono ((r2 j).2 hji)
    · intro hj
      rw [List.mem_cons, not_or] at hj
      exact (s1 j hj.1).trans ((r2 j).2 hj.2)

theorem createOffsets_spec (docs : List (List E.Row)) (b : Nat) (f : E.Row → Nat × E.Pk) :
    ∀ (is : List Nat) (off : Nat) (d : Disk E),
    (∀ j ∈ is, HasChunk d j (chunkSlice (docs.map (List.map f)) b j)) →
    Frame d (applyAll d (createOffsets docs b is off)) ∧
    (∀ j ∈ is, HasChunk (applyAll d (createOffsets docs b is off)) j
      (chunkSlice (docs.map (List.map f)) b j)) ∧
    ∀ j, j ∉ is → SameChunk d (applyAll d (createOffsets docs b is off)) j
  | [], off, d, _ => ⟨Frame.refl d, by simp, fun j _ => SameChunk.refl d j⟩
  | i :: is, off, d, h => by
    rw [createOffsets]
    have hi := h i (by simp)
    generalize hd1 : apply d (.chunkMeta i ⟨(chunkSlice docs b i).length,
      (chunkSlice docs b i).flatten.length, off⟩) = d1
    have e : applyAll d (.chunkMeta i ⟨(chunkSlice docs b i).length,
      (chunkSlice docs b i).flatten.length, off⟩ ::
      createOffsets docs b is (off + (chunkSlice docs b i).flatten.length)) =
      applyAll d1 (createOffsets docs b is (off + (chunkSlice docs b i).flatten.length)) := by
      rw [← hd1]; rfl
    rw [e]
    have f1 : Frame d d1 := by subst hd1; constructor <;> rfl
    have s1 : ∀ j, j ≠ i → SameChunk d d1 j := by
      intro j hj; subst hd1; refine ⟨rfl, rfl, rfl, ?_⟩; simp [apply, upd, hj]
    have c1 : HasChunk d1 i (chunkSlice (docs.map (List.map f)) b i) := by
      obtain ⟨a1, a2, a3, o, a4⟩ := hi
      subst hd1
      refine ⟨a1, a2, a3, off, ?_⟩
      simp only [apply, upd, if_true]
      rw [chunkSlice_map, ← chunk_codes]; simp only [List.length_map]
    obtain ⟨f2, c2, s2⟩ := createOffsets_spec docs b f is
      (off + (chunkSlice docs b i).flatten.length) d1 (by
        intro j hj
        by_cases hji : j = i
        · rw [hji]; exact c1
        · exact (h j (by simp [hj])).mono (s1 j hji))
    refine ⟨f1.trans f2, ?_, ?_⟩
    · intro j hj
      by_cases hji : j ∈ is
      · exact c2 j hji
      · have : j = i := by simpa [hji] using hj
        subst this
        exact c1.mono (s2 j hji)
    · intro j hj
      rw [List.mem_cons, not_or] at hj
      exact (s1 j hj.1).trans (s2 j hj.2)

/-- Encoded documents. -/
abbrev encDocs (E : Env) (cs : List E.Cent) (q : E.Quant) (docs : List (List E.Row)) :
    List (List (Nat × E.Pk)) := docs.map (List.map (E.encode cs q))

/-- Fields no creation or append touches. -/
structure RawSame (d d' : Disk E) : Prop where
  buffer : d'.buffer = d.buffer
  bufferLens : d'.bufferLens = d.bufferLens
  bufferInfo : d'.bufferInfo = d.bufferInfo
  embNpy : d'.embNpy = d.embNpy
  embLens : d'.embLens = d.embLens

theorem RawSame.refl (d : Disk E) : RawSame d d := by constructor <;> rfl

theorem Frame.raw {d d' : Disk E} (h : Frame d d') : RawSame d d' :=
  ⟨h.buffer, h.bufferLens, h.bufferInfo, h.embNpy, h.embLens⟩

theorem RawSame.trans {d d' d'' : Disk E} (h : RawSame d d') (h' : RawSame d' d'') : RawSame d d'' :=
  ⟨h'.buffer.trans h.buffer, h'.bufferLens.trans h.bufferLens, h'.bufferInfo.trans h.bufferInfo,
   h'.embNpy.trans h.embNpy, h'.embLens.trans h.embLens⟩

theorem encDocs_lt (hE : E.Lawful) (cs : List E.Cent) (q : E.Quant) (docs : List (List E.Row))
    (hcs : cs ≠ []) : ∀ doc ∈ encDocs E cs q docs, ∀ t ∈ doc, t.1 < cs.length := by
  intro doc hdoc t ht
  obtain ⟨rd, _, rfl⟩ := List.mem_map.1 hdoc
  obtain ⟨r, _, rfl⟩ := List.mem_map.1 ht
  exact hE.code_lt cs q r hcs

theorem sortDedup_pids (old new : List (List (Nat × E.Pk))) (c : Nat) :
    sortDedup (postingFrom 0 old c ++
      pidsOf (newPairs (old.length : Int) (new.map fun d => d.map (·.1))) c) =
    postingFrom 0 (old ++ new) c := by
  apply sortDedup_eq (postingFrom_sorted c _ _)
  intro x
  rw [postingFrom_append, List.mem_append, List.mem_append, mem_pidsOf, mem_newPairs]
  simp

theorem createIndexFiles_spec (hE : E.Lawful) (seed b : Nat) (docs : List (List E.Row))
    (cs : List E.Cent) (hcs : cs ≠ []) (hdocs : docs ≠ []) (hb : 0 < b) (d : Disk E) :
    ∃ ws q ch, createIndexFiles seed b docs cs = .ok ws ∧ ch.flatten = encDocs E cs q docs ∧
      StoresAt (applyAll d ws) cs q ch ∧ RawSame d (applyAll d ws) ∧
      (applyAll d ws).threshold ≠ none := by
  let q := E.trainQuant seed cs docs
  let n := numChunksFor docs.length b
  let ch := (List.range n).map (chunkSlice (encDocs E cs q docs) b)
  have hch : ch.flatten = encDocs E cs q docs := by
    have := chunk_flatten (encDocs E cs q docs) b hb
    rwa [show (encDocs E cs q docs).length = docs.length by simp [encDocs]] at this
  have hcodes : ((List.range n).map fun i =>
      (chunkSlice docs b i).flatten.map fun r => (E.encode cs q r).1).flatten =
      ((encDocs E cs q docs).map fun dd => dd.map (·.1)).flatten := by
    have h1 : ∀ i, (chunkSlice docs b i).flatten.map (fun r => (E.encode cs q r).1) =
        (chunkSlice (docs.map (List.map fun r => (E.encode cs q r).1)) b i).flatten := by
      intro i; rw [chunkSlice_map, List.map_flatten]
    simp only [h1]
    have := chunk_flatten (docs.map (List.map fun r => (E.encode cs q r).1)) b hb
    rw [List.length_map] at this
    have e2 : ((List.range n).map fun i =>
        (chunkSlice (docs.map (List.map fun r => (E.encode cs q r).1)) b i).flatten).flatten =
        (((List.range n).map (chunkSlice (docs.map (List.map fun r => (E.encode cs q r).1)) b)).flatten).flatten := by
      rw [List.flatten_flatten, List.map_map]; rfl
    rw [e2, this]
    simp [encDocs, Function.comp_def]
  have hlens : ((List.range n).map fun i => (chunkSlice docs b i).map List.length).flatten =
      ((encDocs E cs q docs).map fun dd => dd.map (·.1)).map List.length := by
    have := chunk_flatten (docs.map List.length) b hb
    rw [List.length_map] at this
    simp only [← chunkSlice_map]
    rw [show ((List.range n).map fun i => chunkSlice (docs.map List.length) b i).flatten =
      docs.map List.length from this]
    simp [encDocs, Function.comp_def]
  let pairs := newPairs 0 ((encDocs E cs q docs).map fun dd => dd.map (·.1))
  let lists := (List.range cs.length).map fun c => sortDedup (pidsOf pairs c)
  have hlists : lists = (List.range cs.length).map (postingFrom 0 ch.flatten) := by
    apply List.map_congr_left
    intro c _
    have := sortDedup_pids (E := E) [] (encDocs E cs q docs) c
    rw [hch]
    exact this
  let ws : List (Write E) := [ .centroids cs, .quant q, .threshold (E.trainThr seed cs docs) ] ++
      ((List.range n).map (createChunk cs q docs b)).flatten ++
      createOffsets docs b (List.range n) 0 ++
      [ .ivf lists.flatten, .ivfLengths (lists.map List.length),
        .metadata ⟨n, cs.length, docs.flatten.length, docs.length⟩ ]
  have hrun : createIndexFiles seed b docs cs = .ok ws := by
    unfold createIndexFiles
    rw [if_neg hdocs, if_neg (by omega)]
    change (ivfPairs 0 (((List.range n).map fun i => (chunkSlice docs b i).map List.length).flatten)
      (((List.range n).map fun i =>
        (chunkSlice docs b i).flatten.map fun r => (E.encode cs q r).1).flatten) >>= _) = _
    rw [hcodes, hlens, ivfPairs_eq]
    rfl
  refine ⟨ws, q, ch, hrun, hch, ?_⟩
  let d0 := applyAll d [ .centroids cs, .quant q, .threshold (E.trainThr seed cs docs) ]
  let d1 := applyAll d0 ((List.range n).map (createChunk cs q docs b)).flatten
  let d2 := applyAll d1 (createOffsets docs b (List.range n) 0)
  have hd : applyAll d ws = applyAll d2 [ .ivf lists.flatten, .ivfLengths (lists.map List.length),
        .metadata ⟨n, cs.length, docs.flatten.length, docs.length⟩ ] := by
    show applyAll d (((_ ++ _) ++ _) ++ _) = _
    rw [applyAll_append, applyAll_append, applyAll_append]
  obtain ⟨f1, r1⟩ := createLoop_spec cs q docs b (List.range n) d0
  obtain ⟨f2, c2, _⟩ := createOffsets_spec docs b (E.encode cs q) (List.range n) 0 d1
    (fun j hj => (r1 j).1 hj)
  have hfl : docs.flatten.length = ch.flatten.flatten.length := by
    rw [hch]; simp [encDocs, Function.comp_def]
  have hdl : docs.length = ch.flatten.length := by rw [hch]; simp [encDocs]
  rw [hd]
  refine ⟨?_, ?_, ?_⟩
  · constructor
    · show some _ = some _
      rw [hfl, hdl]
      simp [ch]
    · show d2.centroids = _
      rw [f2.centroids, f1.centroids]; rfl
    · show d2.quant = _
      rw [f2.quant, f1.quant]; rfl
    · intro j c hj
      have hjn : j < n := by
        have := (List.getElem?_eq_some_iff.1 hj).1
        simpa [ch] using this
      have hc : c = chunkSlice (encDocs E cs q docs) b j := by
        simp only [ch, List.getElem?_map, List.getElem?_range hjn, Option.map_some,
          Option.some.injEq] at hj
        exact hj.symm
      rw [hc]
      exact (c2 j (List.mem_range.2 hjn)).mono ⟨rfl, rfl, rfl, rfl⟩
    · show some _ = some _
      rw [hlists]
    · show some _ = some _
      rw [hlists]
    · rw [hch]; exact encDocs_lt hE cs q docs hcs
  · have : RawSame d2 (applyAll d2 [ .ivf lists.flatten, .ivfLengths (lists.map List.length),
        .metadata ⟨n, cs.length, docs.flatten.length, docs.length⟩ ]) := by constructor <;> rfl
    have h0 : RawSame d d0 := by constructor <;> rfl
    exact ((h0.trans f1.raw).trans f2.raw).trans this
  · show d2.threshold ≠ none
    rw [f2.threshold, f1.threshold]
    simp [d0, applyAll, apply]

/-! ### Metadata and loading -/

theorem loadMeta_spec {d : Disk E} {cs q ch} (h : StoresAt d cs q ch) :
    loadMeta d = .ok ⟨ch.length, cs.length, ch.flatten.flatten.length, ch.flatten.length⟩ := by
  unfold loadMeta
  rw [h.metadata]
  simp only [need, bind, Except.bind]
  split
  · next h0 =>
    have : ((List.range ch.length).map fun i => ((d.doclens i).getD []).length).sum = 0 := by
      rw [List.sum_eq_zero_iff_forall_eq_nat]
      intro x hx
      obtain ⟨i, hi, rfl⟩ := List.mem_map.1 hx
      have hi' := List.mem_range.1 hi
      obtain ⟨a, _⟩ := h.chunk i ch[i] (List.getElem?_eq_getElem hi')
      have hfl : ch.flatten = [] := List.length_eq_zero_iff.1 h0
      rw [a]
      have : ch[i] = [] := by
        rw [List.flatten_eq_nil_iff] at hfl
        exact hfl _ (List.getElem_mem hi')
      simp [this]
    rw [this, h0]
  · rfl

theorem mergeRows_spec {β : Type} (files : Nat → Option (List β)) (parts : List (List β)) (pad : Nat)
    (zero : β) (h : ∀ j p, parts[j]? = some p → files j = some p) (hne : parts.flatten ≠ []) :
    mergeRows files parts.length pad zero = .ok (parts.flatten ++ List.replicate pad zero) := by
  have : ((List.range parts.length).map fun i => (files i).getD []) = parts := by
    apply List.ext_getElem?
    intro i
    by_cases hi : i < parts.length
    · rw [List.getElem?_map, List.getElem?_range hi, List.getElem?_eq_getElem hi]
      simp [h i _ (List.getElem?_eq_getElem hi)]
    · rw [List.getElem?_eq_none (by simp; omega), List.getElem?_eq_none (by omega)]
  unfold mergeRows
  rw [this, if_neg]
  intro h0
  exact hne (List.length_eq_zero_iff.1 h0)

theorem load_spec {d : Disk E} {cs q ch} (h : StoresAt d cs q ch) (hne : ch.flatten.flatten ≠ []) :
    ∃ x, load d = .ok x ∧
      x.metadata = ⟨ch.length, cs.length, ch.flatten.flatten.length, ch.flatten.length⟩ ∧
      x.centroids = cs ∧ x.quant = q ∧
      x.ivf = ((List.range cs.length).map (postingFrom 0 ch.flatten)).flatten ∧
      x.ivfLengths = ((List.range cs.length).map (postingFrom 0 ch.flatten)).map List.length ∧
      x.ivfOffsets = offsetsFrom 0 x.ivfLengths ∧
      x.docLengths = ch.flatten.map List.length ∧
      x.docOffsets = offsetsFrom 0 x.docLengths ∧
      (∃ t, x.codes = ch.flatten.flatten.map (·.1) ++ t) ∧
      (∃ t, x.residuals = ch.flatten.flatten.map (·.2) ++ t) := by
  have hlens : (List.range ch.length).mapM (fun i => need (d.doclens i)) =
      .ok (ch.map fun c => c.map List.length) := by
    rw [mapM_ok _ (fun i => ((ch[i]?).getD []).map List.length)]
    · congr 1
      apply List.ext_getElem?
      intro i
      by_cases hi : i < ch.length
      · rw [List.getElem?_map, List.getElem?_range hi, List.getElem?_map]
        simp [List.getElem?_eq_getElem hi]
      · rw [List.getElem?_eq_none (by simp; omega), List.getElem?_eq_none (by simp; omega)]
    · intro i hi
      have hi' := List.mem_range.1 hi
      obtain ⟨a, _⟩ := h.chunk i ch[i] (List.getElem?_eq_getElem hi')
      rw [a]
      simp [need, List.getElem?_eq_getElem hi']
  have hmerge : ∀ {β : Type} (f : Nat × E.Pk → β) (files : Nat → Option (List β)) (pad : Nat) (zero : β),
      (∀ j c, ch[j]? = some c → files j = some (c.flatten.map f)) →
      mergeRows files ch.length pad zero =
      .ok (ch.flatten.flatten.map f ++ List.replicate pad zero) := by
    intro β f files pad zero hf
    have e : (ch.map fun c => c.flatten.map f).flatten = ch.flatten.flatten.map f := by
      rw [List.flatten_flatten, List.map_flatten, List.map_map]; rfl
    have := mergeRows_spec files (ch.map fun c => c.flatten.map f) pad zero (by
      intro j p hp
      rw [List.getElem?_map] at hp
      obtain ⟨c, hc, rfl⟩ := Option.map_eq_some_iff.1 hp
      exact hf j c hc) (by
      rw [e]
      intro hnil
      exact hne (List.map_eq_nil_iff.1 hnil))
    rwa [e, List.length_map] at this
  let dl := (ch.map fun c => c.map List.length).flatten
  have hdl : dl = ch.flatten.map List.length := by
    simp only [dl]; rw [List.map_flatten]
  let pad := dl.foldl Nat.max 0 - dl.getLast?.getD 0
  refine ⟨⟨⟨ch.length, cs.length, ch.flatten.flatten.length, ch.flatten.length⟩, cs, q,
    ((List.range cs.length).map (postingFrom 0 ch.flatten)).flatten,
    ((List.range cs.length).map (postingFrom 0 ch.flatten)).map List.length,
    offsetsFrom 0 (((List.range cs.length).map (postingFrom 0 ch.flatten)).map List.length),
    dl, offsetsFrom 0 dl, ch.flatten.flatten.map (·.1) ++ List.replicate pad 0,
    ch.flatten.flatten.map (·.2) ++ List.replicate pad E.zeroPk⟩, ?_, rfl, rfl, rfl, rfl, rfl, rfl, hdl,
    rfl, ⟨_, rfl⟩, ⟨_, rfl⟩⟩
  unfold load
  rw [loadMeta_spec h, h.centroids, h.quant, h.ivf, h.ivfLengths]
  simp only [need, bind, Except.bind]
  have hlens' := hlens
  simp only [need] at hlens'
  rw [hlens']
  simp only []
  rw [hmerge (·.1) d.codes _ 0 (fun j c hc => (h.chunk j c hc).2.1)]
  simp only []
  rw [hmerge (·.2) d.residuals _ E.zeroPk (fun j c hc => (h.chunk j c hc).2.2.1)]

/-- Accessors of a loaded index. -/
structure Shows (x : Loaded E) (cs : List E.Cent) (q : E.Quant) (docs : List (List (Nat × E.Pk))) : Prop where
  metaDocs : x.metadata.numDocs = docs.length
  metaEmbs : x.metadata.numEmbs = docs.flatten.length
  metaParts : x.metadata.numPartitions = cs.length
  numDocs : x.numDocuments = docs.length
  centroids : x.centroids = cs
  quant : x.quant = q
  lens : x.docLengths = docs.map List.length
  tokens : ∀ i doc, docs[i]? = some doc → x.docTokens i = .ok doc
  noTokens : ∀ i, docs[i]? = none → x.docTokens i = .error .err
  ivfLen : x.ivfLengths.length = cs.length
  posting : ∀ c, c < cs.length → ∃ s len, x.ivfOffsets[c]? = some s ∧ x.ivfLengths[c]? = some len ∧
    slice x.ivf s (s + len) = .ok (postingFrom 0 docs c)
  candidates : ∀ cents, ∃ l, x.candidates cents = .ok l ∧ l.Pairwise (· < ·) ∧
    ∀ p : Int, p ∈ l ↔ ∃ i : Nat, p = i ∧ ∃ doc, docs[i]? = some doc ∧ ∃ t ∈ doc, t.1 ∈ cents

theorem idx_of_getElem? {β : Type} {l : List β} {i : Nat} {x : β} (h : l[i]? = some x) :
    idx l i = .ok x := by
  unfold idx; rw [h]

theorem zip_map_fst_snd {α β : Type} : ∀ (l : List (α × β)), (l.map (·.1)).zip (l.map (·.2)) = l
  | [] => rfl
  | a :: l => by simp [zip_map_fst_snd l]

theorem load_shows {d : Disk E} {cs q ch} (h : StoresAt d cs q ch) (hne : ch.flatten.flatten ≠ []) :
    ∃ x, load d = .ok x ∧ Shows x cs q ch.flatten := by
  obtain ⟨x, hx, hm, hcs, hq, hivf, hil, hio, hdl, hdo, ⟨tc, hc⟩, ⟨tr, hr⟩⟩ := load_spec h hne
  have hpost : ∀ c, c < cs.length → ∃ s len, x.ivfOffsets[c]? = some s ∧ x.ivfLengths[c]? = some len ∧
      slice x.ivf s (s + len) = .ok (postingFrom 0 ch.flatten c) := by
    intro c hc'
    have hg : ((List.range cs.length).map (postingFrom 0 ch.flatten))[c]? =
        some (postingFrom 0 ch.flatten c) := by
      rw [List.getElem?_map, List.getElem?_range hc']; rfl
    refine ⟨0 + (x.ivfLengths.take c).sum, (postingFrom 0 ch.flatten c).length, ?_, ?_, ?_⟩
    · rw [hio, offsetsFrom_get _ 0 c (by rw [hil]; simp; omega)]
    · rw [hil, List.getElem?_map, hg]; rfl
    · have := slice_flatten (fun z : Int => z) _ c _ [] hg
      rw [List.map_id', List.append_nil, List.map_id'] at this
      rw [hivf, hil, Nat.zero_add, ← this]
      congr 1
      rw [take_succ_sum _ c _ (by rw [List.getElem?_map, hg]; rfl)]
  refine ⟨x, hx, by rw [hm], by rw [hm], by rw [hm], by rw [Loaded.numDocuments, hdl, List.length_map], hcs, hq, hdl, ?_, ?_,
    by rw [hil]; simp, hpost, ?_⟩
  · intro i doc hi
    have hlt : i < ch.flatten.length := (List.getElem?_eq_some_iff.1 hi).1
    unfold Loaded.docTokens
    rw [if_neg (by rw [hdl]; simp only [List.length_map]; omega), hdo,
      idx_of_getElem? (offsetsFrom_get _ 0 i (by rw [hdl]; simp only [List.length_map]; omega)),
      idx_of_getElem? (offsetsFrom_get _ 0 (i + 1) (by rw [hdl]; simp only [List.length_map]; omega)),
      hdl, hc, hr, Nat.zero_add, Nat.zero_add]
    simp only [bind, Except.bind]
    rw [slice_flatten _ _ i doc tc hi, slice_flatten _ _ i doc tr hi]
    simp only []
    congr 1
    exact zip_map_fst_snd doc
  · intro i hi
    have : ch.flatten.length ≤ i := List.getElem?_eq_none_iff.1 hi
    unfold Loaded.docTokens
    rw [if_pos (by rw [hdl, List.length_map]; exact this)]
  · intro cents
    unfold Loaded.candidates
    rw [mapM_ok _ (fun c => if c < cs.length then postingFrom 0 ch.flatten c else [])]
    · refine ⟨_, rfl, sortDedup_sorted _, ?_⟩
      intro p
      rw [mem_sortDedup]
      simp only [List.mem_flatten, List.mem_map]
      constructor
      · rintro ⟨l, ⟨c, hc', rfl⟩, hp⟩
        split at hp
        · obtain ⟨i, e, doc, hd, t, ht, ht'⟩ := (mem_postingFrom c _ _ _).1 hp
          exact ⟨i, by omega, doc, hd, t, ht, by rw [ht']; exact hc'⟩
        · simp at hp
      · rintro ⟨i, e, doc, hd, t, ht, ht'⟩
        refine ⟨_, ⟨t.1, ht', rfl⟩, ?_⟩
        rw [if_pos (h.codes doc (List.mem_of_getElem? hd) t ht)]
        exact (mem_postingFrom _ _ _ _).2 ⟨i, by omega, doc, hd, t, ht, rfl⟩
    · intro c _
      have hle : x.ivfLengths.length = cs.length := by rw [hil]; simp
      rw [hle]
      split
      · next hlt =>
        obtain ⟨s, len, h1, h2, h3⟩ := hpost c hlt
        rw [idx_of_getElem? h1, idx_of_getElem? h2]
        exact h3
      · rfl

/-! ### Append -/

/-- The documents of new chunk `i`. -/
def newChunk (old : Option (List (List (Nat × E.Pk)))) (enc : List (List (Nat × E.Pk))) (b i : Nat) :
    List (List (Nat × E.Pk)) :=
  if i = 0 then old.getD [] ++ chunkSlice enc b i else chunkSlice enc b i

theorem appendChunk_spec {d : Disk E} (cs : List E.Cent) (q : E.Quant) (docs : List (List E.Row))
    (b start : Nat) (old : Option (List (List (Nat × E.Pk))))
    (hold : ∀ c, old = some c → HasChunk d start c) (i off : Nat) :
    ∃ ws off', appendChunk d cs q docs b start old.isSome i off = .ok (ws, off') ∧
      ∀ d0, Frame d0 (applyAll d0 ws) ∧
        HasChunk (applyAll d0 ws) (start + i) (newChunk old (encDocs E cs q docs) b i) ∧
        ∀ j, j ≠ start + i → SameChunk d0 (applyAll d0 ws) j := by
  have key : ∀ (c : List (List (Nat × E.Pk))) (lens codes : List Nat) (res : List E.Pk) (off : Nat),
      lens = c.map List.length → codes = c.flatten.map (·.1) → res = c.flatten.map (·.2) →
      ∀ d0 : Disk E, let d1 := applyAll d0 [ .codes (start + i) codes, .residuals (start + i) res,
        .doclens (start + i) lens, .chunkMeta (start + i) ⟨lens.length, codes.length, off⟩ ]
      Frame d0 d1 ∧ HasChunk d1 (start + i) c ∧ ∀ j, j ≠ start + i → SameChunk d0 d1 j := by
    intro c lens codes res off h1 h2 h3 d0
    refine ⟨by constructor <;> rfl, ⟨?_, ?_, ?_, off, ?_⟩, ?_⟩
    · simp [applyAll, apply, upd, h1]
    · simp [applyAll, apply, upd, h2]
    · simp [applyAll, apply, upd, h3]
    · simp only [applyAll, apply, upd, List.foldl, if_true, h1, h2, List.length_map]
    · intro j hj
      refine ⟨?_, ?_, ?_, ?_⟩ <;> simp [applyAll, apply, upd, hj]
  have hsl : ∀ {γ : Type} (f : Nat × E.Pk → γ),
      ((chunkSlice docs b i).flatten.map (E.encode cs q)).map f =
      (chunkSlice (encDocs E cs q docs) b i).flatten.map f := by
    intro γ f
    rw [encDocs, chunkSlice_map, chunk_codes]
  have hll : (chunkSlice docs b i).map List.length =
      (chunkSlice (encDocs E cs q docs) b i).map List.length := by
    rw [encDocs, chunkSlice_map, List.map_map]
    apply List.map_congr_left
    intro a _
    simp
  by_cases hi : i = 0 ∧ old.isSome
  · obtain ⟨hi0, ho⟩ := hi
    obtain ⟨c, rfl⟩ := Option.isSome_iff_exists.1 ho
    obtain ⟨a1, a2, a3, _⟩ := hold c rfl
    have e : start + i = start := by omega
    let lens := c.map List.length ++ (chunkSlice docs b i).map List.length
    let codes := c.flatten.map (·.1) ++ ((chunkSlice docs b i).flatten.map (E.encode cs q)).map (·.1)
    let res := c.flatten.map (·.2) ++ ((chunkSlice docs b i).flatten.map (E.encode cs q)).map (·.2)
    refine ⟨[ .codes (start + i) codes, .residuals (start + i) res, .doclens (start + i) lens,
      .chunkMeta (start + i) ⟨lens.length, codes.length, off⟩ ], off + codes.length, ?_, ?_⟩
    · unfold appendChunk
      simp only []
      rw [if_pos ⟨hi0, rfl⟩, e, a1, a2, a3]
      rfl
    · intro d0
      have := key (newChunk (some c) (encDocs E cs q docs) b i)
        (c.map List.length ++ (chunkSlice docs b i).map List.length)
        (c.flatten.map (·.1) ++ ((chunkSlice docs b i).flatten.map (E.encode cs q)).map (·.1))
        (c.flatten.map (·.2) ++ ((chunkSlice docs b i).flatten.map (E.encode cs q)).map (·.2)) off
        (by rw [hll, newChunk, if_pos hi0]; simp)
        (by rw [hsl, newChunk, if_pos hi0]; simp)
        (by rw [hsl, newChunk, if_pos hi0]; simp) d0
      rw [e] at this ⊢
      exact this
  · let lens := (chunkSlice docs b i).map List.length
    let codes := ((chunkSlice docs b i).flatten.map (E.encode cs q)).map (·.1)
    let res := ((chunkSlice docs b i).flatten.map (E.encode cs q)).map (·.2)
    refine ⟨[ .codes (start + i) codes, .residuals (start + i) res, .doclens (start + i) lens,
      .chunkMeta (start + i) ⟨lens.length, codes.length, off⟩ ], off + codes.length, ?_, ?_⟩
    · unfold appendChunk
      simp only []
      rw [if_neg hi]
      rfl
    · intro d0
      have hn : newChunk old (encDocs E cs q docs) b i = chunkSlice (encDocs E cs q docs) b i := by
        unfold newChunk
        split
        · next h0 =>
          have : old = none := by
            cases old with
            | none => rfl
            | some c => exact absurd ⟨h0, rfl⟩ hi
          simp [this]
        · rfl
      rw [hn]
      exact key _ _ _ _ off hll (hsl _) (hsl _) d0

theorem appendChunks_spec {d : Disk E} (cs : List E.Cent) (q : E.Quant) (docs : List (List E.Row))
    (b start : Nat) (old : Option (List (List (Nat × E.Pk))))
    (hold : ∀ c, old = some c → HasChunk d start c) : ∀ (is : List Nat) (off : Nat),
    ∃ ws, appendChunks d cs q docs b start old.isSome is off = .ok ws ∧
      ∀ d0, Frame d0 (applyAll d0 ws) ∧
        (∀ i ∈ is, HasChunk (applyAll d0 ws) (start + i) (newChunk old (encDocs E cs q docs) b i)) ∧
        ∀ j, (∀ i ∈ is, j ≠ start + i) → SameChunk d0 (applyAll d0 ws) j
  | [], off => ⟨[], rfl, fun d0 => ⟨Frame.refl d0, by simp, fun j _ => SameChunk.refl d0 j⟩⟩
  | i :: is, off => by
    obtain ⟨ws, off', h1, r1⟩ := appendChunk_spec cs q docs b start old hold i off
    obtain ⟨ws', h2, r2⟩ := appendChunks_spec cs q docs b start old hold is off'
    refine ⟨ws ++ ws', ?_, ?_⟩
    · rw [appendChunks, h1]
      simp only [bind, Except.bind]
      rw [h2]
    · intro d0
      rw [applyAll_append]
      obtain ⟨f1, c1, s1⟩ := r1 d0
      obtain ⟨f2, c2, s2⟩ := r2 (applyAll d0 ws)
      refine ⟨f1.trans f2, ?_, ?_⟩
      · intro j hj
        by_cases hji : j ∈ is
        · exact c2 j hji
        · have : j = i := by simpa [hji] using hj
          subst this
          refine c1.mono (s2 _ ?_)
          intro k hk e
          apply hji
          have : j = k := by omega
          rw [this]; exact hk
      · intro j hj
        exact (s1 j (hj i (by simp))).trans (s2 j (fun k hk => hj k (by simp [hk])))

theorem appendTarget_spec {d : Disk E} {cs q ch} (h : StoresAt d cs q ch) :
    ∃ pre old off, appendTarget d ⟨ch.length, cs.length, ch.flatten.flatten.length, ch.flatten.length⟩ =
      (pre.length, Option.isSome old, off) ∧ ch = pre ++ old.toList ∧
      ∀ c, old = some c → HasChunk d pre.length c := by
  unfold appendTarget
  simp only []
  rcases List.eq_nil_or_concat ch with rfl | ⟨init, last, rfl⟩
  · exact ⟨[], none, 0, by simp, by simp, by simp⟩
  · have hl : HasChunk d init.length last := h.chunk init.length last (by simp)
    obtain ⟨a1, a2, a3, off, a4⟩ := hl
    rw [if_neg (by simp)]
    have e : (init ++ [last]).length - 1 = init.length := by simp
    rw [List.concat_eq_append] at *
    rw [e, a4]
    simp only []
    split
    · exact ⟨init, some last, off, by simp, by simp, by
        intro c hc
        have : last = c := by simpa using hc
        rw [← this]
        exact ⟨a1, a2, a3, off, a4⟩⟩
    · exact ⟨init ++ [last], none, _, rfl, by simp, by simp⟩

theorem newChunk_flatten (old : Option (List (List (Nat × E.Pk)))) (enc : List (List (Nat × E.Pk)))
    (b : Nat) (hb : 0 < b) (hne : enc ≠ []) :
    ((List.range (numChunksFor enc.length b)).map (newChunk old enc b)).flatten = old.getD [] ++ enc := by
  have hpos := numChunksFor_pos enc.length b hb (List.length_pos_iff.2 hne)
  obtain ⟨n, hn⟩ : ∃ n, numChunksFor enc.length b = n + 1 := ⟨_, (Nat.succ_pred_eq_of_pos hpos).symm⟩
  have := chunk_flatten enc b hb
  rw [hn, List.range_succ_eq_map, List.map_cons, List.flatten_cons] at this ⊢
  have e : (List.map Nat.succ (List.range n)).map (newChunk old enc b) =
      (List.map Nat.succ (List.range n)).map (chunkSlice enc b) := by
    apply List.map_congr_left
    intro i hi
    obtain ⟨k, _, rfl⟩ := List.mem_map.1 hi
    simp [newChunk]
  rw [e, newChunk, if_pos rfl, List.append_assoc, this]

theorem sum_flatten' : ∀ (l : List (List Nat)), l.flatten.sum = (l.map List.sum).sum
  | [] => rfl
  | a :: l => by simp [sum_flatten' l]

theorem updateIndex_spec (hE : E.Lawful) {d : Disk E} {cs q ch} (h : StoresAt d cs q ch)
    (hcs : cs ≠ []) (docs : List (List E.Row)) (hdocs : docs ≠ []) (b : Nat) (hb : 0 < b) (updThr : Bool) :
    ∃ ws ch', updateIndex d docs cs q b updThr = .ok ws ∧
      ch'.flatten = ch.flatten ++ encDocs E cs q docs ∧
      StoresAt (applyAll d ws) cs q ch' ∧ RawSame d (applyAll d ws) ∧
      (d.threshold ≠ none → (applyAll d ws).threshold ≠ none) := by
  obtain ⟨pre, old, off, htgt, hch, hold⟩ := appendTarget_spec h
  let enc := encDocs E cs q docs
  have hlen : enc.length = docs.length := by simp [enc, encDocs]
  let n := numChunksFor docs.length b
  obtain ⟨cws, hcws, rcws⟩ := appendChunks_spec cs q docs b pre.length old hold (List.range n) off
  let news := (List.range n).map (newChunk old enc b)
  let ch' := pre ++ news
  have hench : enc ≠ [] := by
    intro h0
    rw [h0] at hlen
    exact hdocs (List.length_eq_zero_iff.1 hlen.symm)
  have hnews : news.flatten = old.getD [] ++ enc := by
    have := newChunk_flatten old enc b hb hench
    rw [hlen] at this
    exact this
  have hch' : ch'.flatten = ch.flatten ++ enc := by
    simp only [ch', List.flatten_append, hnews, hch]
    cases old <;> simp
  have hacc : ((List.range n).map fun i =>
      (chunkSlice docs b i).map fun doc => doc.map fun r => (E.encode cs q r).1).flatten =
      enc.map fun dd => dd.map (·.1) := by
    simp only [← chunkSlice_map]
    have := chunk_flatten (docs.map fun doc => doc.map fun r => (E.encode cs q r).1) b hb
    rw [List.length_map] at this
    rw [show ((List.range n).map fun i => chunkSlice
      (docs.map fun doc => doc.map fun r => (E.encode cs q r).1) b i).flatten = _ from this]
    simp [enc, encDocs, Function.comp_def]
  have htoks : ((List.range n).map fun i => ((chunkSlice docs b i).map List.length).sum).sum =
      enc.flatten.length := by
    have := chunk_flatten (docs.map List.length) b hb
    rw [List.length_map] at this
    have e : enc.flatten.length = (docs.map List.length).sum := by
      simp [enc, encDocs, List.length_flatten, Function.comp_def]
    rw [e]
    conv => rhs; rw [← this]
    rw [sum_flatten', List.map_map]
    congr 1
    apply List.map_congr_left
    intro i _
    simp [chunkSlice_map]
  let lists := (List.range cs.length).map (postingFrom 0 ch'.flatten)
  have hlists : ((List.range cs.length).mapM fun c => (do
      let o ← oldPids (d.ivf.getD []) (d.ivfLengths.getD (List.replicate cs.length 0)) c
      .ok (sortDedup (o ++ pidsOf (newPairs (ch.flatten.length : Int) (enc.map fun dd => dd.map (·.1))) c)) :
      Res (List Int))) = .ok lists := by
    rw [h.ivf, h.ivfLengths]
    apply mapM_ok _ (postingFrom 0 ch'.flatten)
    intro c hc
    have hg : ((List.range cs.length).map (postingFrom 0 ch.flatten))[c]? =
        some (postingFrom 0 ch.flatten c) := by
      rw [List.getElem?_map, List.getElem?_range (List.mem_range.1 hc)]; rfl
    have := oldPids_eq _ c _ hg
    simp only [Option.getD_some, bind, Except.bind]
    rw [this]
    simp only []
    rw [sortDedup_pids, hch']
  let thrWs : List (Write E) :=
      if updThr ∧ enc.flatten.length ≠ 0 then
        [.threshold (E.blendThr d.threshold docs ch.flatten.flatten.length)] else []
  let ws : List (Write E) := cws ++ thrWs ++
      [ .ivf lists.flatten, .ivfLengths (lists.map List.length),
        .metadata ⟨pre.length + n, cs.length, ch.flatten.flatten.length + enc.flatten.length,
          ch.flatten.length + docs.length⟩ ]
  have hrun : updateIndex d docs cs q b updThr = .ok ws := by
    unfold updateIndex
    rw [if_neg (by omega), loadMeta_spec h]
    simp only [bind, Except.bind]
    rw [htgt]
    simp only []
    rw [show numChunksFor docs.length b = n from rfl, hcws]
    simp only []
    rw [hacc, htoks]
    simp only [bind, Except.bind] at hlists
    rw [hlists]
  refine ⟨ws, ch', hrun, hch', ?_⟩
  have hd : applyAll d ws = applyAll (applyAll (applyAll d cws) thrWs)
      [ .ivf lists.flatten, .ivfLengths (lists.map List.length),
        .metadata ⟨pre.length + n, cs.length, ch.flatten.flatten.length + enc.flatten.length,
          ch.flatten.length + docs.length⟩ ] := by
    show applyAll d ((_ ++ _) ++ _) = _
    rw [applyAll_append, applyAll_append]
  obtain ⟨f1, c1, s1⟩ := rcws d
  have hthr : ∀ d0 : Disk E, (applyAll d0 thrWs).centroids = d0.centroids ∧
      (applyAll d0 thrWs).quant = d0.quant ∧ RawSame d0 (applyAll d0 thrWs) ∧
      (∀ j, SameChunk d0 (applyAll d0 thrWs) j) ∧
      (d0.threshold ≠ none → (applyAll d0 thrWs).threshold ≠ none) := by
    intro d0
    simp only [thrWs]
    split
    · exact ⟨rfl, rfl, by constructor <;> rfl, fun j => ⟨rfl, rfl, rfl, rfl⟩, fun _ => by
        simp [applyAll, apply]⟩
    · exact ⟨rfl, rfl, RawSame.refl _, fun j => SameChunk.refl _ _, fun h => h⟩
  obtain ⟨t1, t2, t3, t4, t5⟩ := hthr (applyAll d cws)
  rw [hd]
  refine ⟨?_, ?_, ?_⟩
  · constructor
    · show some _ = some _
      rw [hch']
      simp only [ch', news, List.length_append, List.flatten_append, hlen, List.length_map,
        List.length_range]
    · show (applyAll (applyAll d cws) thrWs).centroids = _
      rw [t1, f1.centroids, h.centroids]
    · show (applyAll (applyAll d cws) thrWs).quant = _
      rw [t2, f1.quant, h.quant]
    · intro j c hj
      have s2 : SameChunk (applyAll (applyAll d cws) thrWs) (applyAll (applyAll (applyAll d cws) thrWs)
        [ .ivf lists.flatten, .ivfLengths (lists.map List.length),
          .metadata ⟨pre.length + n, cs.length, ch.flatten.flatten.length + enc.flatten.length,
          ch.flatten.length + docs.length⟩ ]) j := ⟨rfl, rfl, rfl, rfl⟩
      refine HasChunk.mono ?_ ((t4 j).trans s2)
      simp only [ch'] at hj
      by_cases hlt : j < pre.length
      · rw [List.getElem?_append_left hlt] at hj
        have : HasChunk d j c := h.chunk j c (by rw [hch, List.getElem?_append_left hlt]; exact hj)
        exact this.mono (s1 j (by intro i _; omega))
      · rw [List.getElem?_append_right (by omega)] at hj
        have hjn : j - pre.length < n := by
          have := (List.getElem?_eq_some_iff.1 hj).1
          simpa [news] using this
        simp only [news, List.getElem?_map, List.getElem?_range hjn, Option.map_some,
          Option.some.injEq] at hj
        have := c1 (j - pre.length) (List.mem_range.2 hjn)
        rw [show pre.length + (j - pre.length) = j by omega] at this
        rw [← hj]
        exact this
    · rfl
    · rfl
    · rw [hch']
      intro doc hdoc
      rcases List.mem_append.1 hdoc with hd' | hd'
      · exact h.codes doc hd'
      · exact encDocs_lt hE cs q docs hcs doc hd'
  · have r : RawSame (applyAll (applyAll d cws) thrWs) (applyAll (applyAll (applyAll d cws) thrWs)
        [ .ivf lists.flatten, .ivfLengths (lists.map List.length),
          .metadata ⟨pre.length + n, cs.length, ch.flatten.flatten.length + enc.flatten.length,
          ch.flatten.length + docs.length⟩ ]) := by constructor <;> rfl
    exact (f1.raw.trans t3).trans r
  · intro ht
    exact t5 (by rw [f1.threshold]; exact ht)

/-! ### Centroid expansion -/

theorem updateCentroids_spec {d : Disk E} {cs q ch} (h : StoresAt d cs q ch)
    (docs : List (List E.Row)) (thr : E.Thr) (seed : Nat) {ws n}
    (hrun : updateCentroids d docs thr seed = .ok (ws, n)) :
    ∃ new, new.length = n ∧ StoresAt (applyAll d ws) (cs ++ new) q ch ∧ RawSame d (applyAll d ws) ∧
      (applyAll d ws).threshold = d.threshold := by
  have triv : ws = [] → n = 0 → ∃ new : List E.Cent, new.length = n ∧
      StoresAt (applyAll d ws) (cs ++ new) q ch ∧ RawSame d (applyAll d ws) ∧
      (applyAll d ws).threshold = d.threshold := by
    rintro rfl rfl
    exact ⟨[], rfl, by simpa [applyAll] using h, RawSame.refl d, rfl⟩
  unfold updateCentroids at hrun
  rw [h.centroids] at hrun
  simp only [] at hrun
  split at hrun
  · simp only [Except.ok.injEq, Prod.mk.injEq] at hrun
    exact triv hrun.1.symm hrun.2.symm
  · cases he : E.expand seed cs thr docs with
    | error e => rw [he] at hrun; cases hrun
    | ok new =>
      rw [he] at hrun
      simp only [bind, Except.bind] at hrun
      split at hrun
      · simp only [Except.ok.injEq, Prod.mk.injEq] at hrun
        exact triv hrun.1.symm hrun.2.symm
      · rw [h.ivfLengths, h.metadata] at hrun
        simp only [] at hrun
        rw [if_neg (by simp)] at hrun
        simp only [List.length_map, List.length_range, Except.ok.injEq, Prod.mk.injEq] at hrun
        obtain ⟨rfl, rfl⟩ := hrun
        refine ⟨new, rfl, ?_, by constructor <;> rfl, rfl⟩
        have hnil : ∀ c, cs.length ≤ c → postingFrom 0 ch.flatten c = [] := fun c hc =>
          postingFrom_nil_of_lt c _ _ (fun doc hd t ht => by have := h.codes doc hd t ht; omega)
        have hmap : (List.range (cs ++ new).length).map (postingFrom 0 ch.flatten) =
            (List.range cs.length).map (postingFrom 0 ch.flatten) ++
              List.replicate new.length [] := by
          rw [List.length_append, List.range_add, List.map_append, List.map_map]
          congr 1
          rw [List.eq_replicate_iff]
          refine ⟨by simp, ?_⟩
          intro l hl
          obtain ⟨i, _, rfl⟩ := List.mem_map.1 hl
          exact hnil _ (Nat.le_add_right _ _)
        constructor
        · simp [applyAll, apply]
        · rfl
        · exact h.quant
        · intro j c hj
          exact (h.chunk j c hj).mono ⟨rfl, rfl, rfl, rfl⟩
        · show d.ivf = _
          rw [h.ivf, hmap, List.flatten_append]
          simp
        · show some _ = some _
          rw [hmap]
          congr 1
          simp only [List.map_append, List.map_replicate, List.length_nil]
          congr 2
          omega
        · intro doc hd t ht
          have := h.codes doc hd t ht
          simp only [List.length_append]; omega

/-! ### Deletion -/

theorem deleteChunk_spec {d : Disk E} (ids : List Int) (first : Int) (i : Nat)
    (c : List (List (Nat × E.Pk))) (h : HasChunk d i c) :
    ∃ ws, deleteChunk d ids first i = .ok (ws, (removeFrom ids first c).length,
        (removeFrom ids first c).flatten.length, c.length) ∧
      ∀ d0, SameChunk d d0 i → Frame d0 (applyAll d0 ws) ∧
        HasChunk (applyAll d0 ws) i (removeFrom ids first c) ∧
        ∀ j, j ≠ i → SameChunk d0 (applyAll d0 ws) j := by
  obtain ⟨a1, a2, a3, off, a4⟩ := h
  have hk := keepMask_eq ids c first
  have hm1 := applyMask_keep ids (fun t : Nat × E.Pk => t.1) c first
  have hm2 := applyMask_keep ids (fun t : Nat × E.Pk => t.2) c first
  have hml := keepMask_length ids c first
  let mask := (keepMask ids first (c.map List.length)).2
  have hsum : ((removeFrom ids first c).map List.length).sum = (removeFrom ids first c).flatten.length := by
    rw [List.length_flatten]
  by_cases hlt : (removeFrom ids first c).length < c.length
  · refine ⟨[ .doclens i ((removeFrom ids first c).map List.length),
      .codes i ((removeFrom ids first c).flatten.map (·.1)),
      .residuals i ((removeFrom ids first c).flatten.map (·.2)),
      .chunkMeta i ⟨(removeFrom ids first c).length, (removeFrom ids first c).flatten.length, off⟩ ], ?_, ?_⟩
    · unfold deleteChunk
      rw [a1, a2, a3, a4]
      simp only [need, bind, Except.bind, hk, List.length_map]
      rw [if_pos hlt, applyMaskRows_eq _ _ (by rw [hml, List.length_map]), hm1, hm2]
      simp only [List.length_map, hsum]
    · intro d0 _
      refine ⟨by constructor <;> rfl, ⟨?_, ?_, ?_, off, ?_⟩, ?_⟩
      · simp [applyAll, apply, upd]
      · simp [applyAll, apply, upd]
      · simp [applyAll, apply, upd]
      · simp [applyAll, apply, upd]
      · intro j hj
        refine ⟨?_, ?_, ?_, ?_⟩ <;> simp [applyAll, apply, upd, hj]
  · refine ⟨[], ?_, ?_⟩
    · unfold deleteChunk
      rw [a1]
      simp only [need, bind, Except.bind, hk, List.length_map]
      rw [if_neg hlt]
      simp only [hsum]
    · intro d0 s
      refine ⟨Frame.refl d0, ?_, fun j _ => SameChunk.refl d0 j⟩
      rw [removeFrom_eq_self ids c first hlt]
      exact HasChunk.mono ⟨a1, a2, a3, off, a4⟩ s

/-- Chunkwise removal. -/
def removeChunks {α : Type} (ids : List Int) : Int → List (List α) → List (List α)
  | _, [] => []
  | b, c :: cs => removeFrom ids b c :: removeChunks ids (b + c.length) cs

theorem removeChunks_flatten {α : Type} (ids : List Int) : ∀ (ch : List (List α)) (b : Int),
    (removeChunks ids b ch).flatten = removeFrom ids b ch.flatten
  | [], _ => rfl
  | c :: ch, b => by
    rw [removeChunks, List.flatten_cons, removeChunks_flatten ids ch, List.flatten_cons,
      removeFrom_append]

theorem removeChunks_length {α : Type} (ids : List Int) : ∀ (ch : List (List α)) (b : Int),
    (removeChunks ids b ch).length = ch.length
  | [], _ => rfl
  | c :: ch, b => by rw [removeChunks, List.length_cons, removeChunks_length ids ch]; rfl

theorem deleteChunks_spec {d : Disk E} (ids : List Int) : ∀ (ch : List (List (List (Nat × E.Pk))))
    (n : Nat) (first : Int), (∀ j c, ch[j]? = some c → HasChunk d (n + j) c) →
    ∃ ws, deleteChunks d ids (List.range' n ch.length) first = .ok (ws,
        (removeFrom ids first ch.flatten).length,
        (removeFrom ids first ch.flatten).flatten.length,
        ch.flatten.length - (removeFrom ids first ch.flatten).length) ∧
      ∀ d0, (∀ j, n ≤ j → SameChunk d d0 j) → Frame d0 (applyAll d0 ws) ∧
        (∀ j c, (removeChunks ids first ch)[j]? = some c → HasChunk (applyAll d0 ws) (n + j) c) ∧
        ∀ j, j < n → SameChunk d0 (applyAll d0 ws) j
  | [], n, first, h => ⟨[], by simp [deleteChunks, removeFrom], fun d0 _ => ⟨Frame.refl d0, by
      intro j c hj; simp [removeChunks] at hj, fun j _ => SameChunk.refl d0 j⟩⟩
  | c :: ch, n, first, h => by
    have h0 : HasChunk d n c := h 0 c rfl
    obtain ⟨ws, e1, r1⟩ := deleteChunk_spec ids first n c h0
    obtain ⟨ws', e2, r2⟩ := deleteChunks_spec ids ch (n + 1) (first + c.length) (by
      intro j c' hj
      have := h (j + 1) c' (by simpa using hj)
      rwa [show n + 1 + j = n + (j + 1) by omega])
    refine ⟨ws ++ ws', ?_, ?_⟩
    · rw [List.length_cons, List.range'_succ, deleteChunks, e1]
      simp only [bind, Except.bind]
      rw [e2]
      simp only [List.flatten_cons, removeFrom_append, List.length_append, List.flatten_append,
        Except.ok.injEq, Prod.mk.injEq, true_and]
      have l1 := removeFrom_length_le ids c first
      have l2 := removeFrom_length_le ids ch.flatten (first + c.length)
      omega
    · intro d0 hs
      rw [applyAll_append]
      obtain ⟨f1, c1, s1⟩ := r1 d0 (hs n (Nat.le_refl n))
      obtain ⟨f2, c2, s2⟩ := r2 (applyAll d0 ws) (fun j hj =>
        (hs j (by omega)).trans (s1 j (by omega)))
      refine ⟨f1.trans f2, ?_, ?_⟩
      · intro j c' hj
        cases j with
        | zero =>
          simp only [removeChunks, List.getElem?_cons_zero, Option.some.injEq] at hj
          rw [← hj]
          exact c1.mono (s2 n (by omega))
        | succ j =>
          simp only [removeChunks, List.getElem?_cons_succ] at hj
          have := c2 j c' hj
          rwa [show n + 1 + j = n + (j + 1) by omega] at this
      · intro j hj
        exact (s1 j (by omega)).trans (s2 j (by omega))

theorem nodup_eraseDups' : ∀ (l : List Int), l.eraseDups.Nodup
  | [] => by simp
  | a :: l => by
    rw [List.eraseDups_cons]
    have : (l.filter fun b => !b == a).length < (a :: l).length := by
      have := List.length_filter_le (fun b => !b == a) l
      simp only [List.length_cons]; omega
    refine List.nodup_cons.2 ⟨?_, nodup_eraseDups' _⟩
    rw [List.mem_eraseDups]
    simp
termination_by l => l.length

theorem mem_eraseDups' (ids : List Int) (x : Int) : x ∈ ids.eraseDups ↔ x ∈ ids := List.mem_eraseDups

theorem deleteImpl_spec {d : Disk E} {cs q ch} (h : StoresAt d cs q ch) (docIds : List Int)
    (hid : ∀ x ∈ docIds, 0 ≤ x) (cb : Bool) :
    ∃ ws0 ch', deleteImpl d docIds cb = .ok (ws0 ++ (if cb then
        cleanEmbeddingsFiles d docIds.eraseDups ch.flatten.length else []),
        ch.flatten.length - (removeFrom docIds 0 ch.flatten).length) ∧
      ch'.flatten = removeFrom docIds 0 ch.flatten ∧
      StoresAt (applyAll d ws0) cs q ch' ∧ RawSame d (applyAll d ws0) ∧
      (applyAll d ws0).threshold = d.threshold := by
  let ids := docIds.eraseDups
  have hnd : ids.Nodup := nodup_eraseDups' docIds
  have hmem : ∀ x, x ∈ ids ↔ x ∈ docIds := mem_eraseDups' docIds
  have hrm : removeFrom ids 0 ch.flatten = removeFrom docIds 0 ch.flatten := removeFrom_congr hmem _ _
  obtain ⟨ws, e1, r1⟩ := deleteChunks_spec (d := d) ids ch 0 0 (by
    intro j c hj; rw [Nat.zero_add]; exact h.chunk j c hj)
  obtain ⟨f1, c1, _⟩ := r1 d (fun j _ => SameChunk.refl d j)
  have hpat : patchIvf ids ((List.range cs.length).map (postingFrom 0 ch.flatten)).flatten
      (((List.range cs.length).map (postingFrom 0 ch.flatten)).map List.length) 0 =
      .ok ((List.range cs.length).map (postingFrom 0 (removeFrom ids 0 ch.flatten))) := by
    have := patchIvf_eq ids ((List.range cs.length).map (postingFrom 0 ch.flatten)) []
    rw [List.nil_append, List.length_nil] at this
    rw [this, List.map_map]
    congr 1
    apply List.map_congr_left
    intro c _
    simp only [Function.comp]
    rw [patch_posting ids hnd, shiftOf_nonneg ids (fun x hx => hid x ((hmem x).1 hx))]
    rfl
  let lists := (List.range cs.length).map (postingFrom 0 (removeFrom ids 0 ch.flatten))
  let ws0 : List (Write E) := ws ++ [ .ivf lists.flatten, .ivfLengths (lists.map List.length),
      .metadata ⟨ch.length, cs.length, (removeFrom ids 0 ch.flatten).flatten.length,
        (removeFrom ids 0 ch.flatten).length⟩ ]
  refine ⟨ws0, removeChunks ids 0 ch, ?_, ?_, ?_, ?_, ?_⟩
  · unfold deleteImpl
    rw [loadMeta_spec h]
    simp only [bind, Except.bind]
    rw [List.range_eq_range', e1]
    simp only [h.ivf, h.ivfLengths, need]
    rw [hpat, hrm]
    simp only [ws0, lists, hrm]
  · rw [removeChunks_flatten, hrm]
  · simp only [ws0]
    rw [applyAll_append]
    constructor
    · show some _ = some _
      rw [removeChunks_flatten, removeChunks_length]
    · show (applyAll d ws).centroids = _
      rw [f1.centroids, h.centroids]
    · show (applyAll d ws).quant = _
      rw [f1.quant, h.quant]
    · intro j c hj
      have := c1 j c hj
      rw [Nat.zero_add] at this
      exact this.mono ⟨rfl, rfl, rfl, rfl⟩
    · rw [removeChunks_flatten]; rfl
    · rw [removeChunks_flatten]; rfl
    · rw [removeChunks_flatten]
      intro doc hd
      exact h.codes doc (removeFrom_mem ids doc _ _ hd)
  · simp only [ws0]
    rw [applyAll_append]
    exact f1.raw.trans (by constructor <;> rfl)
  · simp only [ws0]
    rw [applyAll_append]
    exact f1.threshold

end NextPlaid.Index
