import Verif.Proofs.Search4

/-! Search: no `Err` from a single search, batches of queries, reconstruction. -/

namespace NextPlaid.Search
open NextPlaid NextPlaid.Index NextPlaid.Spec

variable {E : Env} {α : Type} [LinearOrder α]

/-- Never `Err`: a value or a panic. -/
def NoErr {β : Type} (r : Res β) : Prop := r ≠ .error .err

theorem NoErr.bind {β γ : Type} {x : Res β} {f : β → Res γ} (hx : NoErr x) (hf : ∀ a, NoErr (f a)) :
    NoErr (x >>= f) := by
  cases x with
  | ok a => exact hf a
  | error e => cases e with
    | err => exact absurd rfl hx
    | panic => intro h; cases h

theorem NoErr.ok {β : Type} (a : β) : NoErr (.ok a : Res β) := fun h => by cases h

theorem NoErr.mapM {β γ : Type} {f : β → Res γ} (hf : ∀ a, NoErr (f a)) : ∀ (l : List β), NoErr (l.mapM f)
  | [] => .ok _
  | a :: l => by
    rw [mapM_cons_eq]
    exact (hf a).bind fun _ => (NoErr.mapM hf l).bind fun _ => .ok _

theorem NoErr.foldlM {β γ : Type} {f : β → γ → Res β} (hf : ∀ b a, NoErr (f b a)) : ∀ (l : List γ) (b : β),
    NoErr (l.foldlM f b)
  | [], b => .ok b
  | a :: l, b => by
    rw [List.foldlM_cons]
    exact (hf b a).bind fun b' => NoErr.foldlM hf l b'

theorem NoErr.ite {β : Type} {c : Prop} [Decidable c] {x y : Res β} (hx : NoErr x) (hy : NoErr y) :
    NoErr (if c then x else y) := by split <;> assumption

theorem NoErr.panic {β : Type} : NoErr (.error .panic : Res β) := fun h => by cases h

theorem noErr_idx {β : Type} (l : List β) (i : Nat) : NoErr (idx l i) := by
  unfold idx; split
  · exact .ok _
  · exact .panic

theorem noErr_slice {β : Type} (l : List β) (s e : Nat) : NoErr (slice l s e) := by
  unfold slice; exact NoErr.ite .panic (.ok _)

theorem noErr_docCodes (x : Loaded E) (id : Int) : NoErr (docCodes x id) := by
  unfold docCodes
  refine NoErr.ite .panic ?_
  exact (noErr_idx _ _).bind fun _ => (noErr_idx _ _).bind fun _ => noErr_slice _ _ _

theorem noErr_searchOne (o : Oracle α) (N : Num E α) (x : Loaded E) (query : List N.Q) (p : Params α)
    (subset : Option (List Int)) : NoErr (searchOne o N x query p subset) := by
  have hcand : ∀ cells, NoErr (x.candidates cells) := by
    intro cells
    unfold Loaded.candidates
    refine NoErr.bind (NoErr.mapM (fun c => NoErr.ite ?_ (.ok _)) cells) fun _ => .ok _
    exact (noErr_idx _ _).bind fun _ => (noErr_idx _ _).bind fun _ => noErr_slice _ _ _
  have hgather : ∀ cells, NoErr (gather x cells subset) := by
    intro cells
    unfold gather
    exact (hcand cells).bind fun _ => .ok _
  have hrank : ∀ approx, NoErr (rank N x query p approx) := by
    intro approx
    unfold rank
    refine NoErr.ite (.ok _) ?_
    rw [exactScores_eq]
    refine NoErr.bind (NoErr.bind (NoErr.mapM ?_ _) fun _ => .ok _) fun _ => .ok _
    intro id
    unfold exactOne
    refine NoErr.ite (.ok _) ?_
    split
    · exact .ok _
    · exact .ok _
    · exact .panic
  unfold searchOne
  refine NoErr.ite ?_ ?_
  · unfold searchBatched
    refine NoErr.bind ?_ fun cells => (hgather cells).bind fun cands => NoErr.ite (.ok _) (NoErr.bind ?_ hrank)
    · unfold probeBatched; exact NoErr.ite .panic (.ok _)
    · unfold approxBatched
      refine (NoErr.mapM (noErr_docCodes x) cands).bind fun codes => NoErr.bind ?_ fun sp => NoErr.mapM ?_ _
      · unfold buildSparse
        exact NoErr.mapM (fun c => (noErr_idx _ _).bind fun _ => .ok _) _
      · intro id
        refine (noErr_docCodes x id).bind fun cs => NoErr.bind ?_ fun _ => .ok _
        unfold approxSparse
        refine NoErr.foldlM (fun b q => NoErr.bind (NoErr.mapM ?_ _) fun _ => .ok _) _ _
        intro c
        unfold sparseSim
        split
        · exact (noErr_idx _ _).bind fun _ => .ok _
        · exact .ok _
  · unfold searchStandard
    refine NoErr.bind ?_ fun el => NoErr.bind ?_ fun cells => (hgather cells).bind fun cands =>
      NoErr.ite (.ok _) (NoErr.bind ?_ hrank)
    · cases subset with
      | none => exact .ok _
      | some sub =>
        unfold eligibleOf
        refine NoErr.bind ?_ fun _ => .ok _
        unfold eligibleCentroids
        exact NoErr.foldlM (fun b id => NoErr.ite ((noErr_docCodes x id).bind fun _ => .ok _) (.ok _)) _ _
    · unfold probeStandard
      refine NoErr.bind (NoErr.mapM ?_ _) fun per => NoErr.bind ?_ fun _ => .ok _
      · intro row
        unfold probeToken
        refine NoErr.bind (NoErr.mapM (fun c => (noErr_idx _ _).bind fun _ => .ok _) _) fun sc => ?_
        unfold takeBest
        exact NoErr.ite (NoErr.ite .panic (.ok _)) (.ok _)
      · unfold thresholdFilter
        split
        · exact .ok _
        · refine NoErr.bind (NoErr.mapM (fun c => NoErr.bind ?_ fun _ => .ok _) _) fun _ => .ok _
          unfold columnMax
          exact NoErr.bind (NoErr.mapM (fun row => noErr_idx _ _) _) fun _ => .ok _
    · unfold approxStandard
      refine NoErr.mapM (fun id => (noErr_docCodes x id).bind fun cs => NoErr.bind ?_ fun _ => .ok _) _
      unfold approxDense
      exact NoErr.foldlM (fun b row => NoErr.bind (NoErr.mapM (fun c => noErr_idx _ _) _) fun _ => .ok _) _ _

theorem searchMany_modes (os : Nat → Oracle α) (N : Num E α) (x : Loaded E) (queries : List (List N.Q))
    (p : Params α) (subset : Option (List Int)) :
    searchMany os N x queries p true subset = searchMany os N x queries p false subset := by
  unfold searchMany
  rw [if_pos rfl, if_neg (by simp)]
  refine mapM_congr ?_
  intro qi _
  have := noErr_searchOne (os qi.2) N x qi.1 p subset
  cases h : searchOne (os qi.2) N x qi.1 p subset with
  | ok r => rfl
  | error e =>
    cases e with
    | err => exact absurd h this
    | panic => rfl

theorem searchMany_spec {os : Nat → Oracle α} {N : Num E α} {x : Loaded E} {queries : List (List N.Q)}
    {p : Params α} {parallel : Bool} {subset : Option (List Int)} {rs}
    (h : searchMany os N x queries p parallel subset = .ok rs) :
    rs.length = queries.length ∧ ∀ (i : Nat) q, queries[i]? = some q → ∃ r,
      searchOne (os i) N x q p subset = .ok r ∧ rs[i]? = some { r with queryId := i } := by
  have h' : searchMany os N x queries p false subset = .ok rs := by
    cases parallel with
    | true => rw [← searchMany_modes]; exact h
    | false => exact h
  unfold searchMany at h'
  rw [if_neg (by simp)] at h'
  have hl := mapM_length h'
  rw [List.length_zipIdx] at hl
  refine ⟨hl, ?_⟩
  intro i q hq
  have hi := (List.getElem?_eq_some_iff.1 hq).1
  have := mapM_get h' i (q, i) (rs[i]'(by omega)) (by rw [List.getElem?_zipIdx, hq]; simp)
    (List.getElem?_eq_getElem _)
  obtain ⟨r, h1, h2⟩ := bind_ok this
  simp only [Except.ok.injEq] at h2
  refine ⟨r, h1, ?_⟩
  rw [List.getElem?_eq_getElem (by omega), ← h2]

theorem searchMany_ok {os : Nat → Oracle α} {N : Num E α} {x : Loaded E} {queries : List (List N.Q)}
    {p : Params α} (parallel : Bool) {subset : Option (List Int)}
    (h : ∀ (i : Nat) q, queries[i]? = some q → ∃ r, searchOne (os i) N x q p subset = .ok r) :
    ∃ rs, searchMany os N x queries p parallel subset = .ok rs := by
  have : ∃ rs, searchMany os N x queries p false subset = .ok rs := by
    unfold searchMany
    rw [if_neg (by simp)]
    refine mapM_exists ?_
    intro qi hqi
    obtain ⟨i, hi⟩ := List.mem_iff_getElem?.1 hqi
    rw [List.getElem?_zipIdx] at hi
    obtain ⟨q, hq, rfl⟩ := Option.map_eq_some_iff.1 hi
    obtain ⟨r, hr⟩ := h (0 + i) q (by simpa using hq)
    simp only []
    rw [hr]
    exact ⟨_, rfl⟩
  cases parallel with
  | false => exact this
  | true => rw [searchMany_modes]; exact this

/-- The reads of one document, seen from `docTokens`. -/
theorem docTokens_inv {x : Loaded E} {i : Nat} {toks} (h : x.docTokens i = .ok toks) :
    ∃ s e cs rs, idx x.docOffsets i = .ok s ∧ idx x.docOffsets (i + 1) = .ok e ∧
      slice x.codes s e = .ok cs ∧ slice x.residuals s e = .ok rs ∧ toks = cs.zip rs ∧ toks.length = e - s := by
  unfold Loaded.docTokens at h
  split at h
  · cases h
  · obtain ⟨s, h1, h⟩ := bind_ok h
    obtain ⟨e, h2, h⟩ := bind_ok h
    obtain ⟨cs, h3, h⟩ := bind_ok h
    obtain ⟨rs, h4, h⟩ := bind_ok h
    cases h
    refine ⟨s, e, cs, rs, h1, h2, h3, h4, rfl, ?_⟩
    rw [List.length_zip, slice_length h3, slice_length h4]
    simp

theorem reconstructOne {N : Num E α} {x : Loaded E} {i : Nat} {toks} (h : x.docTokens i = .ok toks) :
    (do
      let s ← idx x.docOffsets i
      let e ← idx x.docOffsets (i + 1)
      if e - s = 0 then Except.ok []
      else do
        let codes ← slice x.codes s e
        let res ← slice x.residuals s e
        N.decode x.centroids x.quant (codes.zip res)) =
      if toks = [] then .ok [] else N.decode x.centroids x.quant toks := by
  obtain ⟨s, e, cs, rs, h1, h2, h3, h4, h5, h6⟩ := docTokens_inv h
  rw [h1]
  simp only [bind, Except.bind]
  rw [h2]
  simp only []
  by_cases h0 : toks = []
  · rw [if_pos h0, if_pos (by rw [← h6, h0]; rfl)]
  · rw [if_neg h0, if_neg (by
      rw [← h6]; intro h; exact h0 (List.eq_nil_iff_length_eq_zero.2 h)), h3]
    simp only []
    rw [h4, h5]

theorem reconstruct_spec {N : Num E α} {x : Loaded E} (hs : Sound x) {ids : List Int}
    (hval : ∀ id ∈ ids, 0 ≤ id ∧ id < (x.numDocuments : Int))
    (hdec : ∀ i toks, x.docTokens i = .ok toks → toks ≠ [] → ∃ v, N.decode x.centroids x.quant toks = .ok v) :
    ∃ vs, reconstruct N x ids = .ok vs ∧ vs.length = ids.length ∧
      ∀ (i : Nat) id, ids[i]? = some id → ∃ toks v, x.docTokens id.toNat = .ok toks ∧ vs[i]? = some v ∧
        (toks = [] → v = []) ∧ (toks ≠ [] → N.decode x.centroids x.quant toks = .ok v) := by
  have hstep : ∀ id ∈ ids, ∃ toks, x.docTokens id.toNat = .ok toks := by
    intro id hid
    obtain ⟨toks, ht, _⟩ := hs.tokens id.toNat (by have := hval id hid; omega)
    exact ⟨toks, ht⟩
  unfold reconstruct
  rw [if_neg (by
    rw [List.any_eq_true]
    rintro ⟨id, hid, h⟩
    have := hval id hid
    simp only [decide_eq_true_eq] at h
    omega)]
  obtain ⟨vs, hvs⟩ := mapM_exists (f := fun (id : Int) => (do
      let s ← idx x.docOffsets id.toNat
      let e ← idx x.docOffsets (id.toNat + 1)
      if e - s = 0 then Except.ok []
      else do
        let codes ← slice x.codes s e
        let res ← slice x.residuals s e
        N.decode x.centroids x.quant (codes.zip res) : Res (List N.V))) (l := ids) (by
    intro id hid
    obtain ⟨toks, ht⟩ := hstep id hid
    rw [reconstructOne ht]
    split
    · exact ⟨_, rfl⟩
    · next h => exact hdec _ _ ht h)
  have hl := mapM_length hvs
  refine ⟨vs, hvs, hl, ?_⟩
  intro i id hid
  obtain ⟨toks, ht⟩ := hstep id (List.mem_of_getElem? hid)
  have hi := (List.getElem?_eq_some_iff.1 hid).1
  have hv : vs[i]? = some (vs[i]'(by omega)) := List.getElem?_eq_getElem _
  have h1 := mapM_get hvs i id _ hid hv
  rw [reconstructOne ht] at h1
  refine ⟨toks, _, ht, hv, ?_, ?_⟩
  · intro h0; rw [if_pos h0] at h1; simp only [Except.ok.injEq] at h1; exact h1.symm
  · intro h0; rw [if_neg h0] at h1; exact h1

end NextPlaid.Search
