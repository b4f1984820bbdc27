import Verif.Spec.Merge
import Verif.Proofs.Npy

namespace NextPlaid.Merge
open NextPlaid.Spec NextPlaid.Npy

abbrev Chunks := Nat → Option ChunkFile

/-- Rows of a chunk the merge uses. -/
def pos (chunks : Chunks) (n i : Nat) : Option (List (List Nat)) :=
  if i < n then (chunks i).bind fun f => if 0 < f.rows.length then some f.rows else none else none

theorem mem_present {chunks : Chunks} {n i : Nat} {f : ChunkFile} :
    (i, f) ∈ present chunks n ↔ i < n ∧ chunks i = some f := by
  unfold present
  rw [List.mem_filterMap]
  constructor
  · rintro ⟨j, hj, h⟩
    rw [Option.map_eq_some_iff] at h
    obtain ⟨g, hg, he⟩ := h
    cases he
    exact ⟨List.mem_range.1 hj, hg⟩
  · rintro ⟨h1, h2⟩
    exact ⟨i, List.mem_range.2 h1, by rw [h2]; rfl⟩

theorem mem_scanned {chunks : Chunks} {n i : Nat} {f : ChunkFile} :
    (i, f) ∈ scanned chunks n ↔ i < n ∧ chunks i = some f ∧ 0 < f.rows.length := by
  unfold scanned
  rw [List.mem_filter, mem_present]
  simp [and_assoc]

theorem scan_aux (chunks : Chunks) (n : Nat) : ∀ L : List Nat, (∀ i ∈ L, i < n) →
    (((L.filterMap fun i => (chunks i).map fun f => (i, f)).filter fun p => decide (0 < p.2.rows.length)).map
      fun c => c.2.rows) = L.filterMap (pos chunks n)
  | [], _ => rfl
  | i :: L, h => by
    have ih := scan_aux chunks n L (fun j hj => h j (List.mem_cons_of_mem _ hj))
    have hi := h i List.mem_cons_self
    rw [List.filterMap_cons, List.filterMap_cons]
    unfold pos
    rw [if_pos hi]
    rcases hc : chunks i with _ | f
    · simp only [Option.map_none, Option.bind_none]
      exact ih
    · simp only [Option.map_some, Option.bind_some]
      by_cases hr : 0 < f.rows.length
      · rw [if_pos hr, List.filter_cons_of_pos (by simpa using hr), List.map_cons]
        simp only
        rw [ih]
        rfl
      · rw [if_neg hr, List.filter_cons_of_neg (by simpa using hr)]
        exact ih

theorem scanned_rows (chunks : Chunks) (n N : Nat) (h : n ≤ N) :
    (scanned chunks n).map (fun c => c.2.rows) = (List.range N).filterMap (pos chunks n) := by
  obtain ⟨e, rfl⟩ : ∃ e, N = n + e := ⟨N - n, by omega⟩
  rw [List.range_add, List.filterMap_append]
  have h2 : ((List.range e).map (n + ·)).filterMap (pos chunks n) = [] := by
    rw [List.filterMap_eq_nil_iff]
    intro i hi
    obtain ⟨j, _, rfl⟩ := List.mem_map.1 hi
    unfold pos
    rw [if_neg (by omega)]
  rw [h2, List.append_nil]
  exact scan_aux chunks n (List.range n) (fun i hi => List.mem_range.1 hi)

theorem totalRows_eq (cs : List (Nat × ChunkFile)) : totalRows cs = ((cs.map fun c => c.2.rows).map List.length).sum := by
  unfold totalRows
  rw [List.map_map]
  rfl

/-- Two families of optional non-empty blocks, one inside the other, with the same total. -/
theorem filterMap_eq_of_sum {α : Type} (a b : Nat → Option (List α)) (hb : ∀ i x, b i = some x → 0 < x.length)
    (hab : ∀ i x, a i = some x → b i = some x) : ∀ L : List Nat,
    ((L.filterMap a).map List.length).sum ≤ ((L.filterMap b).map List.length).sum ∧
    (((L.filterMap a).map List.length).sum = ((L.filterMap b).map List.length).sum → L.filterMap a = L.filterMap b)
  | [] => by simp
  | i :: L => by
    obtain ⟨ih1, ih2⟩ := filterMap_eq_of_sum a b hb hab L
    rcases ha : a i with _ | x
    · rcases hbi : b i with _ | y
      · rw [List.filterMap_cons_none ha, List.filterMap_cons_none hbi]
        exact ⟨ih1, ih2⟩
      · have := hb i y hbi
        rw [List.filterMap_cons_none ha, List.filterMap_cons_some hbi, List.map_cons, List.sum_cons]
        exact ⟨by omega, fun h => by omega⟩
    · rw [List.filterMap_cons_some ha, List.filterMap_cons_some (hab i x ha), List.map_cons, List.sum_cons,
        List.map_cons, List.sum_cons]
      refine ⟨by omega, fun h => ?_⟩
      rw [ih2 (by omega)]

theorem body_congr (k : Kind) (c s : Chunks) (n n0 p : Nat)
    (h : (scanned c n).map (fun x => x.2.rows) = (scanned s n0).map (fun x => x.2.rows))
    (hn : ncolsOf k c n = ncolsOf k s n0) : body k c n p = body k s n0 p := by
  have hm : ∀ cs : List (Nat × ChunkFile), (cs.map fun c => c.2.rows.flatten) = (cs.map fun c => c.2.rows).map List.flatten := by
    intro cs; rw [List.map_map]; rfl
  unfold body
  rw [totalRows_eq, totalRows_eq, hm, hm, h, hn]

/-- The file and the manifest describe the chunk files `s`. -/
structure Describes (k : Kind) (d : Dir) (s : Chunks) (n0 p0 : Nat) (m : Manifest) : Prop where
  chunks : m.chunks = (scanned s n0).map fun c => (c.1, { rows := c.2.rows.length, mtime := c.2.mtime })
  padding : m.padding = p0
  num : m.numChunks = n0
  total : m.totalRows = totalRows (scanned s n0) + p0
  ncols : m.ncols = ncolsOf k s n0
  cols : k.needCols = true → ncolsOf k s n0 ≠ 0
  file : ∀ f, d.merged = some f → f = body k s n0 p0

theorem clean_spec {k : Kind} {d : Dir} {s : Chunks} {n0 p0 : Nat} {m : Manifest} (h : Describes k d s n0 p0 m)
    {i : Nat} {f : ChunkFile} (hc : isClean (some m) (i, f) = true) :
    ∃ g, i < n0 ∧ s i = some g ∧ 0 < g.rows.length ∧ g.mtime = f.mtime ∧ g.rows.length = f.rows.length := by
  unfold isClean at hc
  simp only at hc
  split at hc
  · cases hc
  · rename_i e he
    have hmem := List.mem_of_find?_eq_some he
    have hkey := List.find?_some he
    rw [h.chunks] at hmem
    obtain ⟨⟨j, g⟩, hg, rfl⟩ := List.mem_map.1 hmem
    simp only [beq_iff_eq] at hkey
    subst hkey
    rw [mem_scanned] at hg
    rw [Bool.and_eq_true, beq_iff_eq, beq_iff_eq] at hc
    exact ⟨g, hg.1, hg.2.1, hg.2.2, hc.1, hc.2⟩

theorem reuse_eq {k : Kind} {d : Dir} {s : Chunks} {n0 p0 : Nat} {m : Manifest} (n p : Nat)
    (hm : d.manifest = some m) (h : Describes k d s n0 p0 m)
    (link : ∀ i f g, d.chunks i = some f → s i = some g → f.mtime = g.mtime → f.rows.length = g.rows.length →
      f.rows = g.rows)
    (hr : needsRewrite k d n p = false) : body k d.chunks n p = body k s n0 p0 ∧ p = p0 ∧
      d.merged = some (body k s n0 p0) := by
  unfold needsRewrite at hr
  rw [Bool.or_eq_false_iff, Bool.or_eq_false_iff, hm] at hr
  simp only [Bool.or_eq_false_iff] at hr
  obtain ⟨⟨hr1, hr2⟩, ⟨hr3, hr4⟩, hr5⟩ := hr
  have hp : p = p0 := by
    have : m.padding = p := by simpa using hr3
    rw [← this, h.padding]
  subst hp
  have htot : totalRows (scanned d.chunks n) = totalRows (scanned s n0) := by
    have : m.totalRows = totalRows (scanned d.chunks n) + p := by simpa using hr4
    rw [h.total] at this
    omega
  have hcols : ncolsOf k d.chunks n = ncolsOf k s n0 := by
    rw [h.ncols] at hr5
    by_cases hneed : k.needCols = true
    · have h0 := h.cols hneed
      rw [Bool.and_eq_false_iff] at hr5
      rcases hr5 with hr5 | hr5
      · have : ncolsOf k s n0 = ncolsOf k d.chunks n := by simpa using hr5
        exact this.symm
      · exact absurd (by simpa using hr5) h0
    · unfold ncolsOf
      rw [if_neg hneed, if_neg hneed]
  have hrows : (scanned d.chunks n).map (fun x => x.2.rows) = (scanned s n0).map (fun x => x.2.rows) := by
    rw [totalRows_eq, totalRows_eq, scanned_rows _ n (max n n0) (by omega),
      scanned_rows _ n0 (max n n0) (by omega)] at htot
    rw [scanned_rows _ n (max n n0) (by omega), scanned_rows _ n0 (max n n0) (by omega)]
    refine (filterMap_eq_of_sum (pos d.chunks n) (pos s n0) ?_ ?_ (List.range (max n n0))).2 htot
    · intro i x hx
      unfold pos at hx
      split at hx
      · rw [Option.bind_eq_some_iff] at hx
        obtain ⟨f, _, hf⟩ := hx
        split at hf
        · cases hf; assumption
        · cases hf
      · cases hx
    · intro i x hx
      unfold pos at hx
      split at hx
      · rename_i hi
        rw [Option.bind_eq_some_iff] at hx
        obtain ⟨f, hf1, hf⟩ := hx
        split at hf
        · rename_i hlen
          cases hf
          have hmem : (i, f) ∈ scanned d.chunks n := mem_scanned.2 ⟨hi, hf1, hlen⟩
          have hclean : isClean (some m) (i, f) = true := by
            rw [List.any_eq_false] at hr2
            have := hr2 (i, f) hmem
            simpa using this
          obtain ⟨g, g1, g2, g3, g4, g5⟩ := clean_spec h hclean
          unfold pos
          rw [if_pos g1, g2]
          simp only [Option.bind_some]
          rw [if_pos g3, link i f g hf1 g2 g4.symm g5.symm]
        · cases hf
      · cases hx
  refine ⟨body_congr k _ _ _ _ _ hrows hcols, rfl, ?_⟩
  rcases hmg : d.merged with _ | f
  · rw [hmg] at hr1
    simp at hr1
  · rw [h.file f hmg]

/-- The manifest saved by a merge describes the chunk files. -/
theorem describes_new (k : Kind) (d d' : Dir) (n p : Nat) (hc : k.needCols = true → ncolsOf k d.chunks n ≠ 0)
    (hf : ∀ f, d'.merged = some f → f = body k d.chunks n p) :
    Describes k d' d.chunks n p (newManifest k d n p) :=
  ⟨rfl, rfl, rfl, rfl, rfl, hc, hf⟩

/-- What a successful merge does. -/
theorem merge_cases {k : Kind} {d d' : Dir} {n p : Nat} (h : merge k d n p = .ok d') :
    (fastOk k d n p = true ∧ d' = d) ∨
    (fastOk k d n p = false ∧ (k.needCols = true → ncolsOf k d.chunks n ≠ 0) ∧
      d'.manifest = some (newManifest k d n p) ∧ d'.chunks = d.chunks ∧ d'.metaMtime = d.metaMtime ∧
      (d'.merged = some (body k d.chunks n p) ∨ (needsRewrite k d n p = false ∧ d'.merged = d.merged))) := by
  unfold merge at h
  split at h
  · rename_i hf
    cases h
    exact Or.inl ⟨hf, rfl⟩
  · rename_i hf
    have hf' : fastOk k d n p = false := by simpa using hf
    split at h
    · cases h
    · rename_i hz
      rw [not_or] at hz
      have hc : k.needCols = true → ncolsOf k d.chunks n ≠ 0 := fun h1 h2 => hz.2 ⟨h1, h2⟩
      refine Or.inr ⟨hf', hc, ?_⟩
      split at h
      · unfold rewrite at h
        split at h
        · cases h
        · cases h
          exact ⟨rfl, rfl, rfl, Or.inl rfl⟩
      · rename_i hr
        split at h
        · unfold rewrite at h
          split at h
          · cases h
          · cases h
            exact ⟨rfl, rfl, rfl, Or.inl rfl⟩
        · cases h
          exact ⟨rfl, rfl, rfl, Or.inr ⟨by simpa using hr, rfl⟩⟩

theorem fastOk_spec {k : Kind} {d : Dir} {n p : Nat} (h : fastOk k d n p = true) :
    ∃ m f, d.manifest = some m ∧ d.merged = some f ∧ m.numChunks = n ∧ m.padding = p ∧
      m.metaMtime - d.metaMtime < 1000000 ∧ d.metaMtime - m.metaMtime < 1000000 := by
  unfold fastOk at h
  split at h
  · rename_i m f hm hf
    simp only [Bool.and_eq_true, beq_iff_eq, decide_eq_true_eq] at h
    exact ⟨m, f, hm, hf, h.1.1.1.1.1.1.1, h.1.1.1.1.1.1.2, h.1.2.1, h.1.2.2⟩
  · cases h

theorem history_inv {k : Kind} {content} {d : Dir} {s : Chunks} (h : History k content d s) :
    Stamped content s ∧ Stamped content d.chunks ∧
      ∀ m, d.manifest = some m → ∃ n0 p0, Describes k d s n0 p0 m := by
  induction h with
  | start d h1 h2 h3 => exact ⟨h3, h3, fun m hm => by rw [h2] at hm; cases hm⟩
  | edit chunks t _ hs ih =>
    refine ⟨ih.1, hs, fun m hm => ?_⟩
    obtain ⟨n0, p0, hd⟩ := ih.2.2 m hm
    exact ⟨n0, p0, hd.1, hd.2, hd.3, hd.4, hd.5, hd.6, hd.7⟩
  | clear _ ih => exact ⟨ih.1, ih.2.1, fun m hm => by cases hm⟩
  | lose _ ih =>
    refine ⟨ih.1, ih.2.1, fun m hm => ?_⟩
    obtain ⟨n0, p0, hd⟩ := ih.2.2 m hm
    exact ⟨n0, p0, hd.1, hd.2, hd.3, hd.4, hd.5, hd.6, fun f hf => by cases hf⟩
  | @merge d s d' n p _ hm ih =>
    rcases merge_cases hm with ⟨hf, rfl⟩ | ⟨hf, hc, h1, h2, h3, h4⟩
    · rw [if_pos hf]; exact ih
    · rw [if_neg (by simp [hf])]
      refine ⟨ih.2.1, h2 ▸ ih.2.1, fun m hm' => ?_⟩
      rw [h1] at hm'
      cases hm'
      refine ⟨n, p, describes_new k d d' n p hc ?_⟩
      intro f hf'
      rcases h4 with h4 | ⟨hr, h4⟩
      · rw [h4] at hf'; cases hf'; rfl
      · rw [h4] at hf'
        rcases hman : d.manifest with _ | m
        · unfold needsRewrite at hr
          rw [hman] at hr
          simp at hr
        · obtain ⟨n0, p0, hd⟩ := ih.2.2 m hman
          have hreuse := reuse_eq n p hman hd (fun i f g hf hg e1 e2 => by
            rw [← ih.2.1 i f hf, ← ih.1 i g hg, e1, e2]) hr
          rw [hreuse.2.2] at hf'
          cases hf'
          exact hreuse.1.symm

/-- Chunk files that agree below `n` give the same file. -/
theorem body_agree (k : Kind) (c s : Chunks) (n p : Nat) (h : ∀ i < n, c i = s i) : body k c n p = body k s n p := by
  have hp : present c n = present s n := by
    unfold present
    apply List.filterMap_congr
    intro i hi
    rw [h i (List.mem_range.1 hi)]
  unfold body ncolsOf scanned
  rw [hp]

theorem merge_correct {k : Kind} {content} {d d' : Dir} {s : Chunks} (h : History k content d s) (n p : Nat)
    (hmeta : ∀ m, d.manifest = some m → m.metaMtime - d.metaMtime < 1000000 → d.metaMtime - m.metaMtime < 1000000 →
      ∀ i < n, d.chunks i = s i)
    (hm : merge k d n p = .ok d') : d'.merged = some (body k d.chunks n p) := by
  obtain ⟨hs, hd, hman⟩ := history_inv h
  rcases merge_cases hm with ⟨hf, rfl⟩ | ⟨hf, hc, h1, h2, h3, h4⟩
  · obtain ⟨m, f, e1, e2, e3, e4, e5, e6⟩ := fastOk_spec hf
    obtain ⟨n0, p0, hdesc⟩ := hman m e1
    have hn : n0 = n := by rw [← hdesc.num, e3]
    have hp : p0 = p := by rw [← hdesc.padding, e4]
    subst hn hp
    rw [e2, hdesc.file f e2, body_agree k d'.chunks s n0 p0 (hmeta m e1 e5 e6)]
  · rcases h4 with h4 | ⟨hr, h4⟩
    · exact h4
    · rw [h4]
      rcases hman' : d.manifest with _ | m
      · unfold needsRewrite at hr
        rw [hman'] at hr
        simp at hr
      · obtain ⟨n0, p0, hdesc⟩ := hman m hman'
        have hreuse := reuse_eq n p hman' hdesc (fun i f g hf hg e1 e2 => by
            rw [← hd i f hf, ← hs i g hg, e1, e2]) hr
        rw [hreuse.2.2, hreuse.1]

theorem lib_inv {k : Kind} {d : Dir} (h : LibHistory k d) :
    ∀ m, d.manifest = some m → ∃ n0 p0, Describes k d d.chunks n0 p0 m := by
  induction h with
  | start d h1 h2 => exact fun m hm => by rw [h2] at hm; cases hm
  | change chunks t _ ih => exact fun m hm => by cases hm
  | @merge d d' n p _ hm ih =>
    rcases merge_cases hm with ⟨hf, rfl⟩ | ⟨hf, hc, h1, h2, h3, h4⟩
    · exact ih
    · intro m hm'
      rw [h1] at hm'
      cases hm'
      refine ⟨n, p, h2 ▸ describes_new k d d' n p hc ?_⟩
      intro f hf'
      rcases h4 with h4 | ⟨hr, h4⟩
      · rw [h4] at hf'; cases hf'; rfl
      · rw [h4] at hf'
        rcases hman : d.manifest with _ | m
        · unfold needsRewrite at hr
          rw [hman] at hr
          simp at hr
        · obtain ⟨n0, p0, hd⟩ := ih m hman
          have hreuse := reuse_eq n p hman hd (fun i f g hf hg e1 e2 => by rw [hf] at hg; cases hg; rfl) hr
          rw [hreuse.2.2] at hf'
          cases hf'
          exact hreuse.1.symm

theorem lib_correct {k : Kind} {d d' : Dir} (h : LibHistory k d) (n p : Nat) (hm : merge k d n p = .ok d') :
    d'.merged = some (body k d.chunks n p) := by
  have hman := lib_inv h
  rcases merge_cases hm with ⟨hf, rfl⟩ | ⟨hf, hc, h1, h2, h3, h4⟩
  · obtain ⟨m, f, e1, e2, e3, e4, e5, e6⟩ := fastOk_spec hf
    obtain ⟨n0, p0, hdesc⟩ := hman m e1
    have hn : n0 = n := by rw [← hdesc.num, e3]
    have hp : p0 = p := by rw [← hdesc.padding, e4]
    subst hn hp
    rw [e2, hdesc.file f e2]
  · rcases h4 with h4 | ⟨hr, h4⟩
    · exact h4
    · rw [h4]
      rcases hman' : d.manifest with _ | m
      · unfold needsRewrite at hr
        rw [hman'] at hr
        simp at hr
      · obtain ⟨n0, p0, hdesc⟩ := hman m hman'
        have hreuse := reuse_eq n p hman' hdesc (fun i f g hf hg e1 e2 => by rw [hf] at hg; cases hg; rfl) hr
        rw [hreuse.2.2, hreuse.1]

/-! ### The file, independently of the scan -/

theorem allRows_eq (chunks : Chunks) (n : Nat) : allRows chunks n = ((scanned chunks n).map fun c => c.2.rows).flatten := by
  rw [scanned_rows chunks n n (Nat.le_refl _)]
  unfold allRows
  have : ∀ L : List Nat, (∀ i ∈ L, i < n) →
      (L.flatMap fun i => match chunks i with | none => [] | some f => f.rows) = (L.filterMap (pos chunks n)).flatten := by
    intro L hL
    induction L with
    | nil => rfl
    | cons i L ih =>
      have hi := hL i List.mem_cons_self
      rw [List.flatMap_cons, List.filterMap_cons, ih (fun j hj => hL j (List.mem_cons_of_mem _ hj))]
      unfold pos
      rw [if_pos hi]
      rcases chunks i with _ | f
      · rfl
      · simp only [Option.bind_some]
        by_cases hlen : 0 < f.rows.length
        · rw [if_pos hlen]
          rfl
        · rw [if_neg hlen]
          have : f.rows = [] := List.length_eq_zero_iff.1 (by omega)
          rw [this]
          rfl
  exact this (List.range n) (fun i hi => List.mem_range.1 hi)

theorem totalRows_allRows (chunks : Chunks) (n : Nat) : totalRows (scanned chunks n) = (allRows chunks n).length := by
  rw [allRows_eq, totalRows_eq, List.length_flatten]

theorem data_eq (chunks : Chunks) (n : Nat) :
    ((scanned chunks n).map fun c => c.2.rows.flatten).flatten = (allRows chunks n).flatten := by
  rw [allRows_eq]
  have hm : ((scanned chunks n).map fun c => c.2.rows.flatten) = ((scanned chunks n).map fun c => c.2.rows).map List.flatten := by
    rw [List.map_map]; rfl
  rw [hm, List.flatten_flatten]

theorem body_eq (k : Kind) (chunks : Chunks) (n p : Nat) : body k chunks n p =
    k.header ((allRows chunks n).length + p) (ncolsOf k chunks n) ++
      (allRows chunks n ++ List.replicate p (List.replicate (k.width (ncolsOf k chunks n)) 0)).flatten := by
  unfold body
  rw [totalRows_allRows, data_eq, List.flatten_append, List.append_assoc]

theorem ncolsOf_same {k : Kind} {chunks : Chunks} {c n : Nat} (h : SameWidth k chunks c)
    (hne : allRows chunks n ≠ []) : ncolsOf k chunks n = if k.needCols then c else 0 := by
  unfold ncolsOf
  split
  · have hp : present chunks n ≠ [] := by
      intro hp
      apply hne
      rw [allRows_eq]
      unfold scanned
      rw [hp]
      rfl
    obtain ⟨q, hq⟩ : ∃ q, (present chunks n).getLast? = some q := by
      rcases hl : (present chunks n).getLast? with _ | q
      · rw [List.getLast?_eq_none_iff] at hl
        exact absurd hl hp
      · exact ⟨q, rfl⟩
    rw [hq]
    have hmem := List.mem_of_getLast? hq
    obtain ⟨i, f⟩ := q
    rw [mem_present] at hmem
    simp [(h i f hmem.2).1]
  · rfl

theorem allRows_width {k : Kind} {chunks : Chunks} {c n : Nat} (h : SameWidth k chunks c) :
    ∀ r ∈ allRows chunks n, r.length = k.width c := by
  intro r hr
  unfold allRows at hr
  obtain ⟨i, _, hi⟩ := List.mem_flatMap.1 hr
  rcases hc : chunks i with _ | f
  · rw [hc] at hi; cases hi
  · rw [hc] at hi
    exact (h i f hc).2 r hi

end NextPlaid.Merge
