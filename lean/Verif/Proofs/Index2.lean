import Verif.Proofs.Index
import Verif.Spec.Index

/-! The invariant relating a directory to a list of raw documents, and its preservation. -/

namespace NextPlaid.Index
open NextPlaid.Spec

variable {E : Env}

/-- `enc` is the compressed form of `r` against an initial part of the centroids. -/
def EncOf (cs : List E.Cent) (q : E.Quant) (enc : List (Nat × E.Pk)) (r : List E.Row) : Prop :=
  ∃ k, 0 < k ∧ k ≤ cs.length ∧ enc = r.map (E.encode (cs.take k) q)

/-- Pointwise `EncOf`. -/
def EncAll (cs : List E.Cent) (q : E.Quant) (encs : List (List (Nat × E.Pk))) (raw : List (List E.Row)) : Prop :=
  encs.length = raw.length ∧ ∀ (i : Nat) r, raw[i]? = some r → ∃ e, encs[i]? = some e ∧ EncOf cs q e r

/-- The index part of the invariant. -/
def Idx (d : Disk E) (raw : List (List E.Row)) : Prop :=
  ∃ cs q ch, cs ≠ [] ∧ StoresAt d cs q ch ∧ EncAll cs q ch.flatten raw

theorem EncOf.mono {cs : List E.Cent} {q enc r} (h : EncOf cs q enc r) (new : List E.Cent) :
    EncOf (cs ++ new) q enc r := by
  obtain ⟨k, h1, h2, h3⟩ := h
  refine ⟨k, h1, by simp; omega, ?_⟩
  rw [List.take_append_of_le_length h2]; exact h3

theorem EncAll.mono {cs : List E.Cent} {q enc r} (h : EncAll cs q enc r) (new : List E.Cent) :
    EncAll (cs ++ new) q enc r :=
  ⟨h.1, fun i r hr => by obtain ⟨e, he, h'⟩ := h.2 i r hr; exact ⟨e, he, h'.mono new⟩⟩

theorem EncAll.encDocs (cs : List E.Cent) (q : E.Quant) (hcs : cs ≠ []) (raw : List (List E.Row)) :
    EncAll cs q (encDocs E cs q raw) raw := by
  refine ⟨by simp [Index.encDocs], fun i r hr => ⟨r.map (E.encode cs q), ?_, cs.length, ?_, Nat.le_refl _, ?_⟩⟩
  · simp [Index.encDocs, hr]
  · exact List.length_pos_iff.2 hcs
  · rw [List.take_length]

theorem EncAll.append {cs : List E.Cent} {q e1 r1 e2 r2} (h1 : EncAll cs q e1 r1) (h2 : EncAll cs q e2 r2) :
    EncAll cs q (e1 ++ e2) (r1 ++ r2) := by
  refine ⟨by simp [h1.1, h2.1], fun i r hr => ?_⟩
  by_cases hi : i < r1.length
  · rw [List.getElem?_append_left hi] at hr
    rw [List.getElem?_append_left (by rw [h1.1]; exact hi)]
    exact h1.2 i r hr
  · rw [List.getElem?_append_right (by omega)] at hr
    rw [List.getElem?_append_right (by rw [h1.1]; omega), h1.1]
    exact h2.2 _ r hr

theorem encAll_cons {cs : List E.Cent} {q e es r rs} :
    EncAll cs q (e :: es) (r :: rs) ↔ EncOf cs q e r ∧ EncAll cs q es rs := by
  constructor
  · rintro ⟨h1, h2⟩
    refine ⟨?_, by simpa using h1, fun i r' hr => ?_⟩
    · obtain ⟨e', he, h⟩ := h2 0 r rfl
      simp only [List.getElem?_cons_zero, Option.some.injEq] at he
      rw [he]; exact h
    · obtain ⟨e', he, h⟩ := h2 (i + 1) r' (by simpa using hr)
      exact ⟨e', by simpa using he, h⟩
  · rintro ⟨h, h1, h2⟩
    refine ⟨by simpa using h1, fun i r' hr => ?_⟩
    cases i with
    | zero =>
      simp only [List.getElem?_cons_zero, Option.some.injEq] at hr
      exact ⟨e, rfl, by rw [← hr]; exact h⟩
    | succ i =>
      obtain ⟨e', he, h'⟩ := h2 i r' (by simpa using hr)
      exact ⟨e', by simpa using he, h'⟩

theorem EncAll.remove {cs : List E.Cent} {q} (ids : List Int) : ∀ {es rs} (b : Int), EncAll cs q es rs →
    EncAll cs q (removeFrom ids b es) (removeFrom ids b rs)
  | [], [], b, h => h
  | [], _ :: _, b, h => by have := h.1; simp at this
  | _ :: _, [], b, h => by have := h.1; simp at this
  | e :: es, r :: rs, b, h => by
    obtain ⟨h0, h1⟩ := encAll_cons.1 h
    rw [removeFrom, removeFrom]
    split
    · exact EncAll.remove ids (b + 1) h1
    · exact encAll_cons.2 ⟨h0, EncAll.remove ids (b + 1) h1⟩

theorem removeFrom_eq_deleteIds {α : Type} (ids : List Int) (l : List α) :
    removeFrom ids 0 l = deleteIds ids l := removeFrom_eq_filter ids l 0

/-- Total number of tokens. -/
theorem EncAll.flatten_ne {cs : List E.Cent} {q} : ∀ {es rs}, EncAll cs q es rs → rs.flatten ≠ [] → es.flatten ≠ []
  | [], [], h, hne => by simp at hne
  | [], _ :: _, h, _ => by have := h.1; simp at this
  | _ :: _, [], h, _ => by have := h.1; simp at this
  | e :: es, r :: rs, h, hne => by
    obtain ⟨⟨k, _, _, h0⟩, h1⟩ := encAll_cons.1 h
    rw [List.flatten_cons] at hne ⊢
    intro hnil
    obtain ⟨a, b⟩ := List.append_eq_nil_iff.1 hnil
    rw [h0, List.map_eq_nil_iff] at a
    subst a
    exact EncAll.flatten_ne h1 (by simpa using hne) b

theorem EncAll.flatten_ne' {cs : List E.Cent} {q} : ∀ {es rs}, EncAll cs q es rs → es.flatten ≠ [] → rs.flatten ≠ []
  | [], [], h, hne => by simp at hne
  | [], _ :: _, h, _ => by have := h.1; simp at this
  | _ :: _, [], h, _ => by have := h.1; simp at this
  | e :: es, r :: rs, h, hne => by
    obtain ⟨⟨k, _, _, h0⟩, h1⟩ := encAll_cons.1 h
    rw [List.flatten_cons] at hne ⊢
    intro hnil
    obtain ⟨a, b⟩ := List.append_eq_nil_iff.1 hnil
    subst a
    rw [h0] at hne
    exact EncAll.flatten_ne' h1 (by simpa using hne) b

/-- Loading a directory that satisfies the invariant. -/
theorem Idx.load {d : Disk E} {raw} (h : Idx d raw) (hne : raw.flatten ≠ []) :
    ∃ x, Index.load d = .ok x ∧ Holds x raw ∧ IvfExact x ∧ x.metadata.numDocs = raw.length ∧
      (∀ cents, ∃ l, x.candidates cents = .ok l ∧ l.Pairwise (· < ·) ∧
        ∀ p : Int, p ∈ l ↔ ∃ i : Nat, p = i ∧ ∃ toks, x.docTokens i = .ok toks ∧ ∃ t ∈ toks, t.1 ∈ cents) := by
  obtain ⟨cs, q, ch, hcs, hst, henc⟩ := h
  obtain ⟨x, hx, hs⟩ := load_shows hst (henc.flatten_ne hne)
  have htok : ∀ i toks, x.docTokens i = .ok toks ↔ ch.flatten[i]? = some toks := by
    intro i toks
    constructor
    · intro h
      cases hc : ch.flatten[i]? with
      | none => rw [hs.noTokens i hc] at h; cases h
      | some doc => rw [hs.tokens i doc hc] at h; cases h; rfl
    · exact hs.tokens i toks
  refine ⟨x, hx, ⟨?_, ?_, ?_⟩, ⟨?_, ?_⟩, ?_, ?_⟩
  · rw [hs.numDocs, henc.1]
  · intro i doc hd
    obtain ⟨e, he, k, h1, h2, h3⟩ := henc.2 i doc hd
    refine ⟨k, h1, by rw [hs.centroids]; exact h2, ?_⟩
    rw [hs.tokens i e he, hs.centroids, hs.quant, h3]
  · intro i hi
    exact hs.noTokens i (List.getElem?_eq_none (by rw [henc.1]; exact hi))
  · rw [hs.ivfLen, hs.centroids]
  · intro c hc
    rw [hs.centroids] at hc
    obtain ⟨s, len, h1, h2, h3⟩ := hs.posting c hc
    refine ⟨s, len, _, h1, h2, h3, postingFrom_sorted c _ _, ?_⟩
    intro p
    rw [mem_postingFrom]
    constructor
    · rintro ⟨i, e, doc, hd, t⟩
      exact ⟨i, by omega, doc, (htok i doc).2 hd, t⟩
    · rintro ⟨i, e, doc, hd, t⟩
      exact ⟨i, by omega, doc, (htok i doc).1 hd, t⟩
  · rw [hs.metaDocs, henc.1]
  · intro cents
    obtain ⟨l, h1, h2, h3⟩ := hs.candidates cents
    refine ⟨l, h1, h2, fun p => (h3 p).trans ?_⟩
    constructor
    · rintro ⟨i, e, doc, hd, t⟩
      exact ⟨i, e, doc, (htok i doc).2 hd, t⟩
    · rintro ⟨i, e, doc, hd, t⟩
      exact ⟨i, e, doc, (htok i doc).1 hd, t⟩

/-- Loading fails when there is no token at all. -/
theorem Idx.load_empty {d : Disk E} {raw} (h : Idx d raw) (x : Loaded E) (hx : Index.load d = .ok x) :
    raw.flatten ≠ [] := by
  obtain ⟨cs, q, ch, hcs, hst, henc⟩ := h
  apply henc.flatten_ne'
  intro hnil
  unfold Index.load at hx
  rw [loadMeta_spec hst, hst.centroids, hst.quant, hst.ivf, hst.ivfLengths] at hx
  simp only [need, bind, Except.bind] at hx
  split at hx
  · cases hx
  · have : ∀ pad, mergeRows d.codes ch.length pad 0 = .error .err := by
      intro pad
      unfold mergeRows
      rw [if_pos]
      rw [List.length_eq_zero_iff, List.flatten_eq_nil_iff]
      intro l hl
      obtain ⟨i, hi, rfl⟩ := List.mem_map.1 hl
      have hi' := List.mem_range.1 hi
      have hc := (hst.chunk i ch[i] (List.getElem?_eq_getElem hi')).2.1
      rw [hc]
      have : ch[i].flatten = [] := by
        rw [List.flatten_eq_nil_iff] at hnil ⊢
        intro doc hdoc
        exact hnil doc (List.mem_flatten.2 ⟨_, List.getElem_mem hi', hdoc⟩)
      simp [this]
    rw [this] at hx
    cases hx

theorem loadMeta_docs {d : Disk E} {raw} (h : Idx d raw) : ∃ m, loadMeta d = .ok m ∧ m.numDocs = raw.length := by
  obtain ⟨cs, q, ch, hcs, hst, henc⟩ := h
  exact ⟨_, loadMeta_spec hst, henc.1⟩

/-! ### Raw files -/

theorem loadRaw_spec {β : Type} {rows : Option (List β)} {lens docs} (h : RawFile rows lens docs) :
    loadRaw rows lens = docs := by
  unfold RawFile at h
  split at h
  · next h0 => rw [h.1, h0]; rfl
  · rw [h.1, h.2]; exact splitRows_eq docs

/-- Invariant of a directory reached by library calls: it stores `raw`, and the raw files are in
step. -/
def Inv (d : Disk E) (raw : List (List E.Row)) : Prop := Idx d raw ∧ RawInStep d raw

theorem Idx.of_stores {d : Disk E} {cs q ch raw} (hcs : cs ≠ []) (h : StoresAt d cs q ch)
    (he : EncAll cs q ch.flatten raw) : Idx d raw := ⟨cs, q, ch, hcs, h, he⟩

/-- Changing only the raw files keeps the index part. -/
theorem StoresAt.raw {d d' : Disk E} {cs q ch} (h : StoresAt d cs q ch)
    (h1 : d'.metadata = d.metadata) (h2 : d'.centroids = d.centroids) (h3 : d'.quant = d.quant)
    (h4 : ∀ j, SameChunk d d' j) (h5 : d'.ivf = d.ivf) (h6 : d'.ivfLengths = d.ivfLengths) :
    StoresAt d' cs q ch :=
  ⟨h1.trans h.metadata, h2.trans h.centroids, h3.trans h.quant,
   fun j c hj => (h.chunk j c hj).mono (h4 j), h5.trans h.ivf, h6.trans h.ivfLengths, h.codes⟩

/-- Two directories with the same index files. -/
structure IdxSame (d d' : Disk E) : Prop where
  metadata : d'.metadata = d.metadata
  centroids : d'.centroids = d.centroids
  quant : d'.quant = d.quant
  threshold : d'.threshold = d.threshold
  chunk : ∀ j, SameChunk d d' j
  ivf : d'.ivf = d.ivf
  ivfLengths : d'.ivfLengths = d.ivfLengths

theorem IdxSame.refl (d : Disk E) : IdxSame d d := ⟨rfl, rfl, rfl, rfl, fun j => SameChunk.refl d j, rfl, rfl⟩

theorem IdxSame.trans {d d' d'' : Disk E} (h : IdxSame d d') (h' : IdxSame d' d'') : IdxSame d d'' :=
  ⟨h'.metadata.trans h.metadata, h'.centroids.trans h.centroids, h'.quant.trans h.quant,
   h'.threshold.trans h.threshold, fun j => (h.chunk j).trans (h'.chunk j), h'.ivf.trans h.ivf,
   h'.ivfLengths.trans h.ivfLengths⟩

theorem IdxSame.stores {d d' : Disk E} (s : IdxSame d d') {cs q ch} (h : StoresAt d cs q ch) :
    StoresAt d' cs q ch := h.raw s.metadata s.centroids s.quant s.chunk s.ivf s.ivfLengths

theorem IdxSame.idx {d d' : Disk E} (s : IdxSame d d') {raw} (h : Idx d raw) : Idx d' raw := by
  obtain ⟨cs, q, ch, a, b, c⟩ := h
  exact ⟨cs, q, ch, a, s.stores b, c⟩

theorem clean_idxSame (d d0 : Disk E) (ids : List Int) (n : Nat) :
    IdxSame d (applyAll d (cleanEmbeddingsFiles d0 ids n)) := by
  have h1 : ∀ d : Disk E, IdxSame d (applyAll d (match d0.embNpy, d0.embLens with
   | some flat, some lens =>
     let (rows, newLens) := cleanRows ids 0 lens flat
     if newLens ≠ [] then [.embNpy (some rows), .embLens (some newLens)]
     else [.embNpy none, .embLens none]
   | _, _ => [])) := by
    intro d
    split
    · simp only
      split <;> exact ⟨rfl, rfl, rfl, rfl, fun j => ⟨rfl, rfl, rfl, rfl⟩, rfl, rfl⟩
    · exact IdxSame.refl d
  have h2 : ∀ d : Disk E, IdxSame d (applyAll d (match d0.buffer, d0.bufferLens with
   | some flat, some lens =>
     let first : Int := (n : Int) - (lens.length : Int)
     let (rows, newLens) := cleanRows ids first lens flat
     if newLens ≠ [] then
       [.buffer (some rows), .bufferLens (some newLens), .bufferInfo (some newLens.length)]
     else [.buffer none, .bufferLens none, .bufferInfo none]
   | _, _ => [])) := by
    intro d
    split
    · simp only
      split <;> exact ⟨rfl, rfl, rfl, rfl, fun j => ⟨rfl, rfl, rfl, rfl⟩, rfl, rfl⟩
    · exact IdxSame.refl d
  unfold cleanEmbeddingsFiles
  rw [applyAll_append]
  exact (h1 d).trans (h2 _)

/-- The raw files after deletion. -/
theorem clean_files {d d0 : Disk E} {docs emb mid buf : List (List E.Row)} (hdocs : docs = emb ++ mid ++ buf)
    (he : RawFile d0.embNpy d0.embLens emb) (hb : RawFile d0.buffer d0.bufferLens buf)
    (hs : RawSame d0 d) (ids : List Int) :
    RawFile (applyAll d (cleanEmbeddingsFiles d0 ids docs.length)).embNpy
        (applyAll d (cleanEmbeddingsFiles d0 ids docs.length)).embLens (removeFrom ids 0 emb) ∧
      RawFile (applyAll d (cleanEmbeddingsFiles d0 ids docs.length)).buffer
        (applyAll d (cleanEmbeddingsFiles d0 ids docs.length)).bufferLens
        (removeFrom ids (emb.length + mid.length : Nat) buf) ∧
      (d0.bufferInfo = (if buf = [] then none else some buf.length) →
        (applyAll d (cleanEmbeddingsFiles d0 ids docs.length)).bufferInfo =
        if removeFrom ids (emb.length + mid.length : Nat) buf = [] then none
        else some (removeFrom ids (emb.length + mid.length : Nat) buf).length) := by
  have hfirst : (docs.length : Int) - (buf.length : Int) = ((emb.length + mid.length : Nat) : Int) := by
    rw [hdocs]; simp only [List.length_append]; omega
  -- the two halves of the clean-up
  unfold cleanEmbeddingsFiles
  rw [applyAll_append]
  generalize hd1 : applyAll d (match d0.embNpy, d0.embLens with
   | some flat, some lens =>
     let (rows, newLens) := cleanRows ids 0 lens flat
     if newLens ≠ [] then [.embNpy (some rows), .embLens (some newLens)]
     else [.embNpy none, .embLens none]
   | _, _ => []) = d1
  have e1 : RawFile d1.embNpy d1.embLens (removeFrom ids 0 emb) ∧ d1.buffer = d0.buffer ∧
      d1.bufferLens = d0.bufferLens ∧ d1.bufferInfo = d0.bufferInfo := by
    unfold RawFile at he
    split at he
    · next h0 =>
      rw [he.1] at hd1
      simp only [] at hd1
      rw [← hd1]
      refine ⟨?_, hs.buffer, hs.bufferLens, hs.bufferInfo⟩
      unfold RawFile
      rw [h0, removeFrom, if_pos rfl]
      exact ⟨hs.embNpy.trans he.1, hs.embLens.trans he.2⟩
    · rw [he.1, he.2] at hd1
      simp only [cleanRows_eq] at hd1
      unfold RawFile
      split at hd1
      · next h1 =>
        rw [if_neg (by intro h2; rw [h2] at h1; exact h1 rfl), ← hd1]
        exact ⟨⟨rfl, rfl⟩, hs.buffer, hs.bufferLens, hs.bufferInfo⟩
      · next h1 =>
        have h1 : removeFrom ids 0 emb = [] := by simpa using h1
        rw [if_pos h1, ← hd1]
        exact ⟨⟨rfl, rfl⟩, hs.buffer, hs.bufferLens, hs.bufferInfo⟩
  obtain ⟨r1, r2, r3, r4⟩ := e1
  unfold RawFile at hb
  split at hb
  · next h0 =>
    rw [hb.1]
    simp only []
    rw [h0, removeFrom]
    refine ⟨r1, ?_, ?_⟩
    · unfold RawFile
      rw [if_pos rfl]
      exact ⟨r2.trans hb.1, r3.trans hb.2⟩
    · rw [if_pos rfl]
      intro hbi
      exact r4.trans hbi
  · rw [hb.1, hb.2]
    simp only [List.length_map, hfirst, cleanRows_eq]
    split
    · next h1 =>
      have h2 : removeFrom ids (emb.length + mid.length : Nat) buf ≠ [] := by
        intro h2; rw [h2] at h1; exact h1 rfl
      refine ⟨r1, ?_, ?_⟩
      · unfold RawFile; rw [if_neg h2]; exact ⟨rfl, rfl⟩
      · rw [if_neg h2]; intro _; rfl
    · next h1 =>
      have h2 : removeFrom ids (emb.length + mid.length : Nat) buf = [] := by simpa using h1
      refine ⟨r1, ?_, ?_⟩
      · unfold RawFile; rw [if_pos h2]; exact ⟨rfl, rfl⟩
      · rw [if_pos h2]; intro _; rfl

theorem clean_raw {d d0 : Disk E} {docs : List (List E.Row)} (h : RawInStep d0 docs) (hs : RawSame d0 d)
    (ids : List Int) :
    RawInStep (applyAll d (cleanEmbeddingsFiles d0 ids docs.length)) (removeFrom ids 0 docs) := by
  obtain ⟨emb, mid, buf, hdocs, he, hb, hbi⟩ := h
  obtain ⟨h1, h2, h3⟩ := clean_files hdocs he hb hs ids
  refine ⟨removeFrom ids 0 emb, removeFrom ids emb.length mid,
    removeFrom ids (emb.length + mid.length : Nat) buf, ?_, h1, h2, h3 hbi⟩
  rw [hdocs, removeFrom_append, removeFrom_append]
  simp

theorem removeFrom_shift {α : Type} (ids : List Int) (k : Int) : ∀ (l : List α) (b : Int),
    removeFrom ids (k + b) l = removeFrom (ids.map fun x => x - k) b l
  | [], _ => rfl
  | a :: l, b => by
    have h : k + b ∈ ids ↔ b ∈ ids.map fun x => x - k := by
      rw [List.mem_map]
      constructor
      · intro h; exact ⟨_, h, by omega⟩
      · rintro ⟨x, hx, e⟩; rw [show k + b = x by omega]; exact hx
    rw [removeFrom, removeFrom, show k + b + 1 = k + (b + 1) by omega, removeFrom_shift ids k l (b + 1)]
    by_cases hb : k + b ∈ ids
    · rw [if_pos hb, if_pos (h.1 hb)]
    · rw [if_neg hb, if_neg (fun h' => hb (h.2 h'))]

/-! ### Operations preserve the invariant -/

theorem deleteFromIndex_inv {d : Disk E} {raw} (h : Inv d raw) (ids : List Int) (hid : ∀ x ∈ ids, 0 ≤ x) :
    ∃ d', deleteFromIndex d ids = .ok (d', raw.length - (deleteIds ids raw).length) ∧
      Inv d' (deleteIds ids raw) ∧ d'.threshold = d.threshold := by
  obtain ⟨⟨cs, q, ch, hcs, hst, henc⟩, hraw⟩ := h
  obtain ⟨ws0, ch', e, hf, hst', hrs, ht⟩ := deleteImpl_spec hst ids hid true
  rw [if_pos rfl] at e
  have hlen : ch.flatten.length - (removeFrom ids 0 ch.flatten).length =
      raw.length - (deleteIds ids raw).length := by
    rw [← removeFrom_eq_deleteIds, henc.1, (henc.remove ids 0).1]
  refine ⟨applyAll (applyAll d ws0) (cleanEmbeddingsFiles d ids.eraseDups ch.flatten.length),
    ?_, ⟨?_, ?_⟩, ?_⟩
  · unfold deleteFromIndex
    rw [e]
    simp only [bind, Except.bind, applyAll_append, hlen]
  · refine (clean_idxSame _ _ _ _).idx ⟨cs, q, ch', hcs, hst', ?_⟩
    rw [hf, ← removeFrom_eq_deleteIds]
    exact henc.remove ids 0
  · have := clean_raw hraw hrs ids.eraseDups
    rw [henc.1, ← removeFrom_eq_deleteIds, ← removeFrom_congr (mem_eraseDups' ids)]
    exact this
  · rw [(clean_idxSame _ _ _ _).threshold, ht]

theorem createWithKmeans_spec (hE : E.Lawful) (cfg : Cfg) (docs : List (List E.Row)) (d : Disk E)
    (hb : 0 < cfg.batchSize) {ws} (hrun : createWithKmeans cfg docs = .ok ws) :
    docs ≠ [] ∧ Idx (applyAll d ws) docs ∧ (applyAll d ws).buffer = d.buffer ∧
      (applyAll d ws).bufferLens = d.bufferLens ∧ (applyAll d ws).bufferInfo = d.bufferInfo ∧
      (applyAll d ws).threshold ≠ none ∧
      (if docs.length ≤ cfg.startFromScratch then
        RawFile (applyAll d ws).embNpy (applyAll d ws).embLens docs
       else (applyAll d ws).embNpy = d.embNpy ∧ (applyAll d ws).embLens = d.embLens) := by
  unfold createWithKmeans at hrun
  split at hrun
  · cases hrun
  · next hne =>
    cases hk : E.kmeans cfg.seed docs with
    | error e => rw [hk] at hrun; cases hrun
    | ok cs =>
      have hcs := hE.kmeans_ne _ _ _ hk
      obtain ⟨ws0, q, ch, e, hch, hst, hrs, ht⟩ :=
        createIndexFiles_spec hE cfg.seed cfg.batchSize docs cs hcs hne hb d
      rw [hk] at hrun
      simp only [bind, Except.bind] at hrun
      rw [e] at hrun
      simp only [Except.ok.injEq] at hrun
      have henc : EncAll cs q ch.flatten docs := by rw [hch]; exact EncAll.encDocs cs q hcs docs
      refine ⟨hne, ?_⟩
      rw [← hrun, applyAll_append]
      split
      · unfold saveEmbeddings
        rw [if_neg hne]
        refine ⟨⟨cs, q, ch, hcs, hst.raw rfl rfl rfl (fun j => ⟨rfl, rfl, rfl, rfl⟩) rfl rfl, henc⟩,
          hrs.buffer, hrs.bufferLens, hrs.bufferInfo, ht, ?_⟩
        unfold RawFile
        rw [if_neg hne]
        exact ⟨rfl, rfl⟩
      · exact ⟨⟨cs, q, ch, hcs, hst, henc⟩, hrs.buffer, hrs.bufferLens, hrs.bufferInfo, ht, hrs.embNpy,
          hrs.embLens⟩

/-- A directory with no raw files (in particular an empty one). -/
structure NoRaw (d : Disk E) : Prop where
  buffer : d.buffer = none
  bufferLens : d.bufferLens = none
  bufferInfo : d.bufferInfo = none
  embNpy : d.embNpy = none
  embLens : d.embLens = none

theorem create_inv (hE : E.Lawful) (cfg : Cfg) (docs : List (List E.Row)) (d : Disk E) (hd : NoRaw d)
    (hb : 0 < cfg.batchSize) {ws} (hrun : createWithKmeans cfg docs = .ok ws) :
    docs ≠ [] ∧ Inv (applyAll d ws) docs := by
  obtain ⟨hne, h1, h2, h3, h4, _, h5⟩ := createWithKmeans_spec hE cfg docs d hb hrun
  refine ⟨hne, h1, ?_⟩
  split at h5
  · exact ⟨docs, [], [], by simp, h5, by rw [h2, h3, hd.buffer, hd.bufferLens]; exact ⟨rfl, rfl⟩,
      by rw [h4, hd.bufferInfo]; rfl⟩
  · exact ⟨[], docs, [], by simp, by rw [h5.1, h5.2, hd.embNpy, hd.embLens]; exact ⟨rfl, rfl⟩,
      by rw [h2, h3, hd.buffer, hd.bufferLens]; exact ⟨rfl, rfl⟩, by rw [h4, hd.bufferInfo]; rfl⟩

theorem updateScratch_inv (hE : E.Lawful) {d : Disk E} {raw existing docs : List (List E.Row)} {cfg : Cfg}
    (h : Inv d raw) (hex : existing = loadRaw d.embNpy d.embLens) (hlen : existing.length = raw.length)
    (hb : 0 < cfg.batchSize) {d' ids} (hrun : updateScratch d existing docs cfg = .ok (d', ids)) :
    Inv d' (raw ++ docs) ∧ ids = idRange raw.length docs.length := by
  obtain ⟨_, emb, mid, buf, hraw, he, hbf, hbi⟩ := h
  rw [loadRaw_spec he] at hex
  subst hex
  have hmid : mid = [] ∧ buf = [] := by
    rw [hraw] at hlen
    simp only [List.length_append] at hlen
    exact ⟨List.length_eq_zero_iff.1 (by omega), List.length_eq_zero_iff.1 (by omega)⟩
  obtain ⟨rfl, rfl⟩ := hmid
  have hraw : raw = existing := by simpa using hraw
  subst hraw
  unfold updateScratch at hrun
  simp only [] at hrun
  cases hc : createWithKmeans cfg (raw ++ docs) with
  | error e => rw [hc] at hrun; cases hrun
  | ok ws =>
    rw [hc] at hrun
    simp only [bind, Except.bind] at hrun
    obtain ⟨hne, h1, h2, h3, h4, _, h5⟩ := createWithKmeans_spec hE cfg (raw ++ docs) d hb hc
    cases hl : load (applyAll d ws) with
    | error e => rw [hl] at hrun; cases hrun
    | ok x =>
      rw [hl] at hrun
      simp only [Except.ok.injEq, Prod.mk.injEq] at hrun
      obtain ⟨hd, rfl⟩ := hrun
      refine ⟨?_, rfl⟩
      have hnb : d.buffer = none ∧ d.bufferLens = none := by
        unfold RawFile at hbf; rw [if_pos rfl] at hbf; exact hbf
      rw [if_pos rfl] at hbi
      rw [← hd]
      split
      · refine ⟨?_, [], raw ++ docs, [], by simp, ⟨rfl, rfl⟩, ?_, ?_⟩
        · exact IdxSame.idx (d := applyAll d ws)
            (d' := applyAll (applyAll d ws) [.embNpy none, .embLens none]) ⟨rfl, rfl, rfl, rfl, fun j => ⟨rfl, rfl, rfl, rfl⟩, rfl, rfl⟩ h1
        · exact ⟨h2.trans hnb.1, h3.trans hnb.2⟩
        · exact h4.trans hbi
      · next hgt =>
        rw [if_pos (by omega)] at h5
        refine ⟨h1, raw ++ docs, [], [], by simp, h5, ?_, ?_⟩
        · exact ⟨h2.trans hnb.1, h3.trans hnb.2⟩
        · exact h4.trans hbi

theorem loadCodec_spec {d : Disk E} {cs q ch} (h : StoresAt d cs q ch) : loadCodec d = .ok (cs, q) := by
  unfold loadCodec
  rw [h.centroids, h.quant]; rfl

theorem updateIndex_idx (hE : E.Lawful) {d : Disk E} {cs q ch raw} (h : StoresAt d cs q ch)
    (hcs : cs ≠ []) (henc : EncAll cs q ch.flatten raw) (docs : List (List E.Row)) (hdocs : docs ≠ [])
    (b : Nat) (hb : 0 < b) (updThr : Bool) :
    ∃ ws, updateIndex d docs cs q b updThr = .ok ws ∧ Idx (applyAll d ws) (raw ++ docs) ∧
      RawSame d (applyAll d ws) := by
  obtain ⟨ws, ch', e, hch, hst, hrs, _⟩ := updateIndex_spec hE h hcs docs hdocs b hb updThr
  refine ⟨ws, e, ⟨cs, q, ch', hcs, hst, ?_⟩, hrs⟩
  rw [hch]
  exact henc.append (EncAll.encDocs cs q hcs docs)

theorem updateBuffered_spec (hE : E.Lawful) {d : Disk E} {raw docs : List (List E.Row)} {cfg : Cfg}
    (h : Inv d raw) (hdocs : docs ≠ []) (hb : 0 < cfg.batchSize) :
    ∃ d', updateBuffered d raw.length (loadRaw d.buffer d.bufferLens) docs cfg = .ok (d', raw.length) ∧
      Inv d' (raw ++ docs) := by
  obtain ⟨⟨cs, q, ch, hcs, hst, henc⟩, emb, mid, buf, hraw, he, hbf, hbi⟩ := h
  rw [loadRaw_spec hbf]
  have hne : buf ++ docs ≠ [] := by simp [hdocs]
  have hst1 : StoresAt (applyAll d (saveBuffer (buf ++ docs))) cs q ch := by
    unfold saveBuffer
    rw [if_neg hne]
    exact hst.raw rfl rfl rfl (fun j => ⟨rfl, rfl, rfl, rfl⟩) rfl rfl
  obtain ⟨ws, e, hidx, hrs⟩ := updateIndex_idx hE hst1 hcs henc docs hdocs cfg.batchSize hb false
  refine ⟨_, ?_, hidx, emb, mid, buf ++ docs, by rw [hraw]; simp, ?_, ?_, ?_⟩
  · unfold updateBuffered
    rw [loadCodec_spec hst]
    simp only [bind, Except.bind]
    rw [e]
  · rw [hrs.embNpy, hrs.embLens]
    unfold saveBuffer
    rw [if_neg hne]
    exact he
  · rw [hrs.buffer, hrs.bufferLens]
    unfold saveBuffer
    rw [if_neg hne]
    unfold RawFile
    rw [if_neg hne]
    exact ⟨rfl, rfl⟩
  · rw [hrs.bufferInfo]
    unfold saveBuffer
    rw [if_neg hne, if_neg hne]
    rfl

theorem mem_idRange (s n : Nat) (x : Int) : x ∈ idRange s n ↔ (s : Int) ≤ x ∧ x < (s + n : Nat) := by
  unfold idRange
  simp only [List.mem_map, List.mem_range]
  constructor
  · rintro ⟨i, hi, rfl⟩; omega
  · intro h; exact ⟨(x - s).toNat, by omega, by omega⟩

theorem updateExpand_inv (hE : E.Lawful) {d : Disk E} {raw docs : List (List E.Row)} {cfg : Cfg}
    (h : Inv d raw) (hdocs : docs ≠ []) (hb : 0 < cfg.batchSize) {d' s}
    (hrun : updateExpand d raw.length (loadRaw d.buffer d.bufferLens) docs cfg = .ok (d', s)) :
    Inv d' (raw ++ docs) ∧ s = raw.length := by
  obtain ⟨hidx, emb, mid, buf, hraw, he, hbf, hbi⟩ := h
  rw [loadRaw_spec hbf] at hrun
  have hinfo : d.bufferInfo.getD 0 = buf.length := by
    rw [hbi]; split
    · next h0 => simp [h0]
    · rfl
  -- the directory after dropping the buffered documents
  have step1 : ∃ d1, dropBuffered d raw.length = .ok (d1, (emb ++ mid).length) ∧
      Idx d1 (emb ++ mid) ∧ RawSame d d1 := by
    unfold dropBuffered
    simp only []
    rw [hinfo]
    split
    · next hpos =>
      obtain ⟨cs, q, ch, hcs, hst, henc⟩ := hidx
      have hdel : removeFrom (idRange (raw.length - buf.length) buf.length) 0 raw = emb ++ mid := by
        have hrl : raw.length - buf.length = (emb ++ mid).length := by
          rw [hraw]; simp only [List.length_append]; omega
        rw [hrl, hraw, removeFrom_append, removeFrom_none, removeFrom_all]
        · simp
        · intro i hi
          rw [mem_idRange]; omega
        · intro x hx
          rw [mem_idRange] at hx
          omega
      obtain ⟨ws0, ch', e, hf, hst', hrs, ht⟩ := deleteImpl_spec hst
        (idRange (raw.length - buf.length) buf.length) (by
          intro x hx; rw [mem_idRange] at hx; omega) false
      have hid1 : Idx (applyAll d ws0) (emb ++ mid) := by
        refine ⟨cs, q, ch', hcs, hst', ?_⟩
        rw [hf, ← hdel]
        exact henc.remove _ 0
      obtain ⟨m, hm, hmn⟩ := loadMeta_docs hid1
      refine ⟨applyAll d ws0, ?_, hid1, hrs⟩
      rw [e]
      simp only [bind, Except.bind, Bool.false_eq_true, if_false, List.append_nil]
      rw [hm]
      simp only [hmn]
    · next hpos =>
      have hb0 : buf = [] := by
        apply List.length_eq_zero_iff.1
        have : buf.length ≤ raw.length := by rw [hraw]; simp only [List.length_append]; omega
        omega
      subst hb0
      refine ⟨d, ?_, ?_, RawSame.refl d⟩
      · rw [hraw]; simp
      · rw [hraw, List.append_nil] at hidx; exact hidx
  obtain ⟨d1, e1, hidx1, hrs1⟩ := step1
  unfold updateExpand at hrun
  rw [e1] at hrun
  simp only [bind, Except.bind] at hrun
  -- centroid expansion
  have step2 : ∀ r : Disk E, expandCentroids d1 (buf ++ docs) cfg.seed = .ok r →
      Idx r (emb ++ mid) ∧ RawSame d1 r := by
    intro r hr
    unfold expandCentroids at hr
    cases ht : d1.threshold with
    | none =>
      rw [ht] at hr
      simp only [Except.ok.injEq] at hr
      rw [← hr]; exact ⟨hidx1, RawSame.refl _⟩
    | some thr =>
      rw [ht] at hr
      simp only [] at hr
      cases hu : updateCentroids d1 (buf ++ docs) thr cfg.seed with
      | error e => rw [hu] at hr; cases hr
      | ok v =>
        obtain ⟨ws, n⟩ := v
        rw [hu] at hr
        simp only [bind, Except.bind, Except.ok.injEq] at hr
        obtain ⟨cs, q, ch, hcs, hst, henc⟩ := hidx1
        obtain ⟨new, _, hst', hrs', _⟩ := updateCentroids_spec hst _ _ _ hu
        rw [← hr]
        exact ⟨⟨cs ++ new, q, ch, by simp [hcs], hst', henc.mono new⟩, hrs'⟩
  split at hrun
  · cases hrun
  · next d2 hd2 =>
    obtain ⟨⟨cs, q, ch, hcs, hst, henc⟩, hrs2⟩ := step2 d2 hd2
    rw [loadCodec_spec hst] at hrun
    simp only [] at hrun
    have hst3 : StoresAt (applyAll d2 clearBuffer) cs q ch :=
      hst.raw rfl rfl rfl (fun j => ⟨rfl, rfl, rfl, rfl⟩) rfl rfl
    obtain ⟨ws, e, hidx4, hrs4⟩ := updateIndex_idx hE hst3 hcs henc (buf ++ docs) (by simp [hdocs])
      cfg.batchSize hb true
    rw [e] at hrun
    simp only [Except.ok.injEq, Prod.mk.injEq] at hrun
    obtain ⟨rfl, rfl⟩ := hrun
    refine ⟨⟨?_, ?_⟩, ?_⟩
    · rw [hraw]
      rw [List.append_assoc (emb ++ mid)]
      exact hidx4
    · refine ⟨emb, mid ++ buf ++ docs, [], by rw [hraw]; simp, ?_, ?_, ?_⟩
      · rw [hrs4.embNpy, hrs4.embLens]
        show RawFile d2.embNpy d2.embLens emb
        rw [hrs2.embNpy, hrs2.embLens, hrs1.embNpy, hrs1.embLens]
        exact he
      · rw [hrs4.buffer, hrs4.bufferLens]; exact ⟨rfl, rfl⟩
      · rw [hrs4.bufferInfo]; rfl
    · rw [hraw]; simp only [List.length_append]

theorem update_inv (hE : E.Lawful) {d : Disk E} {raw docs : List (List E.Row)} {cfg : Cfg}
    (h : Inv d raw) (hdocs : docs ≠ []) (hb : 0 < cfg.batchSize) {d' ids}
    (hrun : update d raw.length docs cfg = .ok (d', ids)) :
    Inv d' (raw ++ docs) ∧ ids = idRange raw.length docs.length := by
  unfold update at hrun
  simp only [] at hrun
  split at hrun
  · next hc => exact updateScratch_inv hE h rfl hc.2 hb hrun
  · obtain ⟨cs, q, ch, hcs, hst, henc⟩ := h.1
    rw [loadCodec_spec hst] at hrun
    simp only [bind, Except.bind] at hrun
    have key : ∀ d1 s, updateIncremental d raw.length docs cfg = .ok (d1, s) →
        Inv d1 (raw ++ docs) ∧ s = raw.length := by
      intro d1 s hs
      unfold updateIncremental at hs
      simp only [] at hs
      split at hs
      · exact updateExpand_inv hE h hdocs hb hs
      · obtain ⟨d2, e, hi⟩ := updateBuffered_spec hE h hdocs hb
        rw [e] at hs
        simp only [Except.ok.injEq, Prod.mk.injEq] at hs
        exact ⟨hs.1 ▸ hi, hs.2.symm⟩
    split at hrun
    · cases hrun
    · next v hv =>
      obtain ⟨d1, s⟩ := v
      obtain ⟨hi, rfl⟩ := key d1 s hv
      simp only [] at hrun
      split at hrun
      · cases hrun
      · simp only [Except.ok.injEq, Prod.mk.injEq] at hrun
        exact ⟨hrun.1 ▸ hi, hrun.2.symm⟩

end NextPlaid.Index

namespace NextPlaid.Index
open NextPlaid.Spec

variable {E : Env}

theorem noRaw_empty : NoRaw ({} : Disk E) := ⟨rfl, rfl, rfl, rfl, rfl⟩

theorem updateOrCreate_inv (hE : E.Lawful) {d : Disk E} {raw docs : List (List E.Row)} {cfg : Cfg}
    (h : Inv d raw) (hdocs : docs ≠ []) (hb : 0 < cfg.batchSize) {d' ids}
    (hrun : updateOrCreate d docs cfg = .ok (d', ids)) :
    Inv d' (raw ++ docs) ∧ ids = idRange raw.length docs.length := by
  unfold updateOrCreate at hrun
  obtain ⟨cs, q, ch, hcs, hst, henc⟩ := h.1
  rw [hst.metadata] at hrun
  simp only [] at hrun
  cases hl : load d with
  | error e => rw [hl] at hrun; cases hrun
  | ok x =>
    have hne := Idx.load_empty h.1 x hl
    obtain ⟨y, hy, _, _, hn, _⟩ := Idx.load h.1 hne
    rw [hl] at hy
    cases hy
    rw [hl] at hrun
    simp only [bind, Except.bind] at hrun
    rw [hn] at hrun
    exact update_inv hE h hdocs hb hrun

theorem updateOrCreate_fresh (hE : E.Lawful) {d : Disk E} (hd : NoRaw d) (hm : d.metadata = none)
    {docs : List (List E.Row)} {cfg : Cfg} (hb : 0 < cfg.batchSize) {d' ids}
    (hrun : updateOrCreate d docs cfg = .ok (d', ids)) :
    Inv d' docs ∧ ids = idRange 0 docs.length := by
  unfold updateOrCreate at hrun
  rw [hm] at hrun
  simp only [] at hrun
  cases hc : createWithKmeans cfg docs with
  | error e => rw [hc] at hrun; cases hrun
  | ok ws =>
    rw [hc] at hrun
    simp only [bind, Except.bind] at hrun
    cases hl : load (applyAll d ws) with
    | error e => rw [hl] at hrun; cases hrun
    | ok x =>
      rw [hl] at hrun
      simp only [Except.ok.injEq, Prod.mk.injEq] at hrun
      obtain ⟨rfl, rfl⟩ := hrun
      exact ⟨(create_inv hE cfg docs d hd hb hc).2, rfl⟩

theorem onDisk_inv (hE : E.Lawful) {d : Disk E} {raw} (h : Inv d raw) (op : Op E) (hop : op.Ordinary) {d' o}
    (hrun : op.onDisk d = .ok (d', o)) : Inv d' (op.onList raw).1 ∧ o = (op.onList raw).2 := by
  cases op with
  | update docs cfg =>
    unfold Op.onDisk at hrun
    simp only [] at hrun
    cases hu : updateOrCreate d docs cfg with
    | error e => rw [hu] at hrun; cases hrun
    | ok r =>
      obtain ⟨d1, ids⟩ := r
      rw [hu] at hrun
      simp only [bind, Except.bind, Except.ok.injEq, Prod.mk.injEq] at hrun
      obtain ⟨rfl, rfl⟩ := hrun
      obtain ⟨h1, rfl⟩ := updateOrCreate_inv hE h hop.1 hop.2 hu
      exact ⟨h1, rfl⟩
  | delete ids =>
    unfold Op.onDisk at hrun
    simp only [] at hrun
    obtain ⟨d1, e, h1, _⟩ := deleteFromIndex_inv h ids hop
    rw [e] at hrun
    simp only [bind, Except.bind, Except.ok.injEq, Prod.mk.injEq] at hrun
    obtain ⟨rfl, rfl⟩ := hrun
    exact ⟨h1, rfl⟩

theorem diskRun_inv (hE : E.Lawful) : ∀ (ops : List (Op E)) {d : Disk E} {raw}, Inv d raw →
    (∀ op ∈ ops, op.Ordinary) → ∀ {d' os}, diskRun d ops = .ok (d', os) →
    Inv d' (listRun raw ops).1 ∧ os = (listRun raw ops).2
  | [], d, raw, h, _, d', os, hrun => by
    simp only [diskRun, Except.ok.injEq, Prod.mk.injEq] at hrun
    obtain ⟨rfl, rfl⟩ := hrun
    exact ⟨h, rfl⟩
  | op :: ops, d, raw, h, hops, d', os, hrun => by
    rw [diskRun] at hrun
    cases ho : op.onDisk d with
    | error e => rw [ho] at hrun; cases hrun
    | ok r =>
      obtain ⟨d1, o⟩ := r
      rw [ho] at hrun
      simp only [bind, Except.bind] at hrun
      obtain ⟨h1, rfl⟩ := onDisk_inv hE h op (hops op (by simp)) ho
      cases hr : diskRun d1 ops with
      | error e => rw [hr] at hrun; cases hrun
      | ok r' =>
        obtain ⟨d2, os'⟩ := r'
        rw [hr] at hrun
        simp only [Except.ok.injEq, Prod.mk.injEq] at hrun
        obtain ⟨rfl, rfl⟩ := hrun
        obtain ⟨h2, rfl⟩ := diskRun_inv hE ops h1 (fun o ho => hops o (by simp [ho])) hr
        exact ⟨h2, rfl⟩

theorem onDisk_fresh (hE : E.Lawful) (op : Op E) (hop : op.Ordinary) {d' o}
    (hrun : op.onDisk ({} : Disk E) = .ok (d', o)) :
    Inv d' (op.onList []).1 ∧ o = (op.onList []).2 := by
  cases op with
  | update docs cfg =>
    unfold Op.onDisk at hrun
    simp only [] at hrun
    cases hu : updateOrCreate ({} : Disk E) docs cfg with
    | error e => rw [hu] at hrun; cases hrun
    | ok r =>
      obtain ⟨d1, ids⟩ := r
      rw [hu] at hrun
      simp only [bind, Except.bind, Except.ok.injEq, Prod.mk.injEq] at hrun
      obtain ⟨rfl, rfl⟩ := hrun
      obtain ⟨h1, rfl⟩ := updateOrCreate_fresh hE noRaw_empty rfl hop.2 hu
      exact ⟨h1, rfl⟩
  | delete ids => cases hrun

/-- Every history on an initially empty directory. -/
theorem history_inv (hE : E.Lawful) (ops : List (Op E)) (hops : ∀ op ∈ ops, op.Ordinary) (hne : ops ≠ [])
    {d' os} (hrun : diskRun ({} : Disk E) ops = .ok (d', os)) :
    Inv d' (listRun [] ops).1 ∧ os = (listRun [] ops).2 := by
  cases ops with
  | nil => exact absurd rfl hne
  | cons op ops =>
    rw [diskRun] at hrun
    cases ho : op.onDisk ({} : Disk E) with
    | error e => rw [ho] at hrun; cases hrun
    | ok r =>
      obtain ⟨d1, o⟩ := r
      rw [ho] at hrun
      simp only [bind, Except.bind] at hrun
      obtain ⟨h1, rfl⟩ := onDisk_fresh hE op (hops op (by simp)) ho
      cases hr : diskRun d1 ops with
      | error e => rw [hr] at hrun; cases hrun
      | ok r' =>
        obtain ⟨d2, os'⟩ := r'
        rw [hr] at hrun
        simp only [Except.ok.injEq, Prod.mk.injEq] at hrun
        obtain ⟨rfl, rfl⟩ := hrun
        obtain ⟨h2, rfl⟩ := diskRun_inv hE ops h1 (fun o ho => hops o (by simp [ho])) hr
        exact ⟨h2, rfl⟩

end NextPlaid.Index
