import Verif.Proofs.Index3

/-!
Property theorems C06-C12 (index lifecycle).

`Spec.Built d raw`: the directory `d` results from creating an index and then appending and deleting;
the same operations on a plain list give `raw`.  `Spec.diskRun` / `Spec.listRun`: histories of
`update_or_create` and `delete`.
-/

namespace NextPlaid.Props
open NextPlaid NextPlaid.Index NextPlaid.Spec

variable {E : Env}

/-! ### A concrete instance used for the non-vacuity examples and the refutations -/

/-- Rows and centroids are numbers; a row has code `row % number of centroids`. -/
@[reducible] def Toy : Env where
  Row := Nat
  Cent := Nat
  Quant := Unit
  Thr := Nat
  Pk := Nat
  encode := fun cs _ r => (r % cs.length, r)
  kmeans := fun _ _ => .ok [0, 1, 2]
  trainQuant := fun _ _ _ => ()
  trainThr := fun _ _ _ => 100
  expand := fun _ _ t docs => .ok (docs.flatten.filter fun r => decide (t < r))
  blendThr := fun _ _ _ => 100
  zeroPk := 0

theorem toy_lawful : Toy.Lawful where
  code_lt := by
    intro cs q r h
    exact Nat.mod_lt _ (List.length_pos_iff.2 h)
  kmeans_ne := by
    intro s ds cs h
    cases h
    simp

theorem toy_total : Total Toy where
  kmeans := fun _ _ _ => ⟨_, rfl⟩
  expand := fun _ _ _ _ => ⟨_, rfl⟩

/-- Chunks of two documents, rebuild up to three documents, buffer of four. -/
def toyCfg : Cfg := ⟨2, 3, 4, 0⟩

/-- What a directory shows, in a form that can be computed. -/
def toyShow (r : Res (Disk Toy)) : Option (Nat × List (Option (List Nat))) :=
  match r with
  | .ok d =>
    match load d with
    | .ok x => some (x.numDocuments, (List.range x.numDocuments).map fun i =>
        match x.docTokens i with
        | .ok toks => some (toks.map (·.2))
        | .error _ => none)
    | .error _ => none
  | .error _ => none

/-! ### C06 -/

theorem built_idx (hE : E.Lawful) {d : Disk E} {raw} (h : Built d raw) : Idx d raw := by
  induction h with
  | create d0 hb hc => exact (createWithKmeans_spec hE _ _ d0 hb hc).2.1
  | @append d raw docs cfg d' ids _ hne hb hrun ih =>
    obtain ⟨cs, q, ch, hcs, hst, henc⟩ := ih
    obtain ⟨ws, e, hi, _⟩ := updateIndex_idx hE hst hcs henc docs hne cfg.batchSize hb false
    unfold updateAppend at hrun
    rw [loadMeta_spec hst, loadCodec_spec hst] at hrun
    simp only [bind, Except.bind] at hrun
    rw [e] at hrun
    simp only [Except.ok.injEq, Prod.mk.injEq] at hrun
    rw [← hrun.1]
    exact hi
  | @delete d raw ids d' n _ hid hrun ih =>
    obtain ⟨cs, q, ch, hcs, hst, henc⟩ := ih
    obtain ⟨ws0, ch', e, hf, hst', _⟩ := deleteImpl_spec hst ids hid true
    unfold deleteFromIndex at hrun
    rw [e, if_pos rfl] at hrun
    simp only [bind, Except.bind, applyAll_append, Except.ok.injEq, Prod.mk.injEq] at hrun
    rw [← hrun.1]
    refine (clean_idxSame _ _ _ _).idx ⟨cs, q, ch', hcs, hst', ?_⟩
    rw [hf, ← removeFrom_eq_deleteIds]
    exact henc.remove ids 0

/-- C06: an index created from any list of documents with any positive chunk size, in any directory,
shows exactly those documents under their positions. -/
theorem C06_create_stores (hE : E.Lawful) (cfg : Cfg) (docs : List (List E.Row)) (d0 : Disk E)
    (hb : 0 < cfg.batchSize) (htok : docs.flatten ≠ []) (ws) (hrun : createWithKmeans cfg docs = .ok ws) :
    ∃ x, load (applyAll d0 ws) = .ok x ∧ HoldsExactly x docs := by
  have hne : docs ≠ [] := by intro h0; rw [h0] at htok; exact htok rfl
  unfold createWithKmeans at hrun
  rw [if_neg hne] at hrun
  cases hk : E.kmeans cfg.seed docs with
  | error e => rw [hk] at hrun; cases hrun
  | ok cs =>
    have hcs := hE.kmeans_ne _ _ _ hk
    obtain ⟨ws0, q, ch, e, hch, hst, hrs, ht⟩ :=
      createIndexFiles_spec hE cfg.seed cfg.batchSize docs cs hcs hne hb d0
    rw [hk] at hrun
    simp only [bind, Except.bind] at hrun
    rw [e] at hrun
    simp only [Except.ok.injEq] at hrun
    have hst' : StoresAt (applyAll d0 ws) cs q ch := by
      rw [← hrun, applyAll_append]
      split
      · unfold saveEmbeddings
        rw [if_neg hne]
        exact hst.raw rfl rfl rfl (fun j => ⟨rfl, rfl, rfl, rfl⟩) rfl rfl
      · exact hst
    have henc : EncAll cs q ch.flatten docs := by rw [hch]; exact EncAll.encDocs cs q hcs docs
    obtain ⟨x, hx, hs⟩ := load_shows hst' (henc.flatten_ne htok)
    refine ⟨x, hx, by rw [hs.numDocs, henc.1], ?_, ?_⟩
    · intro i doc hd
      rw [hs.centroids, hs.quant]
      apply hs.tokens
      rw [hch]
      simp [encDocs, hd]
    · intro i hi
      exact hs.noTokens i (List.getElem?_eq_none (by rw [henc.1]; exact hi))

/-- C06: creation never fails for another reason than k-means. -/
theorem C06_create_succeeds (hE : E.Lawful) (hT : Total E) (cfg : Cfg) (docs : List (List E.Row))
    (hne : docs ≠ []) (hb : 0 < cfg.batchSize) : ∃ ws, createWithKmeans cfg docs = .ok ws :=
  createWithKmeans_ok hE hT cfg docs hne hb

/-- C06: creating from an empty list is refused. -/
theorem C06_create_empty_refused (cfg : Cfg) : createWithKmeans (E := E) cfg [] = .error .err := rfl

/-- Three documents, one of them empty, in two chunks. -/
example : ∃ ws, createWithKmeans (E := Toy) toyCfg [[7, 8], [], [9]] = .ok ws ∧
    toyShow (.ok (applyAll {} ws)) = some (3, [some [7, 8], some [], some [9]]) :=
  ⟨_, rfl, rfl⟩

/-! ### C07 -/

/-- C07: in every index produced by creation, appends and deletions the inverted file is exact, and the
candidate set of any list of centroids is exactly the set of documents with a token in one of them. -/
theorem C07_ivf_exact (hE : E.Lawful) (d : Disk E) (raw) (h : Built d raw) (htok : raw.flatten ≠ []) :
    ∃ x, load d = .ok x ∧ IvfExact x ∧
      ∀ cents, ∃ l, x.candidates cents = .ok l ∧ l.Pairwise (· < ·) ∧
        ∀ p : Int, p ∈ l ↔ ∃ i : Nat, p = i ∧ ∃ toks, x.docTokens i = .ok toks ∧ ∃ t ∈ toks, t.1 ∈ cents := by
  obtain ⟨x, hx, _, h2, _, h4⟩ := Idx.load (built_idx hE h) htok
  exact ⟨x, hx, h2, h4⟩

/-- C07 also for histories of updates and deletions, whichever internal path they take. -/
theorem C07_ivf_exact_histories (hE : E.Lawful) (ops : List (Op E)) (hne : ops ≠ [])
    (hops : ∀ op ∈ ops, op.Ordinary) (d os) (hrun : diskRun ({} : Disk E) ops = .ok (d, os))
    (htok : (listRun [] ops).1.flatten ≠ []) :
    ∃ x, load d = .ok x ∧ IvfExact x ∧
      ∀ cents, ∃ l, x.candidates cents = .ok l ∧ l.Pairwise (· < ·) ∧
        ∀ p : Int, p ∈ l ↔ ∃ i : Nat, p = i ∧ ∃ toks, x.docTokens i = .ok toks ∧ ∃ t ∈ toks, t.1 ∈ cents := by
  obtain ⟨hi, _⟩ := history_inv hE ops hops hne hrun
  obtain ⟨x, hx, _, h2, _, h4⟩ := Idx.load hi.1 htok
  exact ⟨x, hx, h2, h4⟩

/-! ### C08 -/

/-- C08: appending a non-empty batch to any index succeeds, keeps the old documents token for token,
keeps the codec, and gives the new documents the next consecutive ids in order. -/
theorem C08_append (hE : E.Lawful) (d : Disk E) (raw docs) (cfg : Cfg) (h : Built d raw)
    (htok : raw.flatten ≠ []) (hne : docs ≠ []) (hb : 0 < cfg.batchSize) :
    ∃ d' ids x x', updateAppend d docs cfg = .ok (d', ids) ∧ load d = .ok x ∧ load d' = .ok x' ∧
      ids = (List.range docs.length).map (fun i => ((raw.length + i : Nat) : Int)) ∧
      x'.centroids = x.centroids ∧ x'.quant = x.quant ∧
      x.numDocuments = raw.length ∧ x'.numDocuments = raw.length + docs.length ∧
      (∀ i, i < raw.length → x'.docTokens i = x.docTokens i) ∧
      (∀ (j : Nat) doc, docs[j]? = some doc →
        x'.docTokens (raw.length + j) = .ok (doc.map (E.encode x'.centroids x'.quant))) := by
  obtain ⟨cs, q, ch, hcs, hst, henc⟩ := built_idx hE h
  obtain ⟨ws, ch', e, hch, hst', _⟩ := updateIndex_spec hE hst hcs docs hne cfg.batchSize hb false
  obtain ⟨x, hx, hs⟩ := load_shows hst (henc.flatten_ne htok)
  obtain ⟨x', hx', hs'⟩ := load_shows hst' (by
    rw [hch, List.flatten_append]
    intro h0
    exact henc.flatten_ne htok (List.append_eq_nil_iff.1 h0).1)
  refine ⟨_, _, x, x', ?_, hx, hx', rfl, ?_, ?_, ?_, ?_, ?_, ?_⟩
  · unfold updateAppend
    rw [loadMeta_spec hst, loadCodec_spec hst]
    simp only [bind, Except.bind]
    rw [e]
    simp only [henc.1]
    rfl
  · rw [hs'.centroids, hs.centroids]
  · rw [hs'.quant, hs.quant]
  · rw [hs.numDocs, henc.1]
  · rw [hs'.numDocs, hch, List.length_append, henc.1]; simp [encDocs]
  · intro i hi
    have hg : ch.flatten[i]? = some (ch.flatten[i]'(by rw [henc.1]; exact hi)) :=
      List.getElem?_eq_getElem _
    rw [hs.tokens i _ hg]
    apply hs'.tokens
    rw [hch, List.getElem?_append_left (by rw [henc.1]; exact hi)]
    exact hg
  · intro j doc hd
    rw [hs'.centroids, hs'.quant]
    apply hs'.tokens
    rw [hch, List.getElem?_append_right (by rw [henc.1]; omega), henc.1]
    simp [encDocs, hd]

example : ∃ ws d ids, createWithKmeans (E := Toy) toyCfg [[7, 8], [], [9]] = .ok ws ∧
    updateAppend (applyAll {} ws) [[1], [2, 3], [4]] toyCfg = .ok (d, ids) ∧ ids = [3, 4, 5] ∧
    toyShow (.ok d) = some (6, [some [7, 8], some [], some [9], some [1], some [2, 3], some [4]]) :=
  ⟨_, _, _, rfl, rfl, rfl, rfl⟩

/-- The hypothesis "non-empty batch" of C08 is needed: appending an empty batch removes the documents of
the last chunk from view (/repo/next-plaid/src/update.rs:795-838, 1109-1118). -/
theorem C08_empty_append_loses_documents :
    ∃ ws d ids, createWithKmeans (E := Toy) toyCfg [[7, 8], [5], [9]] = .ok ws ∧
      toyShow (.ok (applyAll {} ws)) = some (3, [some [7, 8], some [5], some [9]]) ∧
      updateAppend (applyAll {} ws) [] toyCfg = .ok (d, ids) ∧
      toyShow (.ok d) = some (2, [some [7, 8], some [5]]) :=
  ⟨_, _, _, rfl, rfl, rfl, rfl⟩

/-! ### C09 -/

theorem removeFrom_map_range {α : Type} (ids : List Int) (l : List α) (j i : Nat) (a : α)
    (hj : (deleteIds ids (List.range l.length))[j]? = some i) (hi : l[i]? = some a) :
    (removeFrom ids 0 l)[j]? = some a := by
  have hl : l.map some = (List.range l.length).map (fun i => l[i]?) := by
    apply List.ext_getElem?
    intro k
    by_cases hk : k < l.length
    · rw [List.getElem?_map, List.getElem?_map, List.getElem?_range hk, List.getElem?_eq_getElem hk]
      simp
    · rw [List.getElem?_eq_none (by simp; omega), List.getElem?_eq_none (by simp; omega)]
  have h2 : (removeFrom ids 0 l).map some =
      (removeFrom ids 0 (List.range l.length)).map (fun i => l[i]?) := by
    rw [← removeFrom_map, hl, removeFrom_map]
  rw [← removeFrom_eq_deleteIds] at hj
  have h3 : ((removeFrom ids 0 l).map some)[j]? = some l[i]? := by
    rw [h2, List.getElem?_map, hj]; rfl
  rw [List.getElem?_map] at h3
  obtain ⟨b, hb, hb'⟩ := Option.map_eq_some_iff.1 h3
  rw [hi] at hb'
  rw [hb]; exact hb'

/-- C09, for ids that are not negative: deletion succeeds, removes exactly the documents with a
requested id, keeps the others in order, token for token, under consecutive new ids, and returns the
number removed.  Repeated ids and ids beyond the end have no further effect.  Missing: negative ids,
see `C09_negative_ids_corrupt`. -/
theorem C09_delete_partial (hE : E.Lawful) (d : Disk E) (raw) (ids : List Int) (h : Built d raw)
    (hid : ∀ x ∈ ids, 0 ≤ x) (htok : (deleteIds ids raw).flatten ≠ []) :
    ∃ d' n x x', deleteFromIndex d ids = .ok (d', n) ∧ load d = .ok x ∧ load d' = .ok x' ∧
      x.numDocuments = raw.length ∧
      n = raw.length - (deleteIds ids (List.range raw.length)).length ∧
      x'.numDocuments = (deleteIds ids (List.range raw.length)).length ∧
      x'.centroids = x.centroids ∧ x'.quant = x.quant ∧
      (∀ j i : Nat, (deleteIds ids (List.range raw.length))[j]? = some i →
        x'.docTokens j = x.docTokens i) ∧
      IvfExact x' := by
  have hbi := built_idx hE h
  have hraw : raw.flatten ≠ [] := by
    intro h0
    apply htok
    rw [List.flatten_eq_nil_iff] at h0 ⊢
    intro l hl
    rw [← removeFrom_eq_deleteIds] at hl
    exact h0 l (removeFrom_mem ids l raw 0 hl)
  obtain ⟨cs, q, ch, hcs, hst, henc⟩ := id hbi
  obtain ⟨ws0, ch', e, hf, hst', _⟩ := deleteImpl_spec hst ids hid true
  rw [if_pos rfl] at e
  have hrun : deleteFromIndex d ids = .ok (applyAll (applyAll d ws0)
      (cleanEmbeddingsFiles d ids.eraseDups ch.flatten.length),
      ch.flatten.length - (removeFrom ids 0 ch.flatten).length) := by
    unfold deleteFromIndex
    rw [e]
    simp only [bind, Except.bind, applyAll_append]
  have hst2 := (clean_idxSame (applyAll d ws0) d ids.eraseDups ch.flatten.length).stores hst'
  have henc' : EncAll cs q ch'.flatten (deleteIds ids raw) := by
    rw [hf, ← removeFrom_eq_deleteIds]; exact henc.remove ids 0
  obtain ⟨x, hx, hs⟩ := load_shows hst (henc.flatten_ne hraw)
  obtain ⟨x', hx', hs'⟩ := load_shows hst2 (henc'.flatten_ne htok)
  have hcount : (deleteIds ids (List.range raw.length)).length = (removeFrom ids 0 ch.flatten).length := by
    have e1 : ch.flatten.map (fun _ => ()) = (List.range raw.length).map (fun _ => ()) := by
      apply List.ext_getElem?
      intro k
      rw [List.getElem?_map, List.getElem?_map]
      by_cases hk : k < raw.length
      · rw [List.getElem?_range hk, List.getElem?_eq_getElem (by rw [henc.1]; exact hk)]; rfl
      · rw [List.getElem?_eq_none (by rw [henc.1]; omega), List.getElem?_eq_none (by simp; omega)]; rfl
    have e2 := congrArg (fun l => (removeFrom ids 0 l).length) e1
    simp only [removeFrom_map, List.length_map] at e2
    rw [← removeFrom_eq_deleteIds, e2]
  obtain ⟨y, hy, _, hivf, _⟩ := Idx.load ⟨cs, q, ch', hcs, hst2, henc'⟩ htok
  rw [hx'] at hy
  cases hy
  refine ⟨_, _, x, x', hrun, hx, hx', by rw [hs.numDocs, henc.1], by rw [hcount, henc.1],
    by rw [hs'.numDocs, hf, hcount], by rw [hs'.centroids, hs.centroids], by rw [hs'.quant, hs.quant],
    ?_, hivf⟩
  intro j i hji
  have hi : i < raw.length := by
    have := List.mem_of_getElem? hji
    rw [← removeFrom_eq_deleteIds] at this
    exact List.mem_range.1 (removeFrom_mem ids i _ _ this)
  have hg : ch.flatten[i]? = some (ch.flatten[i]'(by rw [henc.1]; exact hi)) :=
    List.getElem?_eq_getElem _
  rw [hs.tokens i _ hg]
  apply hs'.tokens
  rw [hf]
  exact removeFrom_map_range ids ch.flatten j i _ (by rw [henc.1]; exact hji) hg

/-- Deleting ids 0 and 2 (one repeated, one beyond the end) out of four documents. -/
example : ∃ ws d, createWithKmeans (E := Toy) toyCfg [[7, 8], [5], [9], [4]] = .ok ws ∧
    deleteFromIndex (applyAll {} ws) [2, 0, 2, 77] = .ok (d, 2) ∧
    deleteIds [2, 0, 2, 77] (List.range 4) = [1, 3] ∧
    toyShow (.ok d) = some (2, [some [5], some [4]]) :=
  ⟨_, _, rfl, rfl, rfl, rfl⟩

/-- C09 is false of the code for negative ids: deleting id -1 removes nothing but shifts every entry of
the inverted file, so document 0 is no longer found under its centroid and the file is not exact any
more (/repo/next-plaid/src/delete.rs:210-226). -/
theorem C09_negative_ids_corrupt :
    ∃ ws d x, createWithKmeans (E := Toy) toyCfg [[1], [2]] = .ok ws ∧
      deleteFromIndex (applyAll {} ws) [-1] = .ok (d, 0) ∧ load d = .ok x ∧
      x.docTokens 0 = .ok [((1 : Nat), (1 : Nat))] ∧ x.candidates [1] = .ok [-1] ∧ ¬ IvfExact x := by
  refine ⟨_, _, _, rfl, rfl, rfl, rfl, rfl, ?_⟩
  rintro ⟨_, h⟩
  obtain ⟨s, len, l, h1, h2, h3, _, h5⟩ := h 1 (by decide)
  cases h1
  cases h2
  cases h3
  obtain ⟨i, hi, _⟩ := (h5 (-1)).1 (by decide)
  omega

/-- Deleting every document leaves a directory that cannot be opened
(/repo/next-plaid/src/mmap.rs:1362-1364). -/
theorem C09_delete_all_unloadable (hE : E.Lawful) (d : Disk E) (raw) (ids : List Int) (h : Built d raw)
    (hid : ∀ x ∈ ids, 0 ≤ x) (hall : deleteIds ids raw = []) :
    ∃ d' n, deleteFromIndex d ids = .ok (d', n) ∧ n = raw.length ∧ ∀ x, load d' ≠ .ok x := by
  obtain ⟨cs, q, ch, hcs, hst, henc⟩ := built_idx hE h
  obtain ⟨ws0, ch', e, hf, hst', _⟩ := deleteImpl_spec hst ids hid true
  rw [if_pos rfl] at e
  have hrun : deleteFromIndex d ids = .ok (applyAll (applyAll d ws0)
      (cleanEmbeddingsFiles d ids.eraseDups ch.flatten.length),
      ch.flatten.length - (removeFrom ids 0 ch.flatten).length) := by
    unfold deleteFromIndex
    rw [e]
    simp only [bind, Except.bind, applyAll_append]
  refine ⟨_, _, hrun, ?_, ?_⟩
  · rw [(henc.remove ids 0).1, removeFrom_eq_deleteIds, hall, henc.1]; rfl
  · intro x hx
    have hb := built_idx hE (Built.delete h hid hrun)
    rw [hall] at hb
    exact Idx.load_empty hb x hx rfl

/-! ### C10 -/

/-- C10: after any sequence of create, append and delete operations the loaded index shows exactly the
documents that the same operations produce on an ordinary list. -/
theorem C10_history (hE : E.Lawful) (d : Disk E) (raw) (h : Built d raw) (htok : raw.flatten ≠ []) :
    ∃ x, load d = .ok x ∧ Holds x raw ∧ x.metadata.numDocs = raw.length := by
  obtain ⟨x, hx, h1, _, h3, _⟩ := Idx.load (built_idx hE h) htok
  exact ⟨x, hx, h1, h3⟩

/-- A history with a create, an append and two deletes. -/
example : ∃ (d : Disk Toy) (raw : List (List Nat)), Built (E := Toy) d raw ∧ raw = [[5], [2, 3]] ∧
    toyShow (.ok d) = some (2, [some [5], some [2, 3]]) := by
  refine ⟨_, _, .delete (.append (.delete (.create (E := Toy) (cfg := toyCfg) (docs := ([[7, 8], [5], [9]] : List (List Nat))) {}
    (by decide) rfl) (ids := [0]) (by decide) rfl) (docs := ([[2, 3], [4]] : List (List Nat))) (cfg := toyCfg) (by decide)
    (by decide) rfl) (ids := [3, 1]) (by decide) rfl, rfl, rfl⟩

/-! ### C11 -/

/-- C11: for every history of `update_or_create` and `delete` calls that starts in an empty directory,
with any thresholds (each call may use its own configuration), the index holds exactly the documents
of the same history on a plain list, in order, and every call returned the ids (or the count) that the
list history gives. -/
theorem C11_buffered_history (hE : E.Lawful) (ops : List (Op E)) (hne : ops ≠ [])
    (hops : ∀ op ∈ ops, op.Ordinary) (d os) (hrun : diskRun ({} : Disk E) ops = .ok (d, os)) :
    os = (listRun [] ops).2 ∧
    ((listRun [] ops).1.flatten ≠ [] → ∃ x, load d = .ok x ∧ Holds x (listRun [] ops).1) := by
  obtain ⟨hi, ho⟩ := history_inv hE ops hops hne hrun
  refine ⟨ho, fun htok => ?_⟩
  obtain ⟨x, hx, h1, _⟩ := Idx.load hi.1 htok
  exact ⟨x, hx, h1⟩

/-- C11: such a history never fails, as long as k-means does not and the index keeps a token. -/
theorem C11_history_succeeds (hE : E.Lawful) (hT : Total E) (docs : List (List E.Row)) (cfg : Cfg)
    (ops : List (Op E)) (hops : ∀ op ∈ (.update docs cfg :: ops), Op.Ordinary op)
    (hat : AlwaysToken [] (.update docs cfg :: ops)) :
    ∃ r, diskRun ({} : Disk E) (.update docs cfg :: ops) = .ok r :=
  history_ok hE hT docs cfg ops hops hat

/-- A history that goes through creation, a from-scratch rebuild, a buffered update, a deletion inside
the buffer, and a centroid expansion (row 200 is above the threshold and becomes a centroid). -/
def toyHistory : List (Op Toy) :=
  [.update [[1], [2]] toyCfg, .update [[3], [4, 4]] toyCfg, .update [[5], [6]] toyCfg,
   .delete [4, 1], .update [[200], [8], [9]] toyCfg, .delete [0]]

example : (∀ op ∈ toyHistory, op.Ordinary) ∧
    ∃ d os, diskRun ({} : Disk Toy) toyHistory = .ok (d, os) ∧
      os = [.ids [0, 1], .ids [2, 3], .ids [4, 5], .count 2, .ids [4, 5, 6], .count 1] ∧
      (listRun [] toyHistory).1 = [[3], [4, 4], [6], [200], [8], [9]] ∧
      toyShow (.ok d) = some (6, [some [3], some [4, 4], some [6], some [200], some [8], some [9]]) ∧
      d.centroids = some [0, 1, 2, 200] := by
  refine ⟨?_, _, _, rfl, rfl, rfl, rfl, rfl⟩
  intro op hop
  simp only [toyHistory, List.mem_cons, List.not_mem_nil, or_false] at hop
  rcases hop with rfl | rfl | rfl | rfl | rfl | rfl <;> simp [Op.Ordinary, toyCfg]

/-- Mixing `update_append` with buffered updates breaks C11: the appended document is deleted, and the
buffered one is duplicated, by the next centroid expansion
(/repo/next-plaid/src/index.rs:1519-1531, 1675-1699). -/
theorem C11_append_with_buffer_corrupts :
    ∃ d1 os d2 ids d3 ids', diskRun ({} : Disk Toy)
        [.update [[1], [2], [3], [4]] toyCfg, .update [[5]] toyCfg] = .ok (d1, os) ∧
      updateAppend d1 [[6]] toyCfg = .ok (d2, ids) ∧
      toyShow (.ok d2) = some (6, [some [1], some [2], some [3], some [4], some [5], some [6]]) ∧
      updateOrCreate d2 [[7], [8], [9]] toyCfg = .ok (d3, ids') ∧
      toyShow (.ok d3) = some (9, [some [1], some [2], some [3], some [4], some [5], some [5], some [7],
        some [8], some [9]]) :=
  ⟨_, _, _, _, _, _, rfl, rfl, rfl, rfl, rfl⟩

/-- An update through a handle that was not reloaded after a deletion returns ids that no document has
(/repo/next-plaid/src/index.rs:1567, 1785-1800). -/
theorem C11_stale_handle_wrong_ids :
    ∃ d1 os d2 n d3, diskRun ({} : Disk Toy) [.update [[1], [2], [3], [4]] toyCfg] = .ok (d1, os) ∧
      deleteFromIndex d1 [0] = .ok (d2, n) ∧
      update d2 4 [[5]] toyCfg = .ok (d3, [4]) ∧
      toyShow (.ok d3) = some (4, [some [2], some [3], some [4], some [5]]) :=
  ⟨_, _, _, _, _, rfl, rfl, rfl, rfl⟩

/-- An empty update in buffer mode removes documents from view. -/
theorem C11_empty_update_loses_documents :
    ∃ d1 os d2 ids, diskRun ({} : Disk Toy) [.update [[1], [2], [3], [4], [5]] toyCfg] = .ok (d1, os) ∧
      toyShow (.ok d1) = some (5, [some [1], some [2], some [3], some [4], some [5]]) ∧
      updateOrCreate d1 [] toyCfg = .ok (d2, ids) ∧
      toyShow (.ok d2) = some (4, [some [1], some [2], some [3], some [4]]) :=
  ⟨_, _, _, _, rfl, rfl, rfl, rfl⟩

/-! ### C12 -/

/-- C12: after every history of updates and deletions the saved raw embeddings are exactly those of the
documents they belong to: the rebuild file holds an initial segment of the current documents, the
pending buffer a final segment, and they do not overlap. -/
theorem C12_raw_in_step (hE : E.Lawful) (ops : List (Op E)) (hne : ops ≠ [])
    (hops : ∀ op ∈ ops, op.Ordinary) (d os) (hrun : diskRun ({} : Disk E) ops = .ok (d, os)) :
    RawInStep d (listRun [] ops).1 := (history_inv hE ops hops hne hrun).1.2

/-- C12, one deletion: the rebuild file and the buffer after a deletion hold exactly the survivors of
the documents they held before. -/
theorem C12_delete_keeps_raw (hE : E.Lawful) (ops : List (Op E)) (hne : ops ≠ [])
    (hops : ∀ op ∈ ops, op.Ordinary) (d os) (hrun : diskRun ({} : Disk E) ops = .ok (d, os))
    (ids : List Int) (hid : ∀ x ∈ ids, 0 ≤ x) :
    ∃ d' n emb mid buf, deleteFromIndex d ids = .ok (d', n) ∧ (listRun [] ops).1 = emb ++ mid ++ buf ∧
      RawFile d.embNpy d.embLens emb ∧ RawFile d.buffer d.bufferLens buf ∧
      RawFile d'.embNpy d'.embLens (deleteIds ids emb) ∧
      RawFile d'.buffer d'.bufferLens
        (deleteIds (ids.map fun x => x - ((emb ++ mid).length : Int)) buf) := by
  obtain ⟨hi, _⟩ := history_inv hE ops hops hne hrun
  obtain ⟨⟨cs, q, ch, hcs, hst, henc⟩, emb, mid, buf, hraw, he, hbf, hbi⟩ := id hi
  obtain ⟨ws0, ch', e, hf, hst', hrs, _⟩ := deleteImpl_spec hst ids hid true
  rw [if_pos rfl] at e
  have hrun' : deleteFromIndex d ids = .ok (applyAll (applyAll d ws0)
      (cleanEmbeddingsFiles d ids.eraseDups ch.flatten.length),
      ch.flatten.length - (removeFrom ids 0 ch.flatten).length) := by
    unfold deleteFromIndex
    rw [e]
    simp only [bind, Except.bind, applyAll_append]
  have hc := clean_files hraw he hbf hrs ids.eraseDups
  have hshift : removeFrom ids.eraseDups (emb.length + mid.length : Nat) buf =
      deleteIds (ids.map fun x => x - ((emb ++ mid).length : Int)) buf := by
    rw [← removeFrom_eq_deleteIds, removeFrom_congr (mem_eraseDups' ids),
      ← Int.add_zero ((emb.length + mid.length : Nat) : Int),
      removeFrom_shift ids (emb.length + mid.length : Nat) buf 0]
    simp only [List.length_append, Int.natCast_add]
  refine ⟨_, _, emb, mid, buf, hrun', hraw, he, hbf, ?_, ?_⟩
  · have := hc.1
    rw [removeFrom_congr (mem_eraseDups' ids), removeFrom_eq_deleteIds] at this
    rw [henc.1]
    exact this
  · have := hc.2.1
    rw [hshift] at this
    rw [henc.1]
    exact this

/-- After the toy history up to the deletion, the buffer holds the one buffered survivor. -/
example : ∃ d os, diskRun ({} : Disk Toy) (toyHistory.take 4) = .ok (d, os) ∧
    (listRun [] (toyHistory.take 4)).1 = [[1], [3], [4, 4], [6]] ∧
    d.buffer = some [6] ∧ d.bufferLens = some [1] ∧ d.bufferInfo = some 1 ∧ d.embNpy = none :=
  ⟨_, _, rfl, rfl, rfl, rfl, rfl, rfl⟩

end NextPlaid.Props
