import Verif.Proofs.Index2

/-! The operations succeed: no panic and no error other than those of k-means. -/

namespace NextPlaid.Index
open NextPlaid.Spec

variable {E : Env}

/-- The numerical parts always succeed. -/
structure Total (E : Env) : Prop where
  kmeans : ∀ s ds, ds ≠ [] → ∃ cs, E.kmeans s ds = .ok cs
  expand : ∀ s cs t ds, ∃ new, E.expand s cs t ds = .ok new

theorem createWithKmeans_ok (hE : E.Lawful) (hT : Total E) (cfg : Cfg) (docs : List (List E.Row))
    (hne : docs ≠ []) (hb : 0 < cfg.batchSize) : ∃ ws, createWithKmeans cfg docs = .ok ws := by
  obtain ⟨cs, hk⟩ := hT.kmeans cfg.seed docs hne
  obtain ⟨ws0, q, ch, e, _⟩ :=
    createIndexFiles_spec hE cfg.seed cfg.batchSize docs cs (hE.kmeans_ne _ _ _ hk) hne hb ({} : Disk E)
  unfold createWithKmeans
  rw [if_neg hne, hk]
  simp only [bind, Except.bind]
  rw [e]
  exact ⟨_, rfl⟩

theorem updateScratch_ok (hE : E.Lawful) (hT : Total E) {d : Disk E} {existing docs : List (List E.Row)}
    {cfg : Cfg} (hb : 0 < cfg.batchSize) (hne : (existing ++ docs).flatten ≠ []) :
    ∃ r, updateScratch d existing docs cfg = .ok r := by
  have hne' : existing ++ docs ≠ [] := by
    intro h0; rw [h0] at hne; exact hne rfl
  obtain ⟨ws, e⟩ := createWithKmeans_ok hE hT cfg (existing ++ docs) hne' hb
  obtain ⟨_, h1, _⟩ := createWithKmeans_spec hE cfg (existing ++ docs) d hb e
  obtain ⟨x, hx, _⟩ := Idx.load h1 hne
  unfold updateScratch
  simp only []
  rw [e]
  simp only [bind, Except.bind]
  rw [hx]
  exact ⟨_, rfl⟩

theorem dropBuffered_ok {d : Disk E} {raw} (h : Idx d raw) (n : Nat) :
    ∃ d1 m raw', dropBuffered d n = .ok (d1, m) ∧ Idx d1 raw' := by
  unfold dropBuffered
  simp only []
  split
  · obtain ⟨cs, q, ch, hcs, hst, henc⟩ := h
    obtain ⟨ws0, ch', e, hf, hst', hrs, ht⟩ := deleteImpl_spec hst
      (idRange (n - d.bufferInfo.getD 0) (d.bufferInfo.getD 0)) (by
        intro x hx; rw [mem_idRange] at hx; omega) false
    have hid : Idx (applyAll d ws0) (removeFrom (idRange (n - d.bufferInfo.getD 0)
        (d.bufferInfo.getD 0)) 0 raw) := ⟨cs, q, ch', hcs, hst', by rw [hf]; exact henc.remove _ 0⟩
    obtain ⟨m, hm, _⟩ := loadMeta_docs hid
    rw [e]
    simp only [bind, Except.bind, Bool.false_eq_true, if_false, List.append_nil]
    rw [hm]
    exact ⟨_, _, _, rfl, hid⟩
  · exact ⟨d, n, raw, rfl, h⟩

theorem expandCentroids_ok (hT : Total E) {d : Disk E} {raw} (h : Idx d raw) (docs : List (List E.Row))
    (seed : Nat) : ∃ d1, expandCentroids d docs seed = .ok d1 ∧ Idx d1 raw := by
  obtain ⟨cs, q, ch, hcs, hst, henc⟩ := h
  unfold expandCentroids
  cases d.threshold with
  | none => exact ⟨d, rfl, cs, q, ch, hcs, hst, henc⟩
  | some thr =>
    simp only []
    have hu : ∃ r, updateCentroids d docs thr seed = .ok r := by
      unfold updateCentroids
      rw [hst.centroids]
      simp only []
      split
      · exact ⟨_, rfl⟩
      · obtain ⟨new, hn⟩ := hT.expand seed cs thr docs
        rw [hn, hst.ivfLengths]
        simp only [bind, Except.bind]
        split
        · exact ⟨_, rfl⟩
        · rw [if_neg (by simp)]
          exact ⟨_, rfl⟩
    obtain ⟨⟨ws, n⟩, hu⟩ := hu
    rw [hu]
    obtain ⟨new, _, hst', _, _⟩ := updateCentroids_spec hst _ _ _ hu
    exact ⟨_, rfl, cs ++ new, q, ch, by simp [hcs], hst', henc.mono new⟩

theorem updateExpand_ok (hE : E.Lawful) (hT : Total E) {d : Disk E} {raw} (h : Idx d raw)
    {buffer docs : List (List E.Row)} {cfg : Cfg} (hb : 0 < cfg.batchSize) (hdocs : docs ≠ []) (n : Nat) :
    ∃ r, updateExpand d n buffer docs cfg = .ok r := by
  obtain ⟨d1, m, raw', e1, h1⟩ := dropBuffered_ok h n
  obtain ⟨d2, e2, ⟨cs, q, ch, hcs, hst, henc⟩⟩ := expandCentroids_ok hT h1 (buffer ++ docs) cfg.seed
  have hst3 : StoresAt (applyAll d2 clearBuffer) cs q ch :=
    hst.raw rfl rfl rfl (fun j => ⟨rfl, rfl, rfl, rfl⟩) rfl rfl
  obtain ⟨ws, e, _⟩ := updateIndex_idx hE hst3 hcs henc (buffer ++ docs) (by simp [hdocs]) cfg.batchSize hb true
  unfold updateExpand
  rw [e1]
  simp only [bind, Except.bind]
  rw [e2]
  simp only []
  rw [loadCodec_spec hst]
  simp only []
  rw [e]
  exact ⟨_, rfl⟩

theorem update_ok (hE : E.Lawful) (hT : Total E) {d : Disk E} {raw docs : List (List E.Row)} {cfg : Cfg}
    (h : Inv d raw) (hdocs : docs ≠ []) (hb : 0 < cfg.batchSize) (hne : (raw ++ docs).flatten ≠ []) :
    ∃ r, update d raw.length docs cfg = .ok r := by
  unfold update
  simp only []
  split
  · next hc =>
    have hraw : loadRaw d.embNpy d.embLens = raw := by
      obtain ⟨_, emb, mid, buf, hraw, he, _, _⟩ := h
      rw [loadRaw_spec he] at hc ⊢
      have hlen := hc.2
      rw [hraw] at hlen
      simp only [List.length_append] at hlen
      have h1 : mid = [] := List.length_eq_zero_iff.1 (by omega)
      have h2 : buf = [] := List.length_eq_zero_iff.1 (by omega)
      rw [hraw, h1, h2]; simp
    rw [hraw]
    exact updateScratch_ok hE hT hb hne
  · obtain ⟨cs, q, ch, hcs, hst, henc⟩ := h.1
    rw [loadCodec_spec hst]
    simp only [bind, Except.bind]
    have key : ∃ r, updateIncremental d raw.length docs cfg = .ok r ∧ Inv r.1 (raw ++ docs) := by
      unfold updateIncremental
      simp only []
      split
      · obtain ⟨⟨d1, s⟩, e⟩ := updateExpand_ok hE hT h.1 (buffer := loadRaw d.buffer d.bufferLens)
          hb hdocs raw.length
        exact ⟨_, e, (updateExpand_inv hE h hdocs hb e).1⟩
      · obtain ⟨d2, e, hi⟩ := updateBuffered_spec hE h hdocs hb
        exact ⟨_, e, hi⟩
    obtain ⟨r, e, hi⟩ := key
    rw [e]
    simp only []
    obtain ⟨x, hx, _⟩ := Idx.load hi.1 hne
    rw [hx]
    exact ⟨_, rfl⟩

theorem updateOrCreate_ok (hE : E.Lawful) (hT : Total E) {d : Disk E} {raw docs : List (List E.Row)} {cfg : Cfg}
    (h : Inv d raw) (hdocs : docs ≠ []) (hb : 0 < cfg.batchSize) (hne : raw.flatten ≠ []) :
    ∃ r, updateOrCreate d docs cfg = .ok r := by
  unfold updateOrCreate
  obtain ⟨cs, q, ch, hcs, hst, henc⟩ := h.1
  obtain ⟨x, hx, _, _, hn, _⟩ := Idx.load h.1 hne
  rw [hst.metadata]
  simp only []
  rw [hx]
  simp only [bind, Except.bind, hn]
  refine update_ok hE hT h hdocs hb ?_
  rw [List.flatten_append]
  intro h0
  exact hne (List.append_eq_nil_iff.1 h0).1

theorem updateOrCreate_fresh_ok (hE : E.Lawful) (hT : Total E) {docs : List (List E.Row)} {cfg : Cfg}
    (hb : 0 < cfg.batchSize) (hne : docs.flatten ≠ []) :
    ∃ r, updateOrCreate ({} : Disk E) docs cfg = .ok r := by
  have hne' : docs ≠ [] := by intro h0; rw [h0] at hne; exact hne rfl
  obtain ⟨ws, e⟩ := createWithKmeans_ok hE hT cfg docs hne' hb
  obtain ⟨_, h1, _⟩ := createWithKmeans_spec hE cfg docs ({} : Disk E) hb e
  obtain ⟨x, hx, _⟩ := Idx.load h1 hne
  unfold updateOrCreate
  simp only []
  rw [e]
  simp only [bind, Except.bind]
  rw [hx]
  exact ⟨_, rfl⟩

/-- After every operation that is followed by another one the list still has a token. -/
def AlwaysToken {E : Env} (docs : List (List E.Row)) : List (Op E) → Prop
  | [] => True
  | op :: ops => (op.onList docs).1.flatten ≠ [] ∧ AlwaysToken (op.onList docs).1 ops

theorem onDisk_ok (hE : E.Lawful) (hT : Total E) {d : Disk E} {raw} (h : Inv d raw) (hne : raw.flatten ≠ [])
    (op : Op E) (hop : op.Ordinary) : ∃ r, op.onDisk d = .ok r := by
  cases op with
  | update docs cfg =>
    obtain ⟨r, e⟩ := updateOrCreate_ok hE hT h hop.1 hop.2 hne
    unfold Op.onDisk
    simp only []
    rw [e]
    exact ⟨_, rfl⟩
  | delete ids =>
    obtain ⟨d1, e, _⟩ := deleteFromIndex_inv h ids hop
    unfold Op.onDisk
    simp only []
    rw [e]
    exact ⟨_, rfl⟩

theorem diskRun_ok (hE : E.Lawful) (hT : Total E) : ∀ (ops : List (Op E)) {d : Disk E} {raw}, Inv d raw →
    raw.flatten ≠ [] → (∀ op ∈ ops, op.Ordinary) → AlwaysToken raw ops → ∃ r, diskRun d ops = .ok r
  | [], d, raw, _, _, _, _ => ⟨_, rfl⟩
  | op :: ops, d, raw, h, hne, hops, hat => by
    obtain ⟨⟨d1, o⟩, e⟩ := onDisk_ok hE hT h hne op (hops op (by simp))
    obtain ⟨h1, _⟩ := onDisk_inv hE h op (hops op (by simp)) e
    obtain ⟨r, e2⟩ := diskRun_ok hE hT ops h1 hat.1 (fun o ho => hops o (by simp [ho])) hat.2
    rw [diskRun, e]
    simp only [bind, Except.bind]
    rw [e2]
    exact ⟨_, rfl⟩

theorem history_ok (hE : E.Lawful) (hT : Total E) (docs : List (List E.Row)) (cfg : Cfg) (ops : List (Op E))
    (hops : ∀ op ∈ (.update docs cfg :: ops), Op.Ordinary op) (hat : AlwaysToken [] (.update docs cfg :: ops)) :
    ∃ r, diskRun ({} : Disk E) (.update docs cfg :: ops) = .ok r := by
  have hat' := hat
  obtain ⟨h0, h1⟩ := hat
  have hne : docs.flatten ≠ [] := by simpa [Op.onList] using h0
  have hop := hops _ (List.mem_cons_self)
  obtain ⟨⟨d1, ids⟩, e⟩ := updateOrCreate_fresh_ok hE hT hop.2 hne
  have e1 : (Op.update docs cfg).onDisk ({} : Disk E) = .ok (d1, .ids ids) := by
    unfold Op.onDisk
    simp only []
    rw [e]
    rfl
  obtain ⟨hi, _⟩ := onDisk_fresh hE _ hop e1
  obtain ⟨r, e2⟩ := diskRun_ok hE hT ops hi h0 (fun o ho => hops o (by simp [ho])) h1
  rw [diskRun, e1]
  simp only [bind, Except.bind]
  rw [e2]
  exact ⟨_, rfl⟩

end NextPlaid.Index
