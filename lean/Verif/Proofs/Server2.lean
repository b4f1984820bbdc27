import Verif.Proofs.Server

/-! The batches of the server. -/

namespace NextPlaid.Server
open NextPlaid NextPlaid.Index NextPlaid.Db NextPlaid.Spec

variable {E : Env} {S : Sql} {T : TextEnv S}

/-! ### Deletions by condition -/

theorem condIds_mem (hS : S.Lawful) {db : Option (Tables S)} {I} (h : RepO db I) (c : Cond S) (j : Nat) (it : Item S)
    (hj : I[j]? = some it) : (j : Int) ∈ condIds c db ↔
      (c.valid && c.holds j fun col => S.cell (declaredType db col) (it.value col)) = true := by
  cases db with
  | none =>
    have : I = [] := h
    subst this
    cases hj
  | some t =>
    obtain ⟨P, hP, rfl⟩ := h
    have hval : ∀ b, (outRow t b it).value = fun col => S.cell (declaredType (some t) col) (it.value col) := by
      intro b
      funext col
      refine outRow_value hS t b it ?_ col
      obtain ⟨p, hp, rfl⟩ := List.mem_map.1 (List.mem_of_getElem? hj)
      exact hP.keys p hp
    simp only [condIds, Cond.ids, whereCondition, joined_rep hP]
    cases hv : c.valid
    · simp
    · simp only [if_true, Bool.true_and]
      constructor
      · intro hm
        obtain ⟨r, hr, e⟩ := List.mem_map.1 hm
        obtain ⟨hr1, hr2⟩ := List.mem_filter.1 hr
        obtain ⟨i, hi⟩ := List.mem_iff_getElem?.1 hr1
        rw [outFrom_getElem?] at hi
        rcases hq : (P.map (·.2))[i]? with _ | it'
        · rw [hq] at hi; cases hi
        · rw [hq] at hi
          cases hi
          have : i = j := by
            simp only [outRow] at e
            omega
          subst this
          rw [hj] at hq
          cases hq
          rw [hval] at hr2
          simpa [outRow] using hr2
      · intro hm
        refine List.mem_map.2 ⟨outRow t (0 + j) it, List.mem_filter.2 ⟨?_, ?_⟩, by simp [outRow]⟩
        · apply List.mem_iff_getElem?.2
          exact ⟨j, by rw [outFrom_getElem?, hj]; rfl⟩
        · rw [hval]
          simpa [outRow] using hm

theorem condIds_nonneg {db : Option (Tables S)} {I} (h : RepO db I) (c : Cond S) : ∀ x ∈ condIds c db, 0 ≤ x := by
  cases db with
  | none => intro x hx; cases hx
  | some t =>
    obtain ⟨P, hP, rfl⟩ := h
    intro x hx
    simp only [condIds, Cond.ids, whereCondition, joined_rep hP] at hx
    cases hv : c.valid
    · rw [hv] at hx; simp at hx
    · rw [hv] at hx
      simp only [if_true] at hx
      obtain ⟨r, hr, rfl⟩ := List.mem_map.1 hx
      obtain ⟨i, it, _, rfl⟩ : ∃ (i : Nat) (it : Item S), (P.map (·.2))[i]? = some it ∧ r = outRow t i it := by
        obtain ⟨i, hi⟩ := List.mem_iff_getElem?.1 (List.mem_filter.1 hr).1
        rw [outFrom_getElem?] at hi
        rcases hq : (P.map (·.2))[i]? with _ | it'
        · rw [hq] at hi; cases hi
        · rw [hq] at hi
          cases hi
          exact ⟨i, it', hq, by simp⟩
      simp [outRow]

theorem deleteIds_cond (hS : S.Lawful) {db : Option (Tables S)} {rows : List (List E.Row × Item S)}
    (h : RepO db (rows.map (·.2))) (c : Cond S) :
    deleteIds (condIds c db) rows = remaining (declaredType db) rows c := by
  unfold remaining
  rw [deleteIds_eq_filter]
  congr 1
  apply List.filter_congr
  rintro ⟨p, i⟩ hp
  have hi : rows[i]? = some p := by
    have := List.mem_zipIdx_iff_getElem?.1 hp
    exact this
  have hm := condIds_mem hS h c i p.2 (by rw [List.getElem?_map, hi]; rfl)
  simp only [hm]
  cases c.valid && c.holds i fun col => S.cell (declaredType db col) (p.2.value col) <;> rfl

theorem condSteps_clean (hS : S.Lawful) {s : Store E T} {rows} (h : Clean s rows) (hm : s.disk.metadata ≠ none) (n : Nat)
    (c : Cond S) : Clean (final s (condSteps s n c)) (remaining (declaredType s.db) rows c) ∧
      (final s (condSteps s n c)).disk.metadata ≠ none ∧
      declaredType (final s (condSteps s n c)).db = declaredType s.db ∧
      ∀ s' ∈ condSteps s n c, DiskOk s'.disk ((remaining (declaredType s.db) rows c).map (·.1)) ∧
        (RepO s'.db (rows.map (·.2)) ∨ RepO s'.db ((remaining (declaredType s.db) rows c).map (·.2))) ∧
        (s'.db = none → rows = []) ∧
        s'.disk.metadata.map (·.numDocs) = some (remaining (declaredType s.db) rows c).length := by
  have e := deleteIds_cond (E := E) hS h.db c
  unfold condSteps
  split
  · next h0 =>
    rw [h0] at e
    have : deleteIds [] rows = rows := by
      rw [← removeFrom_eq_deleteIds]
      exact removeFrom_none _ _ _ (by simp)
    rw [← e, this]
    exact ⟨h, hm, rfl, by intro s' hs'; cases hs'⟩
  · obtain ⟨tr, k, h1, h2, h3, h4, h5⟩ := deleteSteps_clean h hm n (condIds c s.db) (condIds_nonneg h.db c)
    rw [h1, ← e]
    exact ⟨h2, h3, h4, h5⟩

theorem final_append (s : Store E T) (a b : List (Store E T)) : final s (a ++ b) = final (final s a) b := by
  unfold final
  rw [List.getLast?_append]
  cases b.getLast? <;> rfl

theorem condsSteps_clean (hS : S.Lawful) (n : Nat) (ty : String → S.Ty) : ∀ (cs : List (Cond S)) {s : Store E T} {rows},
    Clean s rows → s.disk.metadata ≠ none → declaredType s.db = ty →
    Clean (final s (condsSteps s n cs)) (cs.foldl (remaining ty) rows)
  | [], s, rows, h, _, _ => h
  | c :: cs, s, rows, h, hm, hty => by
    obtain ⟨h1, h2, h3, _⟩ := condSteps_clean hS h hm n c
    rw [condsSteps, List.foldl_cons]
    rw [final_append, ← hty]
    rw [hty] at h3
    exact hty ▸ condsSteps_clean hS n ty cs (hty ▸ h1) h2 h3

theorem remaining_nil {α : Type} (ty : String → S.Ty) (c : Cond S) : remaining ty ([] : List (α × Item S)) c = [] := rfl

theorem foldl_remaining_nil {α : Type} (ty : String → S.Ty) : ∀ (cs : List (Cond S)),
    cs.foldl (remaining ty) ([] : List (α × Item S)) = []
  | [] => rfl
  | c :: cs => by rw [List.foldl_cons, remaining_nil, foldl_remaining_nil ty cs]

/-- A clean store with pairs can be opened. -/
theorem Clean.load {s : Store E T} {rows} (h : Clean s rows) (hne : rows ≠ []) :
    s.disk.metadata ≠ none ∧ ∃ x, Index.load s.disk = .ok x ∧ Holds x (rows.map (·.1)) ∧ x.metadata.numDocs = rows.length := by
  have hne' : rows.map (·.1) ≠ [] := by simpa using hne
  rcases h.disk with ⟨_, h0⟩ | h0
  · exact absurd h0 hne'
  · obtain ⟨m, hm, _⟩ := inv_meta h0
    obtain ⟨x, hx, hh, _, hn, _⟩ := Idx.load h0.1 (flatten_ne_nil h.torn.tokens hne')
    exact ⟨by rw [hm]; simp, x, hx, hh, by rw [hn, List.length_map]⟩

theorem Clean.load_nil {s : Store E T} (h : Clean s ([] : List (List E.Row × Item S))) (x : Loaded E) :
    Index.load s.disk ≠ .ok x := by
  intro hx
  rcases h.disk with ⟨h0, _⟩ | h0
  · rw [h0] at hx; cases hx
  · exact Idx.load_empty h0.1 x hx rfl

theorem deleteBatchLoaded_clean (hS : S.Lawful) {s : Store E T} {rows} (h : Clean s rows) (conds : List (Cond S)) :
    Clean (final s (deleteBatchLoaded s conds).1) (conds.foldl (remaining (declaredType s.db)) rows) := by
  unfold deleteBatchLoaded
  by_cases hne : rows = []
  · subst hne
    rw [foldl_remaining_nil]
    split
    · exact h
    · next x hx => exact absurd hx (h.load_nil x)
  · obtain ⟨hm, x, hx, _⟩ := h.load hne
    rw [hx]
    exact condsSteps_clean hS _ _ conds h hm rfl

theorem processDeleteBatch_clean (hS : S.Lawful) {s : Store E T} {D I} (h : Torn s D I) (conds : List (Cond S)) :
    Clean (final s (processDeleteBatch s conds).1) (conds.foldl (remaining (declaredType s.db)) (D.zip I)) := by
  obtain ⟨tr, b, h1, _, h3, h4⟩ := repair_clean h
  unfold processDeleteBatch
  rw [h1]
  simp only
  rw [final_append, ← h4]
  exact deleteBatchLoaded_clean hS h3 conds

/-- The moments of a deletion by one condition. -/
theorem processDeleteBatch_moments (hS : S.Lawful) {s : Store E T} {D I} (h : Torn s D I) (c : Cond S) (s' : Store E T)
    (hs' : s' ∈ (processDeleteBatch s [c]).1) : Clean s' (D.zip I) ∨
      (DiskOk s'.disk ((remaining (declaredType s.db) (D.zip I) c).map (·.1)) ∧
        (RepO s'.db ((D.zip I).map (·.2)) ∨ RepO s'.db ((remaining (declaredType s.db) (D.zip I) c).map (·.2))) ∧
        (s'.db = none → D.zip I = []) ∧
        s'.disk.metadata.map (·.numDocs) = some (remaining (declaredType s.db) (D.zip I) c).length) := by
  obtain ⟨tr, b, h1, h2, h3, h4⟩ := repair_clean h
  unfold processDeleteBatch at hs'
  rw [h1] at hs'
  simp only at hs'
  rcases List.mem_append.1 hs' with hs' | hs'
  · exact .inl (h2 s' hs' ▸ h3)
  · right
    unfold deleteBatchLoaded at hs'
    split at hs'
    · cases hs'
    · next x hx =>
      have hm : (final s tr).disk.metadata ≠ none := by
        intro h0
        unfold Index.load loadMeta at hx
        rw [h0] at hx
        cases hx
      obtain ⟨_, _, _, h5⟩ := condSteps_clean hS h3 hm x.metadata.numDocs c
      simp only [condsSteps, List.append_nil] at hs'
      rw [← h4]
      exact h5 s' hs'

/-! ### Additions -/

theorem addMeta_some {db db' : Option (Tables S)} {items : List (Item S)} {ids n} (hne : items ≠ [])
    (h : addMeta db items ids = .ok (db', n)) : db' ≠ none := by
  unfold addMeta at h
  split at h
  · next hsome =>
    unfold Db.update at h
    rw [if_neg hne] at h
    split at h
    · cases h
    · cases db with
      | none => cases hsome
      | some t =>
        simp only [bind, Except.bind] at h
        split at h
        · cases h
        · cases h; simp
  · unfold Db.create at h
    split at h
    · cases h
    · simp only [hne, if_false, bind, Except.bind] at h
      split at h
      · cases h
      · split at h
        · cases h
        · cases h; simp

theorem keywordSteps_clean {s : Store E T} {rows} (h : Clean s rows) (items : List (Item S)) (ids : List Int) (tk : Tokenizer) :
    Clean (final s (keywordSteps s items ids tk)) rows ∧ ∀ s' ∈ keywordSteps s items ids tk, Clean s' rows := by
  unfold keywordSteps
  split
  · exact ⟨h, by intro s' hs'; cases hs'⟩
  · refine ⟨h.fts _, ?_⟩
    intro s' hs'
    rw [List.mem_singleton.1 hs']
    exact h.fts _

theorem evictSteps_clean {s : Store E T} {rows} (h : Clean s rows) (max : Option Nat) :
    Clean (final s (evictSteps s max)) (newest max rows) ∧ (newest max rows = rows → evictSteps s max = []) := by
  cases max with
  | none => exact ⟨h, fun _ => rfl⟩
  | some m =>
    unfold evictSteps evict newest
    by_cases hne : rows = []
    · subst hne
      simp only [List.drop_nil, forall_const]
      split
      · exact ⟨h, rfl⟩
      · next x hx => exact absurd hx (h.load_nil x)
    · obtain ⟨hm, x, hx, _, hn⟩ := h.load hne
      rw [hx]
      simp only [hn]
      split
      · next hle =>
        rw [show rows.length - m = 0 by omega, List.drop_zero]
        exact ⟨h, fun _ => rfl⟩
      · next hgt =>
        obtain ⟨tr, k, h1, h2, _⟩ := deleteSteps_clean h hm rows.length (idRange 0 (rows.length - m)) (idRange_nonneg _ _)
        rw [h1]
        simp only
        rw [deleteIds_head] at h2
        refine ⟨h2, ?_⟩
        intro he
        have := congrArg List.length he
        rw [List.length_drop] at this
        omega

/-- What a batch does to clean pairs. -/
theorem batchUpdate_clean (hE : E.Lawful) (hS : S.Lawful) {s : Store E T} {rows} (h : Clean s rows)
    {docs : List (List E.Row)} {items : List (Item S)} (hdocs : docs ≠ []) (hlen : items.length = docs.length)
    (htok : ∀ d ∈ docs, d ≠ []) {cfg : Cfg} (hb : 0 < cfg.batchSize) (tk : Tokenizer) (max : Option Nat) :
    ((∃ e, (batchUpdate s docs items cfg tk max).2 = .error e) ∧ (max ≠ some 0 →
        Clean (final s (batchUpdate s docs items cfg tk max).1) rows) ∨
      (∃ ids, (batchUpdate s docs items cfg tk max).2 = .ok ids ∧ ids = idRange rows.length docs.length) ∧
        Clean (final s (batchUpdate s docs items cfg tk max).1) (newest max (rows ++ docs.zip items))) ∧
    (newest max (rows ++ docs.zip items) = rows ++ docs.zip items → ∀ s' ∈ (batchUpdate s docs items cfg tk max).1,
      Clean s' rows ∨ Clean s' (rows ++ docs.zip items) ∨
        (DiskOk s'.disk (rows.map (·.1) ++ docs) ∧ s'.db = s.db ∧ s'.disk.metadata ≠ none)) := by
  unfold batchUpdate
  rcases hu : updateOrCreate s.disk docs cfg with e | ⟨d, ids⟩
  · exact ⟨.inl ⟨⟨e, rfl⟩, fun _ => h⟩, by intro _ s' hs'; cases hs'⟩
  · simp only
    have hinv : Inv d (rows.map (·.1) ++ docs) ∧ ids = idRange rows.length docs.length := by
      rcases h.disk with ⟨hd, hr⟩ | hd
      · rw [hd] at hu
        have hr' : rows = [] := by simpa using hr
        subst hr'
        exact updateOrCreate_fresh hE noRaw_empty rfl hb hu
      · have := updateOrCreate_inv hE hd hdocs hb hu
        simpa using this
    obtain ⟨hi, rfl⟩ := hinv
    obtain ⟨m, hm, _⟩ := inv_meta hi
    have e1 : (docs.zip items).map (·.1) = docs := List.map_fst_zip (by omega)
    have e2 : (docs.zip items).map (·.2) = items := List.map_snd_zip (by omega)
    have hitems : items ≠ [] := by
      intro h0
      rw [h0] at hlen
      exact hdocs (List.length_eq_zero_iff.1 hlen.symm)
    have hmid : DiskOk d (rows.map (·.1) ++ docs) ∧ s.db = s.db ∧ d.metadata ≠ none := ⟨.inr hi, rfl, by rw [hm]; simp⟩
    unfold batchRows
    rcases ha : addMeta s.db items (idRange rows.length docs.length) with e | ⟨db, n⟩
    · simp only
      obtain ⟨d', hd', hdi', _⟩ := deleteFromIndex_inv hi (idRange rows.length docs.length) (idRange_nonneg _ _)
      have hback : deleteIds (idRange rows.length docs.length) (rows.map (·.1) ++ docs) = rows.map (·.1) := by
        have := deleteIds_tail (rows.map (·.1) ++ docs) rows.length (by simp)
        rw [show (rows.map (·.1) ++ docs).length - rows.length = docs.length by simp] at this
        rw [this, List.take_left' (by simp)]
      rw [hback] at hd' hdi'
      have hcl : Clean ({ s with disk := d' } : Store E T) rows := ⟨.inr hdi', h.db, h.tokens, h.noDb⟩
      unfold rollbackSteps
      simp only [hd']
      refine ⟨.inl ⟨⟨e, rfl⟩, fun _ => hcl⟩, ?_⟩
      intro _ s' hs'
      simp only [List.mem_cons, List.not_mem_nil, or_false] at hs'
      rcases hs' with rfl | rfl
      · exact .inr (.inr hmid)
      · exact .inl hcl
    · simp only
      have hall : Clean ({ s with disk := d, db := db } : Store E T) (rows ++ docs.zip items) := by
        refine ⟨?_, ?_, ?_, ?_⟩
        · rw [List.map_append, e1]; exact .inr hi
        · rw [List.map_append, e2]
          refine addMeta_rep hS h.db (n := n) ?_
          rw [List.length_map, hlen]
          exact ha
        · intro p hp
          rcases List.mem_append.1 hp with hp | hp
          · exact h.tokens p hp
          · exact htok p.1 (List.of_mem_zip hp).1
        · intro h0
          exact absurd h0 (addMeta_some hitems ha)
      unfold batchKeywords batchEvict
      simp only
      obtain ⟨hk1, hk2⟩ := keywordSteps_clean hall items (idRange rows.length docs.length) tk
      obtain ⟨he1, he2⟩ := evictSteps_clean hk1 max
      generalize hks : keywordSteps ({ s with disk := d, db := db } : Store E T) items (idRange rows.length docs.length) tk = ks at *
      have hfin : ∀ es, final s ({ s with disk := d } :: { s with disk := d, db := db } :: (ks ++ es)) =
          final (final { s with disk := d, db := db } ks) es := by
        intro es
        rw [← final_append]
        unfold final
        rw [List.getLast?_cons, List.getLast?_cons]
        cases (ks ++ es).getLast? <;> rfl
      constructor
      · have hne : newest max (rows ++ docs.zip items) ≠ [] ∨ max = some 0 := by
          cases max with
          | none =>
            left
            intro h0
            have h1 := congrArg List.length h0
            have h2 := List.length_pos_iff.2 hdocs
            simp only [newest, List.length_append, List.length_zip, List.length_nil] at h1
            omega
          | some m =>
            by_cases hm0 : m = 0
            · right; rw [hm0]
            · left
              intro h0
              have h1 := congrArg List.length h0
              have h2 := List.length_pos_iff.2 hdocs
              simp only [newest, List.length_drop, List.length_append, List.length_zip, List.length_nil] at h1
              omega
        rcases hp : published (final (final { s with disk := d, db := db } ks) (evictSteps (final { s with disk := d, db := db } ks) max))
            (idRange rows.length docs.length) with e | out
        · left
          refine ⟨⟨e, rfl⟩, fun h0 => ?_⟩
          exfalso
          rcases hne with hne | hne
          · obtain ⟨_, x, hx, _⟩ := he1.load hne
            unfold published at hp
            rw [hx] at hp
            cases hp
          · exact h0 hne
        · right
          refine ⟨⟨out, rfl, ?_⟩, ?_⟩
          · unfold published at hp
            split at hp
            · cases hp
            · cases hp; rfl
          · rw [hfin]; exact he1
      · intro hnew s' hs'
        rw [he2 hnew, List.append_nil] at hs'
        simp only [List.mem_cons] at hs'
        rcases hs' with rfl | rfl | hs'
        · exact .inr (.inr hmid)
        · exact .inr (.inl hall)
        · exact .inr (.inl (hk2 s' hs'))

end NextPlaid.Server
