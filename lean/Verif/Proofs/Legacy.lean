import Verif.Proofs.Db5
import Verif.Spec.Legacy

/-! Lemmas about metadata databases in a single-table layout. -/

namespace NextPlaid.Db
open NextPlaid NextPlaid.Index NextPlaid.Spec

variable {S : Sql}

/-- Rows without content ids. -/
def plain (rows : List (Item S)) : List (Int × Item S) := rows.map fun it => (0, it)

theorem plain_snd (rows : List (Item S)) : (plain rows).map (·.2) = rows := by
  unfold plain; rw [List.map_map]; exact List.map_id _

theorem plain_append (a b : List (Item S)) : plain (a ++ b) = plain a ++ plain b := List.map_append ..

theorem plain_length (a : List (Item S)) : (plain a).length = a.length := List.length_map ..

theorem mem_plain {rows : List (Item S)} {p} (h : p ∈ plain rows) : p.2 ∈ rows := by
  obtain ⟨it, hit, rfl⟩ := List.mem_map.1 h
  exact hit

/-- The table represents the list of rows. -/
structure RepF (t : Flat S) (rs : List (Item S)) : Prop where
  rows : t.rows = thinFrom t.cols 0 (plain rs)
  keys : ∀ it ∈ rs, ∀ k ∈ keysOf it, k ∈ t.cols.map (·.1)

/-- The columns of the table as those of a split layout without content columns. -/
def tab (t : Flat S) : Tables S := ⟨t.cols, [], [], []⟩

theorem thinFrom_plain_getElem? (cols : List (String × S.Ty)) : ∀ (rows : List (Item S)) (b : Int) (i : Nat),
    (thinFrom cols b (plain rows))[i]? = rows[i]?.map fun it => ⟨b + i, 0, rowVals cols it⟩
  | [], b, i => by simp [plain, thinFrom]
  | it :: rows, b, 0 => by simp [plain, thinFrom]
  | it :: rows, b, i + 1 => by
    have := thinFrom_plain_getElem? cols rows (b + 1) i
    unfold plain at this ⊢
    rw [List.map_cons, thinFrom, List.getElem?_cons_succ, List.getElem?_cons_succ, this]
    congr 1
    funext it
    congr 1
    push_cast; omega

theorem rep_inherited {t : Flat S} {rows} (h : Inherited t rows) : RepF t rows := by
  obtain ⟨h1, h2, h3⟩ := h
  refine ⟨?_, ?_⟩
  · apply List.ext_getElem?
    intro i
    rw [thinFrom_plain_getElem?]
    cases hi : rows[i]? with
    | none =>
      rw [List.getElem?_eq_none_iff] at hi
      rw [Option.map_none, List.getElem?_eq_none_iff, h1]
      exact hi
    | some it => rw [h2 i it hi]; simp [rowVals]
  · intro it hit k hk
    cases it with
    | none => simp [keysOf] at hk
    | some obj =>
      simp only [keysOf, Option.getD_some] at hk
      obtain ⟨p, hp, rfl⟩ := List.mem_map.1 hk
      exact h3 _ hit obj rfl p hp

theorem shown_eq (t : Flat S) (b : Int) (it : Item S) :
    t.shown ⟨b, 0, rowVals t.cols it⟩ = outRow (tab t) b it := by
  unfold Flat.shown outRow tab
  simp only [List.map_nil, List.zip_nil_left, List.append_nil]

theorem out_from (t : Flat S) : ∀ (rows : List (Item S)) (b : Int),
    (thinFrom t.cols b (plain rows)).map t.shown = outFrom (tab t) b rows
  | [], _ => rfl
  | it :: rows, b => by
    have := out_from t rows (b + 1)
    unfold plain at this ⊢
    rw [List.map_cons, thinFrom, List.map_cons, this, outFrom, shown_eq]

theorem out_rep {t : Flat S} {rows} (h : RepF t rows) : t.out = outFrom (tab t) 0 rows := by
  unfold Flat.out
  rw [h.rows, out_from]

/-! ### Moving to version 1 -/

theorem zip_rowVals (hc : Settled S) (cols : List (String × S.Ty)) (it : Item S) :
    ((cols.zip (rowVals cols it)).map fun p => S.cell p.1.2 p.2) = rowVals cols it := by
  unfold rowVals
  induction cols with
  | nil => rfl
  | cons c cols ih =>
    rw [List.map_cons, List.zip_cons_cons, List.map_cons, ih]
    congr 1
    exact hc _ _

theorem toV1_rows (hc : Settled S) {t : Flat S} {rows} (h : RepF t rows) :
    (toV1 t).rows = t.rows ∧ (toV1 t).cols = t.cols := by
  unfold toV1
  split
  · exact ⟨rfl, rfl⟩
  · split
    · exact ⟨rfl, rfl⟩
    · refine ⟨?_, rfl⟩
      simp only
      rw [h.rows]
      have : ∀ (P : List (Int × Item S)) (b : Int), (thinFrom t.cols b P).map
          (fun r => { r with vals := (t.cols.zip r.vals).map fun p => S.cell p.1.2 p.2 }) = thinFrom t.cols b P := by
        intro P
        induction P with
        | nil => intro b; rfl
        | cons p P ih => intro b; rw [thinFrom, List.map_cons, ih]; simp only [zip_rowVals hc]
      exact this _ _

theorem toV1_rep (hc : Settled S) {t : Flat S} {rows} (h : RepF t rows) : RepF (toV1 t) rows := by
  obtain ⟨h1, h2⟩ := toV1_rows hc h
  exact ⟨by rw [h1, h2]; exact h.rows, by rw [h2]; exact h.keys⟩

/-! ### Appending -/

theorem insertFlat_rep : ∀ (items : List (Item S)) (t t' : Flat S) (rows : List (Item S)), RepF t rows →
    (∀ it ∈ items, ∀ k ∈ keysOf it, k ∈ t.cols.map (·.1)) →
    insertFlat t ((idsFrom rows.length items.length).zip items) = .ok t' → RepF t' (rows ++ items)
  | [], t, t', rows, h, _, he => by
    rw [List.zip_nil_right, insertFlat] at he
    cases he
    rw [List.append_nil]; exact h
  | it :: items, t, t', rows, h, hk, he => by
    have hids : idsFrom rows.length (it :: items).length =
        (rows.length : Int) :: idsFrom (rows.length + 1) items.length := by
      unfold idsFrom
      rw [List.length_cons, List.range_succ_eq_map, List.map_cons, List.map_map]
      congr 1
      apply List.map_congr_left
      intro i _
      simp only [Function.comp]; push_cast; omega
    rw [hids, List.zip_cons_cons, insertFlat] at he
    simp only [bind, Except.bind] at he
    rcases hi : insertFlatRow t rows.length it with e | t1
    · rw [hi] at he; cases he
    · rw [hi] at he
      simp only at he
      unfold insertFlatRow at hi
      split at hi
      · cases hi
      · cases hi
        have h1 : RepF { t with rows := t.rows ++ [⟨rows.length, 0, rowVals t.cols it⟩] } (rows ++ [it]) := by
          refine ⟨?_, ?_⟩
          · simp only
            rw [h.rows, plain_append, thinFrom_append, plain_length]
            simp [plain, thinFrom]
          · intro x hx
            rcases List.mem_append.1 hx with hx | hx
            · exact h.keys x hx
            · rw [List.mem_singleton] at hx
              subst hx
              exact hk _ List.mem_cons_self
        have := insertFlat_rep items _ t' (rows ++ [it]) h1 (fun x hx => hk x (List.mem_cons_of_mem _ hx)) (by
          rw [List.length_append]; exact he)
        rw [List.append_assoc] at this
        exact this

theorem addFlat_rep (hS : S.Lawful) {t : Flat S} {rows} (h : RepF t rows) (new : List (String × S.Ty))
    (hn : ∀ c ∈ new, c.1 ∉ t.cols.map (·.1)) : RepF (addFlat t new) rows := by
  refine ⟨?_, ?_⟩
  · unfold addFlat
    simp only
    rw [h.rows]
    exact thinFrom_addCols hS _ _ _ 0 (fun p hp c hc hk => hn c hc (h.keys _ (mem_plain hp) _ hk))
  · intro it hit k hk
    unfold addFlat
    simp only [List.map_append, List.mem_append]
    exact .inl (h.keys it hit k hk)

theorem updateFlat_rep (hS : S.Lawful) {t t' : Flat S} {rows items : List (Item S)} (h : RepF t rows)
    (he : updateFlat t items (idsFrom rows.length items.length) = .ok t') : RepF t' (rows ++ items) := by
  unfold updateFlat at he
  split at he
  · unfold updateNew at he
    simp only [bind, Except.bind] at he
    rcases hs : scanKeys (t.cols.map (·.1)) (allKeys items) [] with e | new
    · rw [hs] at he; cases he
    · rw [hs] at he
      simp only at he
      split at he
      · obtain ⟨_, h2, h3⟩ := scanKeys_spec _ _ _ _ hs
        refine insertFlat_rep items _ t' rows (addFlat_rep hS h _ ?_) ?_ he
        · intro c hc
          obtain ⟨k, hk, rfl⟩ := List.mem_map.1 hc
          rcases h3 k hk with h' | h'
          · simp at h'
          · exact h'
        · intro it hit k hk
          unfold addFlat
          simp only [List.map_append, List.mem_append, List.map_map]
          rcases h2 k (mem_allKeys items it hit k hk) with h' | h'
          · exact .inl h'
          · refine .inr ?_
            simpa [Function.comp] using h'
      · cases he
  · next hn =>
    split at he
    · refine insertFlat_rep items t t' rows h ?_ he
      intro it hit k hk
      unfold hasNew at hn
      rw [Bool.not_eq_true, List.any_eq_false] at hn
      have := hn k (mem_allKeys items it hit k hk)
      simpa using this
    · cases he

/-! ### Deletion -/

theorem removeFrom_plain (ids : List Int) : ∀ (rows : List (Item S)) (b : Int),
    removeFrom ids b (plain rows) = plain (removeFrom ids b rows)
  | [], _ => rfl
  | it :: rows, b => by
    have := removeFrom_plain ids rows (b + 1)
    unfold plain at this ⊢
    rw [List.map_cons, removeFrom, removeFrom, this]
    split <;> rfl

theorem deleteFlat_rep {t : Flat S} {rows : List (Item S)} (h : RepF t rows) (ids : List Int) :
    RepF (deleteFlat t ids).1 (deleteIds ids rows) ∧
      (deleteFlat t ids).2 = rows.length - (deleteIds ids rows).length := by
  rw [← removeFrom_eq_deleteIds]
  have hlen : ((thinFrom t.cols 0 (plain rows)).filter fun r => !ids.contains r.subset).length =
      (removeFrom ids 0 rows).length := by
    have := congrArg List.length (kept_cids t.cols ids (plain rows) 0)
    rw [removeFrom_plain] at this
    simpa [plain] using this
  refine ⟨⟨?_, ?_⟩, ?_⟩
  · unfold deleteFlat
    simp only
    have hV := validIds_sorted ids (maxOr (t.rows.map (·.subset)) + 1)
    rw [renumber_eq _ _ hV (fun a ha => ((mem_validIds _ _ _).1 ha).2.1)]
    · have hnd : (validIds ids (maxOr (t.rows.map (·.subset)) + 1)).Nodup := hV.imp (fun h => by omega)
      have hkt := kept_thin t.cols ids _ hnd (plain rows) 0
      rw [← h.rows] at hkt
      rw [hkt]
      · rw [shiftOf_nonneg _ (fun a ha => ((mem_validIds _ _ _).1 ha).2.1), removeFrom_plain]
        simp
      · intro i h1 h2
        rw [mem_validIds]
        constructor
        · exact fun h => h.1
        · intro hi
          refine ⟨hi, h1, ?_⟩
          have := le_maxOr (mem_thinFrom_subset t.cols (plain rows) 0 i h1 h2)
          rw [← h.rows] at this
          omega
    · intro r hr hc
      have h1 := (List.mem_filter.1 hr).2
      have h2 := ((mem_validIds _ _ _).1 hc).1
      simp [h2] at h1
  · intro it hit
    exact h.keys it ((removeFrom_sublist ids rows 0).subset hit)
  · unfold deleteFlat
    simp only
    rw [h.rows, hlen, thinFrom_length, plain_length]

/-! ### Reading -/

theorem getFlat_all {t : Flat S} {rows} (h : RepF t rows) (order) :
    getFlat order t none none = .ok (outFrom (tab t) 0 rows) := by
  unfold getFlat
  simp only
  rw [out_rep h, sortBySubset_outFrom]

theorem out_nodup {t : Flat S} {rows} (h : RepF t rows) : (t.out.map (·.subset)).Nodup := by
  rw [out_rep h, ← plain_snd rows, outFrom_subsets (tab t) t.cols]
  exact (thinFrom_subset_pairwise t.cols (plain rows) 0).2

theorem lookupFlat_eq (order : List (OutRow S) → List (OutRow S)) (ho : ∀ l, (order l).Perm l) (t : Flat S)
    (hnd : (t.out.map (·.subset)).Nodup) (ids : List Int) :
    lookupFlat order t ids = ids.eraseDups.filterMap (lookup t.out) := by
  unfold lookupFlat
  simp only
  rw [drain_eq _ ids.length ids (Nat.le_refl _)]
  apply filterMap_congr'
  intro id hid
  have hid : id ∈ ids := (mem_eraseDups' _ _).1 hid
  have hmem : ∀ r, r ∈ ((List.range (numChunksFor ids.length paramLimit)).flatMap fun i =>
      order (t.out.filter fun r => (chunkSlice ids paramLimit i).contains r.subset)) ↔
      r ∈ t.out ∧ r.subset ∈ ids := by
    intro r
    rw [List.mem_flatMap]
    simp only [(ho _).mem_iff, List.mem_filter, List.contains_iff_mem]
    constructor
    · rintro ⟨i, hi, hr, hc⟩
      exact ⟨hr, (mem_chunks ids _).1 ⟨i, hi, hc⟩⟩
    · rintro ⟨hr, hc⟩
      obtain ⟨i, hi, hm⟩ := (mem_chunks ids _).2 hc
      exact ⟨i, hi, hr, hm⟩
  rw [lookup_foldl (lookup t.out)]
  · split
    · rfl
    · next hn =>
      symm
      show t.out.find? _ = none
      rw [List.find?_eq_none]
      intro r hr hrid
      apply hn
      rw [List.mem_map]
      have hrid : r.subset = id := by simpa using hrid
      exact ⟨r, (hmem r).2 ⟨hr, hrid ▸ hid⟩, hrid⟩
  · intro r hr
    have hr := ((hmem r).1 hr).1
    unfold lookup
    cases hf : t.out.find? fun s => s.subset == r.subset with
    | none => exact absurd (List.find?_eq_none.1 hf r hr) (by simp)
    | some s =>
      have h1 := List.find?_some hf
      have h2 := List.mem_of_find?_eq_some hf
      rw [inj_of_nodup_map (·.subset) _ hnd s h2 r hr (by simpa using h1)]

/-! ### Changing values -/

theorem setWhere_from (t : Flat S) (sat : OutRow S → Bool) (upd : List (String × S.V)) :
    ∀ (rows : List (Item S)) (b : Int), (thinFrom t.cols b (plain rows)).map (setWhere t sat upd) =
      thinFrom t.cols b (changeFrom (tab t) sat upd b (plain rows))
  | [], _ => rfl
  | it :: rows, b => by
    have := setWhere_from t sat upd rows (b + 1)
    unfold plain at this ⊢
    rw [List.map_cons, thinFrom, List.map_cons, this, changeFrom, thinFrom]
    congr 1
    unfold setWhere
    simp only [shown_eq]
    rw [setVals_rowVals]
    split <;> rfl

theorem changeFrom_plain (t : Tables S) (sat : OutRow S → Bool) (upd : List (String × S.V)) :
    ∀ (rows : List (Item S)) (b : Int), changeFrom t sat upd b (plain rows) =
      plain ((changeFrom t sat upd b (plain rows)).map (·.2))
  | [], _ => rfl
  | it :: rows, b => by
    have := changeFrom_plain t sat upd rows (b + 1)
    unfold plain at this ⊢
    rw [List.map_cons, changeFrom, List.map_cons, List.map_cons, ← this]

theorem zipWith_same {α β : Type} (l : List α) (m : List β) (h : l.length = m.length) :
    List.zipWith (fun _ b => b) l m = m := by
  apply List.ext_getElem
  · rw [List.length_zipWith, h, Nat.min_self]
  · intro i h1 h2
    rw [List.getElem_zipWith]

theorem updateWhereFlat_rep {t : Flat S} {db' : Option (AnyDb S)} {rows valid sat upd n} (h : RepF t rows)
    (hu : updateWhereFlat t valid sat upd = .ok (db', n)) :
    ∃ t', db' = some (.flat t') ∧ t'.cols = t.cols ∧
      RepF t' (List.zipWith (fun r it => if sat r && !upd.isEmpty then overwrite upd it else it)
        (outFrom (tab t) 0 rows) rows) ∧
      n = (if upd.isEmpty then 0 else ((outFrom (tab t) 0 rows).filter sat).length) := by
  unfold updateWhereFlat at hu
  split at hu
  · next he =>
    cases hu
    subst he
    refine ⟨t, rfl, rfl, ?_, rfl⟩
    have : List.zipWith (fun r it => if sat r && !([] : List (String × S.V)).isEmpty then overwrite [] it else it)
        (outFrom (tab t) 0 rows) rows = rows := by
      simp only [List.isEmpty_nil, Bool.not_true, Bool.and_false, Bool.false_eq_true, if_false]
      exact zipWith_same _ _ (outFrom_length _ _ _)
    rw [this]
    exact h
  · next hne =>
    have hie : upd.isEmpty = false := by
      cases upd with
      | nil => exact absurd rfl hne
      | cons _ _ => rfl
    split at hu
    · cases hu
    · split at hu
      · cases hu
      · next hcols =>
        rw [out_rep h] at hu
        cases hu
        have hsnd := changeFrom_snd (tab t) sat upd hie (plain rows) 0
        rw [plain_snd] at hsnd
        refine ⟨_, rfl, rfl, ⟨?_, ?_⟩, by simp [hie]⟩
        · simp only
          rw [h.rows, setWhere_from, changeFrom_plain, hsnd]
        · have hupd : ∀ u ∈ upd, u.1 ∈ t.cols.map (·.1) := by
            intro u hu
            rw [Bool.not_eq_true, List.any_eq_false] at hcols
            have := hcols u hu
            rw [Bool.or_eq_true_iff, not_or] at this
            have := this.2
            rw [Bool.not_eq_true, Bool.not_eq_false', List.any_eq_true] at this
            obtain ⟨c, hc, hcu⟩ := this
            rw [List.mem_map]
            exact ⟨c, hc, by simpa using hcu⟩
          intro it hit
          rw [← hsnd] at hit
          obtain ⟨p, hp, rfl⟩ := List.mem_map.1 hit
          exact changeFrom_keys (tab t) sat upd _ hupd (plain rows) 0
            (fun p hp => h.keys _ (mem_plain hp)) p hp

/-! ### All versions -/

/-- The database represents the list of rows. -/
def RepS (db : Option (AnyDb S)) (rows : List (Item S)) : Prop :=
  match db with
  | none => rows = []
  | some (.flat t) => RepF t rows
  | some (.split t) => RepO (some t) rows

theorem repS_of_repO {db : Option (Tables S)} {rows} (h : RepO db rows) : RepS (db.map .split) rows := by
  cases db with
  | none => exact h
  | some t => exact h

theorem asAny_ok {r : Res (Option (Tables S) × Nat)} {db' n} (h : asAny r = .ok (db', n)) :
    ∃ db, r = .ok (db, n) ∧ db' = db.map .split := by
  rcases r with e | ⟨db, m⟩
  · cases h
  · cases h; exact ⟨db, rfl, rfl⟩

theorem updateS_rep (hS : S.Lawful) {db db' : Option (AnyDb S)} {rows items : List (Item S)} {n}
    (h : RepS db rows) (he : AnyDb.update db items (idsFrom rows.length items.length) = .ok (db', n)) :
    RepS db' (rows ++ items) ∧ n = items.length := by
  unfold AnyDb.update at he
  split at he
  · next hi => cases he; subst hi; rw [List.append_nil]; exact ⟨h, rfl⟩
  · rw [if_neg (by simp [idsFrom_length])] at he
    rcases db with _ | (t | t)
    · cases he
    · simp only at he
      unfold updateFlatAll at he
      simp only [bind, Except.bind] at he
      rcases hu : updateFlat t items (idsFrom rows.length items.length) with e | t'
      · rw [hu] at he; cases he
      · rw [hu] at he
        cases he
        exact ⟨updateFlat_rep hS h hu, rfl⟩
    · simp only at he
      obtain ⟨db, h1, rfl⟩ := asAny_ok he
      obtain ⟨h2, h3⟩ := update_rep hS (db := some t) h h1
      exact ⟨repS_of_repO h2, h3⟩

theorem deleteS_rep (hc : Settled S) {db : Option (AnyDb S)} {rows : List (Item S)} (h : RepS db rows)
    (ids : List Int) : RepS (AnyDb.delete db ids).1 (deleteIds ids rows) ∧
      (AnyDb.delete db ids).2 = rows.length - (deleteIds ids rows).length := by
  unfold AnyDb.delete
  split
  · next he =>
    subst he
    have : deleteIds [] rows = rows := by
      rw [← removeFrom_eq_deleteIds]
      exact removeFrom_none _ _ _ (by simp)
    rw [this]
    exact ⟨h, by simp⟩
  · rcases db with _ | (t | t)
    · have : rows = [] := h
      subst this
      exact ⟨rfl, rfl⟩
    · exact deleteFlat_rep (toV1_rep hc h) ids
    · obtain ⟨h1, h2⟩ := delete_rep (db := some t) h ids
      exact ⟨repS_of_repO h1, h2⟩

theorem updateWhereS_rep {db db' : Option (AnyDb S)} {rows all valid sat upd n} (h : RepS db rows)
    (hg : AnyDb.get id db none none = .ok all) (hu : AnyDb.updateWhere db valid sat upd = .ok (db', n)) :
    RepS db' (List.zipWith (fun r it => if sat r && !upd.isEmpty then overwrite upd it else it) all rows) ∧
      n = (if upd.isEmpty then 0 else (all.filter sat).length) := by
  rcases db with _ | (t | t)
  · cases hu
  · have hg' : getFlat id t none none = .ok all := hg
    rw [getFlat_all h] at hg'
    cases hg'
    obtain ⟨t', rfl, _, h1, h2⟩ := updateWhereFlat_rep h hu
    exact ⟨h1, h2⟩
  · obtain ⟨db, h1, rfl⟩ := asAny_ok hu
    obtain ⟨h2, h3⟩ := updateWhere_rep (db := some t) h hg h1
    exact ⟨repS_of_repO h2, h3⟩

theorem carried_rep (hS : S.Lawful) (hc : Settled S) {db : Option (AnyDb S)} {rows} (h : Carried db rows) :
    RepS db rows := by
  induction h with
  | old h => exact rep_inherited h
  | create h => exact repS_of_repO (create_rep h).1
  | update _ h ih => exact (updateS_rep hS ih h).1
  | delete ids _ ih => exact (deleteS_rep hc ih ids).1
  | change _ hg h ih => exact (updateWhereS_rep ih hg h).1

theorem lists_of_rep (hS : S.Lawful) {db : Option (AnyDb S)} {rows} (h : RepS db rows) : ListsAs db rows := by
  rcases db with _ | (t | t)
  · have : rows = [] := h
    subst this
    exact ⟨fun _ => S.text, [], fun _ => rfl, rfl, by simp⟩
  · refine ⟨colTy (tab t), outFrom (tab t) 0 rows, fun order => getFlat_all h order, outFrom_length _ _ _, ?_⟩
    intro i it hi
    refine ⟨outRow (tab t) (0 + i) it, by rw [outFrom_getElem?, hi]; rfl, by simp [outRow], fun col => ?_⟩
    apply outRow_value hS
    intro k hk
    rw [List.mem_append]
    exact .inl (h.keys it (List.mem_of_getElem? hi) k hk)
  · obtain ⟨ty, out, h1, h2⟩ := shows_of_rep hS (db := some t) h
    exact ⟨ty, out, h1, h2⟩

theorem countS_rep {db : Option (AnyDb S)} {rows} (h : RepS db rows) : AnyDb.count db = rows.length := by
  rcases db with _ | (t | t)
  · have : rows = [] := h
    subst this; rfl
  · show t.rows.length = _
    rw [h.rows, thinFrom_length, plain_length]
  · obtain ⟨P, hP, rfl⟩ := h
    show t.thin.length = _
    rw [hP.thin, thinFrom_length, List.length_map]

theorem lookupS_rep {db : Option (AnyDb S)} {rows} (h : RepS db rows)
    (order : List (OutRow S) → List (OutRow S)) (ho : ∀ l, (order l).Perm l) (ids : List Int) :
    ∃ all, AnyDb.get order db none none = .ok all ∧
      AnyDb.get order db none (some ids) =
        .ok (ids.eraseDups.filterMap fun id => all.find? fun r => r.subset == id) := by
  rcases db with _ | (t | t)
  · refine ⟨[], rfl, ?_⟩
    show Except.ok [] = _
    congr 1
    symm
    rw [List.filterMap_eq_nil_iff]
    intro a _
    rfl
  · refine ⟨_, getFlat_all h order, ?_⟩
    show Except.ok (lookupFlat order t ids) = _
    rw [lookupFlat_eq order ho t (out_nodup h), out_rep h]
    rfl
  · exact get_ids_rep (db := some t) h order ho ids

theorem conditionS_rep {db : Option (AnyDb S)} {rows} (h : RepS db rows)
    (order : List (OutRow S) → List (OutRow S)) (sat : OutRow S → Bool) :
    ∃ all, AnyDb.get order db none none = .ok all ∧
      AnyDb.get order db (some (true, sat)) none = .ok (all.filter sat) ∧
      (db.isSome → AnyDb.whereCondition db true sat = .ok ((all.filter sat).map (·.subset))) := by
  rcases db with _ | (t | t)
  · exact ⟨[], rfl, rfl, by simp⟩
  · refine ⟨_, getFlat_all h order, ?_, fun _ => ?_⟩
    · show Except.ok (sortBySubset (t.out.filter sat)) = _
      rw [out_rep h, sortBySubset_filter]
    · show (if true = true then Except.ok ((t.out.filter sat).map (·.subset)) else .error .err) = _
      rw [if_pos rfl, out_rep h]
  · obtain ⟨all, h1, h2, h3, _⟩ := get_cond_rep (db := some t) h order sat
    exact ⟨all, h1, h2, h3⟩

end NextPlaid.Db
