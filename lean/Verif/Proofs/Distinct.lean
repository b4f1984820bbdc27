import Verif.Proofs.Db5
import Verif.Spec.Distinct

/-! Lemmas about the enumeration of the distinct values of a column. -/

namespace NextPlaid.Db
open NextPlaid NextPlaid.Index NextPlaid.Spec

variable {S : Sql}

/-- Each column is in the table its name says. -/
def Split (t : Tables S) : Prop :=
  (∀ c ∈ t.thinCols, isThin c.1 = true) ∧ ∀ c ∈ t.fatCols, isThin c.1 = false

theorem insertRows_keeps_cols : ∀ (l : List (Int × Int × Item S)) (t t' : Tables S), insertRows t l = .ok t' →
    t'.thinCols = t.thinCols ∧ t'.fatCols = t.fatCols
  | [], t, t', h => by rw [insertRows] at h; cases h; exact ⟨rfl, rfl⟩
  | (id, cid, it) :: l, t, t', h => by
    rw [insertRows] at h
    unfold insertRow at h
    simp only [bind, Except.bind] at h
    split at h
    · cases h
    · next t1 he =>
      split at he
      · cases he
      · cases he
        obtain ⟨h1, h2⟩ := insertRows_keeps_cols l _ t' h
        exact ⟨h1, h2⟩

theorem split_filter (cols : List (String × S.Ty)) (a b) :
    Split (⟨cols.filter fun c => isThin c.1, cols.filter fun c => !isThin c.1, a, b⟩ : Tables S) :=
  ⟨fun c hc => by simpa using (List.mem_filter.1 hc).2, fun c hc => by simpa using (List.mem_filter.1 hc).2⟩

theorem split_of_cols {t t' : Tables S} (h : Split t) (h1 : t'.thinCols = t.thinCols) (h2 : t'.fatCols = t.fatCols) :
    Split t' := by
  unfold Split
  rw [h1, h2]
  exact h

theorem createWith_split {items : List (Item S)} {fixed ids t} (h : createWith fixed items ids = .ok t) : Split t := by
  cases fixed with
  | some cols =>
    rw [createWith] at h
    unfold createFixed at h
    rcases hc : createTables cols with e | t0
    · rw [hc] at h; simp [bind, Except.bind] at h
    · rw [hc] at h
      simp only [bind, Except.bind] at h
      split at h
      · obtain ⟨h1, h2⟩ := insertRows_keeps_cols _ _ _ h
        have := createTables_ok hc
        subst this
        exact split_of_cols (split_filter _ [] []) h1 h2
      · cases h
  | none =>
    rw [createWith] at h
    unfold createGeneral at h
    rcases hs : scanKeys [] (allKeys items) [] with e | new
    · rw [hs] at h; simp [bind, Except.bind] at h
    · rw [hs] at h
      simp only [bind, Except.bind] at h
      rcases hc : createTables (new.map fun c => (c, colType items c)) with e | t0
      · rw [hc] at h; cases h
      · rw [hc] at h
        simp only at h
        obtain ⟨h1, h2⟩ := insertRows_keeps_cols _ _ _ h
        have := createTables_ok hc
        subst this
        exact split_of_cols (split_filter _ [] []) h1 h2

theorem updateV2_split {t t' : Tables S} {items ids} (h : Split t) (hu : updateV2 t items ids = .ok t') : Split t' := by
  unfold updateV2 at hu
  simp only [bind, Except.bind] at hu
  split at hu
  · cases hu
  · split at hu
    · cases hu
    · obtain ⟨h1, h2⟩ := insertRows_keeps_cols _ _ _ hu
      refine split_of_cols ⟨?_, ?_⟩ h1 h2
      · intro c hc
        rcases List.mem_append.1 hc with hc | hc
        · exact h.1 c hc
        · simpa using (List.mem_filter.1 hc).2
      · intro c hc
        rcases List.mem_append.1 hc with hc | hc
        · exact h.2 c hc
        · simpa using (List.mem_filter.1 hc).2

/-- In every history each column stays in its table. -/
theorem kept_split {db : Option (Tables S)} {rows} (h : Kept db rows) : ∀ t, db = some t → Split t := by
  induction h with
  | @create items db n h =>
    intro t ht
    subst ht
    unfold create at h
    split at h
    · cases h
    · split at h
      · cases h
      · rcases hf : tryFixed items with e | fixed
        · rw [hf] at h; simp [bind, Except.bind] at h
        · rw [hf] at h
          simp only [bind, Except.bind] at h
          rcases hc : createWith fixed items (idsFrom 0 items.length) with e | t1
          · rw [hc] at h; cases h
          · rw [hc] at h
            cases h
            exact createWith_split hc
  | @update db rows items db' n _ h ih =>
    intro t ht
    subst ht
    unfold update at h
    split at h
    · cases h; exact ih t rfl
    · split at h
      · cases h
      · cases db with
        | none => cases h
        | some t0 =>
          simp only [bind, Except.bind] at h
          split at h
          · cases h
          · next hu => cases h; exact updateV2_split (ih t0 rfl) hu
  | @delete db rows ids _ ih =>
    intro t ht
    unfold delete at ht
    split at ht
    · exact ih t ht
    · cases db with
      | none => cases ht
      | some t0 => cases ht; exact split_of_cols (ih t0 rfl) rfl rfl
  | @change db rows all valid sat upd db' n _ hg h ih =>
    intro t ht
    subst ht
    cases db with
    | none => cases h
    | some t0 =>
      unfold updateWhere at h
      simp only at h
      split at h
      · cases h; exact ih t rfl
      · split at h
        · cases h
        · split at h
          · cases h
          · cases h; exact split_of_cols (ih t0 rfl) rfl rfl

/-! ### The selected column -/

theorem cellOf_rowVals (cols : List (String × S.Ty)) (it : Item S) (col : String) :
    cellOf cols (rowVals cols it) col =
      ((cols.find? fun c => c.1 == col).map fun c => S.cell c.2 (it.value c.1)).getD S.null := by
  unfold cellOf rowVals
  rw [find_zip_cols cols (fun c => S.cell c.2 (it.value c.1)) col]
  cases cols.find? fun c => c.1 == col <;> rfl

theorem outRow_value_find (t : Tables S) (b : Int) (it : Item S) (col : String) :
    (outRow t b it).value col =
      (((t.thinCols ++ t.fatCols).find? fun c => c.1 == col).map fun c => S.cell c.2 (it.value c.1)).getD S.null := by
  unfold OutRow.value outRow rowVals
  simp only
  rw [List.find?_append, find_zip_cols, find_zip_cols, List.find?_append]
  cases t.thinCols.find? fun c => c.1 == col
  · cases t.fatCols.find? fun c => c.1 == col <;> rfl
  · rfl

theorem find_none_of {cols : List (String × S.Ty)} {col : String} {b : Bool} (h : ∀ c ∈ cols, isThin c.1 = b)
    (hc : isThin col = !b) : (cols.find? fun c => c.1 == col) = none := by
  rw [List.find?_eq_none]
  intro c hm he
  have e : c.1 = col := by simpa using he
  have := h c hm
  rw [e, hc] at this
  cases b <;> cases this

theorem thinFrom_cells (Q : Texts S) (t : Tables S) (hs : Split t) (col : String) (ht : isThin col = true)
    (hc : col ≠ "_subset_") : ∀ (P : List (Int × Item S)) (b : Int),
    (thinFrom t.thinCols b P).map (fun r => if col = "_subset_" then Q.int r.subset else cellOf t.thinCols r.vals col) =
      (outFrom t b (P.map (·.2))).map fun r => r.value col
  | [], _ => rfl
  | p :: P, b => by
    rw [thinFrom, List.map_cons, thinFrom_cells Q t hs col ht hc P, List.map_cons, outFrom, List.map_cons]
    congr 1
    rw [if_neg hc]
    simp only
    rw [cellOf_rowVals, outRow_value_find, List.find?_append, find_none_of (b := false) hs.2 (by simpa using ht), Option.or_none]

theorem fat_cells (t : Tables S) (hs : Split t) (col : String) (ht : isThin col = false) :
    ∀ (P : List (Int × Item S)) (b : Int),
    P.map (fun p => cellOf t.fatCols (rowVals t.fatCols p.2) col) = (outFrom t b (P.map (·.2))).map fun r => r.value col
  | [], _ => rfl
  | p :: P, b => by
    rw [List.map_cons, fat_cells t hs col ht P (b + 1), List.map_cons, outFrom, List.map_cons]
    congr 1
    rw [cellOf_rowVals, outRow_value_find, List.find?_append, find_none_of (b := true) hs.1 (by simpa using ht), Option.none_or]

theorem selectColumn_eq (Q : Texts S) {t : Tables S} {P} (h : Rep t P) (hs : Split t) (col : String) (hc : col ≠ "_subset_") :
    selectColumn Q t col = (outFrom t 0 (P.map (·.2))).map fun r => r.value col := by
  unfold selectColumn
  by_cases ht : isThin col = true
  · rw [if_pos ht, h.thin]
    exact thinFrom_cells Q t hs col ht hc P 0
  · rw [if_neg ht, h.fat, List.map_map]
    exact fat_cells t hs col (by simpa using ht) P 0

/-! ### Distinct texts -/

theorem mem_dedupBy_sub (same : S.V → S.V → Bool) : ∀ (l : List S.V) (v : S.V), v ∈ dedupBy same l → v ∈ l
  | [], v, h => h
  | a :: l, v, h => by
    rw [dedupBy] at h
    rcases List.mem_cons.1 h with rfl | h
    · exact List.mem_cons_self
    · exact List.mem_cons_of_mem _ (mem_dedupBy_sub same l v (List.mem_filter.1 h).1)

/-- Every text, and every value that is not text, keeps a representative. -/
theorem dedupBy_str {Q : Texts S} (hQ : TextsLawful Q) : ∀ (l : List S.V) (o : Option String),
    (∃ v ∈ l, Q.str v = o) → ∃ v ∈ dedupBy Q.same l, Q.str v = o
  | [], o, h => h
  | a :: l, o, ⟨v, hv, e⟩ => by
    rw [dedupBy]
    by_cases ha : Q.str a = o
    · exact ⟨a, List.mem_cons_self, ha⟩
    · rcases List.mem_cons.1 hv with rfl | hv
      · exact absurd e ha
      · obtain ⟨w, hw, ew⟩ := dedupBy_str hQ l o ⟨v, hv, e⟩
        refine ⟨w, List.mem_cons_of_mem _ (List.mem_filter.2 ⟨hw, ?_⟩), ew⟩
        rw [Bool.not_eq_true', Bool.eq_false_iff]
        intro hsame
        apply ha
        cases hstr : Q.str a with
        | none => rw [← ew, hQ.same_other a w hstr hsame]
        | some s => rw [← ew, (hQ.same_text a w s hstr).1 hsame]

theorem dedupBy_texts {Q : Texts S} (hQ : TextsLawful Q) : ∀ (l : List S.V),
    ((dedupBy Q.same l).filterMap Q.str).Nodup
  | [] => List.nodup_nil
  | a :: l => by
    rw [dedupBy]
    have ih : (((dedupBy Q.same l).filter fun w => !Q.same a w).filterMap Q.str).Nodup :=
      (List.Sublist.filterMap Q.str List.filter_sublist).nodup (dedupBy_texts hQ l)
    cases ha : Q.str a with
    | none => rw [List.filterMap_cons_none ha]; exact ih
    | some s =>
      rw [List.filterMap_cons_some ha, List.nodup_cons]
      refine ⟨?_, ih⟩
      intro hm
      obtain ⟨w, hw, ew⟩ := List.mem_filterMap.1 hm
      have h1 := (List.mem_filter.1 hw).2
      rw [(hQ.same_text a w s ha).2 ew] at h1
      cases h1

theorem readTexts_ok {Q : Texts S} : ∀ (l : List S.V), (∀ v ∈ l, S.isNull v = false) →
    (∀ v ∈ l, Q.str v ≠ none) → readTexts Q l = .ok (l.filterMap Q.str)
  | [], _, _ => rfl
  | a :: l, hn, hs => by
    rw [readTexts, hn a List.mem_cons_self]
    simp only [Bool.false_eq_true, if_false]
    cases ha : Q.str a with
    | none => exact absurd ha (hs a List.mem_cons_self)
    | some s =>
      simp only [bind, Except.bind]
      rw [readTexts_ok l (fun v hv => hn v (List.mem_cons_of_mem _ hv)) (fun v hv => hs v (List.mem_cons_of_mem _ hv)),
        List.filterMap_cons_some ha]

theorem readTexts_err {Q : Texts S} : ∀ (l : List S.V), (∃ v ∈ l, S.isNull v = false ∧ Q.str v = none) →
    readTexts Q l = .error .err
  | [], ⟨v, hv, _⟩ => by cases hv
  | a :: l, ⟨v, hv, h1, h2⟩ => by
    rw [readTexts]
    rcases List.mem_cons.1 hv with rfl | hv
    · rw [h1]; simp only [Bool.false_eq_true, if_false, h2]
    · have ih := readTexts_err l ⟨v, hv, h1, h2⟩
      split
      · exact ih
      · split
        · rfl
        · simp only [bind, Except.bind, ih]

/-- Reading a column. -/
theorem readColumn {Q : Texts S} (hQ : TextsLawful Q) (order : List S.V → List S.V) (ho : ∀ l, (order l).Perm l)
    (l : List S.V) :
    ((∃ v ∈ l, S.isNull v = false ∧ Q.str v = none) ∧
      readTexts Q (order (dedupBy Q.same (l.filter fun v => !S.isNull v))) = .error .err) ∨
    ((¬ ∃ v ∈ l, S.isNull v = false ∧ Q.str v = none) ∧
      ∃ out, readTexts Q (order (dedupBy Q.same (l.filter fun v => !S.isNull v))) = .ok out ∧ out.Nodup ∧
        ∀ s, s ∈ out ↔ ∃ v ∈ l, S.isNull v = false ∧ Q.str v = some s) := by
  have hmem : ∀ v, v ∈ order (dedupBy Q.same (l.filter fun v => !S.isNull v)) → v ∈ l ∧ S.isNull v = false := by
    intro v hv
    have := List.mem_filter.1 (mem_dedupBy_sub _ _ _ ((ho _).mem_iff.1 hv))
    exact ⟨this.1, by simpa using this.2⟩
  have hrep : ∀ o, (∃ v ∈ l, S.isNull v = false ∧ Q.str v = o) →
      ∃ v ∈ order (dedupBy Q.same (l.filter fun v => !S.isNull v)), S.isNull v = false ∧ Q.str v = o := by
    rintro o ⟨v, hv, hn, e⟩
    obtain ⟨w, hw, ew⟩ := dedupBy_str hQ (l.filter fun v => !S.isNull v) o
      ⟨v, List.mem_filter.2 ⟨hv, by rw [hn]; rfl⟩, e⟩
    have hw' := (ho (dedupBy Q.same (l.filter fun v => !S.isNull v))).mem_iff.2 hw
    exact ⟨w, hw', (hmem w hw').2, ew⟩
  by_cases hb : ∃ v ∈ l, S.isNull v = false ∧ Q.str v = none
  · exact .inl ⟨hb, readTexts_err _ (hrep none hb)⟩
  · refine .inr ⟨hb, _, readTexts_ok _ (fun v hv => (hmem v hv).2)
      (fun v hv e => hb ⟨v, (hmem v hv).1, (hmem v hv).2, e⟩), ?_, ?_⟩
    · exact ((ho _).filterMap Q.str).nodup_iff.2 (dedupBy_texts hQ _)
    · intro s
      rw [List.mem_filterMap]
      constructor
      · rintro ⟨v, hv, e⟩
        exact ⟨v, (hmem v hv).1, (hmem v hv).2, e⟩
      · intro h
        obtain ⟨w, hw, _, ew⟩ := hrep (some s) h
        exact ⟨w, hw, ew⟩

theorem exists_map_value (Q : Texts S) (all : List (OutRow S)) (col : String) (o : Option String) :
    (∃ v ∈ all.map fun r => r.value col, S.isNull v = false ∧ Q.str v = o) ↔
      ∃ r ∈ all, S.isNull (r.value col) = false ∧ Q.str (r.value col) = o := by
  constructor
  · rintro ⟨v, hv, h1, h2⟩
    obtain ⟨r, hr, rfl⟩ := List.mem_map.1 hv
    exact ⟨r, hr, h1, h2⟩
  · rintro ⟨r, hr, h1, h2⟩
    exact ⟨_, List.mem_map.2 ⟨r, hr, rfl⟩, h1, h2⟩

/-- A column that is not in the schema is NULL in every row. -/
theorem value_unknown (t : Tables S) (b : Int) (it : Item S) (col : String) (h : (schema t).contains col = false) :
    (outRow t b it).value col = S.null := by
  rw [outRow_value_find]
  have : ((t.thinCols ++ t.fatCols).find? fun c => c.1 == col) = none := by
    rw [List.find?_eq_none]
    intro c hc he
    have e : c.1 = col := by simpa using he
    have hm : col ∈ schema t := by
      unfold schema
      refine List.mem_cons_of_mem _ ?_
      rw [← List.map_append, List.mem_map]
      exact ⟨c, hc, e⟩
    have h2 : (schema t).contains col = true := by simpa using hm
    rw [h] at h2
    cases h2
  rw [this]; rfl

theorem mem_outFrom (t : Tables S) : ∀ (l : List (Item S)) (b : Int) (r : OutRow S), r ∈ outFrom t b l →
    ∃ b' it, r = outRow t b' it
  | [], _, _, h => by cases h
  | it :: l, b, r, h => by
    rw [outFrom] at h
    rcases List.mem_cons.1 h with h | h
    · exact ⟨b, it, h⟩
    · exact mem_outFrom t l (b + 1) r h

/-- The whole call, for a column other than the ids. -/
theorem distinct_cases {Q : Texts S} (hS : S.Lawful) (hQ : TextsLawful Q) {t : Tables S} {rows : List (Item S)}
    (h : Kept (some t) rows) (order : List S.V → List S.V) (ho : ∀ l, (order l).Perm l) (col : String)
    (hv : validName col = true) (hc : col ≠ "_subset_") :
    ∃ all, (∀ o, get o (some t) none none = .ok all) ∧ all.length = rows.length ∧
      ((ColumnOther Q all col ∧ distinctStrings Q order (some t) col = .error .err) ∨
       (¬ ColumnOther Q all col ∧ ∃ out, distinctStrings Q order (some t) col = .ok out ∧ out.Nodup ∧
          ∀ s, s ∈ out ↔ ColumnHas Q all col s)) := by
  obtain ⟨P, hP, rfl⟩ := kept_rep hS h
  have hs := kept_split h t rfl
  refine ⟨_, fun o => get_all hP o, outFrom_length _ _ _, ?_⟩
  unfold distinctStrings
  simp only [hv, Bool.not_true, Bool.false_eq_true, if_false]
  by_cases hk : (schema t).contains col = true
  · rw [hk]
    simp only [Bool.not_true, Bool.false_eq_true, if_false]
    rw [selectColumn_eq Q hP hs col hc]
    rcases readColumn hQ order ho ((outFrom t 0 (P.map (·.2))).map fun r => r.value col) with h1 | h1
    · exact .inl ⟨(exists_map_value Q _ col none).1 h1.1, h1.2⟩
    · obtain ⟨h1, out, h2, h3, h4⟩ := h1
      exact .inr ⟨fun hn => h1 ((exists_map_value Q _ col none).2 hn), out, h2, h3,
        fun s => (h4 s).trans (exists_map_value Q _ col (some s))⟩
  · rw [Bool.not_eq_true] at hk
    rw [hk]
    simp only [Bool.not_false, if_true]
    have hnull : ∀ r ∈ outFrom t 0 (P.map (·.2)), S.isNull (r.value col) = true := by
      intro r hr
      obtain ⟨b, it, rfl⟩ := mem_outFrom t _ _ r hr
      rw [value_unknown t b it col hk]
      exact hQ.null
    refine .inr ⟨?_, [], rfl, List.nodup_nil, fun s => ⟨fun h => absurd h List.not_mem_nil, ?_⟩⟩
    · rintro ⟨r, hr, h1, _⟩
      rw [hnull r hr] at h1; cases h1
    · rintro ⟨r, hr, h1, _⟩
      rw [hnull r hr] at h1; cases h1

end NextPlaid.Db
