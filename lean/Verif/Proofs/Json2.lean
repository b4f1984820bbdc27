import Verif.Proofs.Json
import Mathlib.Tactic.ByContra

/-! Typed histories, and the acceptance of metadata rows. -/

namespace NextPlaid.Json
open NextPlaid NextPlaid.Db NextPlaid.Spec

variable {R : Type} {F : Floats R}

theorem typed_kept {k : String → Json.Ty} {db : Option (Tables (sql F))} {rows} (h : TypedKept F k db rows) : Kept db rows := by
  induction h with
  | create _ _ _ h => exact .create h
  | update _ _ _ h ih => exact .update ih h
  | delete ids _ ih => exact .delete ids ih
  | change _ _ hg hu ih => exact .change ih hg hu

theorem deleteV2_cols {S : Sql} (t : Tables S) (ids : List Int) :
    (deleteV2 t ids).1.thinCols = t.thinCols ∧ (deleteV2 t ids).1.fatCols = t.fatCols := ⟨rfl, rfl⟩

theorem updateWhere_cols {S : Sql} {t t' : Tables S} {valid sat upd n}
    (h : updateWhere (some t) valid sat upd = .ok (some t', n)) :
    t'.thinCols = t.thinCols ∧ t'.fatCols = t.fatCols := by
  unfold updateWhere at h
  simp only at h
  split at h
  · cases h; exact ⟨rfl, rfl⟩
  · split at h
    · cases h
    · split at h
      · cases h
      · cases h; exact ⟨rfl, rfl⟩

theorem typed_declared {k : String → Json.Ty} {db : Option (Tables (sql F))} {rows} (h : TypedKept F k db rows) :
    (∀ t, db = some t → Declared k t) ∧ ∀ it ∈ rows, ∀ col, OfKind F (k col) (it.value col) := by
  induction h with
  | create hk hi hf h =>
    refine ⟨fun t ht => create_declared hk hi hf (ht ▸ h), fun it hit col => ofKind_value (hk it hit) col⟩
  | @update db rows items db' n _ hk hi h ih =>
    refine ⟨fun t' ht' => ?_, fun it hit col => ?_⟩
    · subst ht'
      cases db with
      | none =>
        unfold update at h
        split at h
        · cases h
        · split at h <;> cases h
      | some t => exact update_declared hk hi (ih.1 t rfl) h
    · rcases List.mem_append.1 hit with h' | h'
      · exact ih.2 it h' col
      · exact ofKind_value (hk it h') col
  | @delete db rows ids h ih =>
    refine ⟨fun t' ht' => ?_, fun it hit col => ih.2 it ?_ col⟩
    · unfold delete at ht'
      split at ht'
      · exact ih.1 t' ht'
      · cases db with
        | none => cases ht'
        | some t => cases ht'; exact ih.1 t rfl
    · rw [← Index.removeFrom_eq_deleteIds] at hit
      exact (removeFrom_sublist ids rows 0).subset hit
  | @change db rows all valid sat upd db' n h hk hg hu ih =>
    refine ⟨fun t' ht' => ?_, fun it hit col => ?_⟩
    · subst ht'
      cases db with
      | none => cases hu
      | some t =>
        obtain ⟨h1, h2⟩ := updateWhere_cols hu
        intro c hc
        rw [h1, h2] at hc
        exact ih.1 t rfl c hc
    · obtain ⟨i, hi, rfl⟩ := List.getElem_of_mem hit
      rw [List.getElem_zipWith]
      have hold := ih.2 (rows[i]'(by rw [List.length_zipWith] at hi; omega)) (List.getElem_mem _)
      split
      · rw [overwrite_value]
        cases hf : upd.find? fun u => u.1 == col with
        | none => exact hold col
        | some u =>
          have h1 := hk u (List.mem_of_find?_eq_some hf)
          have h2 := List.find?_some hf
          simp only [beq_iff_eq] at h2
          rw [h2] at h1
          exact h1
      · exact hold col

theorem typed_shows {k : String → Json.Ty} {db : Option (Tables (sql F))} {rows} (h : TypedKept F k db rows) :
    ∃ out : List (OutRow (sql F)), (∀ order, get order db none none = .ok out) ∧ out.length = rows.length ∧
      ∀ (i : Nat) (it : Item (sql F)), rows[i]? = some it → ∃ r, out[i]? = some r ∧ r.subset = (i : Int) ∧
        ∀ col, r.value col = it.value col := by
  have hr := kept_rep (sql_lawful F) (typed_kept h)
  obtain ⟨hd, hv⟩ := typed_declared h
  cases db with
  | none =>
    have : rows = [] := hr
    subst this
    exact ⟨[], fun _ => rfl, rfl, by simp⟩
  | some t =>
    obtain ⟨P, hP, hrows⟩ := hr
    subst hrows
    refine ⟨outFrom t 0 (P.map (·.2)), fun order => get_all hP order, outFrom_length _ _ _, ?_⟩
    intro i it hi
    have hmem := List.mem_of_getElem? hi
    refine ⟨outRow t (0 + i) it, by rw [outFrom_getElem?, hi]; rfl, by simp [outRow], fun col => ?_⟩
    rw [outRow_value (sql_lawful F) t _ it (by
      obtain ⟨p, hp, rfl⟩ := List.mem_map.1 hmem
      exact hP.keys p hp)]
    by_cases hk : col ∈ t.thinCols.map (·.1) ++ t.fatCols.map (·.1)
    · have : colTy t col = k col := by
        unfold colTy
        cases hf : (t.thinCols ++ t.fatCols).find? fun c => c.1 == col with
        | none =>
          exfalso
          rw [← List.map_append] at hk
          obtain ⟨c, hc, hcc⟩ := List.mem_map.1 hk
          have := List.find?_eq_none.1 hf c hc
          simp [hcc] at this
        | some c =>
          have h1 := hd t rfl c (List.mem_of_find?_eq_some hf)
          have h2 := List.find?_some hf
          simp only [beq_iff_eq] at h2
          rw [h2] at h1
          exact h1
      rw [this]
      exact cell_ofKind (hv it hmem col)
    · have : it.value col = (sql F).null := by
        apply value_of_not_key
        intro hc
        obtain ⟨p, hp, rfl⟩ := List.mem_map.1 hmem
        exact hk (hP.keys p hp col hc)
      rw [this]
      exact (sql_lawful F).cell_null _

/-! ### Acceptance -/

section
variable {S : Sql}

theorem distinctNames_iff : ∀ l : List String, distinctNames l = true ↔ l.Pairwise (fun a b => ¬ SameName a b)
  | [] => by simp [distinctNames]
  | c :: cs => by
    rw [distinctNames, Bool.and_eq_true_iff, distinctNames_iff cs, List.pairwise_cons]
    refine and_congr_left fun _ => ?_
    rw [Bool.not_eq_true', List.any_eq_false]
    constructor
    · intro h d hd hs
      exact h d hd (by simpa using hs.symm)
    · intro h d hd hs
      exact h d hd (by
        have : d.toList.map Char.toLower = c.toList.map Char.toLower := by simpa using hs
        exact this.symm)

theorem validName_iff (name : String) : validName name = true ↔ Identifier name := by
  unfold validName Identifier
  cases hn : name.toList with
  | nil => simp
  | cons c cs =>
    simp only [Bool.and_eq_true_iff, Bool.or_eq_true_iff, beq_iff_eq, List.all_eq_true]
    constructor
    · rintro ⟨h1, h2⟩; exact ⟨c, cs, rfl, h1, h2⟩
    · rintro ⟨c', cs', e, h1, h2⟩
      cases e
      exact ⟨h1, h2⟩

theorem pairwise_of_good {names l : List String} (hg : GoodNames names) (hl : ∀ x ∈ l, x ∈ names) (hn : l.Nodup) :
    l.Pairwise (fun a b => ¬ SameName a b) := by
  refine List.Pairwise.imp_of_mem ?_ hn
  intro a b ha hb hne hs
  exact hne (hg.2 a (hl a ha) b (hl b hb) hs)

theorem same_comm {a b : String} (h : SameName a b) : SameName b a := Eq.symm h

theorem checkNames_ok {names thin fat : List String} (hg : GoodNames names) (h1 : ∀ x ∈ thin, x ∈ names)
    (h2 : ∀ x ∈ fat, x ∈ names) (n1 : thin.Nodup) (n2 : fat.Nodup) : checkNames thin fat = .ok () := by
  unfold checkNames
  rw [if_pos]
  rw [Bool.and_eq_true_iff, distinctNames_iff, distinctNames_iff]
  refine ⟨?_, ?_⟩
  · rw [List.pairwise_cons, List.pairwise_cons]
    refine ⟨?_, fun b hb hs => (hg.1 b (h1 b hb)).2 (same_comm hs), pairwise_of_good hg h1 n1⟩
    intro b hb hs
    rcases List.mem_cons.1 hb with rfl | hb
    · revert hs; unfold SameName; decide
    · exact (hg.1 b (h1 b hb)).1 (same_comm hs)
  · rw [List.pairwise_cons]
    exact ⟨fun b hb hs => (hg.1 b (h2 b hb)).2 (same_comm hs), pairwise_of_good hg h2 n2⟩

theorem checkNames_inv {thin fat : List String} {u} (h : checkNames thin fat = .ok u) : thin.Nodup ∧ fat.Nodup := by
  unfold checkNames at h
  split at h
  · next hc =>
    rw [Bool.and_eq_true_iff, distinctNames_iff, distinctNames_iff] at hc
    refine ⟨?_, ?_⟩
    · have := (List.pairwise_cons.1 (List.pairwise_cons.1 hc.1).2).2
      exact this.imp (fun h e => h (by rw [e]; rfl))
    · exact (List.pairwise_cons.1 hc.2).2.imp (fun h e => h (by rw [e]; rfl))
  · cases h

/-- The columns of each table are distinct. -/
def NodupCols (t : Tables S) : Prop := (t.thinCols.map (·.1)).Nodup ∧ (t.fatCols.map (·.1)).Nodup

theorem createTables_nodup {cols : List (String × S.Ty)} {t : Tables S} (h : createTables cols = .ok t) : NodupCols t := by
  have e := createTables_ok h
  unfold createTables at h
  simp only [bind, Except.bind] at h
  split at h
  · cases h
  · next hc =>
    rw [e]
    exact checkNames_inv hc

theorem create_nodup {items : List (Item S)} {ids} {t : Tables S} {n} (h : create items ids = .ok (some t, n)) : NodupCols t := by
  unfold create at h
  split at h
  · cases h
  · split at h
    · cases h
    · rcases ht : tryFixed items with e | fixed
      · rw [ht] at h; simp [bind, Except.bind] at h
      · rw [ht] at h
        simp only [bind, Except.bind] at h
        rcases hc : createWith fixed items ids with e | t'
        · rw [hc] at h; cases h
        · rw [hc] at h
          have : t' = t := by cases h; rfl
          subst this
          cases fixed with
          | some cols =>
            rw [createWith] at hc
            unfold createFixed at hc
            rcases hct : createTables cols with e | t0
            · rw [hct] at hc; simp [bind, Except.bind] at hc
            · rw [hct] at hc
              simp only [bind, Except.bind] at hc
              split at hc
              · obtain ⟨h1, h2⟩ := insertRows_cols _ _ _ hc
                unfold NodupCols
                rw [h1, h2]
                exact createTables_nodup hct
              · cases hc
          | none =>
            rw [createWith] at hc
            unfold createGeneral at hc
            rcases hs : scanKeys [] (allKeys items) [] with e | new
            · rw [hs] at hc; simp [bind, Except.bind] at hc
            · rw [hs] at hc
              simp only [bind, Except.bind] at hc
              rcases hct : createTables (new.map fun c => (c, colType items c)) with e | t0
              · rw [hct] at hc; cases hc
              · rw [hct] at hc
                simp only at hc
                obtain ⟨h1, h2⟩ := insertRows_cols _ _ _ hc
                unfold NodupCols
                rw [h1, h2]
                exact createTables_nodup hct

theorem updateV2_nodup {t t' : Tables S} {items : List (Item S)} {ids} (h : updateV2 t items ids = .ok t') : NodupCols t' := by
  unfold updateV2 at h
  simp only [bind, Except.bind] at h
  rcases hs : scanKeys (t.thinCols.map (·.1) ++ t.fatCols.map (·.1)) (allKeys items) [] with e | new
  · rw [hs] at h; cases h
  · rw [hs] at h
    simp only at h
    split at h
    · cases h
    · next hc =>
      obtain ⟨h1, h2⟩ := insertRows_cols _ _ _ h
      unfold NodupCols
      rw [h1, h2]
      unfold addCols
      simp only [List.map_append]
      exact checkNames_inv hc

theorem kept_nodup {db : Option (Tables S)} {rows} (h : Kept db rows) : ∀ t, db = some t → NodupCols t := by
  induction h with
  | create h => intro t ht; subst ht; exact create_nodup h
  | @update db rows items db' n _ h ih =>
    intro t' ht'
    subst ht'
    unfold update at h
    split at h
    · cases h; exact ih t' rfl
    · split at h
      · cases h
      · cases db with
        | none => cases h
        | some t =>
          simp only [bind, Except.bind] at h
          split at h
          · cases h
          · next hu => cases h; exact updateV2_nodup hu
  | @delete db rows ids h ih =>
    intro t' ht'
    unfold delete at ht'
    split at ht'
    · exact ih t' ht'
    · cases db with
      | none => cases ht'
      | some t => cases ht'; exact ih t rfl
  | @change db rows all valid sat upd db' n h hg hu ih =>
    intro t' ht'
    subst ht'
    cases db with
    | none => cases hu
    | some t =>
      obtain ⟨h1, h2⟩ := updateWhere_cols hu
      unfold NodupCols
      rw [h1, h2]
      exact ih t rfl

theorem insertRows_ok : ∀ (l : List (Int × Int × Item S)) (t : Tables S), (l.map (·.2.1)).Nodup →
    (∀ x ∈ l, ∀ f ∈ t.fat, f.cid ≠ x.2.1) → ∃ t', insertRows t l = .ok t'
  | [], t, _, _ => ⟨t, rfl⟩
  | (id, cid, it) :: l, t, hn, hf => by
    rw [List.map_cons, List.nodup_cons] at hn
    have hr : insertRow t id cid it = .ok { t with
        fat := t.fat ++ [⟨cid, rowVals t.fatCols it⟩], thin := t.thin ++ [⟨id, cid, rowVals t.thinCols it⟩] } := by
      unfold insertRow
      rw [if_neg]
      rw [List.any_eq_true]
      rintro ⟨f, hfm, he⟩
      exact hf _ List.mem_cons_self f hfm (by simpa using he)
    obtain ⟨t', ht'⟩ := insertRows_ok l { t with
        fat := t.fat ++ [⟨cid, rowVals t.fatCols it⟩], thin := t.thin ++ [⟨id, cid, rowVals t.thinCols it⟩] } hn.2 (by
      intro x hx f hfm
      simp only at hfm
      rcases List.mem_append.1 hfm with h | h
      · exact hf x (List.mem_cons_of_mem _ hx) f h
      · rw [List.mem_singleton.1 h]
        intro e
        exact hn.1 (List.mem_map.2 ⟨x, hx, e.symm⟩))
    exact ⟨t', by rw [insertRows, hr]; exact ht'⟩

theorem numbered_cids : ∀ (items : List (Item S)) (ids : List Int) (next : Int),
    (∀ x ∈ numbered next ids items, next ≤ x.2.1) ∧ ((numbered next ids items).map (·.2.1)).Nodup
  | [], [], next => by simp [numbered]
  | [], _ :: _, next => by simp [numbered]
  | _ :: _, [], next => by simp [numbered]
  | it :: items, id :: ids, next => by
    obtain ⟨h1, h2⟩ := numbered_cids items ids (next + 1)
    rw [numbered]
    refine ⟨?_, ?_⟩
    · intro x hx
      rcases List.mem_cons.1 hx with rfl | hx
      · exact Int.le_refl _
      · have := h1 x hx; omega
    · rw [List.map_cons, List.nodup_cons]
      refine ⟨?_, h2⟩
      intro hm
      obtain ⟨x, hx, e⟩ := List.mem_map.1 hm
      have := h1 x hx
      simp only at e
      omega

theorem le_foldl_max : ∀ (l : List Int) (b : Int), b ≤ l.foldl max b ∧ ∀ x ∈ l, x ≤ l.foldl max b
  | [], b => by simp
  | a :: l, b => by
    obtain ⟨h1, h2⟩ := le_foldl_max l (max b a)
    rw [List.foldl_cons]
    refine ⟨by omega, ?_⟩
    intro x hx
    rcases List.mem_cons.1 hx with rfl | hx
    · omega
    · exact h2 x hx

theorem idsFrom_nodup (n k : Nat) : (idsFrom n k).Nodup := by
  unfold idsFrom
  rw [List.nodup_iff_pairwise_ne, List.pairwise_map]
  refine (List.nodup_iff_pairwise_ne.1 List.nodup_range).imp ?_
  intro a b h e
  exact h (by omega)

theorem update_accepted {t : Tables S} {items : List (Item S)} {ids : List Int} (hc : NodupCols t)
    (hl : ids.length = items.length)
    (hid : ∀ it ∈ items, ∀ p ∈ it.getD [], p.1 ∈ columns (some t) ∨ Identifier p.1)
    (hg : GoodNames (columns (some t) ++ items.flatMap fun it => (it.getD []).map (·.1))) :
    ∃ t', update (some t) items ids = .ok (some t', items.length) := by
  unfold update
  by_cases he : items = []
  · rw [if_pos he, he]; exact ⟨t, rfl⟩
  rw [if_neg he, if_neg (by omega)]
  obtain ⟨new, hs⟩ := scanKeys_ok (t.thinCols.map (·.1) ++ t.fatCols.map (·.1)) (allKeys items) [] (by
    intro key hk
    obtain ⟨it, hit, p, hp, rfl⟩ := (mem_allKeys_iff items key).1 hk
    rcases hid it hit p hp with h | h
    · exact .inl h
    · exact .inr ((validName_iff _).2 h))
  obtain ⟨hn1, hn2⟩ := scanKeys_new _ _ _ _ hs
  have hn2 := hn2 List.nodup_nil
  have hnames : ∀ x ∈ new, x ∈ columns (some t) ++ items.flatMap fun it => (it.getD []).map (·.1) := by
    intro x hx
    rcases hn1 x hx with h | ⟨h, _⟩
    · cases h
    · obtain ⟨it, hit, p, hp, rfl⟩ := (mem_allKeys_iff items x).1 h
      exact List.mem_append.2 (.inr (List.mem_flatMap.2 ⟨it, hit, List.mem_map_of_mem hp⟩))
  have hnk : ∀ x ∈ new, x ∉ t.thinCols.map (·.1) ++ t.fatCols.map (·.1) := by
    intro x hx
    rcases hn1 x hx with h | ⟨_, h, _⟩
    · cases h
    · exact h
  have hfst : ∀ p : String → Bool, (((new.map fun c => (c, colType items c)).filter fun c => p c.1).map (·.1)) = new.filter p := by
    intro p
    rw [List.filter_map, List.map_map]
    simp [Function.comp_def]
  have hck : checkNames (t.thinCols.map (·.1) ++ ((new.map fun c => (c, colType items c)).filter fun c => isThin c.1).map (·.1))
      (t.fatCols.map (·.1) ++ ((new.map fun c => (c, colType items c)).filter fun c => !isThin c.1).map (·.1)) = .ok () := by
    rw [hfst isThin, hfst fun c => !isThin c]
    refine checkNames_ok hg ?_ ?_ ?_ ?_
    · intro x hx
      rcases List.mem_append.1 hx with h | h
      · exact List.mem_append.2 (.inl (List.mem_append.2 (.inl h)))
      · exact hnames x (List.mem_filter.1 h).1
    · intro x hx
      rcases List.mem_append.1 hx with h | h
      · exact List.mem_append.2 (.inl (List.mem_append.2 (.inr h)))
      · exact hnames x (List.mem_filter.1 h).1
    · rw [List.nodup_append]
      refine ⟨hc.1, hn2.filter _, ?_⟩
      rintro a ha b hb rfl
      exact hnk a (List.mem_filter.1 hb).1 (List.mem_append.2 (.inl ha))
    · rw [List.nodup_append]
      refine ⟨hc.2, hn2.filter _, ?_⟩
      rintro a ha b hb rfl
      exact hnk a (List.mem_filter.1 hb).1 (List.mem_append.2 (.inr ha))
  obtain ⟨t', ht'⟩ := insertRows_ok (numbered (maxOr (t.fat.map (·.cid)) + 1) ids items)
    (addCols t ((new.map fun c => (c, colType items c)).filter fun c => isThin c.1)
      ((new.map fun c => (c, colType items c)).filter fun c => !isThin c.1)) (numbered_cids _ _ _).2 (by
    intro x hx f hf
    have h1 := (numbered_cids items ids _).1 x hx
    unfold addCols at hf
    simp only at hf
    obtain ⟨g, hgm, rfl⟩ := List.mem_map.1 hf
    have h2 := (le_foldl_max (t.fat.map (·.cid)) (-1)).2 g.cid (List.mem_map_of_mem hgm)
    unfold maxOr at h1
    simp only
    omega)
  refine ⟨t', ?_⟩
  simp only [bind, Except.bind]
  unfold updateV2
  simp only [bind, Except.bind]
  rw [hs]
  simp only
  rw [hck]
  simp only
  rw [ht']

theorem createTables_accepted {cols : List (String × S.Ty)} {names : List String} (hg : GoodNames names)
    (hm : ∀ c ∈ cols, c.1 ∈ names) (hn : (cols.map (·.1)).Nodup) :
    createTables cols = .ok ⟨cols.filter fun c => isThin c.1, cols.filter fun c => !isThin c.1, [], []⟩ := by
  have sub : ∀ p : String × S.Ty → Bool, ((cols.filter p).map (·.1)).Sublist (cols.map (·.1)) :=
    fun p => (List.filter_sublist).map _
  have hck : checkNames ((cols.filter fun c => isThin c.1).map (·.1)) ((cols.filter fun c => !isThin c.1).map (·.1)) = .ok () := by
    refine checkNames_ok hg ?_ ?_ (hn.sublist (sub _)) (hn.sublist (sub _)) <;>
    · intro x hx
      obtain ⟨c, hc, rfl⟩ := List.mem_map.1 hx
      exact hm c (List.mem_filter.1 hc).1
  unfold createTables
  simp only [bind, Except.bind]
  rw [hck]

theorem create_accepted {items : List (Item S)} {ids : List Int} (hl : ids.length = items.length) (hnd : ids.Nodup)
    (hobj : ∀ it ∈ items, ((it.getD []).map (·.1)).Nodup)
    (hid : ∀ it ∈ items, ∀ p ∈ it.getD [], Identifier p.1)
    (hg : GoodNames (items.flatMap fun it => (it.getD []).map (·.1)))
    (hfix : ∀ first, items.head? = some (some first) →
      (∀ it ∈ items, ∀ p ∈ it.getD [], p.1 ∈ first.map (·.1)) → ∀ it ∈ items, it.isSome) :
    ∃ db, create items ids = .ok (db, items.length) := by
  unfold create
  rw [if_neg (by omega)]
  by_cases he : items = []
  · rw [if_pos he, he]; exact ⟨none, rfl⟩
  rw [if_neg he]
  have general : ∃ t, createGeneral items ids = .ok t := by
    obtain ⟨new, hs⟩ := scanKeys_ok [] (allKeys items) [] (by
      intro key hk
      obtain ⟨it, hit, p, hp, rfl⟩ := (mem_allKeys_iff items key).1 hk
      exact .inr ((validName_iff _).2 (hid it hit p hp)))
    obtain ⟨hn1, hn2⟩ := scanKeys_new _ _ _ _ hs
    have hct := createTables_accepted (cols := new.map fun c => (c, colType items c)) hg (by
      intro c hc
      obtain ⟨x, hx, rfl⟩ := List.mem_map.1 hc
      rcases hn1 x hx with h | ⟨h, _⟩
      · cases h
      · obtain ⟨it, hit, p, hp, rfl⟩ := (mem_allKeys_iff items x).1 h
        exact List.mem_flatMap.2 ⟨it, hit, List.mem_map_of_mem hp⟩) (by
      rw [List.map_map]; simpa [Function.comp_def] using hn2 List.nodup_nil)
    obtain ⟨t', ht'⟩ := insertRows_ok ((ids.zip items).map fun p => (p.1, p.1, p.2))
      ⟨(new.map fun c => (c, colType items c)).filter fun c => isThin c.1,
        (new.map fun c => (c, colType items c)).filter fun c => !isThin c.1, [], []⟩ (by
        rw [List.map_map]
        have : ((fun x : Int × Int × Item S => x.2.1) ∘ fun p : Int × Item S => (p.1, p.1, p.2)) = Prod.fst := rfl
        rw [this, List.map_fst_zip (by omega)]
        exact hnd) (by intro x _ f hf; cases hf)
    refine ⟨t', ?_⟩
    unfold createGeneral
    simp only [bind, Except.bind]
    rw [hs]
    simp only
    rw [hct]
    exact ht'
  have key : ∀ fixed, tryFixed items = .ok fixed → ∃ t, createWith fixed items ids = .ok t := by
    intro fixed hf
    cases fixed with
    | none => rw [createWith]; exact general
    | some cols =>
      unfold tryFixed at hf
      split at hf
      · next first rest =>
        split at hf
        · split at hf
          · next hsub =>
            cases hf
            have hall := hfix first rfl (by
              intro it hit p hp
              rcases List.mem_cons.1 hit with rfl | hit
              · exact List.mem_map_of_mem hp
              · have := List.all_eq_true.1 hsub p.1 ((mem_allKeys_iff rest p.1).2 ⟨it, hit, p, hp, rfl⟩)
                obtain ⟨q, hq, e⟩ := List.any_eq_true.1 this
                exact List.mem_map.2 ⟨q, hq, by simpa using e⟩)
            have hct := createTables_accepted (cols := first.map fun p => (p.1, S.infer p.2)) hg (by
              intro c hc
              obtain ⟨p, hp, rfl⟩ := List.mem_map.1 hc
              exact List.mem_flatMap.2 ⟨some first, List.mem_cons_self, List.mem_map_of_mem hp⟩) (by
              rw [List.map_map]
              exact hobj (some first) List.mem_cons_self)
            obtain ⟨t', ht'⟩ := insertRows_ok (numbered 0 ids (some first :: rest))
              ⟨(first.map fun p => (p.1, S.infer p.2)).filter fun c => isThin c.1,
                (first.map fun p => (p.1, S.infer p.2)).filter fun c => !isThin c.1, [], []⟩
              (numbered_cids _ _ _).2 (by intro x _ f hf; cases hf)
            refine ⟨t', ?_⟩
            rw [createWith]
            unfold createFixed
            simp only [bind, Except.bind]
            rw [hct]
            simp only
            rw [if_pos (by rw [List.all_eq_true]; exact hall)]
            exact ht'
          · cases hf
        · cases hf
      · cases hf
  have hfixed : ∃ fixed, tryFixed items = .ok fixed := by
    unfold tryFixed
    split
    · next first rest =>
      rw [if_pos (by
        rw [List.all_eq_true]
        intro p hp
        exact (validName_iff _).2 (hid (some first) List.mem_cons_self p hp))]
      split
      · exact ⟨_, rfl⟩
      · exact ⟨_, rfl⟩
    · exact ⟨_, rfl⟩
  obtain ⟨fixed, hf⟩ := hfixed
  obtain ⟨t, ht⟩ := key fixed hf
  refine ⟨some t, ?_⟩
  simp only [bind, Except.bind]
  rw [hf]
  simp only
  rw [ht]

theorem create_bad_name {items : List (Item S)} {ids : List Int}
    (hb : ∃ it ∈ items, ∃ p ∈ it.getD [], ¬ Identifier p.1) : create items ids = .error .err := by
  obtain ⟨it, hit, p, hp, hbad⟩ := hb
  have hv : validName p.1 = false := by
    rw [← Bool.not_eq_true, validName_iff]; exact hbad
  unfold create
  split
  · rfl
  · rw [if_neg (List.ne_nil_of_mem hit)]
    have general : createGeneral items ids = .error .err := by
      unfold createGeneral
      simp only [bind, Except.bind]
      rw [scanKeys_err [] (allKeys items) [] (by simp)
        ⟨p.1, (mem_allKeys_iff items p.1).2 ⟨it, hit, p, hp, rfl⟩, by simp, hv⟩]
    simp only [bind, Except.bind]
    rcases hf : tryFixed items with e | fixed
    · unfold tryFixed at hf
      split at hf
      · split at hf
        · split at hf <;> cases hf
        · cases hf; rfl
      · cases hf
    · simp only
      cases fixed with
      | none => rw [createWith, general]
      | some cols =>
        exfalso
        unfold tryFixed at hf
        split at hf
        · next first rest =>
          split at hf
          · next hval =>
            split at hf
            · next hsub =>
              rcases List.mem_cons.1 hit with rfl | hit
              · have := List.all_eq_true.1 hval p hp
                rw [hv] at this; cases this
              · have := List.all_eq_true.1 hsub p.1 ((mem_allKeys_iff _ p.1).2 ⟨it, hit, p, hp, rfl⟩)
                obtain ⟨q, hq, e⟩ := List.any_eq_true.1 this
                have h2 := List.all_eq_true.1 hval q hq
                have e : q.1 = p.1 := by simpa using e
                rw [e, hv] at h2; cases h2
            · cases hf
          · cases hf
        · cases hf

theorem update_bad_name {t : Tables S} {items : List (Item S)} {ids : List Int}
    (hb : ∃ it ∈ items, ∃ p ∈ it.getD [], p.1 ∉ columns (some t) ∧ ¬ Identifier p.1) :
    update (some t) items ids = .error .err := by
  obtain ⟨it, hit, p, hp, hk, hbad⟩ := hb
  have hv : validName p.1 = false := by
    rw [← Bool.not_eq_true, validName_iff]; exact hbad
  unfold update
  rw [if_neg (List.ne_nil_of_mem hit)]
  split
  · rfl
  · simp only [bind, Except.bind]
    unfold updateV2
    simp only [bind, Except.bind]
    rw [scanKeys_err (t.thinCols.map (·.1) ++ t.fatCols.map (·.1)) (allKeys items) [] (by simp)
      ⟨p.1, (mem_allKeys_iff items p.1).2 ⟨it, hit, p, hp, rfl⟩, hk, hv⟩]

end

end NextPlaid.Json
