import Verif.Spec.Db
import Verif.Proofs.Db

/-! Lemmas about the metadata tables: the representation invariant. -/

namespace NextPlaid.Db
open NextPlaid NextPlaid.Index NextPlaid.Spec

variable {S : Sql}

/-- Column names given by an item. -/
def keysOf (it : Item S) : List String := (it.getD []).map (·.1)

theorem value_of_not_key (it : Item S) (c : String) (h : c ∉ keysOf it) : it.value c = S.null := by
  unfold Item.value
  cases it with
  | none => rfl
  | some obj =>
    have : obj.find? (fun p => p.1 == c) = none := by
      rw [List.find?_eq_none]
      intro p hp hpc
      apply h
      simp only [keysOf, Option.getD_some, List.mem_map]
      exact ⟨p, hp, by simpa using hpc⟩
    simp only [this, Option.map_none, Option.getD_none]

/-- Rows of `METADATA` for documents numbered from `b`; an element is a content id and an item. -/
def thinFrom (cols : List (String × S.Ty)) : Int → List (Int × Item S) → List (ThinRow S)
  | _, [] => []
  | b, p :: P => ⟨b, p.1, rowVals cols p.2⟩ :: thinFrom cols (b + 1) P

theorem thinFrom_append (cols : List (String × S.Ty)) : ∀ (P Q : List (Int × Item S)) (b : Int),
    thinFrom cols b (P ++ Q) = thinFrom cols b P ++ thinFrom cols (b + P.length) Q
  | [], Q, b => by simp [thinFrom]
  | p :: P, Q, b => by
    rw [List.cons_append, thinFrom, thinFrom_append cols P Q, thinFrom, List.cons_append]
    congr 3
    simp only [List.length_cons]; push_cast; omega

theorem thinFrom_length (cols : List (String × S.Ty)) : ∀ (P : List (Int × Item S)) (b : Int),
    (thinFrom cols b P).length = P.length
  | [], _ => rfl
  | p :: P, b => by rw [thinFrom, List.length_cons, thinFrom_length cols P, List.length_cons]

theorem mem_thinFrom_subset (cols : List (String × S.Ty)) : ∀ (P : List (Int × Item S)) (b x : Int),
    b ≤ x → x < b + P.length → x ∈ (thinFrom cols b P).map (·.subset)
  | [], b, x, h1, h2 => by simp at h2; omega
  | p :: P, b, x, h1, h2 => by
    rw [thinFrom, List.map_cons]
    by_cases h : x = b
    · subst h; simp
    · refine List.mem_cons_of_mem _ (mem_thinFrom_subset cols P (b + 1) x (by omega) ?_)
      simp only [List.length_cons] at h2; push_cast at h2; omega

/-- The tables represent the list `P` of content ids and items. -/
structure Rep (t : Tables S) (P : List (Int × Item S)) : Prop where
  thin : t.thin = thinFrom t.thinCols 0 P
  fat : t.fat = P.map fun p => ⟨p.1, rowVals t.fatCols p.2⟩
  nodup : (P.map (·.1)).Nodup
  keys : ∀ p ∈ P, ∀ k ∈ keysOf p.2, k ∈ t.thinCols.map (·.1) ++ t.fatCols.map (·.1)

/-- The database represents the list of rows. -/
def RepO (db : Option (Tables S)) (rows : List (Item S)) : Prop :=
  match db with
  | none => rows = []
  | some t => ∃ P, Rep t P ∧ P.map (·.2) = rows

/-! ### Insertion -/

/-- Document ids are consecutive. -/
def Consec : Nat → List (Int × Int × Item S) → Prop
  | _, [] => True
  | n, x :: l => x.1 = (n : Int) ∧ Consec (n + 1) l

theorem insertRows_rep : ∀ (l : List (Int × Int × Item S)) (t t' : Tables S) (P : List (Int × Item S)),
    Rep t P → Consec P.length l →
    (∀ x ∈ l, ∀ k ∈ keysOf x.2.2, k ∈ t.thinCols.map (·.1) ++ t.fatCols.map (·.1)) →
    insertRows t l = .ok t' → Rep t' (P ++ l.map (·.2))
  | [], t, t', P, h, _, _, he => by
    rw [insertRows] at he
    cases he
    simpa using h
  | (id, cid, it) :: l, t, t', P, h, hc, hk, he => by
    rw [insertRows] at he
    unfold insertRow at he
    split at he
    · simp [bind, Except.bind] at he
    · next hn =>
      simp only [bind, Except.bind] at he
      obtain ⟨hid, hc⟩ := hc
      have hnew : cid ∉ P.map (·.1) := by
        intro hm
        obtain ⟨p, hp, hpc⟩ := List.mem_map.1 hm
        apply hn
        rw [h.fat, List.any_map, List.any_eq_true]
        exact ⟨p, hp, by simpa using hpc⟩
      have := insertRows_rep l (t' := t') (P := P ++ [(cid, it)]) (t := { t with
          fat := t.fat ++ [⟨cid, rowVals t.fatCols it⟩],
          thin := t.thin ++ [⟨id, cid, rowVals t.thinCols it⟩] }) ?_ ?_ ?_ he
      · simpa using this
      · refine ⟨?_, ?_, ?_, ?_⟩
        · simp only
          rw [thinFrom_append, h.thin, thinFrom, thinFrom]
          simp only [Int.zero_add]
          simp only at hid
          rw [hid]
        · simp only
          rw [h.fat, List.map_append, List.map_cons, List.map_nil]
        · rw [List.map_append, List.map_cons, List.map_nil, List.nodup_append]
          refine ⟨h.nodup, by simp, ?_⟩
          intro a ha b hb
          simp only [List.mem_cons, List.not_mem_nil, or_false] at hb
          subst hb
          exact fun e => hnew (e ▸ ha)
        · intro p hp k hkp
          rcases List.mem_append.1 hp with hp | hp
          · exact h.keys p hp k hkp
          · simp only [List.mem_cons, List.not_mem_nil, or_false] at hp
            subst hp
            exact hk (id, cid, it) (by simp) k hkp
      · rw [List.length_append]; exact hc
      · intro x hx
        exact hk x (List.mem_cons_of_mem _ hx)

theorem numbered_consec : ∀ (items : List (Item S)) (n : Nat) (next : Int),
    Consec n (numbered next (idsFrom n items.length) items)
  | [], n, next => by simp [idsFrom, numbered, Consec]
  | it :: items, n, next => by
    have : idsFrom n (it :: items).length = (n : Int) :: idsFrom (n + 1) items.length := by
      unfold idsFrom
      rw [List.length_cons, List.range_succ_eq_map, List.map_cons, List.map_map]
      congr 1
      apply List.map_congr_left
      intro i _
      simp only [Function.comp]; push_cast; omega
    rw [this, numbered]
    exact ⟨rfl, numbered_consec items (n + 1) (next + 1)⟩

theorem idsFrom_length (n k : Nat) : (idsFrom n k).length = k := by simp [idsFrom]

theorem numbered_items : ∀ (items : List (Item S)) (ids : List Int) (next : Int), ids.length = items.length →
    (numbered next ids items).map (·.2.2) = items
  | [], [], _, _ => rfl
  | it :: items, [], _, h => by simp at h
  | [], _ :: _, _, h => by simp at h
  | it :: items, id :: ids, next, h => by
    rw [numbered, List.map_cons, numbered_items items ids (next + 1) (by simpa using h)]

theorem zip_consec : ∀ (items : List (Item S)) (n : Nat),
    Consec n (((idsFrom n items.length).zip items).map fun p => (p.1, p.1, p.2))
  | [], n => by simp [Consec]
  | it :: items, n => by
    have : idsFrom n (it :: items).length = (n : Int) :: idsFrom (n + 1) items.length := by
      unfold idsFrom
      rw [List.length_cons, List.range_succ_eq_map, List.map_cons, List.map_map]
      congr 1
      apply List.map_congr_left
      intro i _
      simp only [Function.comp]; push_cast; omega
    rw [this, List.zip_cons_cons, List.map_cons]
    exact ⟨rfl, zip_consec items (n + 1)⟩

/-! ### Columns -/

theorem scanKeys_spec (known : List String) : ∀ (keys acc new : List String), scanKeys known keys acc = .ok new →
    (∀ k ∈ acc, k ∈ new) ∧ (∀ k ∈ keys, k ∈ known ∨ k ∈ new) ∧ (∀ k ∈ new, k ∈ acc ∨ k ∉ known)
  | [], acc, new, h => by
    rw [scanKeys] at h
    cases h
    exact ⟨fun k hk => hk, by simp, fun k hk => .inl hk⟩
  | k :: keys, acc, new, h => by
    rw [scanKeys] at h
    split at h
    · next hk =>
      obtain ⟨h1, h2, h3⟩ := scanKeys_spec known keys acc new h
      refine ⟨h1, ?_, h3⟩
      intro k' hk'
      rcases List.mem_cons.1 hk' with rfl | hk'
      · rcases Bool.or_eq_true_iff.1 hk with hk | hk
        · exact .inl (by simpa using hk)
        · exact .inr (h1 _ (by simpa using hk))
      · exact h2 k' hk'
    · next hk =>
      split at h
      · obtain ⟨h1, h2, h3⟩ := scanKeys_spec known keys (acc ++ [k]) new h
        refine ⟨fun a ha => h1 a (List.mem_append.2 (.inl ha)), ?_, ?_⟩
        · intro k' hk'
          rcases List.mem_cons.1 hk' with rfl | hk'
          · exact .inr (h1 _ (by simp))
          · exact h2 k' hk'
        · intro k' hk'
          rcases h3 k' hk' with h' | h'
          · rcases List.mem_append.1 h' with h' | h'
            · exact .inl h'
            · simp only [List.mem_cons, List.not_mem_nil, or_false] at h'
              subst h'
              right
              intro hc
              apply hk
              rw [Bool.or_eq_true_iff]
              exact .inl (by simpa using hc)
          · exact .inr h'
      · cases h

theorem mem_allKeys (items : List (Item S)) (it : Item S) (h : it ∈ items) (k : String) (hk : k ∈ keysOf it) :
    k ∈ allKeys items := by
  unfold allKeys
  rw [List.mem_flatMap]
  refine ⟨it, h, ?_⟩
  cases it with
  | none => simp [keysOf] at hk
  | some obj => simpa [keysOf] using hk

theorem mem_split (cols : List (String × S.Ty)) (k : String) (h : k ∈ cols.map (·.1)) :
    k ∈ (cols.filter fun c => isThin c.1).map (·.1) ++ (cols.filter fun c => !isThin c.1).map (·.1) := by
  obtain ⟨c, hc, rfl⟩ := List.mem_map.1 h
  rw [List.mem_append]
  by_cases ht : isThin c.1
  · left; exact List.mem_map_of_mem (List.mem_filter.2 ⟨hc, ht⟩)
  · right; exact List.mem_map_of_mem (List.mem_filter.2 ⟨hc, by simpa using ht⟩)

theorem rep_empty (thin fat : List (String × S.Ty)) : Rep ⟨thin, fat, [], []⟩ ([] : List (Int × Item S)) :=
  ⟨rfl, rfl, by simp, by simp⟩

/-! ### Creation -/

theorem createTables_ok {cols : List (String × S.Ty)} {t} (h : createTables cols = .ok t) :
    t = ⟨cols.filter fun c => isThin c.1, cols.filter fun c => !isThin c.1, [], []⟩ := by
  unfold createTables at h
  simp only [bind, Except.bind] at h
  split at h
  · cases h
  · cases h; rfl

theorem mem_of_numbered : ∀ (items : List (Item S)) (ids : List Int) (next : Int) x,
    x ∈ numbered next ids items → x.2.2 ∈ items
  | [], [], _, x, h => by simp [numbered] at h
  | [], _ :: _, _, x, h => by simp [numbered] at h
  | _ :: _, [], _, x, h => by simp [numbered] at h
  | it :: items, id :: ids, next, x, h => by
    rw [numbered] at h
    rcases List.mem_cons.1 h with rfl | h
    · simp
    · exact List.mem_cons_of_mem _ (mem_of_numbered items ids _ x h)

theorem createWith_rep {items : List (Item S)} {fixed t} (hf : tryFixed items = .ok fixed)
    (h : createWith fixed items (idsFrom 0 items.length) = .ok t) :
    ∃ P, Rep t P ∧ P.map (·.2) = items := by
  cases fixed with
  | some cols =>
    rw [createWith] at h
    unfold createFixed at h
    rcases hc : createTables cols with e | t0
    · rw [hc] at h; simp [bind, Except.bind] at h
    · rw [hc] at h
      simp only [bind, Except.bind] at h
      split at h
      · have ht0 := createTables_ok hc
        have hkeys : ∀ it ∈ items, ∀ k ∈ keysOf it, k ∈ cols.map (·.1) := by
          unfold tryFixed at hf
          split at hf
          · split at hf
            · split at hf
              · next hall =>
                cases hf
                intro it hit k hk
                rw [List.map_map]
                rcases List.mem_cons.1 hit with rfl | hit
                · simpa [keysOf, Function.comp] using hk
                · have := List.all_eq_true.1 hall k (mem_allKeys _ it hit k hk)
                  obtain ⟨p, hp, hpk⟩ := List.any_eq_true.1 this
                  rw [List.mem_map]
                  exact ⟨p, hp, by simpa using hpk⟩
              · cases hf
            · cases hf
          · cases hf
        have := insertRows_rep _ t0 t [] (by rw [ht0]; exact rep_empty _ _) (numbered_consec items 0 0) (by
          intro x hx k hk
          rw [ht0]
          exact mem_split cols k (hkeys _ (mem_of_numbered _ _ _ x hx) k hk)) h
        refine ⟨_, this, ?_⟩
        rw [List.nil_append, List.map_map]
        exact numbered_items items _ 0 (idsFrom_length 0 _)
      · cases h
  | none =>
    rw [createWith] at h
    unfold createGeneral at h
    rcases hs : scanKeys [] (allKeys items) [] with e | new
    · rw [hs] at h; simp [bind, Except.bind] at h
    · rw [hs] at h
      simp only [bind, Except.bind] at h
      rcases hc : createTables (new.map fun c => (c, colType items c)) with e | t0
      · rw [hc] at h; cases h
      · rw [hc] at h
        simp only at h
        have ht0 := createTables_ok hc
        obtain ⟨_, h2, _⟩ := scanKeys_spec [] _ _ _ hs
        have := insertRows_rep _ t0 t [] (by rw [ht0]; exact rep_empty _ _) (zip_consec items 0) (by
          intro x hx k hk
          rw [ht0]
          apply mem_split
          rw [List.map_map]
          obtain ⟨p, hp, rfl⟩ := List.mem_map.1 hx
          have hit : p.2 ∈ items := (List.of_mem_zip hp).2
          rcases h2 k (mem_allKeys items p.2 hit k hk) with h' | h'
          · simp at h'
          · simpa [Function.comp] using h') h
        refine ⟨_, this, ?_⟩
        rw [List.nil_append, List.map_map, List.map_map]
        have e : (((fun p : Int × Item S => p.2) ∘ (fun x : Int × Int × Item S => x.2)) ∘
            fun p : Int × Item S => (p.1, p.1, p.2)) = Prod.snd := rfl
        rw [e]
        exact List.map_snd_zip (by rw [idsFrom_length]; exact Nat.le_refl _)

theorem create_rep {items : List (Item S)} {db n} (h : create items (idsFrom 0 items.length) = .ok (db, n)) :
    RepO db items ∧ n = items.length := by
  unfold create at h
  rw [if_neg (by simp [idsFrom_length])] at h
  split at h
  · next he => cases h; subst he; exact ⟨rfl, rfl⟩
  · rcases hf : tryFixed items with e | fixed
    · rw [hf] at h; simp [bind, Except.bind] at h
    · rw [hf] at h
      simp only [bind, Except.bind] at h
      rcases hc : createWith fixed items (idsFrom 0 items.length) with e | t
      · rw [hc] at h; cases h
      · rw [hc] at h
        cases h
        exact ⟨createWith_rep hf hc, rfl⟩

/-! ### Appending -/

theorem rowVals_append (hS : S.Lawful) (cols new : List (String × S.Ty)) (it : Item S)
    (h : ∀ c ∈ new, c.1 ∉ keysOf it) :
    rowVals (cols ++ new) it = rowVals cols it ++ new.map fun _ => S.null := by
  unfold rowVals
  rw [List.map_append]
  congr 1
  apply List.map_congr_left
  intro c hc
  rw [value_of_not_key it c.1 (h c hc), hS.cell_null]

theorem thinFrom_addCols (hS : S.Lawful) (cols new : List (String × S.Ty)) :
    ∀ (P : List (Int × Item S)) (b : Int), (∀ p ∈ P, ∀ c ∈ new, c.1 ∉ keysOf p.2) →
    (thinFrom cols b P).map (fun r => { r with vals := r.vals ++ new.map fun _ => S.null }) =
      thinFrom (cols ++ new) b P
  | [], _, _ => rfl
  | p :: P, b, h => by
    rw [thinFrom, List.map_cons, thinFrom_addCols hS cols new P (b + 1) (fun q hq => h q (List.mem_cons_of_mem _ hq)),
      thinFrom, rowVals_append hS cols new p.2 (h p (by simp))]

theorem addCols_rep (hS : S.Lawful) {t : Tables S} {P} (h : Rep t P) (newThin newFat : List (String × S.Ty))
    (hn : ∀ c ∈ newThin ++ newFat, c.1 ∉ t.thinCols.map (·.1) ++ t.fatCols.map (·.1)) :
    Rep (addCols t newThin newFat) P := by
  have hfresh : ∀ p ∈ P, ∀ c ∈ newThin ++ newFat, c.1 ∉ keysOf p.2 :=
    fun p hp c hc hk => hn c hc (h.keys p hp _ hk)
  refine ⟨?_, ?_, h.nodup, ?_⟩
  · unfold addCols
    simp only
    rw [h.thin]
    exact thinFrom_addCols hS _ _ P 0 (fun p hp c hc => hfresh p hp c (List.mem_append.2 (.inl hc)))
  · unfold addCols
    simp only
    rw [h.fat, List.map_map]
    apply List.map_congr_left
    intro p hp
    simp only [Function.comp]
    rw [rowVals_append hS _ _ _ (fun c hc => hfresh p hp c (List.mem_append.2 (.inr hc)))]
  · intro p hp k hk
    have := h.keys p hp k hk
    unfold addCols
    simp only [List.map_append, List.mem_append] at this ⊢
    rcases this with h' | h'
    · exact .inl (.inl h')
    · exact .inr (.inl h')

theorem updateV2_rep (hS : S.Lawful) {t t' : Tables S} {P} (h : Rep t P) (items : List (Item S))
    (he : updateV2 t items (idsFrom P.length items.length) = .ok t') :
    ∃ P', Rep t' P' ∧ P'.map (·.2) = P.map (·.2) ++ items := by
  unfold updateV2 at he
  simp only [bind, Except.bind] at he
  rcases hs : scanKeys (t.thinCols.map (·.1) ++ t.fatCols.map (·.1)) (allKeys items) [] with e | new
  · rw [hs] at he; cases he
  · rw [hs] at he
    simp only at he
    split at he
    · cases he
    · obtain ⟨_, h2, h3⟩ := scanKeys_spec _ _ _ _ hs
      have hr := addCols_rep hS h ((new.map fun c => (c, colType items c)).filter fun c => isThin c.1)
        ((new.map fun c => (c, colType items c)).filter fun c => !isThin c.1) (by
          intro c hc
          have hcn : c.1 ∈ new := by
            rcases List.mem_append.1 hc with hc | hc <;>
            · obtain ⟨k, hk, rfl⟩ := List.mem_map.1 (List.mem_filter.1 hc).1
              exact hk
          rcases h3 c.1 hcn with h' | h'
          · simp at h'
          · exact h')
      have := insertRows_rep _ _ t' P hr (numbered_consec items P.length _) (by
        intro x hx k hk
        have hit := mem_of_numbered _ _ _ x hx
        unfold addCols
        simp only [List.map_append]
        rcases h2 k (mem_allKeys items _ hit k hk) with h' | h'
        · rcases List.mem_append.1 h' with h' | h'
          · exact List.mem_append.2 (.inl (List.mem_append.2 (.inl h')))
          · exact List.mem_append.2 (.inr (List.mem_append.2 (.inl h')))
        · have := mem_split (new.map fun c => (c, colType items c)) k (by
            rw [List.map_map]; simpa [Function.comp] using h')
          rcases List.mem_append.1 this with h' | h'
          · exact List.mem_append.2 (.inl (List.mem_append.2 (.inr h')))
          · exact List.mem_append.2 (.inr (List.mem_append.2 (.inr h')))) he
      refine ⟨_, this, ?_⟩
      rw [List.map_append, List.map_map]
      congr 1
      exact numbered_items items _ _ (idsFrom_length _ _)

theorem update_rep (hS : S.Lawful) {db db' : Option (Tables S)} {rows items : List (Item S)} {n}
    (h : RepO db rows) (he : update db items (idsFrom rows.length items.length) = .ok (db', n)) :
    RepO db' (rows ++ items) ∧ n = items.length := by
  unfold update at he
  split at he
  · next hi => cases he; subst hi; rw [List.append_nil]; exact ⟨h, rfl⟩
  · rw [if_neg (by simp [idsFrom_length])] at he
    cases db with
    | none => cases he
    | some t =>
      simp only [bind, Except.bind] at he
      obtain ⟨P, hP, hrows⟩ := h
      have hlen : P.length = rows.length := by rw [← hrows, List.length_map]
      rw [← hlen] at he
      rcases hu : updateV2 t items (idsFrom P.length items.length) with e | t'
      · rw [hu] at he; cases he
      · rw [hu] at he
        cases he
        obtain ⟨P', hP', e'⟩ := updateV2_rep hS hP items hu
        exact ⟨⟨P', hP', by rw [e', hrows]⟩, rfl⟩

/-! ### Deletion -/

theorem kept_thin (cols : List (String × S.Ty)) (ids V : List Int) (hV : V.Nodup) :
    ∀ (P : List (Int × Item S)) (b : Int), (∀ i, b ≤ i → i < b + P.length → (i ∈ V ↔ i ∈ ids)) →
    ((thinFrom cols b P).filter fun r => !ids.contains r.subset).map
      (fun r => { r with subset := r.subset - (shiftOf V r.subset : Int) }) =
      thinFrom cols (b - (shiftOf V b : Int)) (removeFrom ids b P)
  | [], b, _ => rfl
  | p :: P, b, h => by
    have ih := kept_thin cols ids V hV P (b + 1) (by
      intro i h1 h2
      apply h i (by omega)
      simp only [List.length_cons]; push_cast; omega)
    have hb := h b (Int.le_refl b) (by simp only [List.length_cons]; push_cast; omega)
    rw [shiftOf_succ V hV b] at ih
    rw [thinFrom, removeFrom]
    by_cases hbi : b ∈ ids
    · rw [if_pos hbi, List.filter_cons_of_neg (by simpa using hbi), ih, if_pos (hb.2 hbi)]
      congr 1
      push_cast; omega
    · rw [if_neg hbi, List.filter_cons_of_pos (by simpa using hbi), List.map_cons, ih,
        if_neg (fun h' => hbi (hb.1 h')), thinFrom]
      congr 2
      push_cast; omega

theorem kept_cids (cols : List (String × S.Ty)) (ids : List Int) :
    ∀ (P : List (Int × Item S)) (b : Int),
    ((thinFrom cols b P).filter fun r => !ids.contains r.subset).map (·.cid) = (removeFrom ids b P).map (·.1)
  | [], b => rfl
  | p :: P, b => by
    rw [thinFrom, removeFrom]
    by_cases hbi : b ∈ ids
    · rw [if_pos hbi, List.filter_cons_of_neg (by simpa using hbi), kept_cids cols ids P]
    · rw [if_neg hbi, List.filter_cons_of_pos (by simpa using hbi), List.map_cons, kept_cids cols ids P]
      rfl

theorem filter_sublist_keys {β : Type} {Q P : List (Int × β)} (h : Q.Sublist P) :
    (P.map (·.1)).Nodup → P.filter (fun p => Q.any fun q => q.1 == p.1) = Q := by
  induction h with
  | slnil => intro _; rfl
  | @cons Q P a hs ih =>
    intro hnd
    rw [List.map_cons, List.nodup_cons] at hnd
    rw [List.filter_cons_of_neg, ih hnd.2]
    intro hc
    obtain ⟨q, hq, hqa⟩ := List.any_eq_true.1 hc
    apply hnd.1
    rw [List.mem_map]
    exact ⟨q, hs.subset hq, by simpa using hqa⟩
  | @cons_cons Q P a hs ih =>
    intro hnd
    rw [List.map_cons, List.nodup_cons] at hnd
    rw [List.filter_cons_of_pos (by simp)]
    congr 1
    refine Eq.trans (List.filter_congr ?_) (ih hnd.2)
    intro p hp
    rw [List.any_cons]
    have : (a.1 == p.1) = false := by
      rw [beq_eq_false_iff_ne]
      intro e
      exact hnd.1 (List.mem_map.2 ⟨p, hp, e.symm⟩)
    rw [this, Bool.false_or]

theorem removeFrom_sublist {α : Type} (ids : List Int) : ∀ (l : List α) (b : Int),
    (removeFrom ids b l).Sublist l
  | [], _ => List.Sublist.refl _
  | a :: l, b => by
    rw [removeFrom]
    split
    · exact (removeFrom_sublist ids l (b + 1)).cons _
    · exact (removeFrom_sublist ids l (b + 1)).cons_cons _

theorem deleteV2_rep {t : Tables S} {P} (h : Rep t P) (ids : List Int) :
    Rep (deleteV2 t ids).1 (removeFrom ids 0 P) ∧
      (deleteV2 t ids).2 = P.length - (removeFrom ids 0 P).length := by
  have hkc := kept_cids t.thinCols ids P 0
  have hlen : ((thinFrom t.thinCols 0 P).filter fun r => !ids.contains r.subset).length =
      (removeFrom ids 0 P).length := by
    have := congrArg List.length hkc
    simpa using this
  have hsub := removeFrom_sublist ids P 0
  refine ⟨⟨?_, ?_, ?_, ?_⟩, ?_⟩
  · unfold deleteV2
    simp only
    have hV := validIds_sorted ids (maxOr (t.thin.map (·.subset)) + 1)
    rw [renumber_eq _ _ hV (fun a ha => ((mem_validIds _ _ _).1 ha).2.1)]
    · have hnd : (validIds ids (maxOr (t.thin.map (·.subset)) + 1)).Nodup := hV.imp (fun h => by omega)
      have hkt := kept_thin t.thinCols ids _ hnd P 0
      rw [← h.thin] at hkt
      rw [hkt]
      · rw [shiftOf_nonneg _ (fun a ha => ((mem_validIds _ _ _).1 ha).2.1)]
        simp
      · intro i h1 h2
        rw [mem_validIds]
        constructor
        · exact fun h => h.1
        · intro hi
          refine ⟨hi, h1, ?_⟩
          have := le_maxOr (mem_thinFrom_subset t.thinCols P 0 i h1 h2)
          rw [← h.thin] at this
          omega
    · intro r hr hc
      have h1 := (List.mem_filter.1 hr).2
      have h2 := ((mem_validIds _ _ _).1 hc).1
      simp [h2] at h1
  · unfold deleteV2
    simp only
    rw [h.fat, List.filter_map]
    have : (fun f : FatRow S => (t.thin.filter fun r => !ids.contains r.subset).any fun r => r.cid == f.cid) ∘
        (fun p : Int × Item S => (⟨p.1, rowVals t.fatCols p.2⟩ : FatRow S)) =
        fun p => (removeFrom ids 0 P).any fun q => q.1 == p.1 := by
      funext p
      simp only [Function.comp]
      have e1 : ((t.thin.filter fun r => !ids.contains r.subset).any fun r => r.cid == p.1) =
          (((t.thin.filter fun r => !ids.contains r.subset).map (·.cid)).any fun x => x == p.1) := by
        rw [List.any_map]; rfl
      rw [e1, h.thin, hkc, List.any_map]
      rfl
    rw [this, filter_sublist_keys hsub h.nodup]
  · exact h.nodup.sublist (hsub.map _)
  · intro p hp
    exact h.keys p (hsub.subset hp)
  · unfold deleteV2
    simp only
    rw [h.thin, hlen, thinFrom_length]

theorem delete_rep {db : Option (Tables S)} {rows : List (Item S)} (h : RepO db rows) (ids : List Int) :
    RepO (delete db ids).1 (deleteIds ids rows) ∧
      (delete db ids).2 = rows.length - (deleteIds ids rows).length := by
  rw [← removeFrom_eq_deleteIds]
  unfold delete
  split
  · next he =>
    subst he
    have : removeFrom ([] : List Int) 0 rows = rows := removeFrom_none _ _ _ (by simp)
    rw [this]
    exact ⟨h, by simp⟩
  · cases db with
    | none =>
      have : rows = [] := h
      subst this
      exact ⟨rfl, rfl⟩
    | some t =>
      obtain ⟨P, hP, hrows⟩ := h
      obtain ⟨h1, h2⟩ := deleteV2_rep hP ids
      simp only
      refine ⟨⟨_, h1, ?_⟩, ?_⟩
      · rw [← hrows, removeFrom_map]
      · rw [h2, ← hrows, removeFrom_map, List.length_map, List.length_map]

end NextPlaid.Db
