import Verif.Proofs.Db2

/-! Lemmas about reading and changing metadata. -/

namespace NextPlaid.Db
open NextPlaid NextPlaid.Index NextPlaid.Spec

variable {S : Sql}

/-! ### Listing -/

/-- The row shown for an item. -/
def outRow (t : Tables S) (b : Int) (it : Item S) : OutRow S :=
  ⟨b, (t.thinCols.map (·.1)).zip (rowVals t.thinCols it) ++ (t.fatCols.map (·.1)).zip (rowVals t.fatCols it)⟩

def outFrom (t : Tables S) : Int → List (Item S) → List (OutRow S)
  | _, [] => []
  | b, it :: l => outRow t b it :: outFrom t (b + 1) l

theorem outFrom_length (t : Tables S) : ∀ (l : List (Item S)) (b : Int), (outFrom t b l).length = l.length
  | [], _ => rfl
  | it :: l, b => by rw [outFrom, List.length_cons, outFrom_length t l, List.length_cons]

theorem outFrom_getElem? (t : Tables S) : ∀ (l : List (Item S)) (b : Int) (i : Nat),
    (outFrom t b l)[i]? = l[i]?.map (outRow t (b + i))
  | [], b, i => by simp [outFrom]
  | it :: l, b, 0 => by simp [outFrom]
  | it :: l, b, i + 1 => by
    rw [outFrom, List.getElem?_cons_succ, List.getElem?_cons_succ, outFrom_getElem? t l (b + 1) i]
    congr 2
    push_cast; omega

theorem filter_key_single {β γ : Type} (g : Int × β → γ) (key : γ → Int) (hg : ∀ p, key (g p) = p.1) :
    ∀ (P : List (Int × β)), (P.map (·.1)).Nodup → ∀ p ∈ P, (P.map g).filter (fun f => key f == p.1) = [g p]
  | [], _, p, hp => by simp at hp
  | q :: P, hnd, p, hp => by
    rw [List.map_cons, List.nodup_cons] at hnd
    rw [List.map_cons]
    rcases List.mem_cons.1 hp with rfl | hp'
    · rw [List.filter_cons_of_pos (by simp [hg])]
      congr 1
      rw [List.filter_eq_nil_iff]
      intro f hf hk
      obtain ⟨r, hr, rfl⟩ := List.mem_map.1 hf
      rw [hg] at hk
      exact hnd.1 (List.mem_map.2 ⟨r, hr, by simpa using hk⟩)
    · rw [List.filter_cons_of_neg, filter_key_single g key hg P hnd.2 p hp']
      rw [hg]
      intro hk
      exact hnd.1 (List.mem_map.2 ⟨p, hp', by simpa using (beq_iff_eq.1 hk).symm⟩)

theorem joined_from {t : Tables S} {P} (h : Rep t P) : ∀ (Q : List (Int × Item S)) (b : Int), (∀ p ∈ Q, p ∈ P) →
    ((thinFrom t.thinCols b Q).flatMap fun r => (t.fat.filter fun f => f.cid == r.cid).map fun f =>
      (⟨r.subset, (t.thinCols.map (·.1)).zip r.vals ++ (t.fatCols.map (·.1)).zip f.vals⟩ : OutRow S)) =
      outFrom t b (Q.map (·.2))
  | [], b, _ => rfl
  | p :: Q, b, hQ => by
    rw [thinFrom, List.flatMap_cons, joined_from h Q (b + 1) (fun q hq => hQ q (List.mem_cons_of_mem _ hq)),
      h.fat, filter_key_single (fun p : Int × Item S => (⟨p.1, rowVals t.fatCols p.2⟩ : FatRow S)) (·.cid)
        (fun _ => rfl) P h.nodup p (hQ p (by simp))]
    rfl

theorem joined_rep {t : Tables S} {P} (h : Rep t P) : joined t = outFrom t 0 (P.map (·.2)) := by
  unfold joined
  have := joined_from h P 0 (fun _ hp => hp)
  rw [← h.thin] at this
  exact this

theorem sortBySubset_outFrom (t : Tables S) : ∀ (l : List (Item S)) (b : Int),
    sortBySubset (outFrom t b l) = outFrom t b l
  | [], _ => rfl
  | it :: l, b => by
    rw [outFrom, sortBySubset, sortBySubset_outFrom t l (b + 1)]
    cases l with
    | nil => rfl
    | cons it' l =>
      rw [outFrom, insertBySubset, if_pos]
      show b ≤ b + 1
      omega

theorem find_zip_cols {ι : Type} (cols : List (String × ι)) (f : String × ι → S.V) (col : String) :
    ((cols.map (·.1)).zip (cols.map f)).find? (fun p => p.1 == col) =
      (cols.find? fun c => c.1 == col).map fun c => (c.1, f c) := by
  induction cols with
  | nil => rfl
  | cons c cols ih =>
    rw [List.map_cons, List.map_cons, List.zip_cons_cons, List.find?_cons, List.find?_cons]
    simp only
    by_cases h : c.1 == col
    · rw [h]; rfl
    · rw [Bool.not_eq_true] at h
      rw [h]; exact ih

/-- Declared type of a column. -/
def colTy (t : Tables S) (col : String) : S.Ty :=
  (((t.thinCols ++ t.fatCols).find? fun c => c.1 == col).map (·.2)).getD S.text

theorem outRow_value (hS : S.Lawful) (t : Tables S) (b : Int) (it : Item S)
    (hk : ∀ k ∈ keysOf it, k ∈ t.thinCols.map (·.1) ++ t.fatCols.map (·.1)) (col : String) :
    (outRow t b it).value col = S.cell (colTy t col) (it.value col) := by
  have e : (outRow t b it).cols.find? (fun p => p.1 == col) =
      ((t.thinCols ++ t.fatCols).find? fun c => c.1 == col).map fun c => (c.1, S.cell c.2 (it.value c.1)) := by
    unfold outRow rowVals
    simp only
    rw [List.find?_append, find_zip_cols, find_zip_cols, List.find?_append]
    cases t.thinCols.find? fun c => c.1 == col <;> rfl
  unfold OutRow.value colTy
  rw [e]
  cases hf : (t.thinCols ++ t.fatCols).find? fun c => c.1 == col with
  | none =>
    have : it.value col = S.null := by
      apply value_of_not_key
      intro hc
      have := hk col hc
      rw [← List.map_append] at this
      obtain ⟨c, hc, hcc⟩ := List.mem_map.1 this
      have := List.find?_eq_none.1 hf c hc
      simp [hcc] at this
    rw [this, hS.cell_null]
    rfl
  | some c =>
    have := List.find?_some hf
    simp only [beq_iff_eq] at this
    simp only [Option.map_some, Option.getD_some, this]

theorem get_all {t : Tables S} {P} (h : Rep t P) (order) :
    get order (some t) none none = .ok (outFrom t 0 (P.map (·.2))) := by
  unfold get
  simp only
  rw [joined_rep h, sortBySubset_outFrom]

theorem shows_of_rep (hS : S.Lawful) {db : Option (Tables S)} {rows} (h : RepO db rows) : Shows db rows := by
  cases db with
  | none =>
    have : rows = [] := h
    subst this
    exact ⟨fun _ => S.text, [], fun _ => rfl, rfl, by simp⟩
  | some t =>
    obtain ⟨P, hP, rfl⟩ := h
    refine ⟨colTy t, outFrom t 0 (P.map (·.2)), fun order => get_all hP order, outFrom_length _ _ _, ?_⟩
    intro i it hi
    refine ⟨outRow t (0 + i) it, by rw [outFrom_getElem?, hi]; rfl, by simp [outRow], fun col => ?_⟩
    apply outRow_value hS
    have := List.mem_of_getElem? hi
    obtain ⟨p, hp, rfl⟩ := List.mem_map.1 this
    exact hP.keys p hp

/-! ### Conditional update -/

theorem find_filter_other (upd : List (String × S.V)) (c : String) (hu : upd.find? (fun u => u.1 == c) = none) :
    ∀ (obj : List (String × S.V)),
    (obj.filter fun p => !(upd.any fun u => u.1 == p.1)).find? (fun p => p.1 == c) = obj.find? fun p => p.1 == c
  | [] => rfl
  | p :: obj => by
    by_cases hp : p.1 = c
    · have hno : (upd.any fun u => u.1 == p.1) = false := by
        rw [List.any_eq_false]
        intro u hu'
        have := List.find?_eq_none.1 hu u hu'
        rwa [hp]
      rw [List.filter_cons_of_pos (by rw [hno]; rfl), List.find?_cons_of_pos (by simp [hp]),
        List.find?_cons_of_pos (by simp [hp])]
    · rw [List.find?_cons_of_neg (by simp [hp]), ← find_filter_other upd c hu obj, List.filter_cons]
      split
      · rw [List.find?_cons_of_neg (by simp [hp])]
      · rfl

theorem overwrite_value (upd : List (String × S.V)) (it : Item S) (c : String) :
    (overwrite upd it).value c = ((upd.find? fun u => u.1 == c).map (·.2)).getD (it.value c) := by
  unfold overwrite Item.value
  simp only
  rw [List.find?_append]
  cases hu : upd.find? fun u => u.1 == c with
  | some u => rfl
  | none =>
    rw [find_filter_other upd c hu]
    cases it with
    | none => rfl
    | some obj => rfl

theorem setVals_rowVals (cols : List (String × S.Ty)) (upd : List (String × S.V)) (it : Item S) :
    setVals cols upd (rowVals cols it) = rowVals cols (overwrite upd it) := by
  unfold setVals rowVals
  rw [List.zip_map_right]
  rw [List.map_map]
  induction cols with
  | nil => rfl
  | cons c cols ih =>
    rw [List.zip_cons_cons, List.map_cons, List.map_cons, ih]
    congr 1
    simp only [Function.comp, Prod.map, id_eq]
    rw [overwrite_value]
    cases upd.find? fun u => u.1 == c.1 <;> rfl

/-- The list after a conditional update. -/
def changeFrom (t : Tables S) (sat : OutRow S → Bool) (upd : List (String × S.V)) :
    Int → List (Int × Item S) → List (Int × Item S)
  | _, [] => []
  | b, p :: P => (p.1, if sat (outRow t b p.2) then overwrite upd p.2 else p.2) :: changeFrom t sat upd (b + 1) P

theorem changeFrom_fst (t : Tables S) (sat : OutRow S → Bool) (upd) : ∀ (P : List (Int × Item S)) (b : Int),
    (changeFrom t sat upd b P).map (·.1) = P.map (·.1)
  | [], _ => rfl
  | p :: P, b => by rw [changeFrom, List.map_cons, changeFrom_fst t sat upd P, List.map_cons]

theorem changeFrom_snd (t : Tables S) (sat : OutRow S → Bool) (upd : List (String × S.V)) (hu : upd.isEmpty = false) :
    ∀ (P : List (Int × Item S)) (b : Int), (changeFrom t sat upd b P).map (·.2) =
      List.zipWith (fun r it => if sat r && !upd.isEmpty then overwrite upd it else it)
        (outFrom t b (P.map (·.2))) (P.map (·.2))
  | [], _ => rfl
  | p :: P, b => by
    rw [changeFrom, List.map_cons, changeFrom_snd t sat upd hu P, List.map_cons, outFrom, List.zipWith_cons_cons]
    simp only [hu, Bool.not_false, Bool.and_true]

theorem changeFrom_thin (t : Tables S) (sat : OutRow S → Bool) (upd : List (String × S.V)) (A : Int → Bool) :
    ∀ (P : List (Int × Item S)) (b : Int), (∀ r ∈ outFrom t b (P.map (·.2)), A r.subset = sat r) →
    ((thinFrom t.thinCols b P).map fun r => if A r.subset
        then { r with vals := setVals t.thinCols upd r.vals } else r) =
      thinFrom t.thinCols b (changeFrom t sat upd b P)
  | [], _, _ => rfl
  | p :: P, b, h => by
    have h0 := h (outRow t b p.2) (by simp [outFrom])
    rw [thinFrom, List.map_cons, changeFrom, thinFrom,
      changeFrom_thin t sat upd A P (b + 1) (fun r hr => h r (by rw [List.map_cons, outFrom]; exact List.mem_cons_of_mem _ hr))]
    congr 1
    simp only [outRow] at h0
    simp only [h0]
    rw [setVals_rowVals]
    show _ = (⟨b, p.1, rowVals t.thinCols (if sat (outRow t b p.2) then overwrite upd p.2 else p.2)⟩ : ThinRow S)
    unfold outRow
    split <;> rfl

theorem changeFrom_fat (t : Tables S) (sat : OutRow S → Bool) (upd : List (String × S.V)) (A B : Int → Bool) :
    ∀ (P : List (Int × Item S)) (b : Int), (∀ r ∈ outFrom t b (P.map (·.2)), A r.subset = sat r) →
    (∀ r ∈ thinFrom t.thinCols b P, B r.cid = A r.subset) →
    ((P.map fun p => (⟨p.1, rowVals t.fatCols p.2⟩ : FatRow S)).map fun f => if B f.cid
        then { f with vals := setVals t.fatCols upd f.vals } else f) =
      (changeFrom t sat upd b P).map fun p => ⟨p.1, rowVals t.fatCols p.2⟩
  | [], _, _, _ => rfl
  | p :: P, b, h, hB => by
    have h0 := h (outRow t b p.2) (by simp [outFrom])
    have h1 := hB ⟨b, p.1, rowVals t.thinCols p.2⟩ (by simp [thinFrom])
    rw [List.map_cons, List.map_cons, changeFrom, List.map_cons,
      changeFrom_fat t sat upd A B P (b + 1) (fun r hr => h r (by rw [List.map_cons, outFrom]; exact List.mem_cons_of_mem _ hr))
        (fun r hr => hB r (by rw [thinFrom]; exact List.mem_cons_of_mem _ hr))]
    congr 1
    simp only at h1
    have h2 : B p.1 = sat (outRow t b p.2) := by rw [h1]; exact h0
    simp only [h2]
    rw [setVals_rowVals]
    split <;> rfl

theorem changeFrom_keys (t : Tables S) (sat : OutRow S → Bool) (upd : List (String × S.V)) (names : List String)
    (hu : ∀ u ∈ upd, u.1 ∈ names) : ∀ (P : List (Int × Item S)) (b : Int),
    (∀ p ∈ P, ∀ k ∈ keysOf p.2, k ∈ names) →
    ∀ p ∈ changeFrom t sat upd b P, ∀ k ∈ keysOf p.2, k ∈ names
  | [], _, _, p, hp, _, _ => by simp [changeFrom] at hp
  | q :: P, b, h, p, hp, k, hk => by
    rw [changeFrom] at hp
    rcases List.mem_cons.1 hp with rfl | hp
    · simp only at hk
      split at hk
      · unfold keysOf overwrite at hk
        rw [Option.getD_some, List.map_append] at hk
        rcases List.mem_append.1 hk with hk | hk
        · obtain ⟨u, hu', rfl⟩ := List.mem_map.1 hk
          exact hu u hu'
        · obtain ⟨p, hp, rfl⟩ := List.mem_map.1 hk
          exact h q (by simp) p.1 (List.mem_map.2 ⟨p, (List.mem_filter.1 hp).1, rfl⟩)
      · exact h q (by simp) k hk
    · exact changeFrom_keys t sat upd names hu P (b + 1) (fun p hp => h p (List.mem_cons_of_mem _ hp)) p hp k hk

theorem thinFrom_subset_pairwise (cols : List (String × S.Ty)) : ∀ (P : List (Int × Item S)) (b : Int),
    (∀ r ∈ thinFrom cols b P, b ≤ r.subset) ∧ ((thinFrom cols b P).map (·.subset)).Nodup
  | [], b => by simp [thinFrom]
  | p :: P, b => by
    obtain ⟨h1, h2⟩ := thinFrom_subset_pairwise cols P (b + 1)
    rw [thinFrom]
    refine ⟨?_, ?_⟩
    · intro r hr
      rcases List.mem_cons.1 hr with rfl | hr
      · exact Int.le_refl b
      · have := h1 r hr; omega
    · rw [List.map_cons, List.nodup_cons]
      refine ⟨?_, h2⟩
      intro hm
      obtain ⟨r, hr, hrb⟩ := List.mem_map.1 hm
      have := h1 r hr
      simp only at hrb
      omega

theorem outFrom_subsets (t : Tables S) (cols : List (String × S.Ty)) : ∀ (P : List (Int × Item S)) (b : Int),
    (outFrom t b (P.map (·.2))).map (·.subset) = (thinFrom cols b P).map (·.subset)
  | [], _ => rfl
  | p :: P, b => by
    rw [List.map_cons, outFrom, List.map_cons, outFrom_subsets t cols P, thinFrom, List.map_cons]
    rfl

theorem thinFrom_cids (cols : List (String × S.Ty)) : ∀ (P : List (Int × Item S)) (b : Int),
    (thinFrom cols b P).map (·.cid) = P.map (·.1)
  | [], _ => rfl
  | p :: P, b => by rw [thinFrom, List.map_cons, thinFrom_cids cols P, List.map_cons]

theorem inj_of_nodup_map {γ : Type} (key : γ → Int) : ∀ (l : List γ), (l.map key).Nodup →
    ∀ a ∈ l, ∀ b ∈ l, key a = key b → a = b
  | [], _, a, ha, _, _, _ => by simp at ha
  | c :: l, hnd, a, ha, b, hb, he => by
    rw [List.map_cons, List.nodup_cons] at hnd
    rcases List.mem_cons.1 ha with h1 | h1 <;> rcases List.mem_cons.1 hb with h2 | h2
    · rw [h1, h2]
    · exact absurd (List.mem_map.2 ⟨b, h2, by rw [← he, h1]⟩) hnd.1
    · exact absurd (List.mem_map.2 ⟨a, h1, by rw [he, h2]⟩) hnd.1
    · exact inj_of_nodup_map key l hnd.2 a h1 b h2 he

theorem filter_contains_key {γ : Type} (key : γ → Int) (sat : γ → Bool) : ∀ (l : List γ), (l.map key).Nodup →
    ∀ r ∈ l, ((l.filter sat).map key).contains (key r) = sat r := by
  intro l hnd r hr
  rw [Bool.eq_iff_iff, List.contains_iff_mem, List.mem_map]
  constructor
  · rintro ⟨s, hs, hk⟩
    obtain ⟨hs, hsat⟩ := List.mem_filter.1 hs
    have : s = r := inj_of_nodup_map key l hnd s hs r hr hk
    exact this ▸ hsat
  · intro hsat
    exact ⟨r, List.mem_filter.2 ⟨hr, hsat⟩, rfl⟩

theorem updateWhere_rep {db db' : Option (Tables S)} {rows all valid sat upd n} (h : RepO db rows)
    (hg : get id db none none = .ok all) (hu : updateWhere db valid sat upd = .ok (db', n)) :
    RepO db' (List.zipWith (fun r it => if sat r && !upd.isEmpty then overwrite upd it else it) all rows) ∧
      n = (if upd.isEmpty then 0 else (all.filter sat).length) := by
  cases db with
  | none => cases hu
  | some t =>
    obtain ⟨P, hP, rfl⟩ := h
    rw [get_all hP] at hg
    cases hg
    unfold updateWhere at hu
    simp only at hu
    split at hu
    · next he =>
      cases hu
      subst he
      refine ⟨?_, rfl⟩
      have : List.zipWith (fun r it => if sat r && !([] : List (String × S.V)).isEmpty then overwrite [] it else it)
          (outFrom t 0 (P.map (·.2))) (P.map (·.2)) = P.map (·.2) := by
        simp only [List.isEmpty_nil, Bool.not_true, Bool.and_false, Bool.false_eq_true, if_false]
        apply List.ext_getElem
        · rw [List.length_zipWith, outFrom_length, Nat.min_self]
        · intro i h1 h2
          rw [List.getElem_zipWith]
      rw [this]
      exact ⟨P, hP, rfl⟩
    · next hne =>
      have hie : upd.isEmpty = false := by
        cases upd with
        | nil => exact absurd rfl hne
        | cons _ _ => rfl
      split at hu
      · cases hu
      · split at hu
        · cases hu
        · next hcols =>
          rw [joined_rep hP] at hu
          cases hu
          have hA := filter_contains_key (·.subset) sat (outFrom t 0 (P.map (·.2)))
            (by rw [outFrom_subsets t t.thinCols]; exact (thinFrom_subset_pairwise t.thinCols P 0).2)
          refine ⟨⟨changeFrom t sat upd 0 P, ⟨?_, ?_, ?_, ?_⟩, changeFrom_snd t sat upd hie P 0⟩, ?_⟩
          · simp only
            have := changeFrom_thin t sat upd _ P 0 hA
            rw [← hP.thin] at this
            exact this
          · simp only
            have := changeFrom_fat t sat upd _ (fun c => ((t.thin.filter fun r =>
              (((outFrom t 0 (P.map (·.2))).filter sat).map (·.subset)).contains r.subset).map (·.cid)).contains c)
              P 0 hA (by
                rw [← hP.thin]
                exact filter_contains_key (·.cid) _ t.thin (by rw [hP.thin, thinFrom_cids]; exact hP.nodup))
            rw [← hP.fat] at this
            exact this
          · rw [changeFrom_fst]; exact hP.nodup
          · simp only
            have hupd : ∀ u ∈ upd, u.1 ∈ t.thinCols.map (·.1) ++ t.fatCols.map (·.1) := by
              intro u hu
              rw [Bool.not_eq_true, List.any_eq_false] at hcols
              have := hcols u hu
              rw [Bool.or_eq_true_iff, not_or] at this
              have := this.2
              rw [Bool.not_eq_true, Bool.not_eq_false', List.any_eq_true] at this
              obtain ⟨c, hc, hcu⟩ := this
              rw [← List.map_append, List.mem_map]
              exact ⟨c, hc, by simpa using hcu⟩
            exact changeFrom_keys t sat upd _ hupd P 0 hP.keys
          · simp [hie]

end NextPlaid.Db
