import Verif.Spec.Json
import Verif.Proofs.Db4
import Mathlib.Data.List.Pairwise

/-! Lemmas about metadata values and about the acceptance of metadata rows. -/

namespace NextPlaid.Json
open NextPlaid NextPlaid.Db NextPlaid.Spec

variable {R : Type} {F : Floats R}

/-- Every column has the type given by `k`. -/
def Declared (k : String → Json.Ty) (t : Tables (sql F)) : Prop := ∀ c ∈ t.thinCols ++ t.fatCols, c.2 = k c.1

theorem infer_ofKind {k : Json.Ty} {v : Json R} (h : OfKind F k v) (hn : k = .text ∨ v ≠ .null) : infer v = k := by
  cases v with
  | null => rcases hn with h' | h'; exacts [h'.symm, absurd rfl h']
  | bool b => exact h.elim
  | int i => exact h.1.symm
  | real r => exact h.1.symm
  | str s => exact h.symm
  | tree t => exact h.elim

theorem ofKind_value {k : String → Json.Ty} {it : Item (sql F)} (h : ∀ p ∈ it.getD [], OfKind F (k p.1) p.2) (col : String) :
    OfKind F (k col) (it.value col) := by
  cases it with
  | none => trivial
  | some obj =>
    unfold Item.value
    simp only
    cases hf : obj.find? fun p => p.1 == col with
    | none => trivial
    | some p =>
      have h1 := h p (List.mem_of_find?_eq_some hf)
      have h2 := List.find?_some hf
      simp only [beq_iff_eq] at h2
      rw [h2] at h1
      exact h1

theorem cell_ofKind {k : Json.Ty} {v : Json R} (h : OfKind F k v) : (sql F).cell k v = v := by
  cases v with
  | null => exact (sql_lawful F).cell_null k
  | bool b => exact h.elim
  | int i =>
    obtain ⟨rfl, h⟩ := h
    show read F (store F .integer (toSql F (.int i))) = _
    have e : toSql F (.int i) = .int i := if_pos h
    rw [e]
    rfl
  | real r =>
    obtain ⟨rfl, h⟩ := h
    show read F (store F .real (toSql F (.real r))) = _
    simp [toSql, store, read, h]
  | str s => have : k = .text := h; subst this; rfl
  | tree t => exact h.elim

theorem colType_ofKind {k : String → Json.Ty} {items : List (Item (sql F))} {col : String}
    (hk : ∀ it ∈ items, ∀ p ∈ it.getD [], OfKind F (k p.1) p.2)
    (hi : k col = .text ∨ ∃ it' ∈ items, it'.value col ≠ .null) : colType items col = k col := by
  unfold colType
  cases hf : (items.map fun it => it.value col).find? fun v => !(sql F).isNull v with
  | some v =>
    simp only
    have hm := List.mem_of_find?_eq_some hf
    obtain ⟨it, hit, rfl⟩ := List.mem_map.1 hm
    refine infer_ofKind (ofKind_value (hk it hit) col) (.inr ?_)
    intro h0
    have := List.find?_some hf
    rw [h0] at this
    cases this
  | none =>
    simp only
    rcases hi with h | ⟨it, hit, hne⟩
    · exact h.symm
    · have := List.find?_eq_none.1 hf _ (List.mem_map_of_mem hit)
      exfalso
      cases hv : it.value col with
      | null => exact hne hv
      | _ => rw [hv] at this; exact this rfl

theorem createTables_declared {k : String → Json.Ty} {cols : List (String × Json.Ty)} {t : Tables (sql F)}
    (h : createTables (S := sql F) cols = .ok t) (hc : ∀ c ∈ cols, c.2 = k c.1) : Declared k t := by
  rw [createTables_ok h]
  intro c hcm
  rcases List.mem_append.1 hcm with h' | h' <;> exact hc c (List.mem_filter.1 h').1

section
variable {S : Sql}

theorem insertRow_cols {t t' : Tables S} {id cid : Int} {it} (h : insertRow t id cid it = .ok t') :
    t'.thinCols = t.thinCols ∧ t'.fatCols = t.fatCols := by
  unfold insertRow at h
  split at h
  · cases h
  · cases h; exact ⟨rfl, rfl⟩

theorem insertRows_cols : ∀ (l : List (Int × Int × Item S)) (t t' : Tables S), insertRows t l = .ok t' →
    t'.thinCols = t.thinCols ∧ t'.fatCols = t.fatCols
  | [], t, t', h => by rw [insertRows] at h; cases h; exact ⟨rfl, rfl⟩
  | (id, cid, it) :: l, t, t', h => by
    rw [insertRows] at h
    rcases hr : insertRow t id cid it with e | t1
    · rw [hr] at h; cases h
    · rw [hr] at h
      simp only [bind, Except.bind] at h
      obtain ⟨h1, h2⟩ := insertRows_cols l t1 t' h
      obtain ⟨h3, h4⟩ := insertRow_cols hr
      exact ⟨h1.trans h3, h2.trans h4⟩

theorem mem_allKeys_iff (items : List (Item S)) (key : String) :
    key ∈ allKeys items ↔ ∃ it ∈ items, ∃ p ∈ it.getD [], p.1 = key := by
  unfold allKeys
  rw [List.mem_flatMap]
  constructor
  · rintro ⟨it, hit, h⟩
    cases it with
    | none => simp at h
    | some obj =>
      obtain ⟨p, hp, rfl⟩ := List.mem_map.1 h
      exact ⟨some obj, hit, p, hp, rfl⟩
  · rintro ⟨it, hit, p, hp, rfl⟩
    cases it with
    | none => simp at hp
    | some obj => exact ⟨some obj, hit, List.mem_map_of_mem hp⟩

/-- What `scanKeys` finds are keys that were not known, valid and without repetition. -/
theorem scanKeys_new (known : List String) : ∀ (keys acc new : List String), scanKeys known keys acc = .ok new →
    (∀ k ∈ new, k ∈ acc ∨ (k ∈ keys ∧ k ∉ known ∧ validName k = true)) ∧ (acc.Nodup → new.Nodup)
  | [], acc, new, h => by
    rw [scanKeys] at h
    cases h
    exact ⟨fun k hk => .inl hk, id⟩
  | k :: keys, acc, new, h => by
    rw [scanKeys] at h
    split at h
    · obtain ⟨h1, h2⟩ := scanKeys_new known keys acc new h
      refine ⟨fun a ha => ?_, h2⟩
      rcases h1 a ha with h' | ⟨h', h''⟩
      · exact .inl h'
      · exact .inr ⟨List.mem_cons_of_mem _ h', h''⟩
    · next hk =>
      rw [Bool.or_eq_true_iff, not_or] at hk
      split at h
      · next hv =>
        obtain ⟨h1, h2⟩ := scanKeys_new known keys _ new h
        refine ⟨fun a ha => ?_, fun hn => h2 ?_⟩
        · rcases h1 a ha with h' | ⟨h', h''⟩
          · rcases List.mem_append.1 h' with h' | h'
            · exact .inl h'
            · simp only [List.mem_cons, List.not_mem_nil, or_false] at h'
              subst h'
              exact .inr ⟨List.mem_cons_self, by simpa using hk.1, hv⟩
          · exact .inr ⟨List.mem_cons_of_mem _ h', h''⟩
        · rw [List.nodup_append]
          refine ⟨hn, by simp, ?_⟩
          intro a ha b hb
          simp only [List.mem_cons, List.not_mem_nil, or_false] at hb
          subst hb
          intro e
          subst e
          exact hk.2 (by simpa using ha)
      · cases h

theorem scanKeys_ok (known : List String) : ∀ (keys acc : List String),
    (∀ k ∈ keys, k ∈ known ∨ validName k = true) → ∃ new, scanKeys known keys acc = .ok new
  | [], acc, _ => ⟨acc, rfl⟩
  | k :: keys, acc, h => by
    rw [scanKeys]
    split
    · exact scanKeys_ok known keys acc fun a ha => h a (List.mem_cons_of_mem _ ha)
    · next hk =>
      rw [Bool.or_eq_true_iff, not_or] at hk
      rcases h k List.mem_cons_self with h' | h'
      · exact absurd (by simpa using h') hk.1
      · rw [if_pos h']
        exact scanKeys_ok known keys _ fun a ha => h a (List.mem_cons_of_mem _ ha)

theorem scanKeys_err (known : List String) : ∀ (keys acc : List String),
    (∀ k ∈ acc, validName k = true) → (∃ k ∈ keys, k ∉ known ∧ validName k = false) →
    scanKeys known keys acc = .error .err
  | [], acc, _, h => by obtain ⟨k, hk, _⟩ := h; cases hk
  | k :: keys, acc, hacc, h => by
    rw [scanKeys]
    by_cases hkn : known.contains k || acc.contains k
    · rw [if_pos hkn]
      refine scanKeys_err known keys acc hacc ?_
      obtain ⟨a, ha, h1, h2⟩ := h
      rcases List.mem_cons.1 ha with rfl | ha
      · exfalso
        rcases Bool.or_eq_true_iff.1 hkn with h' | h'
        · exact h1 (by simpa using h')
        · have := hacc a (by simpa using h')
          rw [h2] at this; cases this
      · exact ⟨a, ha, h1, h2⟩
    · rw [if_neg hkn]
      by_cases hv : validName k = true
      · rw [if_pos hv]
        refine scanKeys_err known keys _ ?_ ?_
        · intro a ha
          rcases List.mem_append.1 ha with ha | ha
          · exact hacc a ha
          · simp only [List.mem_cons, List.not_mem_nil, or_false] at ha
            subst ha; exact hv
        · obtain ⟨a, ha, h1, h2⟩ := h
          rcases List.mem_cons.1 ha with rfl | ha
          · rw [hv] at h2; cases h2
          · exact ⟨a, ha, h1, h2⟩
      · rw [if_neg hv]

end

theorem mem_or_of_value {S : Sql} {it : Item S} {col : String} (h : it.value col ≠ S.null) :
    ∃ p ∈ it.getD [], p.1 = col := by
  by_contra hc
  apply h
  apply value_of_not_key
  intro hk
  obtain ⟨p, hp, e⟩ := List.mem_map.1 hk
  exact hc ⟨p, hp, e⟩

theorem create_declared {k : String → Json.Ty} {items : List (Item (sql F))} {t : Tables (sql F)} {n}
    (hk : ∀ it ∈ items, ∀ p ∈ it.getD [], OfKind F (k p.1) p.2) (hi : Introduces F k [] items)
    (hf : ∀ first ∈ items.head?, ∀ p ∈ first.getD [], k p.1 = .text ∨ p.2 ≠ .null)
    (h : create items (idsFrom 0 items.length) = .ok (some t, n)) : Declared k t := by
  unfold create at h
  rw [if_neg (by simp [idsFrom_length])] at h
  split at h
  · cases h
  · rcases ht : tryFixed items with e | fixed
    · rw [ht] at h; simp [bind, Except.bind] at h
    · rw [ht] at h
      simp only [bind, Except.bind] at h
      rcases hc : createWith fixed items (idsFrom 0 items.length) with e | t'
      · rw [hc] at h; cases h
      · rw [hc] at h
        have : t' = t := by cases h; rfl
        subst this
        cases fixed with
        | some cols =>
          rw [createWith] at hc
          unfold createFixed at hc
          rcases hct : createTables (S := sql F) cols with e | t0
          · rw [hct] at hc; simp [bind, Except.bind] at hc
          · rw [hct] at hc
            simp only [bind, Except.bind] at hc
            split at hc
            · have hd : Declared k t0 := by
                refine createTables_declared hct ?_
                unfold tryFixed at ht
                split at ht
                · next first rest _ _ =>
                  split at ht
                  · split at ht
                    · cases ht
                      intro c hcm
                      obtain ⟨p, hp, rfl⟩ := List.mem_map.1 hcm
                      exact infer_ofKind (hk (some first) List.mem_cons_self p hp) (hf (some first) rfl p hp)
                    · cases ht
                  · cases ht
                · cases ht
              obtain ⟨h1, h2⟩ := insertRows_cols _ _ _ hc
              intro c hcm
              rw [h1, h2] at hcm
              exact hd c hcm
            · cases hc
        | none =>
          rw [createWith] at hc
          unfold createGeneral at hc
          rcases hs : scanKeys [] (allKeys items) [] with e | new
          · rw [hs] at hc; simp [bind, Except.bind] at hc
          · rw [hs] at hc
            simp only [bind, Except.bind] at hc
            rcases hct : createTables (S := sql F) (new.map fun c => (c, colType items c)) with e | t0
            · rw [hct] at hc; cases hc
            · rw [hct] at hc
              simp only at hc
              have hd : Declared k t0 := by
                refine createTables_declared hct ?_
                intro c hcm
                obtain ⟨key, hkey, rfl⟩ := List.mem_map.1 hcm
                rcases (scanKeys_new _ _ _ _ hs).1 key hkey with h' | ⟨h', _⟩
                · cases h'
                · obtain ⟨it, hit, p, hp, rfl⟩ := (mem_allKeys_iff items key).1 h'
                  exact colType_ofKind hk (hi it hit p hp (by simp))
              obtain ⟨h1, h2⟩ := insertRows_cols _ _ _ hc
              intro c hcm
              rw [h1, h2] at hcm
              exact hd c hcm

theorem update_declared {k : String → Json.Ty} {items : List (Item (sql F))} {t t' : Tables (sql F)} {ids n}
    (hk : ∀ it ∈ items, ∀ p ∈ it.getD [], OfKind F (k p.1) p.2) (hi : Introduces F k (columns (some t)) items)
    (hd : Declared k t) (h : update (some t) items ids = .ok (some t', n)) : Declared k t' := by
  unfold update at h
  split at h
  · cases h; exact hd
  · split at h
    · cases h
    · simp only [bind, Except.bind] at h
      rcases hu : updateV2 t items ids with e | t1
      · rw [hu] at h; cases h
      · rw [hu] at h
        cases h
        unfold updateV2 at hu
        simp only [bind, Except.bind] at hu
        rcases hs : scanKeys (t.thinCols.map (·.1) ++ t.fatCols.map (·.1)) (allKeys items) [] with e | new
        · rw [hs] at hu; cases hu
        · rw [hs] at hu
          simp only at hu
          split at hu
          · cases hu
          · obtain ⟨h1, h2⟩ := insertRows_cols _ _ _ hu
            have hnew : ∀ c ∈ new.map (fun c => (c, colType items c)), c.2 = k c.1 := by
              intro c hcm
              obtain ⟨key, hkey, rfl⟩ := List.mem_map.1 hcm
              rcases (scanKeys_new _ _ _ _ hs).1 key hkey with h' | ⟨h', hnk, _⟩
              · cases h'
              · obtain ⟨it, hit, p, hp, rfl⟩ := (mem_allKeys_iff items key).1 h'
                exact colType_ofKind hk (hi it hit p hp hnk)
            intro c hcm
            rw [h1, h2] at hcm
            unfold addCols at hcm
            simp only at hcm
            rcases List.mem_append.1 hcm with hcm | hcm
            · rcases List.mem_append.1 hcm with hcm | hcm
              · exact hd c (List.mem_append.2 (.inl hcm))
              · exact hnew c (List.mem_filter.1 hcm).1
            · rcases List.mem_append.1 hcm with hcm | hcm
              · exact hd c (List.mem_append.2 (.inr hcm))
              · exact hnew c (List.mem_filter.1 hcm).1

end NextPlaid.Json
