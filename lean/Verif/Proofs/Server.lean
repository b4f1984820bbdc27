import Verif.Spec.Server
import Verif.Proofs.Store

/-! Lemmas about the server's operations on one index. -/

namespace NextPlaid.Server
open NextPlaid NextPlaid.Index NextPlaid.Db NextPlaid.Spec

variable {E : Env} {S : Sql} {T : TextEnv S}

/-! ### Lists -/

theorem mem_idRange (a n : Nat) (j : Nat) : (j : Int) ∈ idRange a n ↔ a ≤ j ∧ j < a + n := by
  unfold idRange
  rw [List.mem_map]
  constructor
  · rintro ⟨i, hi, e⟩
    rw [List.mem_range] at hi
    omega
  · rintro ⟨h1, h2⟩
    exact ⟨j - a, List.mem_range.2 (by omega), by omega⟩

theorem idRange_nonneg (a n : Nat) : ∀ x ∈ idRange a n, 0 ≤ x := by
  intro x hx
  unfold idRange at hx
  obtain ⟨i, _, rfl⟩ := List.mem_map.1 hx
  omega

/-- Deleting keeps the positions that are not named. -/
theorem deleteIds_eq_filter {α : Type} (ids : List Int) (l : List α) :
    deleteIds ids l = (l.zipIdx.filter fun p => decide ((p.2 : Int) ∉ ids)).map (·.1) := rfl

theorem zipIdx_filter_take {α : Type} (k : Nat) : ∀ (l : List α) (b : Nat),
    ((l.zipIdx b).filter fun p => decide (p.2 < b + k)).map (·.1) = l.take k := by
  induction k with
  | zero =>
    intro l b
    rw [List.take_zero, List.map_eq_nil_iff, List.filter_eq_nil_iff]
    rintro ⟨a, i⟩ hp
    have := List.mem_zipIdx hp
    simp only [decide_eq_true_eq]
    omega
  | succ k ih =>
    intro l b
    cases l with
    | nil => rfl
    | cons a l =>
      rw [List.zipIdx_cons, List.filter_cons, if_pos (by simp), List.map_cons, List.take_succ_cons, ← ih l (b + 1)]
      simp only [Nat.add_comm, Nat.add_left_comm]

theorem zipIdx_filter_drop {α : Type} (k : Nat) : ∀ (l : List α) (b : Nat),
    ((l.zipIdx b).filter fun p => decide (b + k ≤ p.2)).map (·.1) = l.drop k := by
  induction k with
  | zero =>
    intro l b
    rw [List.drop_zero, List.filter_eq_self.2]
    · exact List.zipIdx_map_fst ..
    · rintro ⟨a, i⟩ hp
      have := List.mem_zipIdx hp
      simp only [decide_eq_true_eq]
      omega
  | succ k ih =>
    intro l b
    cases l with
    | nil => rfl
    | cons a l =>
      rw [List.zipIdx_cons, List.filter_cons, if_neg (by simp), List.drop_succ_cons, ← ih l (b + 1)]
      simp only [Nat.add_comm, Nat.add_left_comm]

theorem deleteIds_tail {α : Type} (l : List α) (k : Nat) (h : k ≤ l.length) :
    deleteIds (idRange k (l.length - k)) l = l.take k := by
  rw [deleteIds_eq_filter, ← zipIdx_filter_take k l 0]
  congr 1
  apply List.filter_congr
  rintro ⟨a, i⟩ hp
  have := List.mem_zipIdx hp
  simp only [decide_eq_decide]
  rw [mem_idRange]
  omega

theorem deleteIds_head {α : Type} (l : List α) (k : Nat) : deleteIds (idRange 0 k) l = l.drop k := by
  rw [deleteIds_eq_filter, ← zipIdx_filter_drop k l 0]
  congr 1
  apply List.filter_congr
  rintro ⟨a, i⟩ hp
  simp only [decide_eq_decide]
  rw [mem_idRange]
  omega

theorem deleteIds_mem {α : Type} (ids : List Int) (l : List α) (a : α) (h : a ∈ deleteIds ids l) : a ∈ l := by
  rw [← removeFrom_eq_deleteIds] at h
  exact removeFrom_mem ids a l 0 h

theorem zip_fst {α β : Type} : ∀ (l : List α) (m : List β), (l.zip m).map (·.1) = l.take m.length
  | [], m => by simp
  | a :: l, [] => by simp
  | a :: l, b :: m => by simp [zip_fst l m]

theorem zip_snd {α β : Type} : ∀ (l : List α) (m : List β), (l.zip m).map (·.2) = m.take l.length
  | [], m => by simp
  | a :: l, [] => by simp
  | a :: l, b :: m => by simp [zip_snd l m]

theorem zip_maps {α β : Type} : ∀ (l : List (α × β)), (l.map (·.1)).zip (l.map (·.2)) = l
  | [] => rfl
  | p :: l => by simp [zip_maps l]

theorem flatten_ne_nil {α : Type} {l : List (List α)} (h : ∀ d ∈ l, d ≠ []) (hne : l ≠ []) : l.flatten ≠ [] := by
  match l, hne with
  | d :: l, _ =>
    rw [List.flatten_cons]
    intro e
    exact h d (by simp) (List.append_eq_nil_iff.1 e).1

/-! ### The invariants -/

/-- Both stores hold the pairs. -/
structure Clean (s : Store E T) (rows : List (List E.Row × Item S)) : Prop where
  disk : DiskOk s.disk (rows.map (·.1))
  db : RepO s.db (rows.map (·.2))
  tokens : ∀ p ∈ rows, p.1 ≠ []
  noDb : s.db = none → rows = []

/-- The repair will lead to the pairs. -/
structure Torn (s : Store E T) (D : List (List E.Row)) (I : List (Item S)) : Prop where
  disk : DiskOk s.disk D
  db : RepO s.db I
  tokens : ∀ d ∈ D, d ≠ []
  noDb : s.db = none → D = []
  noDisk : s.disk.metadata = none → I = []

theorem inv_meta {d : Disk E} {raw} (h : Inv d raw) : ∃ m, d.metadata = some m ∧ loadMeta d = .ok m ∧ m.numDocs = raw.length := by
  obtain ⟨⟨cs, q, ch, hcs, hst, henc⟩, _⟩ := h
  exact ⟨_, hst.metadata, loadMeta_spec hst, henc.1⟩

theorem count_rep {db : Option (Tables S)} {rows} (h : RepO db rows) : count db = rows.length := by
  cases db with
  | none =>
    have : rows = [] := h
    subst this
    rfl
  | some t =>
    obtain ⟨P, hP, rfl⟩ := h
    change t.thin.length = _
    rw [hP.thin, thinFrom_length, List.length_map]

theorem Clean.torn {s : Store E T} {rows} (h : Clean s rows) : Torn s (rows.map (·.1)) (rows.map (·.2)) where
  disk := h.disk
  db := h.db
  tokens := by
    intro d hd
    obtain ⟨p, hp, rfl⟩ := List.mem_map.1 hd
    exact h.tokens p hp
  noDb := by intro hn; rw [h.noDb hn]; rfl
  noDisk := by
    intro hn
    rcases h.disk with ⟨_, h0⟩ | h0
    · rw [List.map_eq_nil_iff] at h0
      rw [h0]; rfl
    · obtain ⟨m, hm, _⟩ := inv_meta h0
      rw [hm] at hn
      cases hn

theorem Clean.fts {s : Store E T} {rows} (h : Clean s rows) (f : Option (Fts T)) : Clean { s with fts := f } rows :=
  ⟨h.disk, h.db, h.tokens, h.noDb⟩

theorem Clean.count {s : Store E T} {rows} (h : Clean s rows) : count s.db = rows.length := by
  rw [count_rep h.db, List.length_map]

theorem delete_type (db : Option (Tables S)) (ids : List Int) : declaredType (delete db ids).1 = declaredType db := by
  unfold delete
  split
  · rfl
  · cases db <;> rfl

theorem delete_none (db : Option (Tables S)) (ids : List Int) : (delete db ids).1 = none ↔ db = none := by
  unfold delete
  split
  · rfl
  · cases db <;> simp

/-! ### The repair -/

theorem repair_clean {s : Store E T} {D I} (h : Torn s D I) :
    ∃ tr b, repair s = (tr, .ok b) ∧ (∀ s' ∈ tr, s' = final s tr) ∧ Clean (final s tr) (D.zip I) ∧
      declaredType (final s tr).db = declaredType s.db := by
  have htok : ∀ p ∈ D.zip I, p.1 ≠ [] := fun p hp => h.tokens p.1 (List.of_mem_zip hp).1
  unfold repair
  by_cases hm : s.disk.metadata = none
  · rw [hm]
    have hI := h.noDisk hm
    have hD : D = [] := by
      rcases h.disk with ⟨_, h0⟩ | h0
      · exact h0
      · obtain ⟨m, hm', _⟩ := inv_meta h0
        rw [hm'] at hm
        cases hm
    have hd := h.disk
    have hb := h.db
    subst hI hD
    exact ⟨[], false, rfl, by simp, ⟨hd, hb, htok, fun _ => rfl⟩, rfl⟩
  · rw [if_neg (by simpa using hm)]
    by_cases hn : s.db = none
    · rw [if_pos (by rw [hn]; rfl)]
      have hD := h.noDb hn
      have hI : I = [] := by have := h.db; rw [hn] at this; exact this
      have hd := h.disk
      have hb := h.db
      subst hI hD
      exact ⟨[], false, rfl, by simp, ⟨hd, hb, htok, fun _ => rfl⟩, rfl⟩
    · rw [if_neg (by simpa using hn)]
      have hinv : Inv s.disk D := by
        rcases h.disk with ⟨h0, _⟩ | h0
        · rw [h0] at hm; exact absurd rfl hm
        · exact h0
      obtain ⟨m, hm1, hm2, hm3⟩ := inv_meta hinv
      have hc := count_rep h.db
      rw [hm2]
      simp only [hm3, hc]
      split
      · next he =>
        refine ⟨[], false, rfl, by simp, ⟨?_, ?_, htok, fun h0 => absurd h0 hn⟩, rfl⟩
        · rw [zip_fst, ← he, List.take_length]; exact h.disk
        · rw [zip_snd, he, List.take_length]; exact h.db
      · next he =>
        split
        · next hlt =>
          have hdel := (delete_rep h.db (idRange D.length (I.length - D.length))).1
          rw [deleteIds_tail I D.length (by omega)] at hdel
          have hcl : Clean { s with db := (delete s.db (idRange D.length (I.length - D.length))).1 } (D.zip I) := by
            refine ⟨?_, ?_, htok, fun h0 => absurd ((delete_none _ _).1 h0) hn⟩
            · rw [zip_fst, List.take_of_length_le (by omega)]; exact h.disk
            · rw [zip_snd]; exact hdel
          refine ⟨[_], true, ?_, ?_, hcl, delete_type _ _⟩
          · unfold repairDb
            simp only [verify, hm2, hm3]
            rw [if_pos]
            rw [count_rep hdel, List.length_take]
            omega
          · intro s' hs'; rw [List.mem_singleton.1 hs']; rfl
        · next hge =>
          have hDne : D ≠ [] := by intro h0; subst h0; simp only [List.length_nil] at he hge; omega
          obtain ⟨x, hx, _⟩ := Idx.load hinv.1 (flatten_ne_nil h.tokens hDne)
          obtain ⟨d, hd, hdi, _⟩ := deleteFromIndex_inv hinv (idRange I.length (D.length - I.length)) (idRange_nonneg _ _)
          rw [deleteIds_tail D I.length (by omega)] at hd hdi
          have hcl : Clean { s with disk := d } (D.zip I) := by
            refine ⟨?_, ?_, htok, fun h0 => absurd h0 hn⟩
            · rw [zip_fst]; exact .inr hdi
            · rw [zip_snd, List.take_of_length_le (by omega)]; exact h.db
          refine ⟨[{ s with disk := d }], true, ?_, ?_, hcl, rfl⟩
          · unfold repairIndex
            rw [hx, hd]
            simp only
            obtain ⟨m', _, hm2', hm3'⟩ := inv_meta hdi
            simp only [verify, hm2', hm3', hc]
            rw [if_pos]
            rw [List.length_take]
            omega
          · intro s' hs'; rw [List.mem_singleton.1 hs']; rfl

/-! ### Deleting -/

theorem deleteSteps_clean {s : Store E T} {rows} (h : Clean s rows) (hm : s.disk.metadata ≠ none) (n : Nat) (ids : List Int)
    (hid : ∀ x ∈ ids, 0 ≤ x) : ∃ tr k, deleteSteps s n ids = (tr, .ok k) ∧ Clean (final s tr) (deleteIds ids rows) ∧
      (final s tr).disk.metadata ≠ none ∧ declaredType (final s tr).db = declaredType s.db ∧
      ∀ s' ∈ tr, DiskOk s'.disk ((deleteIds ids rows).map (·.1)) ∧
        (RepO s'.db (rows.map (·.2)) ∨ RepO s'.db ((deleteIds ids rows).map (·.2))) ∧
        (s'.db = none → rows = []) ∧ s'.disk.metadata.map (·.numDocs) = some (deleteIds ids rows).length := by
  have hinv : Inv s.disk (rows.map (·.1)) := by
    rcases h.disk with ⟨h0, _⟩ | h0
    · rw [h0] at hm; exact absurd rfl hm
    · exact h0
  obtain ⟨d, hd, hdi, _⟩ := deleteFromIndex_inv hinv ids hid
  rw [deleteIds_map] at hd hdi
  simp only [List.length_map] at hd
  obtain ⟨m, hm1, hm2, hm3⟩ := inv_meta hdi
  have hmeta : d.metadata.map (·.numDocs) = some (deleteIds ids rows).length := by
    rw [hm1, Option.map_some, hm3, List.length_map]
  have htok : ∀ p ∈ deleteIds ids rows, p.1 ≠ [] := fun p hp => h.tokens p (deleteIds_mem ids rows p hp)
  unfold deleteSteps
  rw [hd]
  simp only
  split
  · next h0 =>
    have e := deleteIds_of_length ids rows h0
    rw [e] at hdi htok hmeta ⊢
    refine ⟨_, _, rfl, ⟨.inr hdi, h.db, htok, h.noDb⟩, ?_, rfl, ?_⟩
    · change d.metadata ≠ none
      rw [hm1]; simp
    · intro s' hs'
      rw [List.mem_singleton.1 hs']
      exact ⟨.inr hdi, .inl h.db, h.noDb, hmeta⟩
  · have hr := (delete_rep h.db ids).1
    rw [deleteIds_map] at hr
    have hty := delete_type s.db ids
    rcases hdel : (delete s.db ids).1 with _ | t
    · have hnone := (delete_none _ _).1 hdel
      have hrows := h.noDb hnone
      subst hrows
      simp only [deleteRowsSteps, hdel]
      refine ⟨_, _, rfl, ⟨.inr hdi, h.db, (by intro p hp; cases hp), fun _ => rfl⟩, ?_, rfl, ?_⟩
      · change d.metadata ≠ none
        rw [hm1]; simp
      · intro s' hs'
        rw [List.mem_singleton.1 hs']
        exact ⟨.inr hdi, .inl h.db, fun _ => trivial, hmeta⟩
    · rw [hdel] at hr hty
      have hsome : s.db ≠ none := by
        intro h0
        have := (delete_none s.db ids).2 h0
        rw [hdel] at this
        cases this
      simp only [deleteRowsSteps, hdel]
      refine ⟨_, _, rfl, ⟨.inr hdi, hr, htok, by intro h0; cases h0⟩, ?_, hty, ?_⟩
      · change d.metadata ≠ none
        rw [hm1]; simp
      · intro s' hs'
        simp only [List.mem_cons, List.not_mem_nil, or_false] at hs'
        rcases hs' with rfl | rfl | rfl
        · exact ⟨.inr hdi, .inl h.db, fun h0 => absurd h0 hsome, hmeta⟩
        · exact ⟨.inr hdi, .inr hr, (fun h0 => by cases h0), hmeta⟩
        · exact ⟨.inr hdi, .inr hr, (fun h0 => by cases h0), hmeta⟩

end NextPlaid.Server
