import Verif.Spec.Store
import Verif.Proofs.Db4
import Verif.Proofs.Index3

/-! Lemmas about the index and its metadata together. -/

namespace NextPlaid.Db
open NextPlaid NextPlaid.Index NextPlaid.Spec

variable {E : Env} {S : Sql} {T : TextEnv S}

/-- The directory holds the documents. -/
def DiskOk (d : Disk E) (docs : List (List E.Row)) : Prop := (d = {} ∧ docs = []) ∨ Inv d docs

theorem deleteIds_map {α β : Type} (f : α → β) (ids : List Int) (l : List α) :
    deleteIds ids (l.map f) = (deleteIds ids l).map f := by
  rw [← removeFrom_eq_deleteIds, ← removeFrom_eq_deleteIds, removeFrom_map]

theorem deleteIds_of_length {α : Type} (ids : List Int) (l : List α)
    (h : l.length - (deleteIds ids l).length = 0) : deleteIds ids l = l := by
  rw [← removeFrom_eq_deleteIds] at h ⊢
  have hs := removeFrom_sublist ids l 0
  exact hs.eq_of_length_le (by omega)

theorem addMeta_rep (hS : S.Lawful) {db db' : Option (Tables S)} {rows items : List (Item S)} {n}
    (h : RepO db rows) (he : addMeta db items (idRange rows.length items.length) = .ok (db', n)) :
    RepO db' (rows ++ items) := by
  unfold addMeta at he
  split at he
  · exact (update_rep hS h he).1
  · next hn =>
    cases db with
    | some t => simp at hn
    | none =>
      have : rows = [] := h
      subst this
      exact (create_rep he).1

theorem addAfter_ok {s s' : Store E T} {items ids tk out} (h : addAfter s items ids tk = (s', .ok out)) :
    ∃ db n f, addMeta s.db items ids = .ok (db, n) ∧ ftsIndex s.fts items ids tk = .ok f ∧
      s' = { s with db := db, fts := f } ∧ out = ids := by
  unfold addAfter at h
  split at h
  · cases h
  · next s1 hr =>
    cases h
    unfold addRows at hr
    rcases hm : addMeta s.db items ids with e | r
    · rw [hm] at hr; cases hr
    · rw [hm] at hr
      simp only [bind, Except.bind] at hr
      rcases hf : ftsIndex s.fts items ids tk with e | f
      · rw [hf] at hr; cases hr
      · rw [hf] at hr
        cases hr
        exact ⟨r.1, r.2, f, rfl, rfl, rfl, rfl⟩

theorem add_ok (hE : E.Lawful) {s s' : Store E T} {docs items cfg tk out} {raw : List (List E.Row)}
    (hd : DiskOk s.disk raw) (hdocs : docs ≠ []) (hb : 0 < cfg.batchSize)
    (h : s.add docs items cfg tk = (s', .ok out)) :
    items.length = docs.length ∧ out = idRange raw.length docs.length ∧ DiskOk s'.disk (raw ++ docs) ∧
    ∃ n f, addMeta s.db items (idRange raw.length items.length) = .ok (s'.db, n) ∧
      ftsIndex s.fts items (idRange raw.length items.length) tk = .ok f ∧ s'.fts = f := by
  unfold Store.add at h
  split at h
  · cases h
  · next hl =>
    have hl : items.length = docs.length := by simpa using hl
    split at h
    · cases h
    · next d ids hu =>
      obtain ⟨db, n, f, h1, h2, rfl, rfl⟩ := addAfter_ok h
      have hinv : Inv d (raw ++ docs) ∧ out = idRange raw.length docs.length := by
        rcases hd with ⟨hd, rfl⟩ | hd
        · rw [hd] at hu
          exact updateOrCreate_fresh hE noRaw_empty rfl hb hu
        · exact updateOrCreate_inv hE hd hdocs hb hu
      rw [hl, ← hinv.2]
      exact ⟨rfl, rfl, .inr hinv.1, n, f, h1, h2, rfl⟩

theorem delete_ok {s s' : Store E T} {ids n} {raw : List (List E.Row)}
    (hd : DiskOk s.disk raw) (hid : ∀ x ∈ ids, 0 ≤ x) (h : s.delete ids = (s', .ok n)) :
    ∃ d, Inv d (deleteIds ids raw) ∧ n = raw.length - (deleteIds ids raw).length ∧
      s' = deleteRows { s with disk := d } raw.length n ids := by
  unfold Store.delete at h
  split at h
  · cases h
  · next x hx =>
    rcases hd with ⟨hd, rfl⟩ | hd
    · rw [hd] at hx; cases hx
    · have hne := Idx.load_empty hd.1 x hx
      obtain ⟨y, hy, _, _, hn, _⟩ := Idx.load hd.1 hne
      rw [hx] at hy
      cases hy
      obtain ⟨d, e, h1, _⟩ := deleteFromIndex_inv hd ids hid
      rw [e] at h
      simp only at h
      rw [hn] at h
      cases h
      exact ⟨d, h1, rfl, rfl⟩

theorem deleteRows_disk (s : Store E T) (n deleted : Nat) (ids : List Int) :
    (deleteRows s n deleted ids).disk = s.disk := by
  unfold deleteRows
  split
  · rfl
  · split <;> rfl

theorem deleteRows_rep {s : Store E T} {rows : List (Item S)} (h : RepO s.db rows) (n : Nat) (ids : List Int) :
    RepO (deleteRows s n (rows.length - (deleteIds ids rows).length) ids).db (deleteIds ids rows) := by
  unfold deleteRows
  split
  · next h0 => rw [deleteIds_of_length ids rows h0]; exact h
  · next h0 =>
    have hr := (delete_rep h ids).1
    split
    · next hn =>
      rw [hn] at hr
      have e : deleteIds ids rows = [] := hr
      rw [e]
      unfold delete at hn
      split at hn
      · next hi =>
        exfalso
        subst hi
        apply h0
        rw [← removeFrom_eq_deleteIds, removeFrom_none _ _ _ (by simp)]; omega
      · split at hn
        · next hdb => rw [hdb]; rfl
        · cases hn
    · next t ht =>
      rw [ht] at hr
      exact hr

theorem change_ok {s s' : Store E T} {valid sat upd n} (h : s.change valid sat upd = (s', .ok n)) :
    ∃ t t', s.db = some t ∧ updateWhere s.db valid sat upd = .ok (some t', n) ∧
      s' = { s with db := some t', fts := ftsUpdateRows t' s.fts (affectedIds t sat upd) } := by
  unfold Store.change at h
  split at h
  · cases h
  · next t ht =>
    rw [ht]
    unfold changeAfter at h
    split at h
    · cases h
    · next n' hu =>
      exfalso
      unfold updateWhere at hu
      simp only at hu
      split at hu
      · cases hu
      · split at hu
        · cases hu
        · split at hu <;> cases hu
    · next t' n' hu =>
      cases h
      exact ⟨t, t', rfl, hu, rfl⟩

theorem together_inv (hE : E.Lawful) (hS : S.Lawful) {use good} {s : Store E T} {rows}
    (h : Together use good s rows) :
    DiskOk s.disk (rows.map (·.1)) ∧ RepO s.db (rows.map (·.2)) := by
  induction h with
  | start => exact ⟨.inl ⟨rfl, rfl⟩, rfl⟩
  | @add s rows docs items cfg tk s' ids _ hdocs hb _ _ he ih =>
    obtain ⟨ih1, ih2⟩ := ih
    obtain ⟨hl, _, h2, n, f, h3, _, _⟩ := add_ok hE ih1 hdocs hb he
    have e1 : (docs.zip items).map (·.1) = docs := List.map_fst_zip (by omega)
    have e2 : (docs.zip items).map (·.2) = items := List.map_snd_zip (by omega)
    rw [List.map_append, List.map_append, e1, e2]
    refine ⟨h2, addMeta_rep hS ih2 (n := n) ?_⟩
    rwa [List.length_map] at h3 ⊢
  | @delete s rows ids s' n _ hid he ih =>
    obtain ⟨ih1, ih2⟩ := ih
    obtain ⟨d, h1, h2, rfl⟩ := delete_ok ih1 hid he
    rw [deleteIds_map] at h1
    refine ⟨.inr ?_, ?_⟩
    · rw [deleteRows_disk]; exact h1
    · have := deleteRows_rep (s := { s with disk := d }) ih2 (rows.map (·.1)).length ids
      rw [h2, deleteIds_map]
      rw [deleteIds_map] at this
      simpa using this
  | @change s rows all valid sat upd s' n _ hg _ he ih =>
    obtain ⟨ih1, ih2⟩ := ih
    obtain ⟨t, t', _, hu, rfl⟩ := change_ok he
    obtain ⟨hr, _⟩ := updateWhere_rep ih2 hg hu
    have hlen : all.length = rows.length := by
      obtain ⟨_, out, ho, hl, _⟩ := shows_of_rep hS ih2
      rw [ho id] at hg
      cases hg
      simpa using hl
    constructor
    · have : (List.zipWith (fun r (p : List E.Row × Item S) =>
          (p.1, if sat r && !upd.isEmpty then overwrite upd p.2 else p.2)) all rows).map (·.1) = rows.map (·.1) := by
        apply List.ext_getElem
        · simp [hlen]
        · intro i h1 h2; simp
      rw [this]
      exact ih1
    · have : (List.zipWith (fun r (p : List E.Row × Item S) =>
          (p.1, if sat r && !upd.isEmpty then overwrite upd p.2 else p.2)) all rows).map (·.2) =
          List.zipWith (fun r it => if sat r && !upd.isEmpty then overwrite upd it else it) all (rows.map (·.2)) := by
        apply List.ext_getElem
        · simp
        · intro i h1 h2; simp
      rw [this]
      exact hr

end NextPlaid.Db
