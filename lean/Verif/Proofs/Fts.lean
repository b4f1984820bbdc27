import Verif.Proofs.Store
import Mathlib.Data.List.Basic
import Mathlib.Data.List.Perm.Subperm
import Mathlib.Data.List.Nodup

/-! Lemmas about the keyword index. -/

namespace NextPlaid.Db
open NextPlaid NextPlaid.Index NextPlaid.Spec

variable {E : Env} {S : Sql} {T : TextEnv S}

/-- NULL columns have no text. -/
structure TextEnv.Lawful (T : TextEnv S) : Prop where
  null_parts : T.colParts S.null = []

/-- Postings and content table agree. -/
structure InStep (f : Fts T) : Prop where
  nodup : (f.content.map (·.1)).Nodup
  post : ∀ (id : Int) (w : T.Tok), (id, w) ∈ f.index ↔
    ∃ text, (id, text) ∈ f.content ∧ w ∈ T.toks f.tokenizer text

theorem textOf_iff {f : Fts T} (h : (f.content.map (·.1)).Nodup) (id : Int) (text : List T.Part) :
    f.textOf id = some text ↔ (id, text) ∈ f.content := by
  unfold Fts.textOf
  constructor
  · intro he
    cases hf : f.content.find? fun c => c.1 == id with
    | none => rw [hf] at he; cases he
    | some c =>
      rw [hf] at he
      have h1 := List.find?_some hf
      have h2 := List.mem_of_find?_eq_some hf
      simp only [beq_iff_eq] at h1
      simp only [Option.map_some, Option.some.injEq] at he
      rw [← h1, ← he]
      exact h2
  · intro hm
    cases hf : f.content.find? fun c => c.1 == id with
    | none => exact absurd (List.find?_eq_none.1 hf _ hm) (by simp)
    | some c =>
      have h1 := List.find?_some hf
      have h2 := List.mem_of_find?_eq_some hf
      simp only [beq_iff_eq] at h1
      rw [inj_of_nodup_map (·.1) _ h c h2 (id, text) hm h1]
      rfl

theorem textOf_none {f : Fts T} (id : Int) (h : f.textOf id = none) (text : List T.Part) :
    (id, text) ∉ f.content := by
  unfold Fts.textOf at h
  rw [Option.map_eq_none_iff] at h
  intro hm
  exact absurd (List.find?_eq_none.1 h _ hm) (by simp)

/-- After the old postings of a row are gone. -/
theorem unpostOld_index {f : Fts T} (h : InStep f) (id id' : Int) (w : T.Tok) :
    (id', w) ∈ (f.unpostOld id).index ↔ id' ≠ id ∧ (id', w) ∈ f.index := by
  unfold Fts.unpostOld
  cases ht : f.textOf id with
  | none =>
    simp only
    constructor
    · intro hm
      refine ⟨?_, hm⟩
      rintro rfl
      obtain ⟨text, hc, _⟩ := (h.post _ _).1 hm
      exact textOf_none _ ht text hc
    · exact fun h => h.2
  | some text =>
    simp only
    unfold Fts.unpost
    simp only [List.mem_filter]
    have hc := (textOf_iff h.nodup id text).1 ht
    constructor
    · rintro ⟨hm, hb⟩
      refine ⟨?_, hm⟩
      rintro rfl
      obtain ⟨text', hc', hw⟩ := (h.post _ _).1 hm
      have : (id', text') = (id', text) := inj_of_nodup_map (·.1) _ h.nodup _ hc' _ hc rfl
      cases this
      simp [hw] at hb
    · rintro ⟨hne, hm⟩
      refine ⟨hm, ?_⟩
      simp [hne]

theorem unpostOld_content (f : Fts T) (id : Int) : (f.unpostOld id).content = f.content := by
  unfold Fts.unpostOld
  split <;> rfl

theorem unpostOld_tokenizer (f : Fts T) (id : Int) : (f.unpostOld id).tokenizer = f.tokenizer := by
  unfold Fts.unpostOld
  split <;> rfl

theorem mem_insertRow_content (f : Fts T) (id : Int) (text indexed : List T.Part) (id' : Int) (text' : List T.Part) :
    (id', text') ∈ (f.insertRow id text indexed).content ↔
      (id' ≠ id ∧ (id', text') ∈ f.content) ∨ (id' = id ∧ text' = text) := by
  unfold Fts.insertRow
  simp only [List.mem_append, List.mem_filter, List.mem_singleton, Prod.mk.injEq, bne_iff_ne]
  constructor
  · rintro (⟨h1, h2⟩ | h)
    · exact .inl ⟨h2, h1⟩
    · exact .inr h
  · rintro (⟨h1, h2⟩ | h)
    · exact .inl ⟨h2, h1⟩
    · exact .inr h

theorem insertRow_nodup {f : Fts T} (h : (f.content.map (·.1)).Nodup) (id : Int) (text indexed : List T.Part) :
    ((f.insertRow id text indexed).content.map (·.1)).Nodup := by
  unfold Fts.insertRow
  simp only [List.map_append, List.map_cons, List.map_nil]
  rw [List.nodup_append]
  refine ⟨h.sublist (List.filter_sublist.map _), by simp, ?_⟩
  intro a ha b hb
  simp only [List.mem_cons, List.not_mem_nil, or_false] at hb
  subst hb
  obtain ⟨c, hc, rfl⟩ := List.mem_map.1 ha
  have := (List.mem_filter.1 hc).2
  simpa using this

/-- Replacing the row `id` after its old postings have been removed. -/
theorem insertRow_inStep {f : Fts T} (hn : (f.content.map (·.1)).Nodup) (id : Int) (text : List T.Part)
    (h : ∀ (id' : Int) (w : T.Tok), (id', w) ∈ f.index ↔
      id' ≠ id ∧ ∃ text, (id', text) ∈ f.content ∧ w ∈ T.toks f.tokenizer text) :
    InStep (f.insertRow id text text) := by
  refine ⟨insertRow_nodup hn id text text, ?_⟩
  intro id' w
  have e : (id', w) ∈ (f.insertRow id text text).index ↔
      (id', w) ∈ f.index ∨ (id' = id ∧ w ∈ T.toks f.tokenizer text) := by
    unfold Fts.insertRow
    simp only [List.mem_append, List.mem_map, Prod.mk.injEq]
    constructor
    · rintro (h | ⟨w', hw, rfl, rfl⟩)
      · exact .inl h
      · exact .inr ⟨rfl, hw⟩
    · rintro (h | ⟨rfl, hw⟩)
      · exact .inl h
      · exact .inr ⟨w, hw, rfl, rfl⟩
  rw [e, h]
  show _ ↔ ∃ text', _ ∧ w ∈ T.toks f.tokenizer text'
  constructor
  · rintro (⟨hne, text', hc, hw⟩ | ⟨rfl, hw⟩)
    · exact ⟨text', (mem_insertRow_content _ _ _ _ _ _).2 (.inl ⟨hne, hc⟩), hw⟩
    · exact ⟨text, (mem_insertRow_content _ _ _ _ _ _).2 (.inr ⟨rfl, rfl⟩), hw⟩
  · rintro ⟨text', hc, hw⟩
    rcases (mem_insertRow_content _ _ _ _ _ _).1 hc with ⟨hne, hc⟩ | ⟨rfl, rfl⟩
    · exact .inl ⟨hne, text', hc, hw⟩
    · exact .inr ⟨rfl, hw⟩

/-! ### Deletion of single rows -/

theorem deleteRow_content (f : Fts T) (id : Int) :
    (f.deleteRow id).content = f.content.filter fun c => c.1 != id := by
  unfold Fts.deleteRow
  cases ht : f.textOf id with
  | some text => rfl
  | none =>
    simp only
    symm
    rw [List.filter_eq_self]
    intro c hc
    rw [bne_iff_ne]
    rintro rfl
    exact textOf_none _ ht c.2 hc

theorem deleteRow_index (f : Fts T) (id : Int) : (f.deleteRow id).index = (f.unpostOld id).index := by
  unfold Fts.deleteRow Fts.unpostOld
  split <;> rfl

theorem deleteRow_tokenizer (f : Fts T) (id : Int) : (f.deleteRow id).tokenizer = f.tokenizer := by
  unfold Fts.deleteRow
  split <;> rfl

theorem deleteRow_inStep {f : Fts T} (h : InStep f) (id : Int) : InStep (f.deleteRow id) := by
  refine ⟨?_, ?_⟩
  · rw [deleteRow_content]
    exact h.nodup.sublist (List.filter_sublist.map _)
  · intro id' w
    rw [deleteRow_index, unpostOld_index h, deleteRow_content, deleteRow_tokenizer, h.post]
    constructor
    · rintro ⟨hne, text, hc, hw⟩
      exact ⟨text, List.mem_filter.2 ⟨hc, by simpa using hne⟩, hw⟩
    · rintro ⟨text, hc, hw⟩
      obtain ⟨hc, hne⟩ := List.mem_filter.1 hc
      exact ⟨by simpa using hne, text, hc, hw⟩

theorem deleteRows_inStep : ∀ (ids : List Int) {f : Fts T}, InStep f →
    InStep (ids.foldl Fts.deleteRow f) ∧ (ids.foldl Fts.deleteRow f).tokenizer = f.tokenizer ∧
      ∀ c, c ∈ (ids.foldl Fts.deleteRow f).content ↔ c ∈ f.content ∧ c.1 ∉ ids
  | [], f, h => ⟨h, rfl, by simp⟩
  | id :: ids, f, h => by
    obtain ⟨h1, h2, h3⟩ := deleteRows_inStep ids (deleteRow_inStep h id)
    refine ⟨h1, h2.trans (deleteRow_tokenizer f id), ?_⟩
    intro c
    rw [List.foldl_cons, h3, deleteRow_content, List.mem_filter, bne_iff_ne, List.mem_cons, not_or, and_assoc]

/-! ### Text read back from the tables -/

/-- Column names are distinct, over both tables. -/
structure ColsOk (t : Tables S) : Prop where
  nodup : (t.thinCols.map (·.1) ++ t.fatCols.map (·.1)).Nodup
  thin : ∀ c ∈ t.thinCols, isThin c.1 = true
  fat : ∀ c ∈ t.fatCols, isThin c.1 = false

theorem zip_flatMap_snd {ι β : Type} (cols : List (String × ι)) (f : String × ι → S.V) (g : S.V → List β) :
    ((cols.map (·.1)).zip (cols.map f)).flatMap (fun c => g c.2) = cols.flatMap fun c => g (f c) := by
  induction cols with
  | nil => rfl
  | cons c cols ih => rw [List.map_cons, List.map_cons, List.zip_cons_cons, List.flatMap_cons, ih, List.flatMap_cons]

theorem outRow_text (t : Tables S) (b : Int) (it : Item S) :
    (outRow t b it).text T =
      (t.thinCols ++ t.fatCols).flatMap fun c => T.colParts (S.cell c.2 (it.value c.1)) := by
  unfold OutRow.text outRow rowVals
  simp only
  rw [List.flatMap_append, zip_flatMap_snd, zip_flatMap_snd, List.flatMap_append]

/-- Parts of the value under a key. -/
def keyParts (T : TextEnv S) (obj : List (String × S.V)) (c : String) : List T.Part :=
  match obj.find? fun p => p.1 == c with
  | some p => T.parts p.2
  | none => []

theorem keyParts_mem (obj : List (String × S.V)) (h : (obj.map (·.1)).Nodup) :
    (obj.map (·.1)).flatMap (keyParts T obj) = obj.flatMap fun p => T.parts p.2 := by
  rw [List.flatMap_map]
  have : ∀ (l : List (String × S.V)), (∀ p ∈ l, p ∈ obj) →
      l.flatMap (fun p => keyParts T obj p.1) = l.flatMap fun p => T.parts p.2 := by
    intro l
    induction l with
    | nil => intro _; rfl
    | cons p l ih =>
      intro hl
      rw [List.flatMap_cons, List.flatMap_cons, ih (fun q hq => hl q (List.mem_cons_of_mem _ hq))]
      congr 1
      unfold keyParts
      cases hf : obj.find? fun q => q.1 == p.1 with
      | none => exact absurd (List.find?_eq_none.1 hf p (hl p (by simp))) (by simp)
      | some q =>
        have h1 := List.find?_some hf
        have h2 := List.mem_of_find?_eq_some hf
        simp only [beq_iff_eq] at h1
        have : q = p := List.inj_on_of_nodup_map h h2 (hl p (by simp)) h1
        rw [this]
  exact this obj (fun p hp => hp)

theorem outRow_text_perm (hT : T.Lawful) (hS : S.Lawful) {t : Tables S} (hc : ColsOk t) (b : Int) {it : Item S}
    (hk : ∀ k ∈ keysOf it, k ∈ t.thinCols.map (·.1) ++ t.fatCols.map (·.1)) (hp : PlainRow T it) :
    ((outRow t b it).text T).Perm (itemParts T it) := by
  rw [outRow_text]
  have e : (t.thinCols ++ t.fatCols).flatMap (fun c => T.colParts (S.cell c.2 (it.value c.1))) =
      ((t.thinCols ++ t.fatCols).map (·.1)).flatMap (keyParts T (it.getD [])) := by
    rw [List.flatMap_map]
    congr 1
    funext c
    unfold keyParts Item.value
    cases it with
    | none => simp only [Option.getD_none, List.find?_nil, hS.cell_null, hT.null_parts]
    | some obj =>
      simp only [Option.getD_some]
      cases hf : obj.find? fun p => p.1 == c.1 with
      | none => simp only [Option.map_none, Option.getD_none, hS.cell_null, hT.null_parts]
      | some p =>
        simp only [Option.map_some, Option.getD_some]
        exact hp.2 p (List.mem_of_find?_eq_some hf) c.2
  rw [e]
  have hnd := hc.nodup
  rw [← List.map_append] at hnd hk
  generalize hnames : (t.thinCols ++ t.fatCols).map (·.1) = names at *
  have hsplit := (List.filter_append_perm (fun c => decide (c ∈ keysOf it)) names).symm
  refine (hsplit.flatMap_right _).trans ?_
  rw [List.flatMap_append]
  have h2 : (names.filter fun c => !decide (c ∈ keysOf it)).flatMap (keyParts T (it.getD [])) = [] := by
    rw [List.flatMap_eq_nil_iff]
    intro c hc
    have hc := (List.mem_filter.1 hc).2
    simp only [Bool.not_eq_true', decide_eq_false_iff_not] at hc
    unfold keyParts
    cases hf : (it.getD []).find? fun p => p.1 == c with
    | none => rfl
    | some p =>
      exfalso
      have h1 := List.find?_some hf
      have h2 := List.mem_of_find?_eq_some hf
      simp only [beq_iff_eq] at h1
      exact hc (List.mem_map.2 ⟨p, h2, h1⟩)
  rw [h2, List.append_nil]
  have h1 : (names.filter fun c => decide (c ∈ keysOf it)).Perm (keysOf it) := by
    have hp1 : (keysOf it).Nodup := hp.1
    rw [List.perm_ext_iff_of_nodup (hnd.filter _) hp1]
    intro c
    rw [List.mem_filter, decide_eq_true_eq]
    exact ⟨fun h => h.2, fun h => ⟨hk c h, h⟩⟩
  refine (h1.flatMap_right _).trans ?_
  unfold keysOf itemParts
  rw [keyParts_mem _ hp.1]

end NextPlaid.Db
