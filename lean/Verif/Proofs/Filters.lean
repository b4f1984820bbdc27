import Verif.Model.Filters
import Verif.Spec.Filters
import Verif.Props.Include
import Mathlib.Data.List.Nodup

/-! Lemmas for C53. -/

namespace NextPlaid.Globs

open NextPlaid.Spec

theorem like_any (p s : List Char) : like ('%' :: p) s = s.tails.any (like p) := by cases s <;> simp [like]

theorem like_cons {c : Char} (hc : c ≠ '%') (p : List Char) (d : Char) (t : List Char) :
    like (c :: p) (d :: t) = ((decide (c = '_') || decide (c.toLower = d.toLower)) && like p t) := by simp [like, hc]

theorem like_nil {c : Char} (hc : c ≠ '%') (p : List Char) : like (c :: p) [] = false := by simp [like, hc]

theorem like_percent (s : List Char) : like ['%'] s = true := by
  rw [like_any, List.any_eq_true]
  exact ⟨[], by simp [List.mem_tails], by simp [like]⟩

/-- A path matches the pattern made of its beginning and `%`. -/
theorem like_prefix : ∀ (d rest : List Char), like (d ++ ['%']) (d ++ rest) = true
  | [], rest => like_percent rest
  | c :: d, rest => by
    simp only [List.cons_append]
    by_cases hc : c = '%'
    · rw [hc, like_any, List.any_eq_true]
      exact ⟨d ++ rest, by rw [List.mem_tails]; exact List.suffix_cons _ _, like_prefix d rest⟩
    · rw [like_cons hc]
      simp [like_prefix d rest]

/-- Without wildcards the pattern stands for the beginning, in either case. -/
theorem like_iff : ∀ (d s : List Char), '%' ∉ d → '_' ∉ d → (like (d ++ ['%']) s = true ↔ BeginsLike d s)
  | [], s, _, _ => by simp [like_percent, BeginsLike]
  | c :: d, s, h1, h2 => by
    simp only [List.cons_append, List.mem_cons, not_or] at h1 h2 ⊢
    cases s with
    | nil => simp [BeginsLike, like_nil (Ne.symm h1.1)]
    | cons e t =>
      have hc : ¬ c = '_' := Ne.symm h2.1
      have := like_iff d t h1.2 h2.2
      unfold BeginsLike at this ⊢
      rw [like_cons (Ne.symm h1.1)]
      simp only [hc, decide_false, Bool.false_or, Bool.and_eq_true, decide_eq_true_eq, this, List.map_cons, List.cons_prefix_cons]

/-- The ids are those of the rows that have the property. -/
def Exact (rows : List Row) (ids : List Int) (P : Row → Prop) : Prop :=
  (∀ i ∈ ids, ∃ row ∈ rows, row.id = i) ∧ ∀ row ∈ rows, (row.id ∈ ids ↔ P row)

/-- The same for what is known so far. -/
def Upto (rows : List Row) (s : Option (List Int)) (P : Row → Prop) : Prop := match s with
  | none => ∀ row ∈ rows, P row
  | some ids => Exact rows ids P

/-- The same for a step. -/
def After (rows : List Row) (s : Step) (P : Row → Prop) : Prop := match s with
  | none => ∀ row ∈ rows, ¬ P row
  | some s => Upto rows s P

theorem Exact.congr {rows ids} {P Q : Row → Prop} (h : Exact rows ids P) (hpq : ∀ row ∈ rows, (P row ↔ Q row)) : Exact rows ids Q :=
  ⟨h.1, fun row hr => (h.2 row hr).trans (hpq row hr)⟩

theorem exact_nil {rows} {P : Row → Prop} (h : Exact rows [] P) : ∀ row ∈ rows, ¬ P row := by
  intro row hr hp; have := (h.2 row hr).mpr hp; simp at this

/-- Ids of distinct rows. -/
theorem exact_filter {rows : List Row} (hd : (rows.map (·.id)).Nodup) {kept : List Row} (hs : kept.Sublist rows) {P : Row → Prop}
    (h : ∀ row ∈ rows, (row ∈ kept ↔ P row)) : Exact rows (kept.map (·.id)) P := by
  refine ⟨?_, ?_⟩
  · intro i hi
    obtain ⟨row, h1, rfl⟩ := List.mem_map.mp hi
    exact ⟨row, hs.subset h1, rfl⟩
  · intro row hr
    rw [← h row hr]
    constructor
    · intro hm
      obtain ⟨row', h1, h2⟩ := List.mem_map.mp hm
      have := List.inj_on_of_nodup_map hd (hs.subset h1) hr h2
      rwa [← this]
    · exact fun hm => List.mem_map.mpr ⟨row, hm, rfl⟩

theorem narrow_upto {rows s ids} {P Q : Row → Prop} (hs : Upto rows s P) (hi : Exact rows ids Q) :
    Upto rows (narrow s ids) fun row => P row ∧ Q row := by
  cases s with
  | none => exact hi.congr fun row hr => ⟨fun h => ⟨hs row hr, h⟩, fun h => h.2⟩
  | some l =>
    refine ⟨fun i h => hi.1 i (List.mem_filter.mp h).1, fun row hr => ?_⟩
    rw [List.mem_filter, decide_eq_true_eq, hi.2 row hr, hs.2 row hr]
    exact and_comm

theorem narrowBySet_upto {order : List Int → List Int} (ho : ∀ l i, i ∈ order l ↔ i ∈ l) {rows s ids} {P Q : Row → Prop}
    (hs : Upto rows s P) (hi : Exact rows ids Q) : Upto rows (narrowBySet order s ids) fun row => P row ∧ Q row := by
  cases s with
  | none =>
    refine ⟨fun i h => hi.1 i ((ho _ _).mp h), fun row hr => ?_⟩
    rw [ho, hi.2 row hr]
    exact ⟨fun h => ⟨hs row hr, h⟩, fun h => h.2⟩
  | some l =>
    refine ⟨fun i h => hs.1 i (List.mem_filter.mp h).1, fun row hr => ?_⟩
    rw [List.mem_filter, decide_eq_true_eq, hi.2 row hr, hs.2 row hr]

/-- Steps one after the other. -/
theorem After.bind {rows} {s : Step} {f : Option (List Int) → Step} {P Q : Row → Prop} (hs : After rows s P)
    (hpq : ∀ row ∈ rows, Q row → P row) (hf : ∀ t, Upto rows t P → After rows (f t) Q) : After rows (s >>= f) Q := by
  cases s with
  | none => exact fun row hr hq => hs row hr (hpq row hr hq)
  | some t => exact hf t hs

theorem after_congr {rows s} {P Q : Row → Prop} (h : After rows s P) (hpq : ∀ row ∈ rows, (P row ↔ Q row)) : After rows s Q := by
  rcases s with _ | _ | ids
  · exact fun row hr hq => h row hr ((hpq row hr).mpr hq)
  · exact fun row hr => (hpq row hr).mp (h row hr)
  · exact Exact.congr h hpq

theorem after_end {rows s} {P : Row → Prop} (h : Upto rows s P) : After rows (stepEnd s) P := by
  rcases s with _ | _ | ⟨i, ids⟩
  · exact h
  · exact exact_nil h
  · exact h

/-- The filters combined; `A`, …, `F` are what the single filters let through. -/
theorem subset_after {order : List Int → List Int} (ho : ∀ l i, i ∈ order l ↔ i ∈ l) (inSubdir : List Char → Bool) (rows : List Row)
    (rq : Request) {A B C D E F : Row → Prop}
    (hA : ∀ d, (if escapes inSubdir rq.included then none else rq.subdir) = some d → Exact rows (filterPrefix rows d) A)
    (hA' : (if escapes inSubdir rq.included then none else rq.subdir) = none → ∀ row ∈ rows, A row)
    (hB : ∀ ids, rq.text = some ids → Exact rows ids B) (hB' : rq.text = none → ∀ row ∈ rows, B row)
    (hC : rq.included ≠ [] → Exact rows (filterInclude rows rq.included) C) (hC' : rq.included = [] → ∀ row ∈ rows, C row)
    (hD : ∀ f, rq.file = some f → Exact rows (filterFiles rows [f]) D) (hD' : rq.file = none → ∀ row ∈ rows, D row)
    (hE : rq.exclude ≠ [] → Exact rows (filterExclude rows rq.exclude) E) (hE' : rq.exclude = [] → ∀ row ∈ rows, E row)
    (hF : rq.excludeDirs ≠ [] → Exact rows (filterExcludeDirs rows rq.excludeDirs) F) (hF' : rq.excludeDirs = [] → ∀ row ∈ rows, F row) :
    After rows (subset order inSubdir rows rq) fun row => A row ∧ B row ∧ C row ∧ D row ∧ E row ∧ F row := by
  unfold subset
  refine After.bind (P := A) ?_ (fun _ _ h => h.1) fun s1 h1 => ?_
  · unfold stepSubdir
    split
    · next h => exact hA' h
    · next d h =>
      split
      · next hnil => exact exact_nil (hnil ▸ hA d h)
      · exact hA d h
  refine After.bind (P := fun row => A row ∧ B row) ?_ (fun _ _ h => ⟨h.1, h.2.1⟩) fun s2 h2 => ?_
  · unfold stepText
    split
    · next h => exact after_congr (s := some s1) h1 fun row hr => ⟨fun ha => ⟨ha, hB' h row hr⟩, fun h => h.1⟩
    · next ids h =>
      split
      · next hnil => exact fun row hr hab => exact_nil (hnil ▸ hB ids h) row hr hab.2
      · exact narrow_upto h1 (hB ids h)
  refine After.bind (P := fun row => A row ∧ B row ∧ C row) ?_ (fun _ _ h => ⟨h.1, h.2.1, h.2.2.1⟩) fun s3 h3 => ?_
  · unfold stepInclude
    split
    · next h => exact after_congr (s := some s2) h2 fun row hr => ⟨fun ha => ⟨ha.1, ha.2, hC' h row hr⟩, fun h => ⟨h.1, h.2.1⟩⟩
    · next h => exact after_congr (s := some _) (narrow_upto h2 (hC h)) fun row _ => and_assoc
  refine After.bind (P := fun row => A row ∧ B row ∧ C row ∧ D row) ?_ (fun _ _ h => ⟨h.1, h.2.1, h.2.2.1, h.2.2.2.1⟩) fun s4 h4 => ?_
  · unfold stepFile
    split
    · next h =>
      exact after_congr (s := some s3) h3 fun row hr => ⟨fun ha => ⟨ha.1, ha.2.1, ha.2.2, hD' h row hr⟩, fun h => ⟨h.1, h.2.1, h.2.2.1⟩⟩
    · next f h =>
      split
      · next hnil => exact fun row hr hab => exact_nil (hnil ▸ hD f h) row hr hab.2.2.2
      · exact after_congr (s := some _) (narrow_upto h3 (hD f h)) fun row _ => by rw [and_assoc, and_assoc]
  refine After.bind (P := fun row => A row ∧ B row ∧ C row ∧ D row ∧ E row) ?_ (fun _ _ h => ⟨h.1, h.2.1, h.2.2.1, h.2.2.2.1, h.2.2.2.2.1⟩)
    fun s5 h5 => ?_
  · unfold stepExclude
    split
    · next h =>
      exact after_congr (s := some s4) h4 fun row hr =>
        ⟨fun ha => ⟨ha.1, ha.2.1, ha.2.2.1, ha.2.2.2, hE' h row hr⟩, fun h => ⟨h.1, h.2.1, h.2.2.1, h.2.2.2.1⟩⟩
    · next h =>
      exact after_congr (s := some _) (narrowBySet_upto ho h4 (hE h)) fun row _ => by rw [and_assoc, and_assoc, and_assoc]
  refine After.bind (P := fun row => A row ∧ B row ∧ C row ∧ D row ∧ E row ∧ F row) ?_ (fun _ _ h => h) fun s6 h6 => after_end h6
  unfold stepExcludeDirs
  split
  · next h =>
    exact after_congr (s := some s5) h5 fun row hr =>
      ⟨fun ha => ⟨ha.1, ha.2.1, ha.2.2.1, ha.2.2.2.1, ha.2.2.2.2, hF' h row hr⟩, fun h => ⟨h.1, h.2.1, h.2.2.1, h.2.2.2.1, h.2.2.2.2.1⟩⟩
  · next h =>
    exact after_congr (s := some _) (narrowBySet_upto ho h5 (hF h)) fun row _ => by rw [and_assoc, and_assoc, and_assoc, and_assoc]

end NextPlaid.Globs
