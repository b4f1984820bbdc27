import Verif.Proofs.Distinct
import Verif.Props.Db

/-!
Property theorems C109 (the distinct values of a metadata column).

`Spec.Kept db rows`: the database results from any sequence of metadata calls (creation, appending,
deleting, conditional changes).  `Spec.ColumnHas`, `Spec.ColumnOther`: what the full listing shows in the
column.  `order` is the order in which SQLite happens to return the values.
-/

namespace NextPlaid.Props
open NextPlaid NextPlaid.Index NextPlaid.Spec NextPlaid.Db

variable {S : Sql}

/-! ### A concrete instance -/

/-- Integers as values, 0 is NULL; odd numbers below 100 are texts. -/
@[reducible] def ToyTexts : Texts ToySql where
  str := fun v => if v = 1 then some "x" else if v = 3 then some "y" else if v = 5 then some "z" else none
  same := fun v w => decide (v = w)
  int := fun i => if i = 0 then 1000 else if 0 < i then 1000 + i else i - 1000

theorem Toy.texts_lawful : TextsLawful ToyTexts where
  null := rfl
  int_null := by
    intro i
    show ((if i = 0 then 1000 else if 0 < i then 1000 + i else i - 1000 : Int) == 0) = false
    rw [beq_eq_false_iff_ne]
    split <;> [skip; split] <;> omega
  int_text := by
    intro i
    have h : ∀ v : Int, v ≠ 1 → v ≠ 3 → v ≠ 5 → ToyTexts.str v = none := by
      intro v h1 h3 h5
      show (if v = 1 then some "x" else if v = 3 then some "y" else if v = 5 then some "z" else none) = none
      rw [if_neg h1, if_neg h3, if_neg h5]
    have e : ToyTexts.int i = if i = 0 then 1000 else if 0 < i then 1000 + i else i - 1000 := rfl
    apply h <;> rw [e] <;> split <;> [skip; split; skip; split; skip; split] <;> omega
  same_refl := by intro v; simp
  same_text := by
    intro v w s h
    simp only [decide_eq_true_eq]
    constructor
    · rintro rfl; exact h
    · intro h2
      simp only at h h2
      split at h
      · cases h
        split at h2
        · omega
        · split at h2
          · simp at h2
          · split at h2 <;> simp at h2
      · split at h
        · cases h
          split at h2
          · simp at h2
          · split at h2
            · omega
            · split at h2 <;> simp at h2
        · split at h
          · cases h
            split at h2
            · simp at h2
            · split at h2
              · simp at h2
              · split at h2
                · omega
                · simp at h2
          · cases h
  same_other := by
    intro v w h hs
    simp only [decide_eq_true_eq] at hs
    subst hs
    exact h

/-! ### C109 -/

/-- C109: after any history, a successful enumeration lists every text that the full listing shows in the
column, once, and nothing else; in particular no value of a deleted document that no remaining one has.
This holds in whatever order SQLite returns the values, and for a column the store has never seen. -/
theorem C109_exact (hS : S.Lawful) {Q : Texts S} (hQ : TextsLawful Q) {db : Option (Tables S)} {rows : List (Item S)}
    (h : Kept db rows) (order : List S.V → List S.V) (ho : ∀ l, (order l).Perm l) (col : String)
    (hc : col ≠ "_subset_") {out : List String} (hd : distinctStrings Q order db col = .ok out) :
    ∃ all, get id db none none = .ok all ∧ all.length = rows.length ∧ out.Nodup ∧
      ∀ s, s ∈ out ↔ ColumnHas Q all col s := by
  cases db with
  | none =>
    cases hd
    have hr : rows = [] := kept_rep hS h
    subst hr
    exact ⟨[], rfl, rfl, List.nodup_nil, fun s => ⟨fun h => absurd h List.not_mem_nil, fun ⟨r, hr, _⟩ => absurd hr List.not_mem_nil⟩⟩
  | some t =>
    have hv : validName col = true := by
      cases hv : validName col with
      | true => rfl
      | false => unfold distinctStrings at hd; simp only [hv, Bool.not_false, if_true] at hd; cases hd
    obtain ⟨all, h1, h2, h3 | ⟨_, out', h3, h4, h5⟩⟩ := distinct_cases hS hQ h order ho col hv hc
    · rw [h3.2] at hd; cases hd
    · rw [h3] at hd
      cases hd
      exact ⟨all, h1 id, h2, h4, h5⟩

/-- C109, when it fails: on an existing store and for a name that is a plain identifier, the enumeration fails
exactly when some document has a value in the column that is neither absent nor text. -/
theorem C109_fails_iff (hS : S.Lawful) {Q : Texts S} (hQ : TextsLawful Q) {t : Tables S} {rows : List (Item S)}
    (h : Kept (some t) rows) (order : List S.V → List S.V) (ho : ∀ l, (order l).Perm l) (col : String)
    (hv : validName col = true) (hc : col ≠ "_subset_") :
    ∃ all, get id (some t) none none = .ok all ∧
      (distinctStrings Q order (some t) col = .error .err ↔ ColumnOther Q all col) := by
  obtain ⟨all, h1, _, h3 | ⟨hn, out', h3, _⟩⟩ := distinct_cases hS hQ h order ho col hv hc
  · exact ⟨all, h1 id, ⟨fun _ => h3.1, fun _ => h3.2⟩⟩
  · refine ⟨all, h1 id, ⟨fun he => ?_, fun h => absurd h hn⟩⟩
    rw [h3] at he; cases he

/-- C109: names are never interpreted as SQL: on an existing store a name that is not a plain identifier
is refused, and a column the store does not have gives no values. -/
theorem C109_names (Q : Texts S) (order : List S.V → List S.V) (t : Tables S) (col : String) :
    (validName col = false → distinctStrings Q order (some t) col = .error .err) ∧
    (validName col = true → col ≠ "_subset_" → col ∉ t.thinCols.map (·.1) → col ∉ t.fatCols.map (·.1) →
      distinctStrings Q order (some t) col = .ok []) := by
  constructor
  · intro h
    unfold distinctStrings
    simp [h]
  · intro h h1 h2 h3
    unfold distinctStrings
    have : (schema t).contains col = false := by
      rw [Bool.eq_false_iff]
      intro hm
      have hm : col ∈ schema t := by simpa using hm
      unfold schema at hm
      rcases List.mem_cons.1 hm with hm | hm
      · exact h1 hm
      · rcases List.mem_append.1 hm with hm | hm
        · exact h2 hm
        · exact h3 hm
    simp only [h, this, Bool.not_true, Bool.not_false, Bool.false_eq_true, if_false, if_true]

/-- C109: the document ids are numbers: asking for them fails as soon as there is a document, and gives
nothing on a store that has become empty. -/
theorem C109_ids (hS : S.Lawful) {Q : Texts S} (hQ : TextsLawful Q) {t : Tables S} {rows : List (Item S)}
    (h : Kept (some t) rows) (order : List S.V → List S.V) (ho : ∀ l, (order l).Perm l) :
    distinctStrings Q order (some t) "_subset_" = if rows = [] then .ok [] else .error .err := by
  obtain ⟨P, hP, rfl⟩ := kept_rep hS h
  have e : distinctStrings Q order (some t) "_subset_" =
      readTexts Q (order (dedupBy Q.same ((t.thin.map fun r => Q.int r.subset).filter fun v => !S.isNull v))) := by
    unfold distinctStrings selectColumn
    have h1 : validName "_subset_" = true := by decide +kernel
    have h2 : isThin "_subset_" = true := by decide +kernel
    have h3 : (schema t).contains "_subset_" = true := by simp [schema]
    simp only [h1, h2, h3, Bool.not_true, Bool.false_eq_true, if_false, if_true]
  rw [e]
  rcases readColumn hQ order ho (t.thin.map fun r => Q.int r.subset) with ⟨⟨v, hv, _⟩, h2⟩ | ⟨h1, out, h2, _, h4⟩
  · rw [h2, if_neg]
    intro hnil
    rw [hP.thin] at hv
    cases P with
    | nil => cases hv
    | cons p P => cases hnil
  · rw [h2]
    have hnil : t.thin = [] := by
      cases ht : t.thin with
      | nil => rfl
      | cons r l =>
        refine absurd ⟨Q.int r.subset, ?_, hQ.int_null _, hQ.int_text _⟩ h1
        rw [ht]; exact List.mem_cons_self
    have hP0 : P = [] := by
      have := hP.thin
      rw [hnil] at this
      cases P with
      | nil => rfl
      | cons p P => cases this
    subst hP0
    rw [if_pos (show List.map (fun x : Int × Item S => x.2) [] = [] from rfl)]
    congr 1
    rw [List.eq_nil_iff_forall_not_mem]
    intro s hs
    obtain ⟨v, hv, _⟩ := (h4 s).1 hs
    rw [hnil] at hv
    cases hv

/-- Disagreement with "an invalid column name is an error": without a store every name is accepted and
gives no values. -/
theorem C109_no_store (Q : Texts S) (order : List S.V → List S.V) (col : String) :
    distinctStrings Q order none col = .ok [] := rfl

/-- What a call returned, in a form that can be compared. -/
def Toy.texts (r : Res (List String)) : Option (List String) :=
  match r with
  | .ok l => some l
  | .error _ => none

/-- Disagreement with "returns the distinct string values of the column": one document with a number in
the column makes the whole call fail, although other documents have strings there and the listing
works. -/
theorem C109_mixed_refuted : ∃ (db : Option (Tables ToySql)) (rows : List (Item ToySql)), Kept db rows ∧
    toyRows (get id db none none) = some [(0, [("a", 1)]), (1, [("a", 8)])] ∧
    Toy.texts (distinctStrings ToyTexts id db "a") = none := by
  refine ⟨_, _, .create (S := ToySql) (items := [some [("a", 1)], some [("a", 8)]]) (okVal_eq _ (by decide +kernel)), ?_, ?_⟩ <;>
  decide +kernel

/-- A history with a thin and a content column, a column added late, and deleted documents: the value `z`
of the deleted document is gone, repeated values are listed once. -/
example : ∃ (db : Option (Tables ToySql)) (rows : List (Item ToySql)), Kept db rows ∧ rows.length = 4 ∧
    Toy.texts (distinctStrings ToyTexts id db "file") = some ["y", "x"] ∧
    Toy.texts (distinctStrings ToyTexts List.reverse db "a") = some ["y", "x"] ∧
    Toy.texts (distinctStrings ToyTexts id db "late") = some ["z"] ∧
    Toy.texts (distinctStrings ToyTexts id db "none") = some [] ∧
    Toy.texts (distinctStrings ToyTexts id db "a\" --") = none ∧
    Toy.texts (distinctStrings ToyTexts id db "_subset_") = none := by
  refine ⟨_, _, .delete [0] (.update (S := ToySql) (items := [some [("late", 5), ("a", 3), ("file", 1)], none])
      (.create (S := ToySql) (items := [some [("a", 5), ("file", 5)], some [("a", 1), ("file", 3)], some [("a", 1), ("file", 3)]])
        (okVal_eq _ (by decide +kernel))) (okVal_eq _ (by decide +kernel))), ?_, ?_, ?_, ?_, ?_, ?_, ?_⟩ <;>
  decide +kernel

end NextPlaid.Props
