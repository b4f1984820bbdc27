import Verif.Model.Basic

namespace NextPlaid
namespace Score
variable {α : Type _} [LinearOrder α]

/-- `a` is at least as good as `b` in the code's comparison. -/
def ge (a b : Score α) : Prop := cmpForMax a b ≠ .lt

theorem cmpLin_lt {a b : α} : cmpLin a b = .lt ↔ a < b := by
  unfold cmpLin
  split
  · simpa
  · split <;> simp_all

theorem cmpLin_gt {a b : α} : cmpLin a b = .gt ↔ b < a := by
  unfold cmpLin
  split
  · rename_i h
    simp only [reduceCtorEq, false_iff]
    exact lt_asymm h
  · split <;> simp_all

theorem cmpLin_eq {a b : α} : cmpLin a b = .eq ↔ a = b := by
  unfold cmpLin
  split
  · rename_i h
    simp only [reduceCtorEq, false_iff]
    exact ne_of_lt h
  · split
    · rename_i h
      simp only [reduceCtorEq, false_iff]
      exact fun e => (ne_of_lt h) e.symm
    · rename_i h1 h2
      simp only [true_iff]
      exact le_antisymm (not_lt.1 h2) (not_lt.1 h1)

@[simp] theorem ge_fin {a b : α} : ge (fin a) (fin b) ↔ b ≤ a := by
  simp [ge, cmpForMax, cmpLin_lt]
@[simp] theorem ge_fin_nonfin {a : α} {t : Nat} : ge (fin a) (nonfin t) := by
  simp [ge, cmpForMax]
@[simp] theorem not_ge_nonfin_fin {a : α} {t : Nat} : ¬ ge (nonfin t) (fin a) := by
  simp [ge, cmpForMax]
@[simp] theorem ge_nonfin {t u : Nat} : ge (nonfin t : Score α) (nonfin u) := by
  simp [ge, cmpForMax]

theorem ge_refl (a : Score α) : ge a a := by cases a <;> simp

theorem ge_trans {a b c : Score α} (h1 : ge a b) (h2 : ge b c) : ge a c := by
  cases a <;> cases b <;> cases c <;> simp_all
  exact le_trans h2 h1

theorem cmp_gt_ge {a b : Score α} (h : cmpForMax a b = .gt) : ge a b := by
  simp [ge, h]

theorem not_gt_ge {a b : Score α} (h : cmpForMax a b ≠ .gt) : ge b a := by
  cases a <;> cases b <;> simp_all [cmpForMax, cmpLin_gt]

theorem gt_iff {a b : Score α} : cmpForMax a b = .gt ↔ ¬ ge b a := by
  cases a <;> cases b <;> simp [cmpForMax, cmpLin_gt]

end Score

/-- `maxBy` with a comparison whose "not less" relation is reflexive and transitive returns a member
that is not beaten by anything. -/
theorem maxBy_spec {β : Type _} (cmp : β → β → Ordering) (ge : β → β → Prop)
    (hrefl : ∀ a, ge a a) (htrans : ∀ a b c, ge a b → ge b c → ge a c)
    (hgt : ∀ a b, cmp a b = .gt → ge a b) (hngt : ∀ a b, cmp a b ≠ .gt → ge b a)
    (l : List β) (m : β) (h : maxBy cmp l = some m) : m ∈ l ∧ ∀ x ∈ l, ge m x := by
  cases l with
  | nil => simp [maxBy] at h
  | cons x xs =>
    simp only [maxBy, Option.some.injEq] at h
    have key : ∀ (xs : List β) (x : β), ∀ m,
        xs.foldl (fun acc y => match cmp acc y with | .gt => acc | _ => y) x = m →
        (m = x ∨ m ∈ xs) ∧ ge m x ∧ ∀ y ∈ xs, ge m y := by
      intro xs
      induction xs with
      | nil => intro x m h; subst h; exact ⟨Or.inl rfl, hrefl _, by simp⟩
      | cons y ys ih =>
        intro x m h
        rw [List.foldl_cons] at h
        by_cases hc : cmp x y = .gt
        · rw [hc] at h
          obtain ⟨h1, h2, h3⟩ := ih x m h
          refine ⟨by rcases h1 with h1 | h1 <;> simp [h1], h2, ?_⟩
          intro z hz
          rcases List.mem_cons.1 hz with rfl | hz
          · exact htrans _ _ _ h2 (hgt _ _ hc)
          · exact h3 z hz
        · have hm : (match cmp x y with | .gt => x | _ => y) = y := by
            cases hcc : cmp x y <;> simp_all
          rw [hm] at h
          obtain ⟨h1, h2, h3⟩ := ih y m h
          refine ⟨by rcases h1 with h1 | h1 <;> simp [h1], htrans _ _ _ h2 (hngt _ _ hc), ?_⟩
          intro z hz
          rcases List.mem_cons.1 hz with rfl | hz
          · exact h2
          · exact h3 z hz
    obtain ⟨h1, h2, h3⟩ := key xs x m h
    refine ⟨by rcases h1 with h1 | h1 <;> simp [h1], ?_⟩
    intro z hz
    rcases List.mem_cons.1 hz with rfl | hz
    · exact h2
    · exact h3 z hz

theorem maxBy_isSome {β : Type _} (cmp : β → β → Ordering) {l : List β} (h : l ≠ []) :
    ∃ m, maxBy cmp l = some m := by
  cases l with
  | nil => exact absurd rfl h
  | cons x xs => exact ⟨_, rfl⟩

end NextPlaid
