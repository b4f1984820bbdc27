import Verif.Model.Db
import Verif.Proofs.Index2

/-! Lemmas about the metadata tables: renumbering. -/

namespace NextPlaid.Db
open NextPlaid NextPlaid.Index

variable {S : Sql}

/-- One range update on an id. -/
def shiftVal (u : Int × Int × Int) (x : Int) : Int := if u.1 ≤ x ∧ x < u.2.1 then x - u.2.2 else x

theorem shiftVal_out {u : Int × Int × Int} {x : Int} (h : ¬ (u.1 ≤ x ∧ x < u.2.1)) : shiftVal u x = x := if_neg h

theorem shiftVal_in {u : Int × Int × Int} {x : Int} (h : u.1 ≤ x ∧ x < u.2.1) : shiftVal u x = x - u.2.2 := if_pos h

theorem runEnd_spec : ∀ (l : List Int) (a : Int), (a :: l).Pairwise (· < ·) →
    (runEnd a l).1 = a + (runEnd a l).2.1 ∧
    l = (List.range (runEnd a l).2.1).map (fun i : Nat => a + 1 + (i : Int)) ++ (runEnd a l).2.2 ∧
    (∀ b ∈ (runEnd a l).2.2, (runEnd a l).1 + 1 < b)
  | [], a, _ => by simp [runEnd]
  | b :: l, a, h => by
    rw [runEnd]
    split
    · next hb =>
      subst hb
      obtain ⟨h1, h2, h3⟩ := runEnd_spec l (a + 1) (List.pairwise_cons.1 h).2
      refine ⟨by simp only; rw [h1]; push_cast; omega, ?_, h3⟩
      simp only
      rw [List.range_succ_eq_map, List.map_cons, List.map_map, List.cons_append]
      congr 1
      · omega
      · refine h2.trans ?_
        congr 1
        apply List.map_congr_left
        intro i _
        simp only [Function.comp]; push_cast; omega
    · next hb =>
      refine ⟨by simp, by simp, ?_⟩
      intro c hc
      have h1 := List.pairwise_cons.1 h
      have hab := h1.1 b (by simp)
      rcases List.mem_cons.1 hc with rfl | hc
      · simp only; omega
      · have := (List.pairwise_cons.1 h1.2).1 c hc
        simp only; omega

theorem runEnd_rest_length (l : List Int) (a : Int) (h : (a :: l).Pairwise (· < ·)) :
    (runEnd a l).2.2.length ≤ l.length := by
  have := (runEnd_spec l a h).2.1
  have h2 := congrArg List.length this
  rw [List.length_append] at h2
  omega

theorem runEnd_rest_pairwise (l : List Int) (a : Int) (h : (a :: l).Pairwise (· < ·)) :
    (runEnd a l).2.2.Pairwise (· < ·) := by
  have h2 := (List.pairwise_cons.1 h).2
  rw [(runEnd_spec l a h).2.1] at h2
  exact (List.pairwise_append.1 h2).2.1

/-- Ids below the first deleted one are not touched. -/
theorem shifts_below (limit : Int) : ∀ (fuel done : Nat) (sorted : List Int) (x : Int),
    sorted.Pairwise (· < ·) → (∀ a ∈ sorted, x < a) →
    (shifts limit fuel done sorted).foldl (fun x u => shiftVal u x) x = x
  | 0, _, _, _, _, _ => rfl
  | _ + 1, _, [], _, _, _ => rfl
  | fuel + 1, done, a :: l, x, hs, hx => by
    obtain ⟨h1, h2, h3⟩ := runEnd_spec l a hs
    have ha := hx a (by simp)
    have hrest := shifts_below limit fuel (done + (runEnd a l).2.1 + 1) (runEnd a l).2.2 x
      (runEnd_rest_pairwise l a hs) (by
        intro b hb
        have := h3 b hb
        omega)
    rw [shifts, List.foldl_append]
    have : ((if (runEnd a l).1 + 1 < gapEnd limit (runEnd a l).2.2 then
        [((runEnd a l).1 + 1, gapEnd limit (runEnd a l).2.2,
          ((done + (runEnd a l).2.1 + 1 : Nat) : Int))] else []).foldl (fun x u => shiftVal u x) x) = x := by
      split
      · rw [List.foldl_cons, List.foldl_nil, shiftVal_out]
        simp only
        omega
      · rfl
    rw [this, hrest]

/-- A surviving id above the first deleted one moves down by the number of deleted ids below it. -/
theorem shifts_above (limit : Int) : ∀ (fuel done : Nat) (sorted : List Int) (x : Int),
    sorted.length ≤ fuel → sorted.Pairwise (· < ·) → x ∉ sorted → x < limit →
    (∃ a ∈ sorted, a < x) →
    (shifts limit fuel done sorted).foldl (fun x u => shiftVal u x) x =
      x - ((done + shiftOf sorted x : Nat) : Int)
  | 0, _, sorted, _, hf, _, _, _, ⟨a, ha, _⟩ => by
    have : sorted = [] := List.length_eq_zero_iff.1 (by omega)
    subst this; simp at ha
  | _ + 1, _, [], _, _, _, _, _, ⟨a, ha, _⟩ => by simp at ha
  | fuel + 1, done, a :: l, x, hf, hs, hx, hlim, ⟨a', ha', hlt⟩ => by
    obtain ⟨h1, h2, h3⟩ := runEnd_spec l a hs
    have hrl := runEnd_rest_length l a hs
    have hrp := runEnd_rest_pairwise l a hs
    generalize hlast : (runEnd a l).1 = last at *
    generalize hk : (runEnd a l).2.1 = k at *
    generalize hrest : (runEnd a l).2.2 = rest at *
    have hax : a < x := by
      rcases List.mem_cons.1 ha' with rfl | h
      · exact hlt
      · have := (List.pairwise_cons.1 hs).1 a' h; omega
    -- `x` lies beyond the run
    have hxl : last < x := by
      by_contra hcon
      apply hx
      have : ∃ i : Nat, i < k ∧ x = a + 1 + (i : Int) := by
        refine ⟨(x - a - 1).toNat, ?_, ?_⟩
        · have : ((x - a - 1).toNat : Int) = x - a - 1 := Int.toNat_of_nonneg (by omega)
          omega
        · have : ((x - a - 1).toNat : Int) = x - a - 1 := Int.toNat_of_nonneg (by omega)
          omega
      obtain ⟨i, hi, hxi⟩ := this
      rw [h2]
      refine List.mem_cons_of_mem _ (List.mem_append.2 (.inl (List.mem_map.2 ⟨i, List.mem_range.2 hi, hxi.symm⟩)))
    have hcount : shiftOf (a :: l) x = k + 1 + shiftOf rest x := by
      unfold shiftOf
      rw [h2, List.filter_cons, if_pos (by simpa using hax), List.filter_append, List.length_cons,
        List.length_append]
      have : ((List.range k).map (fun i : Nat => a + 1 + (i : Int))).filter (fun y => decide (y < x)) =
          (List.range k).map (fun i : Nat => a + 1 + (i : Int)) := by
        rw [List.filter_eq_self]
        intro y hy
        obtain ⟨i, hi, rfl⟩ := List.mem_map.1 hy
        have := List.mem_range.1 hi
        simp only [decide_eq_true_eq]
        omega
      rw [this, List.length_map, List.length_range]
      omega
    have hrx : x ∉ rest := fun h => hx (by rw [h2]; exact List.mem_cons_of_mem _ (List.mem_append.2 (.inr h)))
    rw [shifts]
    simp only [hlast, hk, hrest]
    rw [List.foldl_append, hcount]
    cases rest with
    | nil =>
      rw [if_pos (by simp only [gapEnd]; omega)]
      rw [List.foldl_cons, List.foldl_nil, shiftVal_in (by simp only [gapEnd]; omega)]
      simp only
      have : shifts limit fuel (done + k + 1) [] = [] := by cases fuel <;> rfl
      rw [this]
      simp only [List.foldl_nil, shiftOf, List.filter_nil, List.length_nil]
      omega
    | cons b rest =>
      have hb := h3 b (by simp)
      rw [if_pos (by simp only [gapEnd]; omega)]
      rw [List.foldl_cons, List.foldl_nil]
      by_cases hxb : x < b
      · rw [shiftVal_in (by simp only [gapEnd]; omega)]
        simp only
        rw [shifts_below limit fuel _ (b :: rest) _ hrp (by
          intro c hc
          rcases List.mem_cons.1 hc with rfl | hc
          · omega
          · have := (List.pairwise_cons.1 hrp).1 c hc; omega)]
        have : shiftOf (b :: rest) x = 0 := by
          unfold shiftOf
          rw [List.length_eq_zero_iff, List.filter_eq_nil_iff]
          intro c hc
          simp only [decide_eq_true_eq]
          rcases List.mem_cons.1 hc with rfl | hc
          · omega
          · have := (List.pairwise_cons.1 hrp).1 c hc; omega
        rw [this]
        omega
      · have hxb' : b < x := by
          have : x ≠ b := fun h => hrx (by rw [h]; simp)
          omega
        rw [shiftVal_out (by simp only [gapEnd]; omega)]
        rw [shifts_above limit fuel (done + k + 1) (b :: rest) x (by simp only [List.length_cons] at hf hrl ⊢; omega) hrp hrx hlim
          ⟨b, by simp, hxb'⟩]
        omega

/-- All ids: the range updates subtract the number of deleted ids below. -/
theorem shifts_eq (limit : Int) (sorted : List Int) (x : Int) (hs : sorted.Pairwise (· < ·))
    (hx : x ∉ sorted) (hlim : x < limit) :
    (shifts limit sorted.length 0 sorted).foldl (fun x u => shiftVal u x) x = x - (shiftOf sorted x : Int) := by
  by_cases h : ∃ a ∈ sorted, a < x
  · rw [shifts_above limit sorted.length 0 sorted x (Nat.le_refl _) hs hx hlim h]
    rw [Nat.zero_add]
  · rw [shifts_below limit _ _ sorted x hs (by
      intro a ha
      have : ¬ a < x := fun h' => h ⟨a, ha, h'⟩
      have : a ≠ x := fun h' => hx (h' ▸ ha)
      omega)]
    have : shiftOf sorted x = 0 := by
      unfold shiftOf
      rw [List.length_eq_zero_iff, List.filter_eq_nil_iff]
      intro a ha hlt
      exact h ⟨a, ha, by simpa using hlt⟩
    rw [this]; simp

theorem foldl_map_rows {β γ : Type} (f : β → γ → γ) : ∀ (us : List β) (rows : List γ),
    us.foldl (fun rows u => rows.map (f u)) rows = rows.map (fun r => us.foldl (fun r u => f u r) r)
  | [], rows => by simp
  | u :: us, rows => by
    rw [List.foldl_cons, foldl_map_rows f us, List.map_map]
    rfl

theorem foldl_shiftRow : ∀ (us : List (Int × Int × Int)) (r : ThinRow S),
    us.foldl (fun r u => shiftRow u r) r =
      { r with subset := us.foldl (fun x u => shiftVal u x) r.subset }
  | [], r => rfl
  | u :: us, r => by
    rw [List.foldl_cons, List.foldl_cons, foldl_shiftRow us]
    unfold shiftRow shiftVal
    split <;> rfl

theorem le_maxOr_aux : ∀ (l : List Int) (b x : Int), x ∈ l ∨ x ≤ b → x ≤ l.foldl max b
  | [], b, x, h => by
    rcases h with h | h
    · simp at h
    · exact h
  | a :: l, b, x, h => by
    rw [List.foldl_cons]
    apply le_maxOr_aux l
    rcases h with h | h
    · rcases List.mem_cons.1 h with rfl | h
      · right; omega
      · left; exact h
    · right; omega

theorem le_maxOr {l : List Int} {x : Int} (h : x ∈ l) : x ≤ maxOr l := le_maxOr_aux l (-1) x (.inl h)

theorem maxOr_ge (l : List Int) : -1 ≤ maxOr l := le_maxOr_aux l (-1) (-1) (.inr (Int.le_refl _))

/-- The renumbering, on any table. -/
theorem renumber_eq (sorted : List Int) (thin : List (ThinRow S)) (hs : sorted.Pairwise (· < ·))
    (hpos : ∀ a ∈ sorted, 0 ≤ a) (hx : ∀ r ∈ thin, r.subset ∉ sorted) :
    renumber sorted thin = thin.map fun r => { r with subset := r.subset - (shiftOf sorted r.subset : Int) } := by
  unfold renumber
  simp only
  split
  · next h =>
    rw [foldl_map_rows]
    apply List.map_congr_left
    intro r hr
    rw [foldl_shiftRow, shifts_eq _ sorted r.subset hs (hx r hr)]
    have := le_maxOr (List.mem_map_of_mem (f := fun r : ThinRow S => r.subset) hr)
    omega
  · next h =>
    symm
    apply (List.map_congr_left _).trans (List.map_id _)
    intro r hr
    have hle := le_maxOr (List.mem_map_of_mem (f := fun r : ThinRow S => r.subset) hr)
    have : shiftOf sorted r.subset = 0 := by
      unfold shiftOf
      rw [List.length_eq_zero_iff, List.filter_eq_nil_iff]
      intro a ha hlt
      have h0 := hpos a ha
      simp only [decide_eq_true_eq] at hlt
      apply h
      refine ⟨by omega, fun h => by subst h; simp at ha⟩
    rw [this]; simp

theorem validIds_sorted (ids : List Int) (n : Int) : (validIds ids n).Pairwise (· < ·) :=
  (sortDedup_sorted ids).filter _

theorem mem_validIds (ids : List Int) (n x : Int) : x ∈ validIds ids n ↔ x ∈ ids ∧ 0 ≤ x ∧ x < n := by
  unfold validIds
  rw [List.mem_filter, mem_sortDedup]
  simp

end NextPlaid.Db
