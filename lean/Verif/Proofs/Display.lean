import Verif.Spec.Display
import Verif.Proofs.Results
import Mathlib.Data.List.Infix

/-! The ranges of lines to show, and printing them. -/

namespace NextPlaid.Display

open NextPlaid.Spec
open NextPlaid.Units (Text lines trim slice)
open NextPlaid.Rank

/-- Line `n` (counted from 1) is in one of the ranges. -/
def Within (rs : List (Nat × Nat)) (n : Nat) : Prop := ∃ r ∈ rs, r.1 < n ∧ n ≤ r.2

/-- Ranges that start at `a` (counted from 0) or later, follow each other and end at `z` at the latest. -/
structure Orderly (a z : Nat) (rs : List (Nat × Nat)) : Prop where
  bounds : ∀ r ∈ rs, a ≤ r.1 ∧ r.1 ≤ r.2 ∧ r.2 ≤ z
  apart : rs.Pairwise fun r s => r.2 ≤ s.1

/-- The state of the merge loop, with what is still to come. -/
structure Merging (a z : Nat) (acc rs : List (Nat × Nat)) : Prop where
  bounds : ∀ r ∈ acc, a ≤ r.1 ∧ r.1 < r.2 ∧ r.2 ≤ z
  apart : acc.Pairwise fun r s => s.2 < r.1
  later : ∀ r ∈ acc, ∀ s ∈ rs, r.1 ≤ s.1

theorem mergeRange_step {a z : Nat} {acc rs : List (Nat × Nat)} {r : Nat × Nat} (h : Merging a z acc (r :: rs))
    (hr : a ≤ r.1 ∧ r.1 < r.2 ∧ r.2 ≤ z) (hs : ∀ s ∈ rs, r.1 ≤ s.1) :
    Merging a z (mergeRange acc r) rs ∧ ∀ n, Within (mergeRange acc r) n ↔ Within acc n ∨ (r.1 < n ∧ n ≤ r.2) := by
  cases acc with
  | nil =>
    refine ⟨⟨by simpa [mergeRange] using hr, by simp [mergeRange], by simpa [mergeRange] using hs⟩, ?_⟩
    intro n; simp [mergeRange, Within]
  | cons last rest =>
    obtain ⟨hb, ha, hl⟩ := h
    have hlast := hb last (by simp)
    have hll := hl last (by simp) r (by simp)
    rw [List.pairwise_cons] at ha
    simp only [mergeRange]
    split
    · rename_i hle
      refine ⟨⟨?_, ?_, ?_⟩, ?_⟩
      · intro x hx
        rcases List.mem_cons.1 hx with rfl | hx
        · simp only; omega
        · exact hb x (by simp [hx])
      · rw [List.pairwise_cons]
        exact ⟨fun x hx => ha.1 x hx, ha.2⟩
      · intro x hx s hsm
        rcases List.mem_cons.1 hx with rfl | hx
        · have := hs s hsm; simp only; omega
        · exact hl x (by simp [hx]) s (by simp [hsm])
      · intro n
        simp only [Within, List.mem_cons, exists_eq_or_imp]
        constructor
        · rintro (h | h)
          · by_cases hn : n ≤ last.2
            · exact .inl (.inl ⟨h.1, hn⟩)
            · right; constructor <;> omega
          · exact .inl (.inr h)
        · rintro ((h | h) | h)
          · left; omega
          · exact .inr h
          · left; omega
    · rename_i hle
      refine ⟨⟨?_, ?_, ?_⟩, ?_⟩
      · intro x hx
        rcases List.mem_cons.1 hx with rfl | hx
        · exact hr
        · exact hb x hx
      · rw [List.pairwise_cons]
        refine ⟨?_, List.pairwise_cons.2 ha⟩
        intro x hx
        rcases List.mem_cons.1 hx with rfl | hx
        · omega
        · have := ha.1 x hx; omega
      · intro x hx s hsm
        rcases List.mem_cons.1 hx with rfl | hx
        · exact hs s hsm
        · exact hl x hx s (by simp [hsm])
      · intro n
        simp only [Within, List.mem_cons, exists_eq_or_imp]
        exact or_comm

theorem merge_all {a z : Nat} : ∀ (rs acc : List (Nat × Nat)), Merging a z acc rs →
    (∀ r ∈ rs, a ≤ r.1 ∧ r.1 < r.2 ∧ r.2 ≤ z) → (rs.Pairwise fun r s => r.1 ≤ s.1) →
    Merging a z (rs.foldl mergeRange acc) [] ∧ ∀ n, Within (rs.foldl mergeRange acc) n ↔ Within acc n ∨ Within rs n
  | [], acc, h, _, _ => ⟨by simpa using h, by simp [Within]⟩
  | r :: rs, acc, h, hb, hp => by
    rw [List.pairwise_cons] at hp
    obtain ⟨h1, h2⟩ := mergeRange_step h (hb r (by simp)) hp.1
    obtain ⟨h3, h4⟩ := merge_all rs (mergeRange acc r) h1 (fun x hx => hb x (by simp [hx])) hp.2
    refine ⟨h3, fun n => ?_⟩
    rw [List.foldl_cons, h4, h2]
    simp only [Within, List.mem_cons, exists_eq_or_imp]
    exact or_assoc

theorem inUnit_mem {a z n : Nat} {ms : List Nat} : n ∈ inUnit a z ms ↔ n ∈ ms ∧ a ≤ n ∧ n ≤ z := by
  unfold inUnit
  rw [(sortBy_perm _).mem_iff, List.mem_filter]
  simp

theorem inUnit_sorted (a z : Nat) (ms : List Nat) : (inUnit a z ms).Pairwise (· ≤ ·) := by
  unfold inUnit
  refine (sortBy_sorted (le := fun a b : Nat => decide (a ≤ b)) ?_ ?_ _).imp ?_
  · intro a b; simp only [decide_eq_true_eq]; omega
  · intro a b c; simp only [decide_eq_true_eq]; omega
  · intro a b h; simpa using h

theorem withSignature_spec {a z : Nat} {rs : List (Nat × Nat)} (hb : ∀ r ∈ rs, a ≤ r.1 ∧ r.1 < r.2 ∧ r.2 ≤ z)
    (hp : rs.Pairwise fun r s => r.2 < s.1) (hne : rs ≠ []) :
    ((withSignature a rs).IsChain fun r s => r.2 < s.1 ∨ r.2 ≤ a + 2) ∧
    (∀ r ∈ withSignature a rs, a ≤ r.1 ∧ r.1 < r.2 ∧ r.2 ≤ z) ∧
    ((withSignature a rs).Pairwise fun r s => r.2 ≤ s.1) ∧ (∀ r ∈ (withSignature a rs).head?, r.1 = a) ∧
    withSignature a rs ≠ [] ∧
    (∀ k, Within rs k → Within (withSignature a rs) k) ∧
    ∀ k, Within (withSignature a rs) k → Within rs k ∨ k = a + 1 ∨ k = a + 2 := by
  cases rs with
  | nil => exact absurd rfl hne
  | cons first rest =>
    have hf := hb first (by simp)
    simp only [withSignature]
    split
    · rename_i hlt
      refine ⟨?_, ?_, ?_, by simp, by simp, ?_, ?_⟩
      · rw [List.isChain_cons_cons]
        exact ⟨.inr (by simp only; omega), hp.isChain.imp fun _ _ h => .inl h⟩
      · intro r hr
        rcases List.mem_cons.1 hr with rfl | hr
        · simp only; omega
        · exact hb r hr
      · rw [List.pairwise_cons]
        refine ⟨?_, hp.imp fun h => le_of_lt h⟩
        intro x hx
        rcases List.mem_cons.1 hx with rfl | hx
        · simp only; omega
        · have := (List.pairwise_cons.1 hp).1 x hx
          simp only; omega
      · rintro k ⟨r, hr, h⟩
        exact ⟨r, List.mem_cons_of_mem _ hr, h⟩
      · rintro k ⟨r, hr, h⟩
        rcases List.mem_cons.1 hr with rfl | hr
        · simp only at h; right; omega
        · exact .inl ⟨r, hr, h⟩
    · rename_i hlt
      exact ⟨hp.isChain.imp fun _ _ h => .inl h, hb, hp.imp fun h => le_of_lt h, by simp; omega, by simp, fun _ h => h, fun _ h => .inl h⟩

/-- The ranges around the matches. -/
theorem calcRanges_matches {ms : List Nat} {a z half mx : Nat} (ha : 1 ≤ a) (hm : ∃ n ∈ ms, a ≤ n ∧ n ≤ z) :
    ((calcRanges ms a z half mx).IsChain fun r s => r.2 < s.1 ∨ r.2 ≤ a + 1) ∧
    Orderly (a - 1) z (calcRanges ms a z half mx) ∧ (∀ r ∈ (calcRanges ms a z half mx).head?, r.1 = a - 1) ∧
    (∀ r ∈ calcRanges ms a z half mx, r.1 < r.2) ∧ calcRanges ms a z half mx ≠ [] ∧
    (∀ k, a ≤ k → k ≤ z → (∃ n ∈ ms, a ≤ n ∧ n ≤ z ∧ Near half n k) → Within (calcRanges ms a z half mx) k) ∧
    ∀ k, Within (calcRanges ms a z half mx) k → k = a ∨ k = a + 1 ∨ ∃ n ∈ ms, a ≤ n ∧ n ≤ z ∧ Near half n k := by
  obtain ⟨n0, hn0, h1, h2⟩ := hm
  have hne : inUnit a z ms ≠ [] := by
    intro h
    have := inUnit_mem.2 ⟨hn0, h1, h2⟩
    rw [h] at this; simp at this
  unfold calcRanges
  rw [if_neg hne]
  have hbr : ∀ r ∈ (inUnit a z ms).map (around a z half), a - 1 ≤ r.1 ∧ r.1 < r.2 ∧ r.2 ≤ z := by
    intro r hr
    obtain ⟨n, hn, rfl⟩ := List.mem_map.1 hr
    have := inUnit_mem.1 hn
    unfold around
    simp only
    omega
  have hpr : ((inUnit a z ms).map (around a z half)).Pairwise fun r s => r.1 ≤ s.1 := by
    rw [List.pairwise_map]
    refine (inUnit_sorted a z ms).imp ?_
    intro x y hxy
    unfold around
    simp only
    omega
  obtain ⟨⟨m1, m2, _⟩, m4⟩ := merge_all (a := a - 1) (z := z) ((inUnit a z ms).map (around a z half)) []
    ⟨by simp, by simp, by simp⟩ hbr hpr
  have hw : ∀ k, Within (((inUnit a z ms).map (around a z half)).foldl mergeRange []).reverse k ↔
      ∃ n ∈ ms, a ≤ n ∧ n ≤ z ∧ a ≤ k ∧ k ≤ z ∧ Near half n k := by
    intro k
    have : Within (((inUnit a z ms).map (around a z half)).foldl mergeRange []).reverse k ↔
        Within ((inUnit a z ms).map (around a z half)) k := by
      have h := m4 k
      unfold Within at h ⊢
      simpa using h
    rw [this]
    unfold Within around Near
    constructor
    · rintro ⟨r, hr, h⟩
      obtain ⟨n, hn, rfl⟩ := List.mem_map.1 hr
      obtain ⟨a1, a2, a3⟩ := inUnit_mem.1 hn
      simp only at h
      exact ⟨n, a1, a2, a3, by omega, by omega, by omega, by omega⟩
    · rintro ⟨n, a1, a2, a3, a4, a5, a6⟩
      exact ⟨_, List.mem_map.2 ⟨n, inUnit_mem.2 ⟨a1, a2, a3⟩, rfl⟩, by simp only; omega, by simp only; omega⟩
  have hne' : (((inUnit a z ms).map (around a z half)).foldl mergeRange []).reverse ≠ [] := by
    intro h
    have := (hw n0).2 ⟨n0, hn0, h1, h2, h1, h2, by unfold Near; omega⟩
    rw [h] at this
    obtain ⟨r, hr, _⟩ := this
    simp at hr
  obtain ⟨w0, w1, w2, w3, w4, w5, w6⟩ := withSignature_spec (a := a - 1) (z := z)
    (rs := (((inUnit a z ms).map (around a z half)).foldl mergeRange []).reverse)
    (fun r hr => m1 r (by simpa using hr)) (by rw [List.pairwise_reverse]; exact m2) hne'
  refine ⟨w0.imp fun r s h => by omega, ⟨fun r hr => ?_, w2⟩, w3, fun r hr => (w1 r hr).2.1, w4, ?_, ?_⟩
  · have := w1 r hr; omega
  · rintro k hk1 hk2 ⟨n, a1, a2, a3, a4⟩
    exact w5 k ((hw k).2 ⟨n, a1, a2, a3, hk1, hk2, a4⟩)
  · intro k hk
    rcases w6 k hk with h | h | h
    · obtain ⟨n, a1, a2, a3, _, _, a6⟩ := (hw k).1 h
      exact .inr (.inr ⟨n, a1, a2, a3, a6⟩)
    · left; omega
    · right; left; omega

/-- Without matches in the unit the lines from its start on are shown. -/
theorem calcRanges_none {ms : List Nat} {a z half mx : Nat} (hm : ¬ ∃ n ∈ ms, a ≤ n ∧ n ≤ z) :
    calcRanges ms a z half mx = fromStart a z mx := by
  unfold calcRanges
  rw [if_pos]
  rw [List.eq_nil_iff_forall_not_mem]
  intro n hn
  obtain ⟨a1, a2⟩ := inUnit_mem.1 hn
  exact hm ⟨n, a1, a2⟩

end NextPlaid.Display
