import Verif.Spec.Nearby
import Mathlib.Data.String.Basic

/-!
Proofs about the help for a path that does not exist.
-/

namespace NextPlaid.Nearby
open NextPlaid.Spec

theorem climb_suffix (w : World) (abs : Bool) : ∀ l, climb w abs l <:+ l
  | [] => List.suffix_refl _
  | c :: cs => by
    unfold climb
    split
    · exact List.suffix_refl _
    · exact (climb_suffix w abs cs).trans (List.suffix_cons ..)

theorem climb_between (w : World) (abs : Bool) : ∀ l r : List String, r <:+ l → (climb w abs l).length < r.length → w.look ⟨abs, r⟩ = none
  | [], r, h, hl => by
    rw [List.suffix_nil] at h; subst h; simp at hl
  | c :: cs, r, h, hl => by
    unfold climb at hl
    split at hl
    · have := h.length_le
      omega
    · rename_i hn
      rcases List.suffix_cons_iff.1 h with rfl | h
      · simpa using hn
      · exact climb_between w abs cs r h hl

theorem climb_closest (w : World) (p : Typed) (h : (w.look ⟨p.abs, climb w p.abs p.rev⟩).isSome = true) :
    ClosestTo w p ⟨p.abs, climb w p.abs p.rev⟩ := by
  refine ⟨rfl, climb_suffix w p.abs p.rev, h, ?_⟩
  rintro ⟨a, r⟩ rfl hr hl
  exact climb_between w _ p.rev r hr hl

theorem closest_unique {w : World} {p d : Typed} (h : ClosestTo w p d) : d = ⟨p.abs, climb w p.abs p.rev⟩ := by
  obtain ⟨ha, hs, he, hb⟩ := h
  have hc := climb_suffix w p.abs p.rev
  have hlen : d.rev.length = (climb w p.abs p.rev).length := by
    rcases Nat.lt_trichotomy d.rev.length (climb w p.abs p.rev).length with h | h | h
    · exfalso
      have hn := hb ⟨p.abs, climb w p.abs p.rev⟩ rfl hc h
      have key : ∀ l : List String, climb w p.abs l ≠ [] → (w.look ⟨p.abs, climb w p.abs l⟩).isSome = true := by
        intro l
        induction l with
        | nil => intro h; exact absurd rfl h
        | cons c cs ih =>
          unfold climb
          split
          · rename_i h; intro _; exact h
          · exact ih
      have := key p.rev (by intro h0; rw [h0] at h; simp at h)
      rw [hn] at this
      simp at this
    · exact h
    · have hn := climb_between w p.abs p.rev d.rev hs h
      rw [← ha] at hn
      rw [show (⟨d.abs, d.rev⟩ : Typed) = d from rfl] at hn
      rw [hn] at he
      simp at he
  have : d.rev = climb w p.abs p.rev := by
    rcases List.suffix_or_suffix_of_suffix hs hc with h | h
    · exact h.eq_of_length hlen
    · exact (h.eq_of_length hlen.symm).symm
  cases d
  simp at ha this
  simp [ha, this]

theorem sorted_perm (l : List String) : (sorted l).Perm l := List.mergeSort_perm ..

theorem sorted_inOrder (l : List String) : InOrder (sorted l) := by
  have := List.pairwise_mergeSort (le := fun a b : String => decide (a ≤ b)) (by
    intro a b c h1 h2
    simp only [decide_eq_true_eq] at *
    exact le_trans h1 h2) (by
    intro a b
    simp only [Bool.or_eq_true, decide_eq_true_eq]
    exact le_total a b) l
  refine this.imp ?_
  intro a b h
  simpa using h

end NextPlaid.Nearby
