import Verif.Spec.Pending
import Mathlib.Data.List.Perm.Basic

/-!
Proofs about the limit of pending additions.
-/

namespace NextPlaid.Pending
open NextPlaid.Spec

variable {D : Type}

/-- Permits are free or belong to an unfinished addition. -/
def Balanced (n : Nat) (x : Index D) : Prop := x.avail + (unfinished x).length = n

theorem balanced_idle (n : Nat) : Balanced n (idle n : Index D) := by simp [Balanced, idle, unfinished]

theorem balanced_step {n : Nat} {x : Index D} (h : Balanced n x) (e : Event D) : Balanced n (step x e) := by
  unfold Balanced unfinished at *
  cases e with
  | add d =>
    unfold step add
    dsimp only
    split
    · simp at h ⊢; omega
    · exact h
  | reach i =>
    unfold step
    dsimp only
    split
    · rename_i d hd
      obtain ⟨hi, _⟩ := List.getElem?_eq_some_iff.1 hd
      simp [List.length_eraseIdx, hi] at h ⊢
      omega
    · exact h
  | lock =>
    unfold step
    dsimp only
    split
    · rename_i d q ha hq
      simp [ha, hq] at h ⊢; omega
    · exact h
  | finish =>
    unfold step
    dsimp only
    split
    · rename_i d ha
      simp [ha] at h ⊢; omega
    · exact h

theorem balanced_after {n : Nat} (name : String) : ∀ (es : List (String × Event D)) (s : Server D), Balanced n (s name) →
    Balanced n (after s es name)
  | [], s, h => h
  | e :: es, s, h => by
    refine balanced_after name es (serverStep s e) ?_
    unfold serverStep
    split
    · exact balanced_step h e.2
    · exact h

/-- What an event does to the additions that are there. -/
theorem step_perm {n : Nat} {x : Index D} (h : Balanced n x) (e : Event D) :
    ((step x e).done ++ unfinished (step x e)).Perm
      (x.done ++ unfinished x ++ match e with | .add d => if (unfinished x).length < n then [d] else [] | _ => []) := by
  unfold Balanced at h
  cases e with
  | add d =>
    unfold step add
    dsimp only
    by_cases hp : 0 < x.avail
    · rw [if_pos hp, if_pos (by omega)]
      unfold unfinished
      dsimp only
      simp only [List.append_assoc]
      refine List.Perm.append_left _ (List.Perm.append_left _ ?_)
      rw [← List.append_assoc x.queue]
      exact List.perm_append_comm
    · rw [if_neg hp, if_neg (by omega), List.append_nil]
  | reach i =>
    unfold step
    dsimp only
    rw [List.append_nil]
    split
    · rename_i d hd
      obtain ⟨hi, rfl⟩ := List.getElem?_eq_some_iff.1 hd
      unfold unfinished
      dsimp only
      refine List.Perm.append_left _ (List.Perm.append_right _ ?_)
      rw [← List.append_assoc]
      refine List.perm_append_comm.trans ?_
      rw [List.singleton_append, ← List.cons_append]
      exact List.Perm.append_right _ (List.getElem_cons_eraseIdx_perm hi)
    · exact List.Perm.refl _
  | lock =>
    unfold step
    dsimp only
    rw [List.append_nil]
    split
    · rename_i d q ha hq
      unfold unfinished
      rw [ha, hq]
      dsimp only
      simp only [Option.toList_some, Option.toList_none, List.append_nil, List.append_assoc]
      refine List.Perm.append_left _ (List.Perm.append_left _ ?_)
      exact List.perm_append_comm
    · exact List.Perm.refl _
  | finish =>
    unfold step
    dsimp only
    rw [List.append_nil]
    split
    · rename_i d ha
      unfold unfinished
      rw [ha]
      dsimp only
      simp only [Option.toList_some, Option.toList_none, List.append_nil, List.append_assoc]
      refine List.Perm.append_left _ ?_
      rw [← List.append_assoc x.started]
      exact List.perm_append_comm
    · exact List.Perm.refl _

theorem after_perm {n : Nat} (name : String) : ∀ (es : List (String × Event D)) (s : Server D), Balanced n (s name) →
    ((after s es name).done ++ unfinished (after s es name)).Perm ((s name).done ++ unfinished (s name) ++ acceptedBy n name s es)
  | [], s, _ => by simp [after, acceptedBy]
  | (m, e) :: es, s, h => by
    have hb : Balanced n (serverStep s (m, e) name) := by
      unfold serverStep
      split
      · exact balanced_step h e
      · exact h
    have ih := after_perm name es (serverStep s (m, e)) hb
    have hstep : (serverStep s (m, e) name).done ++ unfinished (serverStep s (m, e) name) |>.Perm
        ((s name).done ++ unfinished (s name) ++
          match e with | .add d => (if m = name ∧ (unfinished (s name)).length < n then [d] else []) | _ => []) := by
      unfold serverStep
      dsimp only
      by_cases hm : name = m
      · subst hm
        rw [if_pos rfl]
        have := step_perm h e
        cases e <;> simpa using this
      · rw [if_neg hm]
        cases e with
        | add d => dsimp only; rw [if_neg (by rintro ⟨h, _⟩; exact hm h.symm), List.append_nil]
        | reach i => dsimp only; rw [List.append_nil]
        | lock => dsimp only; rw [List.append_nil]
        | finish => dsimp only; rw [List.append_nil]
    refine ih.trans ((List.Perm.append_right _ hstep).trans ?_)
    rw [List.append_assoc]
    refine List.Perm.append_left _ ?_
    cases e <;> simp [acceptedBy]

theorem after_append (s : Server D) (es fs : List (String × Event D)) : after s (es ++ fs) = after (after s es) fs := by
  simp [after, List.foldl_append]

theorem after_own (name : String) : ∀ (es : List (String × Event D)) (s t : Server D), s name = t name →
    after s es name = after t (es.filter (fun e => e.1 = name)) name
  | [], _, _, h => h
  | (m, e) :: es, s, t, h => by
    by_cases hm : m = name
    · rw [List.filter_cons_of_pos (by simpa using hm)]
      refine after_own name es (serverStep s (m, e)) (serverStep t (m, e)) ?_
      simp [serverStep, hm, h]
    · rw [List.filter_cons_of_neg (by simpa using hm)]
      refine after_own name es (serverStep s (m, e)) t ?_
      have : name ≠ m := fun h => hm h.symm
      simp [serverStep, this, h]

/-- Steps still to be made by the unfinished additions. -/
def togo (x : Index D) : Nat := 3 * x.started.length + 2 * x.queue.length + x.active.toList.length

theorem drains (name : String) : ∀ (k : Nat) (s : Server D), togo (s name) ≤ k →
    ∃ es : List (String × Event D), (∀ e ∈ es, e.1 = name ∧ ∀ d, e.2 ≠ .add d) ∧ unfinished (after s es name) = []
  | 0, s, h => by
    refine ⟨[], by simp, ?_⟩
    unfold togo at h
    have h1 : (s name).started = [] := List.eq_nil_of_length_eq_zero (by omega)
    have h2 : (s name).queue = [] := List.eq_nil_of_length_eq_zero (by omega)
    have h3 : (s name).active.toList = [] := List.eq_nil_of_length_eq_zero (by omega)
    show unfinished (s name) = []
    simp only [unfinished, h1, h2, h3, List.append_nil]
  | k + 1, s, h => by
    have go : ∀ e : Event D, (∀ d, e ≠ .add d) → togo (step (s name) e) ≤ k →
        ∃ es : List (String × Event D), (∀ e ∈ es, e.1 = name ∧ ∀ d, e.2 ≠ .add d) ∧ unfinished (after s es name) = [] := by
      intro e he hk
      obtain ⟨es, h1, h2⟩ := drains name k (serverStep s (name, e)) (by simpa [serverStep] using hk)
      refine ⟨(name, e) :: es, ?_, h2⟩
      intro f hf
      rcases List.mem_cons.1 hf with rfl | hf
      · exact ⟨rfl, he⟩
      · exact h1 f hf
    unfold togo at h
    cases ha : (s name).active with
    | some d =>
      refine go .finish (by simp) ?_
      simp [step, togo, ha] at h ⊢
      omega
    | none =>
      cases hq : (s name).queue with
      | cons d q =>
        refine go .lock (by simp) ?_
        simp [step, togo, ha, hq] at h ⊢
        omega
      | nil =>
        cases hs : (s name).started with
        | cons d q =>
          refine go (.reach 0) (by simp) ?_
          simp [step, togo, ha, hq, hs] at h ⊢
          omega
        | nil =>
          exact ⟨[], by simp, by show unfinished (s name) = []; simp [unfinished, ha, hq, hs]⟩

end NextPlaid.Pending
