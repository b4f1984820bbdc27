import Verif.Proofs.Pending

/-!
C116: the limit of pending additions of documents.
-/

namespace NextPlaid.Props
open NextPlaid.Spec NextPlaid.Pending

variable {D : Type}

/-- Whatever happened on the server, an index never has more unfinished additions than the limit. -/
theorem C116_limit (n : Nat) (es : List (String × Event D)) (name : String) :
    (unfinished (after (fun _ => idle n) es name)).length ≤ n := by
  have h := balanced_after name es (fun _ => idle n) (balanced_idle n)
  unfold Balanced at h
  omega

/-- A request is accepted exactly when fewer than the limit are unfinished for its index, however the earlier ones ended; accepted, it
is one more unfinished addition; refused, it changes nothing.  With the limit 0 every request is refused. -/
theorem C116_accepted_exactly (n : Nat) (es : List (String × Event D)) (name : String) (d : D) :
    let x := after (fun _ => idle n) es name
    ((add d x).1 = true ↔ (unfinished x).length < n) ∧ ((add d x).1 = true → (unfinished (add d x).2).Perm (d :: unfinished x)) ∧
      ((add d x).1 = false → (add d x).2 = x) := by
  intro x
  have h : Balanced n x := balanced_after name es (fun _ => idle n) (balanced_idle n)
  unfold Balanced at h
  unfold add
  by_cases hp : 0 < x.avail
  · rw [if_pos hp]
    refine ⟨⟨fun _ => by omega, fun _ => rfl⟩, fun _ => ?_, fun h => by cases h⟩
    unfold unfinished
    simp only [List.append_assoc, List.singleton_append]
    exact List.perm_middle
  · rw [if_neg hp]
    exact ⟨⟨fun h => by simp at h, fun _ => by omega⟩, fun h => by simp at h, fun _ => rfl⟩

/-- No accepted addition is lost or done twice: those that ended and those unfinished are together those accepted. -/
theorem C116_none_lost (n : Nat) (es : List (String × Event D)) (name : String) :
    ((after (fun _ => idle n) es name).done ++ unfinished (after (fun _ => idle n) es name)).Perm
      (acceptedBy n name (fun _ => idle n) es) := by
  have h := after_perm name es (fun _ => idle n) (balanced_idle n)
  simpa [idle, unfinished] using h

/-- What happens to other indexes is of no effect. -/
theorem C116_other_indexes (n : Nat) (es : List (String × Event D)) (name : String) :
    after (fun _ => idle n) es name = after (fun _ => idle n) (es.filter (fun e => e.1 = name)) name :=
  after_own name es _ _ rfl

/-- The server never gets stuck: from wherever it is, the tasks of an index can all end, without a further request, and then as many
additions as the limit says are accepted again. -/
theorem C116_drains (n : Nat) (es : List (String × Event D)) (name : String) :
    ∃ fs : List (String × Event D), (∀ e ∈ fs, e.1 = name ∧ ∀ d, e.2 ≠ .add d) ∧
      unfinished (after (fun _ => idle n) (es ++ fs) name) = [] ∧ (after (fun _ => idle n) (es ++ fs) name).avail = n := by
  obtain ⟨fs, h1, h2⟩ := drains name _ (after (fun _ => idle n) es) (Nat.le_refl _)
  rw [← after_append] at h2
  refine ⟨fs, h1, h2, ?_⟩
  have h := balanced_after name (es ++ fs) (fun _ => idle n) (balanced_idle n)
  unfold Balanced at h
  rw [h2] at h
  simpa using h

/-- Not so: additions are done in the order they were accepted.  The tasks come to the lock in the order the runtime runs them. -/
theorem C116_order_refuted (a b : D) (name : String) : ∃ es : List (String × Event D),
    acceptedBy 10 name (fun _ => idle 10) es = [a, b] ∧ (after (fun _ => idle 10) es name).done = [b, a] := by
  refine ⟨[(name, .add a), (name, .add b), (name, .reach 1), (name, .reach 0), (name, .lock), (name, .finish), (name, .lock),
    (name, .finish)], ?_, ?_⟩
  · simp [acceptedBy, unfinished, serverStep, step, add, idle]
  · simp [after, serverStep, step, add, idle]

/-- Once at the lock, additions are done in the order they came to it. -/
theorem C116_lock_in_order (x : Index D) (e : Event D) :
    (x.done ++ x.active.toList ++ x.queue) <+: ((step x e).done ++ (step x e).active.toList ++ (step x e).queue) := by
  cases e with
  | add d =>
    unfold step add
    dsimp only
    split <;> exact List.prefix_refl _
  | reach i =>
    unfold step
    dsimp only
    split
    · dsimp only
      rw [← List.append_assoc]
      exact List.prefix_append _ _
    · exact List.prefix_refl _
  | lock =>
    unfold step
    dsimp only
    split
    · rename_i d q ha hq
      simp [ha, hq]
    · exact List.prefix_refl _
  | finish =>
    unfold step
    dsimp only
    split
    · rename_i d ha
      simp [ha]
    · exact List.prefix_refl _

/-- The limit is reached and lifted: with the limit 2, the third addition is refused until one ends; another index is not concerned. -/
example : let es : List (String × Event Nat) := [("a", .add 1), ("a", .add 2), ("a", .reach 0), ("a", .lock)]
    (add 3 (after (fun _ => idle 2) es "a")).1 = false ∧ (add 3 (after (fun _ => idle 2) es "b")).1 = true ∧
      (add 3 (after (fun _ => idle 2) (es ++ [("a", .finish)]) "a")).1 = true := by decide

end NextPlaid.Props
