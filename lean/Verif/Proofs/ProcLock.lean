import Verif.Spec.ProcLock
import Mathlib.Data.List.Perm.Subperm
import Mathlib.Data.List.Induction
import Mathlib.Data.List.Nodup

namespace NextPlaid.ProcLock

open NextPlaid.Spec

/-- The file that a process has locked. -/
def locked : Stage → Option Nat
  | .holding _ i => some i
  | .removed i => some i
  | _ => none

/-- The file that a process has opened. -/
def opened : Stage → Option Nat
  | .trying _ i _ => some i
  | .holding _ i => some i
  | .removed i => some i
  | _ => none

structure Inv (k : Nat) (s : St) : Prop where
  owns : ∀ p i, locked (s.proc p) = some i ↔ s.owner i = some p
  made : ∀ p i, opened (s.proc p) = some i → i < s.next
  few : s.next ≤ k + if s.file.isSome then 1 else 0
  here : ∀ i, s.file = some i → i < s.next

theorem begin_inv : Inv 0 begin where
  owns := by intro p i; simp [begin, locked]
  made := by intro p i h; simp [begin, opened] at h
  few := by simp [begin]
  here := by intro i h; simp [begin] at h

theorem close_inv {k : Nat} {s : St} (h : Inv k s) {p : Nat} {stage : Stage} (hs : opened stage = none) (hl : locked stage = none) : Inv k (close s p stage) where
  owns := by
    intro q i
    simp only [close, put]
    by_cases hq : q = p
    · subst hq
      rw [if_pos rfl, hl]
      by_cases ho : s.owner i = some q
      · simp [ho]
      · simp [ho]
    · rw [if_neg hq, h.owns q i]
      by_cases ho : s.owner i = some p
      · rw [if_pos ho, ho]
        constructor
        · intro e; cases e; exact (hq rfl).elim
        · intro e; cases e
      · rw [if_neg ho]
  made := by
    intro q i hq
    simp only [close, put] at hq
    by_cases e : q = p
    · rw [if_pos e, hs] at hq; cases hq
    · rw [if_neg e] at hq; exact h.made q i hq
  few := h.few
  here := h.here

theorem step_inv {k : Nat} {s : St} (h : Inv k s) (o : Op) : Inv (k + if removes s o then 1 else 0) (step s o).1 := by
  have more : ∀ {s'}, Inv k s' → Inv (k + if removes s o then 1 else 0) s' := by
    intro s' h'
    exact ⟨h'.owns, h'.made, by have := h'.few; split <;> omega, h'.here⟩
  cases o with
  | «open» p job =>
    simp only [removes, Bool.false_eq_true, if_false, Nat.add_zero, step]
    unfold openLock
    cases hp : s.proc p with
    | idle =>
      simp only
      have nolock : ∀ i, s.owner i ≠ some p := fun i e => by
        have := (h.owns p i).mpr e
        rw [hp] at this; cases this
      cases hf : s.file with
      | some i =>
        simp only
        refine ⟨?_, ?_, by simpa [hf] using h.few, by simpa [hf] using h.here⟩
        · intro q j
          simp only [put]
          by_cases e : q = p
          · rw [if_pos e, e]
            simp [locked, nolock j]
          · rw [if_neg e]; exact h.owns q j
        · intro q j hq
          simp only [put] at hq
          by_cases e : q = p
          · rw [if_pos e] at hq
            simp only [opened, Option.some.injEq] at hq
            rw [← hq]; exact h.here i hf
          · rw [if_neg e] at hq; exact h.made q j hq
      | none =>
        simp only
        refine ⟨?_, ?_, ?_, ?_⟩
        · intro q j
          simp only [put]
          by_cases e : q = p
          · rw [if_pos e, e]
            simp [locked, nolock j]
          · rw [if_neg e]; exact h.owns q j
        · intro q j hq
          simp only [put] at hq
          by_cases e : q = p
          · rw [if_pos e] at hq
            simp only [opened, Option.some.injEq] at hq
            simp only; omega
          · rw [if_neg e] at hq
            have := h.made q j hq
            simp only; omega
        · have := h.few
          rw [hf] at this
          simpa using this
        · intro i hi
          simp only [Option.some.injEq] at hi
          simp only; omega
    | trying => exact h
    | holding => exact h
    | removed => exact h
    | removing => exact h
  | attempt p =>
    apply more
    show Inv k (attempt s p).1
    unfold attempt
    cases hp : s.proc p with
    | trying job i since =>
      simp only
      split
      · rename_i ho
        refine ⟨?_, ?_, h.few, h.here⟩
        · intro q j
          simp only [put]
          by_cases e : q = p
          · rw [if_pos e, e]
            simp only [locked, Option.some.injEq]
            by_cases ej : j = i
            · simp [ej]
            · rw [if_neg ej]
              constructor
              · intro e'; exact (ej e'.symm).elim
              · intro e'
                have := (h.owns p j).mpr e'
                rw [hp] at this; cases this
          · rw [if_neg e]
            by_cases ej : j = i
            · rw [if_pos ej, h.owns q j, ej, ho]
              constructor
              · intro e'; cases e'
              · intro e'; cases e'; exact (e rfl).elim
            · rw [if_neg ej]; exact h.owns q j
        · intro q j hq
          simp only [put] at hq
          by_cases e : q = p
          · rw [if_pos e] at hq
            exact h.made p j (by rw [hp]; exact hq)
          · rw [if_neg e] at hq; exact h.made q j hq
      · split
        · exact close_inv h rfl rfl
        · split
          · exact h
          · exact close_inv h rfl rfl
    | idle => exact h
    | holding => exact h
    | removed => exact h
    | removing => exact h
  | proceed p =>
    show Inv (k + if removes s (.proceed p) then 1 else 0) (proceed s p)
    unfold proceed
    cases hp : s.proc p with
    | idle => exact more h
    | trying => exact more h
    | holding job i =>
      cases job with
      | index => exact more (close_inv h rfl rfl)
      | tryIndex => exact more (close_inv h rfl rfl)
      | clear => exact more (close_inv h rfl rfl)
      | rebuild =>
        simp only [removes, hp, if_true]
        refine ⟨?_, ?_, ?_, ?_⟩
        · intro q j
          simp only [put]
          by_cases e : q = p
          · rw [if_pos e, e, ← h.owns p j, hp]; rfl
          · rw [if_neg e]; exact h.owns q j
        · intro q j hq
          simp only [put] at hq
          by_cases e : q = p
          · rw [if_pos e] at hq
            exact h.made p j (by rw [hp]; exact hq)
          · rw [if_neg e] at hq; exact h.made q j hq
        · have := h.few
          simp only [Option.isSome_none, Bool.false_eq_true, if_false]
          split at this <;> omega
        · intro j hj; simp at hj
    | removed i => exact more (close_inv h rfl rfl)
    | removing =>
      simp only [removes, hp, if_true]
      refine ⟨?_, ?_, ?_, ?_⟩
      · intro q j
        simp only [put]
        by_cases e : q = p
        · rw [if_pos e, e, ← h.owns p j, hp]; rfl
        · rw [if_neg e]; exact h.owns q j
      · intro q j hq
        simp only [put] at hq
        by_cases e : q = p
        · rw [if_pos e] at hq; cases hq
        · rw [if_neg e] at hq; exact h.made q j hq
      · have := h.few
        simp only [Option.isSome_none, Bool.false_eq_true, if_false]
        split at this <;> omega
      · intro j hj; simp at hj
  | die p => exact more (close_inv h rfl rfl)
  | pass ms => exact more ⟨h.owns, h.made, h.few, h.here⟩

theorem run_inv : ∀ (l : List Op) {k : Nat} {s : St}, Inv k s → Inv (k + removals s l) (run s l) := by
  intro l
  induction l with
  | nil => intro k s h; exact h
  | cons o l ih =>
    intro k s h
    have := ih (step_inv h o)
    simp only [removals, run]
    rw [← Nat.add_assoc]
    exact this

theorem works_locked {s : St} {p : Nat} (h : Works s p) : ∃ i, locked (s.proc p) = some i := by
  obtain ⟨i, h | h⟩ := h <;> exact ⟨i, by rw [h]; rfl⟩

theorem workers_few {k : Nat} {s : St} (h : Inv k s) {ps : List Nat} (hn : ps.Nodup) (hw : ∀ p ∈ ps, (locked (s.proc p)).isSome) : ps.length ≤ k + 1 := by
  have hnext : s.next ≤ k + 1 := by have := h.few; split at this <;> omega
  have hmap : (ps.map fun p => (locked (s.proc p)).getD 0).Nodup := by
    refine List.Nodup.map_on ?_ hn
    intro p hp q hq e
    obtain ⟨i, hi⟩ := Option.isSome_iff_exists.mp (hw p hp)
    obtain ⟨j, hj⟩ := Option.isSome_iff_exists.mp (hw q hq)
    rw [hi, hj] at e
    simp only [Option.getD_some] at e
    subst e
    have h1 := (h.owns p i).mp hi
    have h2 := (h.owns q i).mp hj
    rw [h1, Option.some.injEq] at h2
    exact h2
  have hsub : ∀ x ∈ ps.map fun p => (locked (s.proc p)).getD 0, x ∈ List.range s.next := by
    intro x hx
    obtain ⟨p, hp, rfl⟩ := List.mem_map.mp hx
    obtain ⟨i, hi⟩ := Option.isSome_iff_exists.mp (hw p hp)
    rw [hi, List.mem_range]
    apply h.made p i
    cases hs : s.proc p <;> rw [hs] at hi <;> first | (cases hi; done) | exact hi
  have := (List.subperm_of_subset hmap hsub).length_le
  rw [List.length_map, List.length_range] at this
  omega

/-! ### Waiting -/

theorem lasts_append (a b : List Op) : lasts (a ++ b) = lasts a + lasts b := by
  induction a with
  | nil => simp [lasts]
  | cons o a ih =>
    cases o <;> simp only [List.cons_append, lasts, ih] <;> omega

theorem run_append (s : St) : ∀ (a b : List Op), run s (a ++ b) = run (run s a) b := by
  intro a
  induction a generalizing s with
  | nil => intro b; rfl
  | cons o a ih => intro b; simp only [List.cons_append, run]; exact ih _ _

theorem step_now (s : St) (o : Op) : (step s o).1.now = s.now + lasts [o] := by
  cases o with
  | «open» p job => simp only [step, lasts, openLock]; split <;> (try split) <;> rfl
  | attempt p =>
    simp only [step, lasts, attempt]
    split
    · split
      · rfl
      · split
        · rfl
        · split <;> rfl
    · rfl
  | proceed p => simp only [step, lasts, proceed]; split <;> rfl
  | die p => rfl
  | pass ms => simp [step, lasts]

theorem run_now (s : St) : ∀ l, (run s l).now = s.now + lasts l := by
  intro l
  induction l generalizing s with
  | nil => rfl
  | cons o l ih =>
    simp only [run]
    rw [ih, step_now, show o :: l = [o] ++ l from rfl, lasts_append]
    omega

theorem run_snoc (s : St) (l : List Op) (o : Op) : run s (l ++ [o]) = (step (run s l) o).1 := by rw [run_append]; rfl

/-- A process that waits has opened the lock file at the time it says. -/
theorem since_ok : ∀ (l : List Op) (p i t : Nat) (job : Job), (run begin l).proc p = .trying job i t →
    ∃ a b, l = a ++ .open p job :: b ∧ t = lasts a ∧ ∀ x ∈ b, x ≠ .die p := by
  intro l
  induction l using List.reverseRecOn with
  | nil => intro p i t job h; simp [run, begin] at h
  | append_singleton l o ih =>
    intro p i t job h
    rw [run_snoc] at h
    -- the step did not concern p
    have old : (run begin l).proc p = .trying job i t → o ≠ .die p → ∃ a b, l ++ [o] = a ++ .open p job :: b ∧ t = lasts a ∧ ∀ x ∈ b, x ≠ .die p := by
      intro h' hne
      obtain ⟨a, b, e, ht, hd⟩ := ih p i t job h'
      refine ⟨a, b ++ [o], by rw [e]; simp, ht, ?_⟩
      intro x hx
      rcases List.mem_append.mp hx with hx | hx
      · exact hd x hx
      · rw [List.mem_singleton] at hx; rw [hx]; exact hne
    have closed : ∀ {s : St} {q : Nat} {stage : Stage}, (close s q stage).proc p = .trying job i t → (∀ j i t, stage ≠ .trying j i t) →
        q ≠ p ∧ s.proc p = .trying job i t := by
      intro s q stage hc hs
      simp only [close, put] at hc
      split at hc
      · exact (hs _ _ _ hc).elim
      · rename_i e; exact ⟨fun e' => e e'.symm, hc⟩
    cases o with
    | «open» q job' =>
      simp only [step] at h
      unfold openLock at h
      cases hq : (run begin l).proc q with
      | idle =>
        rw [hq] at h
        simp only at h
        by_cases e : p = q
        · subst e
          have : (put (run begin l).proc p (.trying job' i t) p) = .trying job i t ∧ t = (run begin l).now := by
            cases hf : (run begin l).file with
            | some j =>
              rw [hf] at h
              simp only [put, if_true, Stage.trying.injEq] at h
              simp [put, h]
            | none =>
              rw [hf] at h
              simp only [put, if_true, Stage.trying.injEq] at h
              simp [put, h]
          simp only [put, if_true, Stage.trying.injEq] at this
          refine ⟨l, [], by rw [this.1.1], ?_, by simp⟩
          rw [this.2, run_now]
          simp [begin]
        · refine old ?_ (by simp)
          cases hf : (run begin l).file with
          | some j => rw [hf] at h; simpa [put, e] using h
          | none => rw [hf] at h; simpa [put, e] using h
      | trying => rw [hq] at h; exact old h (by simp)
      | holding => rw [hq] at h; exact old h (by simp)
      | removed => rw [hq] at h; exact old h (by simp)
      | removing => rw [hq] at h; exact old h (by simp)
    | attempt q =>
      simp only [step] at h
      unfold attempt at h
      cases hq : (run begin l).proc q with
      | trying job' j t' =>
        rw [hq] at h
        simp only at h
        split at h
        · simp only [put] at h
          split at h
          · cases h
          · exact old h (by simp)
        · split at h
          · exact old (closed h (by simp)).2 (by simp)
          · split at h
            · exact old h (by simp)
            · exact old (closed h (by simp)).2 (by simp)
      | idle => rw [hq] at h; exact old h (by simp)
      | holding => rw [hq] at h; exact old h (by simp)
      | removed => rw [hq] at h; exact old h (by simp)
      | removing => rw [hq] at h; exact old h (by simp)
    | proceed q =>
      simp only [step] at h
      unfold proceed at h
      cases hq : (run begin l).proc q with
      | idle => rw [hq] at h; exact old h (by simp)
      | trying => rw [hq] at h; exact old h (by simp)
      | holding job' j =>
        rw [hq] at h
        cases job' with
        | index => exact old (closed h (by simp)).2 (by simp)
        | tryIndex => exact old (closed h (by simp)).2 (by simp)
        | clear => exact old (closed h (by simp)).2 (by simp)
        | rebuild =>
          simp only [put] at h
          split at h
          · cases h
          · exact old h (by simp)
      | removed => rw [hq] at h; exact old (closed h (by simp)).2 (by simp)
      | removing =>
        rw [hq] at h
        simp only [put] at h
        split at h
        · cases h
        · exact old h (by simp)
    | die q =>
      simp only [step] at h
      have := closed h (by simp)
      exact old this.2 (by simpa using this.1)
    | pass ms => exact old h (by simp)

theorem hasLock_iff {s : St} {p i : Nat} : HasLock s p i ↔ locked (s.proc p) = some i := by
  unfold HasLock
  cases s.proc p with
  | holding job j => simp [locked]
  | removed j => simp [locked]
  | idle => simp [locked]
  | trying => simp [locked]
  | removing => simp [locked]

end NextPlaid.ProcLock
