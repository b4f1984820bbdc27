import Verif.Model.Retry
import Mathlib.Tactic.Common

/-!
A run over an index that is not empty is one over an empty index, for C99.
-/

namespace NextPlaid.Interrupt

variable {α : Type}

/-- The same with something in the index and the database before. -/
def over (d r : List α) (g : Shared α) : Shared α := { g with docs := d ++ g.docs, rows := r ++ g.rows }

def State.over (d r : List α) (s : State α) : State α := { s with shared := Interrupt.over d r s.shared }

theorem over_stop (d r : List α) (g : Shared α) : (over d r g).stop = g.stop := rfl

theorem over_leave (d r : List α) (g : Shared α) (b : Bool) : (over d r g).leave b = over d r (g.leave b) := by cases b <;> rfl

theorem alone_over (p : Setup α) (up : Bool) (d r : List α) (g : Shared α) (c : Cell α) :
    alone p up (over d r g) c = (alone p up g c).map fun x => (over d r x.1, x.2) := by
  unfold alone
  simp only [over_stop]
  repeat' split
  all_goals first | rfl | simp_all [over, Shared.leave, Shared.enter]

theorem stepAt_over (p : Setup α) (d r : List α) (g : Shared α) : ∀ (i : Nat) (up : Bool) (cs : List (Cell α)),
    stepAt p up (over d r g) i cs = (stepAt p up g i cs).map fun x => (over d r x.1, x.2) := by
  intro i
  induction i with
  | zero =>
    intro up cs
    cases cs with
    | nil => rfl
    | cons c cs =>
      simp only [stepAt]
      split
      · cases cs with
        | nil => rfl
        | cons e es =>
          simp only [over_leave]
          split
          · rfl
          · split <;> rfl
      · rw [alone_over, Option.map_map, Option.map_map]
        rfl
  | succ i ih =>
    intro up cs
    cases cs with
    | nil => rfl
    | cons c cs =>
      simp only [stepAt]
      rw [ih, Option.map_map, Option.map_map]
      rfl

theorem failAt_over (d r : List α) (g : Shared α) : ∀ (i : Nat) (cs : List (Cell α)),
    failAt (over d r g) i cs = (failAt g i cs).map fun x => (over d r x.1, x.2) := by
  intro i
  induction i with
  | zero =>
    intro cs
    cases cs with
    | nil => rfl
    | cons c cs =>
      simp only [failAt, over_leave]
      split <;> rfl
  | succ i ih =>
    intro cs
    cases cs with
    | nil => rfl
    | cons c cs =>
      simp only [failAt]
      rw [ih, Option.map_map, Option.map_map]
      rfl

theorem mainStep_over (d r : List α) (s : State α) : mainStep (s.over d r) = (mainStep s).map (State.over d r) := by
  simp only [mainStep, State.over, over_stop]
  repeat' split
  all_goals first | rfl | simp_all [State.over]

theorem step_over (p : Setup α) (d r : List α) (s : State α) (a : Act) : step p (s.over d r) a = (step p s a).map (State.over d r) := by
  unfold step
  by_cases hx : s.exited = true
  · rw [if_pos (show (s.over d r).exited = true from hx), if_pos hx]
    rfl
  · rw [if_neg (show ¬ (s.over d r).exited = true from hx), if_neg hx]
    cases a with
    | signal => rfl
    | main => exact mainStep_over d r s
    | cell i => simp only [State.over, stepAt_over, Option.map_map]; rfl
    | fail i => simp only [State.over, failAt_over, Option.map_map]; rfl
    | exit =>
      simp only [State.over]
      split <;> rfl

theorem run_over (p : Setup α) (d r : List α) {as : List Act} {x s' : State α} (h : Run p as x s') :
    ∀ s, x = s.over d r → ∃ s0, Run p as s s0 ∧ s' = s0.over d r := by
  induction h with
  | nil => exact fun s hs => ⟨s, .nil, hs⟩
  | cons h _ ih =>
    rintro s rfl
    rw [step_over] at h
    obtain ⟨s1, h1, rfl⟩ := Option.map_eq_some_iff.mp h
    obtain ⟨s2, hr, rfl⟩ := ih s1 rfl
    exact ⟨s2, .cons h1 hr, rfl⟩

end NextPlaid.Interrupt
