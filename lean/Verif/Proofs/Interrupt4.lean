import Verif.Proofs.Interrupt3

/-!
Interrupted runs end: every step but Ctrl+C uses something up.
-/

namespace NextPlaid.Interrupt

variable {α : Type} {p : Setup α} {bad up : Bool} {g g' : Shared α} {cs cs' : List (Cell α)} {c c' : Cell α}

/-- What a message waiting for the first of these threads can still cause. -/
def cost (p : Setup α) : List Kind → List α → Nat
  | [], _ => 0
  | .store :: _, _ => 1
  | .write :: _, _ => 7
  | .encode :: ks, m => p.batches m + 3 + cost p ks m
  | .plain :: ks, m => 2 + cost p ks m

/-- What a thread can still do; `ks` are the kinds of those after it. -/
def Cell.weight (p : Setup α) (ks : List Kind) (c : Cell α) : Nat :=
  match c.phase with
  | .ended _ => 0
  | .idle => 1 + (if c.pend ≠ [] then 4 else 0) + (c.queue.map (cost p (c.kind :: ks))).sum
  | .busy m n => 1 + (n + 2 + cost p ks m) + (c.queue.map (cost p (c.kind :: ks))).sum
  | .hold m _ => 1 + (1 + cost p ks m) + (if c.pend ≠ [] then 4 else 0) + (c.queue.map (cost p (c.kind :: ks))).sum
  | .writing => 1 + 3 + (c.queue.map (cost p (c.kind :: ks))).sum

def weight (p : Setup α) : List (Cell α) → Nat
  | [] => 0
  | c :: cs => c.weight p (cs.map (·.kind)) + weight p cs

open Classical in
theorem alone_weight (h : Alone p up g c g' c') (ht : Tail (c :: cs)) (hr : Role c) :
    c'.weight p (cs.map (·.kind)) < c.weight p (cs.map (·.kind)) := by
  obtain ⟨f1, f2, f3⟩ := ht.facts
  obtain ⟨r1, r2, r3, r4⟩ := hr
  cases h with
  | encoded hp =>
    have hk := r2 _ _ hp
    have := r1 (by rw [hk]; decide)
    simp only [Cell.weight, hp, this]
    simp
  | batch hp _ => simp only [Cell.weight, hp]; omega
  | breakIn hp _ => simp only [Cell.weight, hp]; omega
  | writtenNew hp _ => simp only [Cell.weight, hp]; omega
  | written hp _ =>
    have hk := r3 hp
    simp only [Cell.weight, hp, f2 hk, cost]
    simp
  | recvPlain hp hq hk =>
    have := r1 (by rw [hk]; decide)
    simp only [Cell.weight, hp, hq, hk, this, List.map_cons, List.sum_cons, cost]
    omega
  | recvEncode hp hq hk _ =>
    simp only [Cell.weight, hp, hq, hk, List.map_cons, List.sum_cons, cost]
    omega
  | breakBefore hp hq hk _ => simp only [Cell.weight, hp]; omega
  | recvNew hp hq hk _ =>
    simp only [Cell.weight, hp, hq, hk, List.map_cons, List.sum_cons, f2 hk, cost]
    split <;> split <;> simp_all <;> omega
  | recvFull hp hq hk _ _ =>
    simp only [Cell.weight, hp, hq, hk, List.map_cons, List.sum_cons, cost]
    omega
  | recvMore hp hq hk _ =>
    simp only [Cell.weight, hp, hq, hk, List.map_cons, List.sum_cons, cost]
    split <;> split <;> omega
  | store hp hq hk =>
    simp only [Cell.weight, hp, hq, hk, List.map_cons, List.sum_cons, cost]
    omega
  | closeWrite hp _ _ _ hne =>
    simp only [Cell.weight, hp, if_pos hne]
    omega
  | close hp _ _ _ => simp only [Cell.weight, hp]; omega

theorem weight_ended (p : Setup α) (ks : List Kind) (c c' : Cell α) (h : c'.isEnded = true) (hc : c.isEnded = false) : c'.weight p ks < c.weight p ks := by
  unfold Cell.isEnded at h hc
  have h0 : c'.weight p ks = 0 := by
    unfold Cell.weight
    split at h
    · rename_i hp; rw [hp]
    · cases h
  rw [h0]
  unfold Cell.weight
  cases hp : c.phase <;> simp_all <;> omega

theorem weight_push (p : Setup α) (ks : List Kind) (d : Cell α) (m : List α) (hd : d.isEnded = false) :
    Cell.weight p ks { d with queue := d.queue ++ [m] } = d.weight p ks + cost p (d.kind :: ks) m := by
  unfold Cell.isEnded at hd
  unfold Cell.weight
  cases hp : d.phase <;> simp_all <;> omega

theorem local_kinds (h : Local p bad up g cs g' cs') : cs'.map (·.kind) = cs.map (·.kind) := by
  have := congrArg (List.map Prod.fst) (local_keeps h).1
  rw [List.map_map, List.map_map] at this
  exact this

theorem local_weight (h : Local p bad up g cs g' cs') (ht : Tail cs) (hr : Roles cs) : weight p cs' < weight p cs := by
  have dead : ∀ (c c' : Cell α) (cs : List (Cell α)), c'.isEnded = true → c.isEnded = false → weight p (c' :: cs) < weight p (c :: cs) := by
    intro c c' cs h1 h2
    exact Nat.add_lt_add_right (weight_ended p _ c c' h1 h2) _
  induction h with
  | deeper h ih =>
    simp only [weight, local_kinds h]
    exact Nat.add_lt_add_left (ih ht.next ((roles_cons _ _).mp hr).2) _
  | one _ h => exact Nat.add_lt_add_right (alone_weight h ht ((roles_cons _ _).mp hr).1) _
  | @push up g c d cs m gd _ h hd _ =>
    simp only [weight, weight_push p _ d m hd, List.map_cons]
    simp only [Cell.weight, h]
    omega
  | lost _ h _ => exact dead _ _ _ rfl (by simp [Cell.isEnded, h])
  | failBusy _ h => exact dead _ _ _ rfl (by simp [Cell.isEnded, h])
  | failHold _ h => exact dead _ _ _ rfl (by simp [Cell.isEnded, h])
  | failWriting _ h => exact dead _ _ _ rfl (by simp [Cell.isEnded, h])
  | failIdle _ h => exact dead _ _ _ rfl (by simp [Cell.isEnded, h])

/-- What the main thread can still do. -/
def Main.weight (p : Setup α) (ks : List Kind) : Main α → Nat
  | .top => 10
  | .offer m => 11 + cost p ks m
  | .join i => 3 + (5 - i)
  | .ret _ => 1

def State.weight (p : Setup α) (s : State α) : Nat :=
  NextPlaid.Interrupt.weight p s.cells + (s.todo.map fun m => 2 + cost p (s.cells.map (·.kind)) m).sum + s.main.weight p (s.cells.map (·.kind)) +
    if s.exited then 0 else 1

theorem step_weight {chunks : List (List α)} {s s' : State α} {a : Act} (hi : Inv p chunks s) (h : step p s a = some s') (ha : a ≠ .signal) :
    s'.weight p < s.weight p := by
  have ht := tail_of hi.kinds
  unfold step at h
  split at h
  · cases h
  · rename_i hex
    have hloc : ∀ (bad : Bool) (r : Shared α × List (Cell α)), Local p bad s.main.closed s.shared s.cells r.1 r.2 →
        State.weight p { s with shared := r.1, cells := r.2 } < s.weight p := by
      intro bad r hl
      have := local_weight hl ht hi.roles
      simp only [State.weight, local_kinds hl]
      omega
    cases a with
    | signal => exact absurd rfl ha
    | cell i =>
      obtain ⟨r, hr, rfl⟩ := Option.map_eq_some_iff.mp h
      exact hloc _ r (stepAt_sound p _ i _ _ r hr)
    | fail i =>
      obtain ⟨r, hr, rfl⟩ := Option.map_eq_some_iff.mp h
      exact hloc _ r (failAt_sound p _ i _ _ r hr)
    | exit =>
      simp only at h
      split at h
      · cases h
        simp only [State.weight, if_true, if_neg hex]
        omega
      · cases h
    | main =>
      simp only [mainStep] at h
      split at h
      · rename_i hm
        split at h
        · cases h
          simp only [State.weight, hm, Main.weight]
          omega
        · rename_i m rest hto
          split at h
          · cases h
            simp only [State.weight, hm, Main.weight]
            omega
          · cases h
            simp only [State.weight, hm, hto, Main.weight, List.map_cons, List.sum_cons]
            omega
      · rename_i m hm
        split at h
        · cases h
        · rename_i c cs hcs
          split at h
          · cases h
            simp only [State.weight, hm, Main.weight]
            omega
          · rename_i hend
            split at h
            · cases h
              simp only [State.weight, hm, hcs, Main.weight, NextPlaid.Interrupt.weight, List.map_cons, weight_push p _ c m (by simpa using hend)]
              omega
            · cases h
      · rename_i i hm
        split at h
        · cases h
          simp only [State.weight, hm, Main.weight]
          omega
        · rename_i c hc
          have hlt : i < 5 := by
            have hlen : s.cells.length = 5 := by simpa using congrArg List.length hi.kinds
            have := (List.getElem?_eq_some_iff.mp hc).1
            omega
          split at h
          · cases h
            simp only [State.weight, hm, Main.weight]
            omega
          · cases h
            simp only [State.weight, hm, Main.weight]
            omega
          · cases h
      · cases h

end NextPlaid.Interrupt
