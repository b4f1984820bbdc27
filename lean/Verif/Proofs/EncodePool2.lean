import Verif.Proofs.EncodePool

namespace NextPlaid.EncodePool

open NextPlaid.Spec

variable {T E : Type}

/-- The requests a worker has. -/
def Worker.items : Worker T → List (Item T)
  | .collecting items => items
  | .working items => items
  | _ => []

/-- The requests the workers have. -/
def held (ws : List (Worker T)) : List (Item T) := ws.flatMap Worker.items

def Worker.collects : Worker T → Bool
  | .collecting _ => true
  | _ => false

/-- The invariant of a pool. -/
structure Inv (c : Setup T E) (Enc : Input → Option Nat → T → E → Prop) (s : State T E) : Prop where
  all : s.accepted.Perm (s.queue ++ held s.workers ++ s.answers.map Prod.fst)
  fair : ∀ x ∈ s.answers, x.2 = .dropped ∨ ∃ w, Fair c Enc w x.1 x.2
  lock : ∀ w v, s.workers[w]? = some v → (v.collects = true ↔ s.lock = some w)
  holder : ∀ w, s.lock = some w → w < s.workers.length
  empty : s.workers.any Worker.alive = false → s.queue = []
  full : s.queue.length ≤ c.capacity

theorem held_set {ws : List (Worker T)} {w : Nat} {v v' : Worker T} (h : ws[w]? = some v) :
    ((held (ws.set w v')) ++ v.items).Perm (held ws ++ v'.items) := by
  induction ws generalizing w with
  | nil => simp at h
  | cons x ws ih =>
    cases w with
    | zero =>
      simp only [List.getElem?_cons_zero, Option.some.injEq] at h
      subst h
      simp only [List.set_cons_zero, held, List.flatMap_cons]
      calc (v'.items ++ List.flatMap Worker.items ws ++ x.items).Perm (v'.items ++ (x.items ++ List.flatMap Worker.items ws)) := by
            rw [List.append_assoc]
            exact List.Perm.append_left _ List.perm_append_comm
        _ |>.Perm _ := List.perm_append_comm
    | succ w =>
      simp only [List.getElem?_cons_succ] at h
      have := ih h
      simp only [List.set_cons_succ, held, List.flatMap_cons, List.append_assoc] at this ⊢
      exact List.Perm.append_left _ this

section
open Classical

theorem held_count {ws : List (Worker T)} {w : Nat} {v : Worker T} (h : ws[w]? = some v) (v' : Worker T) (a : Item T) :
    (held (ws.set w v')).count a + v.items.count a = (held ws).count a + v'.items.count a := by
  have := (held_set (v' := v') h).count_eq a
  rwa [List.count_append, List.count_append] at this

theorem Inv.count {c : Setup T E} {Enc : Input → Option Nat → T → E → Prop} {s : State T E} (h : Inv c Enc s) (a : Item T) :
    s.accepted.count a = s.queue.count a + (held s.workers).count a + (s.answers.map Prod.fst).count a := by
  rw [h.all.count_eq a, List.count_append, List.count_append]

theorem map_dropped (items : List (Item T)) : (items.map fun i => (i, (Answer.dropped : Answer E))).map Prod.fst = items := by
  rw [List.map_map]
  exact List.map_id _

/-- A change of one worker keeps what is said of the lock, unless it is one that begins or ends to collect. -/
theorem lock_set {ws : List (Worker T)} {lock : Option Nat} (h : ∀ w v, ws[w]? = some v → (v.collects = true ↔ lock = some w)) {w : Nat} {v v' : Worker T}
    (hw : ws[w]? = some v) (hv : v'.collects = v.collects) : ∀ w' x, (ws.set w v')[w']? = some x → (x.collects = true ↔ lock = some w') := by
  intro w' x hx
  rw [List.getElem?_set] at hx
  split at hx
  · rename_i e
    subst e
    split at hx
    · simp only [Option.some.injEq] at hx
      subst hx
      rw [hv]
      exact h w v hw
    · cases hx
  · exact h w' x hx

theorem any_alive {ws : List (Worker T)} {w : Nat} {v : Worker T} (h : ws[w]? = some v) (hv : v.alive = true) : ws.any Worker.alive = true :=
  List.any_eq_true.mpr ⟨v, List.mem_of_getElem? h, hv⟩

theorem set_alive {ws : List (Worker T)} {w : Nat} {v : Worker T} (h : ws[w]? = some v) {v' : Worker T} (hv : v'.alive = true) :
    (ws.set w v').any Worker.alive = true := by
  refine any_alive (w := w) (v := v') ?_ hv
  rw [List.getElem?_set_self ((List.getElem?_eq_some_iff.mp h).1)]

theorem leave_inv {c : Setup T E} {Enc : Input → Option Nat → T → E → Prop} {s : State T E} (h : Inv c Enc s) {w : Nat} {v : Worker T}
    (hw : s.workers[w]? = some v) (hc : v.collects = false) : Inv c Enc (leave s w v.items) := by
  have hfair : ∀ items : List (Item T), ∀ x ∈ s.answers ++ items.map fun i => (i, (Answer.dropped : Answer E)), x.2 = .dropped ∨ ∃ w, Fair c Enc w x.1 x.2 := by
    intro items x hx
    rcases List.mem_append.mp hx with hx | hx
    · exact h.fair x hx
    · obtain ⟨i, _, rfl⟩ := List.mem_map.mp hx
      exact Or.inl rfl
  unfold leave
  simp only
  refine ⟨?_, hfair _, lock_set h.lock hw (by rw [hc]; rfl), fun w' hw' => by rw [List.length_set]; exact h.holder w' hw', ?_, ?_⟩
  · rw [List.perm_iff_count]
    intro a
    have h1 := h.count a
    have h2 := held_count hw .gone a
    rw [show (Worker.gone : Worker T).items = [] from rfl, List.count_nil] at h2
    simp only [List.map_append, map_dropped, List.count_append]
    split
    · simp only [List.count_nil]
      omega
    · simp only [List.count_nil]
      omega
  · intro h'
    simp only at h' ⊢
    rw [h']
    rfl
  · simp only
    split
    · exact h.full
    · exact Nat.zero_le _

theorem step_inv {c : Setup T E} {Enc : Input → Option Nat → T → E → Prop} (hs : SoundModel c Enc) (ho : ∀ l, (c.order l).Perm l) {s s' : State T E}
    (h : Inv c Enc s) (e : Event T) (hstep : step c s e = some s') : Inv c Enc s' := by
  cases e with
  | request item =>
    simp only [step] at hstep
    split at hstep
    · rename_i hg
      simp only [Option.some.injEq] at hstep
      subst hstep
      refine ⟨?_, h.fair, h.lock, h.holder, ?_, by simp only [List.length_append, List.length_singleton]; omega⟩
      · rw [List.perm_iff_count]
        intro a
        have h1 := h.count a
        simp only [List.count_append] at h1 ⊢
        omega
      · intro h'
        simp only at h'
        rw [h'] at hg
        cases hg.1
    · simp only [Option.some.injEq] at hstep
      subst hstep
      exact h
  | start w ok =>
    simp only [step] at hstep
    split at hstep
    · rename_i hw
      split at hstep
      · simp only [Option.some.injEq] at hstep
        subst hstep
        refine ⟨?_, h.fair, lock_set h.lock hw rfl, fun w' hw' => by simp only [List.length_set]; exact h.holder w' hw', ?_, h.full⟩
        · rw [List.perm_iff_count]
          intro a
          have h1 := h.count a
          have h2 := held_count hw .waiting a
          simp only [Worker.items, List.count_nil] at h2
          simp only [List.count_append]
          omega
        · intro h'
          simp only at h'
          rw [set_alive hw rfl] at h'
          cases h'
      · simp only [Option.some.injEq] at hstep
        subst hstep
        exact leave_inv h hw rfl
    · cases hstep
  | acquire w =>
    simp only [step] at hstep
    split at hstep
    · rename_i hw hl
      simp only [Option.some.injEq] at hstep
      subst hstep
      refine ⟨?_, h.fair, ?_, ?_, ?_, h.full⟩
      · rw [List.perm_iff_count]
        intro a
        have h1 := h.count a
        have h2 := held_count hw (.collecting []) a
        simp only [Worker.items, List.count_nil] at h2
        simp only [List.count_append]
        omega
      · intro w' x hx
        simp only at hx ⊢
        rw [List.getElem?_set] at hx
        split at hx
        · rename_i e
          subst e
          split at hx
          · simp only [Option.some.injEq] at hx
            subst hx
            simp [Worker.collects]
          · cases hx
        · rename_i hne
          rw [h.lock w' x hx, hl]
          simp only [reduceCtorEq, Option.some.injEq, false_iff]
          exact hne
      · intro w' hw'
        simp only [Option.some.injEq, List.length_set] at hw' ⊢
        subst hw'
        exact (List.getElem?_eq_some_iff.mp hw).1
      · intro h'
        simp only at h'
        rw [set_alive hw rfl] at h'
        cases h'
    · cases hstep
  | recv w =>
    simp only [step] at hstep
    split at hstep
    · rename_i items item rest hw hq
      split at hstep
      · simp only [Option.some.injEq] at hstep
        subst hstep
        refine ⟨?_, h.fair, lock_set h.lock hw rfl, fun w' hw' => by simp only [List.length_set]; exact h.holder w' hw', ?_, ?_⟩
        · rw [List.perm_iff_count]
          intro a
          have h1 := h.count a
          have h2 := held_count hw (.collecting (items ++ [item])) a
          rw [hq] at h1
          simp only [Worker.items, List.count_append, List.count_cons, List.count_nil] at h1 h2 ⊢
          omega
        · intro h'
          simp only at h'
          rw [set_alive hw rfl] at h'
          cases h'
        · have := h.full
          rw [hq, List.length_cons] at this
          simp only
          omega
      · cases hstep
    · cases hstep
  | stop w =>
    simp only [step] at hstep
    split at hstep
    · rename_i i items hw
      simp only [Option.some.injEq] at hstep
      subst hstep
      have hl : s.lock = some w := (h.lock w _ hw).mp rfl
      refine ⟨?_, h.fair, ?_, ?_, ?_, h.full⟩
      · rw [List.perm_iff_count]
        intro a
        have h1 := h.count a
        have h2 := held_count hw (.working (i :: items)) a
        simp only [Worker.items] at h2
        simp only [List.count_append]
        omega
      · intro w' x hx
        simp only at hx ⊢
        rw [List.getElem?_set] at hx
        split at hx
        · rename_i e
          subst e
          split at hx
          · simp only [Option.some.injEq] at hx
            subst hx
            simp [Worker.collects]
          · cases hx
        · rename_i hne
          rw [h.lock w' x hx, hl]
          simp only [reduceCtorEq, Option.some.injEq, iff_false]
          exact hne
      · intro w' hw'
        cases hw'
      · intro h'
        simp only at h'
        rw [set_alive hw rfl] at h'
        cases h'
    · cases hstep
  | finish w =>
    simp only [step] at hstep
    split at hstep
    · rename_i items hw
      rcases processBatch_ok hs ho w items with ⟨_, hp⟩ | ⟨r, hp, h1, h2⟩
      · rw [hp] at hstep
        simp only [Option.some.injEq] at hstep
        subst hstep
        exact leave_inv h hw rfl
      · rw [hp] at hstep
        simp only [Option.some.injEq] at hstep
        subst hstep
        refine ⟨?_, ?_, lock_set h.lock hw rfl, fun w' hw' => by simp only [List.length_set]; exact h.holder w' hw', ?_, h.full⟩
        · rw [List.perm_iff_count]
          intro a
          have h3 := h.count a
          have h4 := held_count hw .waiting a
          simp only [Worker.items, List.count_nil] at h4
          simp only [List.count_append, List.map_append, h1]
          omega
        · intro x hx
          rcases List.mem_append.mp hx with hx | hx
          · exact h.fair x hx
          · exact Or.inr ⟨w, h2 x hx⟩
        · intro h'
          simp only at h'
          rw [set_alive hw rfl] at h'
          cases h'
    · cases hstep

theorem run_inv {c : Setup T E} {Enc : Input → Option Nat → T → E → Prop} (hs : SoundModel c Enc) (ho : ∀ l, (c.order l).Perm l) :
    ∀ (es : List (Event T)) (s s' : State T E), Inv c Enc s → run c s es = some s' → Inv c Enc s' := by
  intro es
  induction es with
  | nil =>
    intro s s' h hr
    simp only [run, Option.some.injEq] at hr
    subst hr
    exact h
  | cons e es ih =>
    intro s s' h hr
    simp only [run, Option.bind_eq_some_iff] at hr
    obtain ⟨s1, h1, h2⟩ := hr
    exact ih s1 s' (step_inv hs ho h e h1) h2

theorem initial_inv (c : Setup T E) (Enc : Input → Option Nat → T → E → Prop) (size : Nat) : Inv c Enc (initial size) := by
  refine ⟨?_, by simp [initial], ?_, by simp [initial], fun _ => rfl, Nat.zero_le _⟩
  · have : held (List.replicate size (Worker.starting : Worker T)) = [] := by
      unfold held
      rw [List.flatMap_eq_nil_iff]
      intro x hx
      rw [(List.mem_replicate.mp hx).2]
      rfl
    simp only [initial, this]
    exact List.Perm.refl _
  · intro w v hv
    have := (List.mem_replicate.mp (List.mem_of_getElem? hv)).2
    subst this
    simp [Worker.collects, initial]

/-- How many steps the workers can still take. -/
def Worker.steps : Worker T → Nat
  | .starting => 2
  | .waiting => 1
  | .collecting [] => 0
  | .collecting (_ :: _) => 3
  | .working _ => 2
  | .gone => 0

def fuelOf (s : State T E) : Nat := 5 * s.queue.length + (s.workers.map Worker.steps).sum

theorem steps_set {ws : List (Worker T)} {w : Nat} {v : Worker T} (h : ws[w]? = some v) (v' : Worker T) :
    ((ws.set w v').map Worker.steps).sum + v.steps = (ws.map Worker.steps).sum + v'.steps := by
  induction ws generalizing w with
  | nil => simp at h
  | cons x ws ih =>
    cases w with
    | zero =>
      simp only [List.getElem?_cons_zero, Option.some.injEq] at h
      subst h
      simp only [List.set_cons_zero, List.map_cons, List.sum_cons]
      omega
    | succ w =>
      simp only [List.getElem?_cons_succ] at h
      have := ih h
      simp only [List.set_cons_succ, List.map_cons, List.sum_cons]
      omega

theorem leave_fuel {s : State T E} {w : Nat} {v : Worker T} (hw : s.workers[w]? = some v) (hv : 0 < v.steps) (items : List (Item T)) :
    fuelOf (leave s w items) < fuelOf s := by
  have h1 := steps_set hw .gone
  have h2 : (Worker.gone : Worker T).steps = 0 := rfl
  unfold fuelOf leave
  simp only
  split
  · omega
  · simp only [List.length_nil]
    omega

theorem step_fuel {c : Setup T E} {s s' : State T E} {e : Event T} (hstep : step c s e = some s') (he : ∀ item, e ≠ .request item) : fuelOf s' < fuelOf s := by
  cases e with
  | request item => exact absurd rfl (he item)
  | start w ok =>
    simp only [step] at hstep
    split at hstep
    · rename_i hw
      split at hstep
      · simp only [Option.some.injEq] at hstep
        subst hstep
        have h1 := steps_set hw .waiting
        simp only [Worker.steps] at h1
        simp only [fuelOf]
        omega
      · simp only [Option.some.injEq] at hstep
        subst hstep
        exact leave_fuel hw (by simp [Worker.steps]) _
    · cases hstep
  | acquire w =>
    simp only [step] at hstep
    split at hstep
    · rename_i hw hl
      simp only [Option.some.injEq] at hstep
      subst hstep
      have h1 := steps_set hw (.collecting [])
      simp only [Worker.steps] at h1
      simp only [fuelOf]
      omega
    · cases hstep
  | recv w =>
    simp only [step] at hstep
    split at hstep
    · rename_i items item rest hw hq
      split at hstep
      · simp only [Option.some.injEq] at hstep
        subst hstep
        have h1 := steps_set hw (.collecting (items ++ [item]))
        have h2 : (Worker.collecting (items ++ [item])).steps = 3 := by cases items <;> rfl
        rw [h2] at h1
        simp only [fuelOf, hq, List.length_cons]
        omega
      · cases hstep
    · cases hstep
  | stop w =>
    simp only [step] at hstep
    split at hstep
    · rename_i i items hw
      simp only [Option.some.injEq] at hstep
      subst hstep
      have h1 := steps_set hw (.working (i :: items))
      simp only [Worker.steps] at h1
      simp only [fuelOf]
      omega
    · cases hstep
  | finish w =>
    simp only [step] at hstep
    split at hstep
    · rename_i items hw
      split at hstep
      · simp only [Option.some.injEq] at hstep
        subst hstep
        have h1 := steps_set hw .waiting
        simp only [Worker.steps] at h1
        simp only [fuelOf]
        omega
      · simp only [Option.some.injEq] at hstep
        subst hstep
        exact leave_fuel hw (by simp [Worker.steps]) _
    · cases hstep

theorem run_fuel {c : Setup T E} : ∀ (es : List (Event T)) (s s' : State T E), (∀ e ∈ es, ∀ item, e ≠ .request item) → run c s es = some s' →
    es.length ≤ fuelOf s := by
  intro es
  induction es with
  | nil => intro s s' _ _; exact Nat.zero_le _
  | cons e es ih =>
    intro s s' he hr
    simp only [run, Option.bind_eq_some_iff] at hr
    obtain ⟨s1, h1, h2⟩ := hr
    have := step_fuel h1 (he e (by simp))
    have := ih s1 s' (fun e' h' => he e' (by simp [h'])) h2
    rw [List.length_cons]
    omega

theorem fuel_bound (s : State T E) : fuelOf s ≤ 5 * s.queue.length + 3 * s.workers.length := by
  unfold fuelOf
  have : ∀ ws : List (Worker T), (ws.map Worker.steps).sum ≤ 3 * ws.length := by
    intro ws
    induction ws with
    | nil => simp
    | cons x ws ih =>
      rw [List.map_cons, List.sum_cons, List.length_cons]
      have : x.steps ≤ 3 := by
        unfold Worker.steps
        split <;> omega
      omega
  have := this s.workers
  omega

/-- When the workers can do nothing, nothing is left. -/
theorem still {c : Setup T E} {Enc : Input → Option Nat → T → E → Prop} {s : State T E} (h : Inv c Enc s)
    (hstill : ∀ e, (∀ item, e ≠ .request item) → step c s e = none) : s.queue = [] ∧ held s.workers = [] := by
  have hworker : ∀ (w : Nat) (v : Worker T), s.workers[w]? = some v → v.items = [] ∧ (v.alive = true → v = .waiting ∨ v = .collecting []) := by
    intro w v hv
    cases v with
    | starting => have := hstill (.start w true) (by simp); simp [step, hv] at this
    | waiting => exact ⟨rfl, fun _ => Or.inl rfl⟩
    | collecting items =>
      cases items with
      | nil => exact ⟨rfl, fun _ => Or.inr rfl⟩
      | cons i items => have := hstill (.stop w) (by simp); simp [step, hv] at this
    | working items =>
      have := hstill (.finish w) (by simp)
      simp only [step, hv] at this
      cases hp : processBatch c w items <;> simp [hp] at this
    | gone => exact ⟨rfl, by simp [Worker.alive]⟩
  refine ⟨?_, ?_⟩
  · cases ha : s.workers.any Worker.alive with
    | false => exact h.empty ha
    | true =>
      obtain ⟨v, hv1, hv2⟩ := List.any_eq_true.mp ha
      obtain ⟨w, hw⟩ := List.mem_iff_getElem?.mp hv1
      cases hq : s.queue with
      | nil => rfl
      | cons item rest =>
        exfalso
        have hcol : ∀ w' : Nat, s.workers[w']? = some (Worker.collecting []) → False := by
          intro w' hw'
          have := hstill (.recv w') (by simp)
          simp [step, hw', hq] at this
        rcases (hworker w v hw).2 hv2 with rfl | rfl
        · cases hl : s.lock with
          | none => have := hstill (.acquire w) (by simp); simp [step, hw, hl] at this
          | some u =>
            have hu := h.holder u hl
            have hget : s.workers[u]? = some s.workers[u] := List.getElem?_eq_getElem hu
            have hc := (h.lock u _ hget).mpr hl
            cases hx : s.workers[u] with
            | collecting items =>
              rw [hx] at hget
              have := (hworker u _ hget).1
              simp only [Worker.items] at this
              subst this
              exact hcol u hget
            | _ => rw [hx] at hc; simp [Worker.collects] at hc
        · exact hcol w hw
  · unfold held
    rw [List.flatMap_eq_nil_iff]
    intro v hv
    obtain ⟨w, hw⟩ := List.mem_iff_getElem?.mp hv
    exact (hworker w v hw).1

end

end NextPlaid.EncodePool
