import Verif.Proofs.EncodePool2

namespace NextPlaid.EncodePool

open NextPlaid.Spec

variable {T E : Type}

/-- A worker does not take more once its batch is full. -/
def InTime (c : Setup T E) (items : List (Item T)) : Prop := items.length ≤ 1 ∨ textCount items.dropLast < c.maxTexts

theorem set_all {ws : List (Worker T)} {P : Worker T → Prop} (h : ∀ v ∈ ws, P v) {w : Nat} {v' : Worker T} (hv : P v') : ∀ v ∈ ws.set w v', P v := by
  intro v hm
  rcases List.mem_or_eq_of_mem_set hm with hm | rfl
  · exact h v hm
  · exact hv

theorem step_inTime {c : Setup T E} {s s' : State T E} {e : Event T} (h : ∀ v ∈ s.workers, InTime c v.items) (hstep : step c s e = some s') :
    ∀ v ∈ s'.workers, InTime c v.items := by
  have hnil : InTime c ([] : List (Item T)) := Or.inl (Nat.zero_le _)
  cases e with
  | request item =>
    simp only [step] at hstep
    split at hstep <;> (simp only [Option.some.injEq] at hstep; subst hstep; exact h)
  | start w ok =>
    simp only [step] at hstep
    split at hstep
    · split at hstep <;> (simp only [Option.some.injEq] at hstep; subst hstep; exact set_all h hnil)
    · cases hstep
  | acquire w =>
    simp only [step] at hstep
    split at hstep
    · simp only [Option.some.injEq] at hstep; subst hstep; exact set_all h hnil
    · cases hstep
  | recv w =>
    simp only [step] at hstep
    split at hstep
    · rename_i items item rest hw hq
      split at hstep
      · rename_i hg
        simp only [Option.some.injEq] at hstep
        subst hstep
        refine set_all h ?_
        unfold InTime
        simp only [Worker.items, List.dropLast_concat, List.length_append, List.length_singleton]
        rcases hg with rfl | hg
        · left; simp
        · exact Or.inr hg
      · cases hstep
    · cases hstep
  | stop w =>
    simp only [step] at hstep
    split at hstep
    · rename_i i items hw
      simp only [Option.some.injEq] at hstep
      subst hstep
      exact set_all h (h (.collecting (i :: items)) (List.mem_of_getElem? hw))
    · cases hstep
  | finish w =>
    simp only [step] at hstep
    split at hstep
    · split at hstep <;> (simp only [Option.some.injEq] at hstep; subst hstep; exact set_all h hnil)
    · cases hstep

theorem run_inTime {c : Setup T E} : ∀ (es : List (Event T)) (s s' : State T E), (∀ v ∈ s.workers, InTime c v.items) → run c s es = some s' →
    ∀ v ∈ s'.workers, InTime c v.items := by
  intro es
  induction es with
  | nil =>
    intro s s' h hr
    simp only [run, Option.some.injEq] at hr
    subst hr
    exact h
  | cons e es ih =>
    intro s s' h hr
    simp only [run, Option.bind_eq_some_iff] at hr
    obtain ⟨s1, h1, h2⟩ := hr
    exact ih s1 s' (step_inTime h h1) h2

/-- Without panics, and if all models can be built, no worker ends. -/
theorem step_alive {c : Setup T E} {Enc : Input → Option Nat → T → E → Prop} (hs : SoundModel c Enc) (ho : ∀ l, (c.order l).Perm l)
    (hp : ∀ w, ¬ Panics c w) {s s' : State T E} {e : Event T} (he : ∀ w, e ≠ .start w false) (hstep : step c s e = some s')
    (h : (∀ v ∈ s.workers, v.alive = true) ∧ ∀ x ∈ s.answers, x.2 ≠ .dropped) :
    (∀ v ∈ s'.workers, v.alive = true) ∧ (∀ x ∈ s'.answers, x.2 ≠ .dropped) ∧ s'.workers.length = s.workers.length := by
  cases e with
  | request item =>
    simp only [step] at hstep
    split at hstep <;> (simp only [Option.some.injEq] at hstep; subst hstep; exact ⟨h.1, h.2, rfl⟩)
  | start w ok =>
    simp only [step] at hstep
    split at hstep
    · split at hstep
      · simp only [Option.some.injEq] at hstep
        subst hstep
        exact ⟨set_all h.1 rfl, h.2, List.length_set⟩
      · rename_i hok
        have : ok = false := by simpa using hok
        subst this
        exact absurd rfl (he w)
    · cases hstep
  | acquire w =>
    simp only [step] at hstep
    split at hstep
    · simp only [Option.some.injEq] at hstep
      subst hstep
      exact ⟨set_all h.1 rfl, h.2, List.length_set⟩
    · cases hstep
  | recv w =>
    simp only [step] at hstep
    split at hstep
    · split at hstep
      · simp only [Option.some.injEq] at hstep
        subst hstep
        exact ⟨set_all h.1 rfl, h.2, List.length_set⟩
      · cases hstep
    · cases hstep
  | stop w =>
    simp only [step] at hstep
    split at hstep
    · simp only [Option.some.injEq] at hstep
      subst hstep
      exact ⟨set_all h.1 rfl, h.2, List.length_set⟩
    · cases hstep
  | finish w =>
    simp only [step] at hstep
    split at hstep
    · rename_i items hw
      rcases processBatch_ok hs ho w items with ⟨h1, _⟩ | ⟨r, h1, h2, h3⟩
      · exact absurd h1 (hp w)
      · rw [h1] at hstep
        simp only [Option.some.injEq] at hstep
        subst hstep
        refine ⟨set_all h.1 rfl, ?_, List.length_set⟩
        intro x hx
        rcases List.mem_append.mp hx with hx | hx
        · exact h.2 x hx
        · rcases h3 x hx with ⟨es, he, _⟩ | ⟨he, _⟩ <;> rw [he] <;> simp
    · cases hstep

theorem run_alive {c : Setup T E} {Enc : Input → Option Nat → T → E → Prop} (hs : SoundModel c Enc) (ho : ∀ l, (c.order l).Perm l)
    (hp : ∀ w, ¬ Panics c w) : ∀ (es : List (Event T)) (s s' : State T E), (∀ w, Event.start w false ∉ es) →
    ((∀ v ∈ s.workers, v.alive = true) ∧ ∀ x ∈ s.answers, x.2 ≠ .dropped) → run c s es = some s' →
    (∀ v ∈ s'.workers, v.alive = true) ∧ (∀ x ∈ s'.answers, x.2 ≠ .dropped) ∧ s'.workers.length = s.workers.length := by
  intro es
  induction es with
  | nil =>
    intro s s' _ h hr
    simp only [run, Option.some.injEq] at hr
    subst hr
    exact ⟨h.1, h.2, rfl⟩
  | cons e es ih =>
    intro s s' he h hr
    simp only [run, Option.bind_eq_some_iff] at hr
    obtain ⟨s1, h1, h2⟩ := hr
    obtain ⟨a1, a2, a3⟩ := step_alive hs ho hp (fun w e' => he w (by simp [e'])) h1 h
    obtain ⟨b1, b2, b3⟩ := ih s1 s' (fun w hm => he w (by simp [hm])) ⟨a1, a2⟩ h2
    exact ⟨b1, b2, b3.trans a3⟩

/-- Without workers nothing happens any more. -/
theorem step_lost {c : Setup T E} {s s' : State T E} {e : Event T} (h : ∀ v ∈ s.workers, v.alive = false) (hstep : step c s e = some s') : s' = s := by
  have hgone : ∀ (w : Nat) (v : Worker T), s.workers[w]? = some v → v = .gone := by
    intro w v hv
    have := h v (List.mem_of_getElem? hv)
    cases v <;> simp [Worker.alive] at this ⊢
  cases e with
  | request item =>
    simp only [step] at hstep
    have : s.workers.any Worker.alive = false := by
      rw [List.any_eq_false]
      intro v hv
      rw [h v hv]
      simp
    rw [this] at hstep
    simpa [eq_comm] using hstep
  | start w ok =>
    simp only [step] at hstep
    split at hstep
    · rename_i hw
      cases hgone w _ hw
    · cases hstep
  | acquire w =>
    simp only [step] at hstep
    split at hstep
    · rename_i hw _
      cases hgone w _ hw
    · cases hstep
  | recv w =>
    simp only [step] at hstep
    split at hstep
    · rename_i hw _
      cases hgone w _ hw
    · cases hstep
  | stop w =>
    simp only [step] at hstep
    split at hstep
    · rename_i hw
      cases hgone w _ hw
    · cases hstep
  | finish w =>
    simp only [step] at hstep
    split at hstep
    · rename_i hw
      cases hgone w _ hw
    · cases hstep

theorem run_lost {c : Setup T E} : ∀ (es : List (Event T)) (s s' : State T E), (∀ v ∈ s.workers, v.alive = false) → run c s es = some s' → s' = s := by
  intro es
  induction es with
  | nil => intro s s' _ hr; simpa [run, eq_comm] using hr
  | cons e es ih =>
    intro s s' h hr
    simp only [run, Option.bind_eq_some_iff] at hr
    obtain ⟨s1, h1, h2⟩ := hr
    have := step_lost h h1
    subst this
    exact ih _ s' h h2

theorem processBatch_one {c : Setup T E} (ho : ∀ l, (c.order l).Perm l) (w : Nat) (item : Item T)
    (hp : c.encode w item.input (factorOf item) item.texts = .error .panic) : processBatch c w [item] = .error .panic := by
  unfold factorOf at hp
  cases hin : item.input with
  | query =>
    rw [hin] at hp
    unfold processBatch
    simp only [List.zipIdx_cons, List.zipIdx_nil, List.map_cons, List.map_nil, List.filter_cons, List.filter_nil, hin, decide_true, if_true]
    simp [encodeGroup, hp]
  | document =>
    rw [hin] at hp
    have h1 : c.order [item.factor] = [item.factor] := List.perm_singleton.mp (ho _)
    unfold processBatch
    simp only [List.zipIdx_cons, List.zipIdx_nil, List.map_cons, List.map_nil, List.filter_cons, List.filter_nil, hin]
    simp [encodeGroups, encodeGroup, hp, h1]

theorem run_append (c : Setup T E) : ∀ (es fs : List (Event T)) (s : State T E), run c s (es ++ fs) = (run c s es).bind fun s' => run c s' fs := by
  intro es
  induction es with
  | nil => intro fs s; rfl
  | cons e es ih =>
    intro fs s
    simp only [List.cons_append, run]
    cases step c s e with
    | none => rfl
    | some s1 => exact ih fs s1

/-- One bad request ends one worker. -/
theorem one_lost {c : Setup T E} (ho : ∀ l, (c.order l).Perm l) (hcap : 0 < c.capacity) (item : Item T)
    (hp : ∀ w, c.encode w item.input (factorOf item) item.texts = .error .panic) (k m : Nat) (answers : List (Item T × Answer E)) (accepted : List (Item T)) :
    run c ⟨[], List.replicate k .gone ++ List.replicate (m + 1) .starting, none, answers, accepted⟩
      [.start k true, .request item, .acquire k, .recv k, .stop k, .finish k] =
      some ⟨[], List.replicate (k + 1) .gone ++ List.replicate m .starting, none, answers ++ [(item, .dropped)], accepted ++ [item]⟩ := by
  have hget : ∀ v : Worker T, (List.replicate k (.gone : Worker T) ++ v :: List.replicate m .starting)[k]? = some v := by
    intro v
    rw [List.getElem?_append_right (by simp)]
    simp
  have hset : ∀ v v' : Worker T, (List.replicate k (.gone : Worker T) ++ v :: List.replicate m .starting).set k v' =
      List.replicate k .gone ++ v' :: List.replicate m .starting := by
    intro v v'
    rw [List.set_append, if_neg (by simp)]
    simp
  have hgone : List.replicate k (.gone : Worker T) ++ .gone :: List.replicate m .starting = List.replicate (k + 1) .gone ++ List.replicate m .starting := by
    rw [List.replicate_succ', List.append_assoc]
    rfl
  have hlive : ∀ v : Worker T, v.alive = true → (List.replicate k (.gone : Worker T) ++ v :: List.replicate m .starting).any Worker.alive = true :=
    fun v hv => List.any_eq_true.mpr ⟨v, by simp, hv⟩
  rw [List.replicate_succ]
  simp only [run, step, hget, hset, if_true, Option.bind_some, hlive .waiting rfl, List.length_nil, true_and, hcap, List.nil_append,
    true_or, processBatch_one ho k item (hp k)]
  simp only [leave, hset, hgone, List.append_nil]
  simp

theorem all_lost {c : Setup T E} (ho : ∀ l, (c.order l).Perm l) (hcap : 0 < c.capacity) (item : Item T)
    (hp : ∀ w, c.encode w item.input (factorOf item) item.texts = .error .panic) : ∀ (m k : Nat) (answers : List (Item T × Answer E))
    (accepted : List (Item T)), ∃ es, run c ⟨[], List.replicate k .gone ++ List.replicate m .starting, none, answers, accepted⟩ es =
      some ⟨[], List.replicate (k + m) .gone, none, answers ++ List.replicate m (item, .dropped), accepted ++ List.replicate m item⟩ := by
  intro m
  induction m with
  | zero => intro k answers accepted; exact ⟨[], by simp [run]⟩
  | succ m ih =>
    intro k answers accepted
    obtain ⟨es, h⟩ := ih (k + 1) (answers ++ [(item, .dropped)]) (accepted ++ [item])
    refine ⟨[.start k true, .request item, .acquire k, .recv k, .stop k, .finish k] ++ es, ?_⟩
    rw [run_append, one_lost ho hcap item hp k m answers accepted, Option.bind_some, h]
    simp only [Option.some.injEq, State.mk.injEq, true_and]
    refine ⟨by rw [show k + 1 + m = k + (m + 1) by omega], ?_, ?_⟩
    · rw [List.append_assoc, List.replicate_succ]; rfl
    · rw [List.append_assoc, List.replicate_succ]; rfl

end NextPlaid.EncodePool
