import Verif.Proofs.Slots

/-! Lemmas on loaded indices: one loader at a time, snapshots that readers have, and fresh reads. -/

namespace NextPlaid.Slots
open NextPlaid NextPlaid.Spec

/-- The thread that loads has the loading lock. -/
def Locked (s : State) : Prop := ∀ i p, s.threads[i]? = some p → loading p = true → s.loader = some i

theorem advance_locked {s s' : State} {i : Nat} {p : Phase} (h : Locked s) (hi : s.threads[i]? = some p)
    (hs : advance s i p = some s') : Locked s' := by
  have hlt := (List.getElem?_eq_some_iff.1 hi).1
  -- a step to a phase that is not loading, which keeps the lock, by a thread that has not got it
  have keep : ∀ (s1 : State) (q : Phase), s1.threads = s.threads.set i q → loading q = false → s1.loader = s.loader → Locked s1 := by
    intro s1 q ht hq hl j p' hj hp'
    rw [ht] at hj
    by_cases hji : i = j
    · subst hji
      rw [List.getElem?_set_self hlt] at hj; cases hj
      rw [hq] at hp'; cases hp'
    · rw [List.getElem?_set_ne hji] at hj
      rw [hl]; exact h j p' hj hp'
  -- a step to a loading phase by the thread that has the lock
  have stay : ∀ (s1 : State) (q : Phase), s1.threads = s.threads.set i q → loading p = true → s1.loader = s.loader → Locked s1 := by
    intro s1 q ht hp hl j p' hj hp'
    rw [ht] at hj
    by_cases hji : i = j
    · subst hji; rw [hl]; exact h i p hi hp
    · rw [List.getElem?_set_ne hji] at hj
      rw [hl]; exact h j p' hj hp'
  -- the step by which it is released
  have rel : ∀ (s1 : State) (q : Phase), s1.threads = s.threads.set i q → loading p = true → loading q = false → Locked s1 := by
    intro s1 q ht hp hq j p' hj hp'
    rw [ht] at hj
    by_cases hji : i = j
    · subst hji
      rw [List.getElem?_set_self hlt] at hj; cases hj
      rw [hq] at hp'; cases hp'
    · rw [List.getElem?_set_ne hji] at hj
      have h1 := h j p' hj hp'
      rw [h i p hi hp] at h1
      exact absurd (Option.some.inj h1) hji
  cases p with
  | rStart => simp only [advance] at hs; split at hs <;> cases hs <;> exact keep _ _ rfl rfl rfl
  | rWait =>
    simp only [advance] at hs
    split at hs
    · next hn =>
      cases hs
      intro j p' hj hp'
      simp only [setPhase] at hj ⊢
      by_cases hji : i = j
      · subst hji; rfl
      · rw [List.getElem?_set_ne hji] at hj
        rw [h j p' hj hp'] at hn; cases hn
    · cases hs
  | rLocked =>
    simp only [advance] at hs
    split at hs
    · cases hs; exact rel _ _ rfl rfl rfl
    · cases hs; exact stay _ _ rfl rfl rfl
  | rMissing =>
    simp only [advance] at hs
    split at hs
    · cases hs; exact stay _ _ rfl rfl rfl
    · cases hs; exact rel _ _ rfl rfl rfl
  | rLoaded v => simp only [advance] at hs; cases hs; exact stay _ _ rfl rfl rfl
  | rInserted => simp only [advance] at hs; split at hs <;> cases hs <;> exact rel _ _ rfl rfl rfl
  | rSlot k =>
    simp only [advance] at hs
    split at hs
    · cases hs; exact keep _ _ rfl rfl rfl
    · cases hs
  | rHas v => simp only [advance] at hs; cases hs
  | rFailed => simp only [advance] at hs; cases hs
  | pStart r => simp only [advance] at hs; split at hs <;> cases hs <;> exact keep _ _ rfl rfl rfl
  | pLoaded r v =>
    simp only [advance] at hs
    split at hs
    · cases hs; exact keep _ _ rfl rfl rfl
    · cases hs
      cases r
      · exact keep _ _ rfl rfl rfl
      · exact keep _ _ rfl rfl rfl
  | pInsert v => simp only [advance] at hs; cases hs; exact keep _ _ rfl rfl rfl
  | pDone => simp only [advance] at hs; cases hs

theorem step_locked {s s' : State} {e : Event} (h : Locked s) (hs : step s e = some s') : Locked s' := by
  have app : ∀ q : Phase, loading q = false → Locked { s with threads := s.threads ++ [q] } := by
    intro q hq j p' hj hp'
    simp only at hj
    rw [List.getElem?_append] at hj
    split at hj
    · exact h j p' hj hp'
    · rw [List.getElem?_singleton] at hj
      split at hj
      · cases hj; rw [hq] at hp'; cases hp'
      · cases hj
  cases e with
  | write => cases hs; exact h
  | remove => cases hs; exact h
  | unload => cases hs; exact h
  | read => cases hs; exact app _ rfl
  | publish r => cases hs; exact app _ rfl
  | next i =>
    simp only [step] at hs
    split at hs
    · cases hs
    · next p hi => exact advance_locked h hi hs

theorem run_locked {s s' : State} {es : List Event} (h : Locked s) (hs : run s es = some s') : Locked s' := by
  induction es generalizing s with
  | nil => cases hs; exact h
  | cons e es ih =>
    simp only [run, Option.bind_eq_some_iff] at hs
    obtain ⟨s1, h1, h2⟩ := hs
    exact ih (step_locked h h1) h2

theorem locked_start : Locked {} := by intro i p hi; simp at hi

/-- The snapshots that readers have are recorded. -/
def Recorded (s : State) : Prop := ∀ v, .rHas v ∈ s.threads → v ∈ s.seen

theorem step_recorded {s s' : State} {e : Event} (h : Recorded s) (hs : step s e = some s') : Recorded s' := by
  have app : ∀ q : Phase, (∀ v, q ≠ .rHas v) → Recorded { s with threads := s.threads ++ [q] } := by
    intro q hq v hv
    simp only [List.mem_append, List.mem_singleton] at hv
    rcases hv with hv | hv
    · exact h v hv
    · exact absurd hv.symm (hq v)
  have set' : ∀ (s1 : State) (i : Nat) (q : Phase), s1.threads = s.threads.set i q → (∀ v, q ≠ .rHas v) → s1.seen = s.seen →
      Recorded s1 := by
    intro s1 i q ht hq hl v hv
    rw [ht] at hv
    rw [hl]
    rcases mem_set hv with hv | hv
    · exact h v hv
    · exact absurd hv.symm (hq v)
  cases e with
  | write => cases hs; exact h
  | remove => cases hs; exact h
  | unload => cases hs; exact h
  | read => cases hs; exact app _ (by simp)
  | publish r => cases hs; exact app _ (by simp)
  | next i =>
    simp only [step] at hs
    split at hs
    · cases hs
    · next p hi =>
      cases p
      case rSlot k =>
        simp only [advance] at hs
        split at hs
        · next w hw =>
          cases hs
          intro v hv
          simp only [setPhase, List.mem_append, List.mem_singleton] at hv ⊢
          rcases mem_set hv with hv | hv
          · exact .inl (h v hv)
          · cases hv; exact .inr rfl
        · cases hs
      all_goals simp only [advance] at hs
      all_goals first
        | (cases hs; done)
        | (cases hs; exact set' _ i _ rfl (by simp) rfl)
        | (split at hs <;> first
            | (cases hs; done)
            | (cases hs; exact set' _ i _ rfl (by simp) rfl)
            | (cases hs; split <;> exact set' _ i _ rfl (by simp) rfl))

theorem run_recorded {s s' : State} {es : List Event} (h : Recorded s) (hs : run s es = some s') : Recorded s' := by
  induction es generalizing s with
  | nil => cases hs; exact h
  | cons e es ih =>
    simp only [run, Option.bind_eq_some_iff] at hs
    obtain ⟨s1, h1, h2⟩ := hs
    exact ih (step_recorded h h1) h2

theorem recorded_start : Recorded {} := by intro v hv; simp at hv

/-! ### Fresh reads -/

/-- Thread `i` publishes a version that is at least `d`. -/
def Publishes (d i : Nat) (s : State) : Prop :=
  match s.threads[i]? with
  | some (.pStart _) => d ≤ s.disk ∧ s.present = true
  | some (.pLoaded _ v) => d ≤ v
  | some (.pInsert v) => d ≤ v
  | some .pDone => ∃ v, s.slots[0]? = some v ∧ d ≤ v
  | _ => False

theorem slot_grows {s s' : State} {j : Nat} {p : Phase} (h : Ordered s) (hi : s.threads[j]? = some p) (hs : advance s j p = some s')
    {v : Nat} (hv : s.slots[0]? = some v) : ∃ v', s'.slots[0]? = some v' ∧ v ≤ v' := by
  have hp : p ∈ s.threads := List.mem_of_getElem? hi
  have hne : s.slots ≠ [] := by intro hn; rw [hn] at hv; cases hv
  have same : ∀ s1 : State, s1.slots = s.slots → ∃ v', s1.slots[0]? = some v' ∧ v ≤ v' := fun s1 h1 => ⟨v, by rw [h1]; exact hv, Nat.le_refl _⟩
  cases p
  case rLoaded w => exact absurd (h.ins _ hp (.inr ⟨w, .inl rfl⟩)) hne
  case pInsert w => exact absurd (h.ins _ hp (.inr ⟨w, .inr rfl⟩)) hne
  case pLoaded r w =>
    simp only [advance, h.entry hne] at hs
    cases hs
    refine ⟨w, ?_, h.carry _ hp w rfl v (List.mem_of_getElem? hv)⟩
    have : 0 < s.slots.length := List.length_pos_iff.2 hne
    simp only [setPhase, store]
    exact List.getElem?_set_self this
  all_goals simp only [advance] at hs
  all_goals first
    | (cases hs; done)
    | (cases hs; exact same _ rfl)
    | (split at hs <;> first
        | (cases hs; done)
        | (cases hs; exact same _ rfl))

theorem step_publishes {s s' : State} {e : Event} {d i : Nat} (h : Ordered s) (he : e ≠ .unload) (hr : e ≠ .remove)
    (hp : Publishes d i s) (hs : step s e = some s') : Publishes d i s' := by
  have hlt : i < s.threads.length := by
    by_contra hn
    unfold Publishes at hp
    rw [List.getElem?_eq_none (by omega)] at hp
    exact hp
  cases e with
  | unload => exact absurd rfl he
  | remove => exact absurd rfl hr
  | write =>
    cases hs
    unfold Publishes at hp ⊢
    dsimp only at hp ⊢
    split at hp
    · exact ⟨by omega, rfl⟩
    · exact hp
    · exact hp
    · exact hp
    · exact hp.elim
  | read =>
    cases hs
    unfold Publishes at hp ⊢
    dsimp only at hp ⊢
    rw [List.getElem?_append_left hlt]
    exact hp
  | publish r =>
    cases hs
    unfold Publishes at hp ⊢
    dsimp only at hp ⊢
    rw [List.getElem?_append_left hlt]
    exact hp
  | next j =>
    simp only [step] at hs
    split at hs
    · cases hs
    · next p hj =>
      by_cases hij : j = i
      · subst hij
        unfold Publishes at hp
        rw [hj] at hp
        cases p <;> simp only [] at hp
        case pStart r =>
          simp only [advance, hp.2, if_true] at hs
          cases hs
          unfold Publishes
          simp only [setPhase, List.getElem?_set_self hlt]
          exact hp.1
        case pLoaded r w =>
          simp only [advance] at hs
          split at hs
          · next k hk =>
            cases hs
            have hne : s.slots ≠ [] := by intro hn; rw [(h.empty hn).1] at hk; cases hk
            have hk0 : k = 0 := by rw [h.entry hne] at hk; cases hk; rfl
            subst hk0
            unfold Publishes
            simp only [setPhase, store, List.getElem?_set_self hlt]
            exact ⟨w, List.getElem?_set_self (List.length_pos_iff.2 hne), hp⟩
          · next hn =>
            have hsl : s.slots = [] := by
              by_contra hne
              rw [h.entry hne] at hn; cases hn
            cases hs
            cases r
            · unfold Publishes
              simp only [setPhase, Bool.false_eq_true, if_false, List.getElem?_set_self hlt]
              exact hp
            · unfold Publishes
              simp only [setPhase, if_true, Slots.insert, List.getElem?_set_self hlt, hsl]
              exact ⟨w, rfl, hp⟩
        case pInsert w =>
          have hsl := h.ins _ (List.mem_of_getElem? hj) (.inr ⟨w, .inr rfl⟩)
          simp only [advance] at hs
          cases hs
          unfold Publishes
          simp only [setPhase, Slots.insert, List.getElem?_set_self hlt, hsl]
          exact ⟨w, rfl, hp⟩
        case pDone => simp only [advance] at hs; cases hs
      · have hth : s'.threads[i]? = s.threads[i]? := by
          have set' : ∀ q, (s.threads.set j q)[i]? = s.threads[i]? := fun q => List.getElem?_set_ne hij
          cases p <;> simp only [advance] at hs <;> try (cases hs; done)
          all_goals first
            | (cases hs; exact set' _)
            | (split at hs <;> first | (cases hs; done) | (cases hs; exact set' _) | (cases hs; split <;> exact set' _))
        have hdp : s'.disk = s.disk ∧ s'.present = s.present := by
          cases p <;> simp only [advance] at hs <;> try (cases hs; done)
          all_goals first
            | (cases hs; exact ⟨rfl, rfl⟩)
            | (split at hs <;> first | (cases hs; done) | (cases hs; exact ⟨rfl, rfl⟩) | (cases hs; split <;> exact ⟨rfl, rfl⟩))
        unfold Publishes at hp ⊢
        rw [hth, hdp.1, hdp.2]
        split at hp
        · exact hp
        · exact hp
        · exact hp
        · obtain ⟨v, hv, hdv⟩ := hp
          obtain ⟨v', hv', hle⟩ := slot_grows h hj hs hv
          exact ⟨v', hv', by omega⟩
        · exact hp.elim

theorem run_publishes {s s' : State} {es : List Event} {d i : Nat} (h : Ordered s) (he : .unload ∉ es) (hr : .remove ∉ es)
    (ho : noOverlap s es) (hp : Publishes d i s) (hs : run s es = some s') : Ordered s' ∧ Publishes d i s' := by
  induction es generalizing s with
  | nil => cases hs; exact ⟨h, hp⟩
  | cons e es ih =>
    simp only [run, Option.bind_eq_some_iff] at hs
    obtain ⟨s1, h1, h2⟩ := hs
    obtain ⟨hc, ho'⟩ := ho s1 h1
    have he1 : e ≠ .unload := fun h' => he (by simp [h'])
    exact ih (step_ordered h he1 h1 hc) (fun h' => he (by simp [h'])) (fun h' => hr (by simp [h'])) ho'
      (step_publishes h he1 (fun h' => hr (by simp [h'])) hp h1) h2

/-- What one step adds to what was seen. -/
theorem step_seen {s s' : State} {e : Event} (h : Ordered s) (hs : step s e = some s') :
    s'.seen = s.seen ∨ ∃ v, s.slots[0]? = some v ∧ s'.seen = s.seen ++ [v] := by
  cases e with
  | write => cases hs; exact .inl rfl
  | remove => cases hs; exact .inl rfl
  | unload => cases hs; exact .inl rfl
  | read => cases hs; exact .inl rfl
  | publish r => cases hs; exact .inl rfl
  | next i =>
    simp only [step] at hs
    split at hs
    · cases hs
    · next p hi =>
      cases p
      case rSlot k =>
        simp only [advance] at hs
        split at hs
        · next v hv =>
          cases hs
          have hk : k = 0 := by
            have := (List.getElem?_eq_some_iff.1 hv).1
            have := h.one; omega
          subst hk
          exact .inr ⟨v, hv, rfl⟩
        · cases hs
      all_goals simp only [advance] at hs
      all_goals first
        | (cases hs; done)
        | (cases hs; exact .inl rfl)
        | (split at hs <;> first
            | (cases hs; done)
            | (cases hs; exact .inl rfl)
            | (cases hs; split <;> exact .inl rfl))

theorem step_done {s s' : State} {e : Event} {i : Nat} (h : s.threads[i]? = some .pDone) (hs : step s e = some s') :
    s'.threads[i]? = some .pDone := by
  have hlt := (List.getElem?_eq_some_iff.1 h).1
  have set' : ∀ j q, j ≠ i → (s.threads.set j q)[i]? = some .pDone := by
    intro j q hj; rw [List.getElem?_set_ne hj]; exact h
  cases e with
  | write => cases hs; exact h
  | remove => cases hs; exact h
  | unload => cases hs; exact h
  | read => cases hs; simp only [List.getElem?_append_left hlt]; exact h
  | publish r => cases hs; simp only [List.getElem?_append_left hlt]; exact h
  | next j =>
    simp only [step] at hs
    split at hs
    · cases hs
    · next p hj =>
      have hji : j ≠ i := by
        rintro rfl
        rw [h] at hj; cases hj
        simp only [advance] at hs; cases hs
      cases p <;> simp only [advance] at hs <;> try (cases hs; done)
      all_goals first
        | (cases hs; exact set' _ _ hji)
        | (split at hs <;> first | (cases hs; done) | (cases hs; exact set' _ _ hji) | (cases hs; split <;> exact set' _ _ hji))

theorem run_fresh {s s' : State} {es : List Event} {d i : Nat} (h : Ordered s) (he : .unload ∉ es) (hr : .remove ∉ es)
    (ho : noOverlap s es) (hp : Publishes d i s) (hd : s.threads[i]? = some .pDone) (hs : run s es = some s') :
    ∃ later, s'.seen = s.seen ++ later ∧ ∀ v ∈ later, d ≤ v := by
  induction es generalizing s with
  | nil => cases hs; exact ⟨[], by simp, by simp⟩
  | cons e es ih =>
    simp only [run, Option.bind_eq_some_iff] at hs
    obtain ⟨s1, h1, h2⟩ := hs
    obtain ⟨hc, ho'⟩ := ho s1 h1
    have he1 : e ≠ .unload := fun h' => he (by simp [h'])
    obtain ⟨later, hl, hle⟩ := ih (step_ordered h he1 h1 hc) (fun h' => he (by simp [h'])) (fun h' => hr (by simp [h'])) ho'
      (step_publishes h he1 (fun h' => hr (by simp [h'])) hp h1) (step_done hd h1) h2
    rcases step_seen h h1 with h3 | ⟨v, hv, h3⟩
    · exact ⟨later, by rw [hl, h3], hle⟩
    · refine ⟨v :: later, by rw [hl, h3]; simp, ?_⟩
      intro w hw
      rcases List.mem_cons.1 hw with rfl | hw
      · unfold Publishes at hp
        rw [hd] at hp
        obtain ⟨v', hv', hdv⟩ := hp
        rw [hv] at hv'; cases hv'; exact hdv
      · exact hle w hw

theorem run_append {s : State} {es es' : List Event} : run s (es ++ es') = (run s es).bind fun s' => run s' es' := by
  induction es generalizing s with
  | nil => rfl
  | cons e es ih =>
    simp only [List.cons_append, run]
    cases step s e with
    | none => rfl
    | some s1 => exact ih

theorem noOverlap_append {s s' : State} {es es' : List Event} (h : noOverlap s (es ++ es')) (hs : run s es = some s') :
    noOverlap s es ∧ noOverlap s' es' := by
  induction es generalizing s with
  | nil => cases hs; exact ⟨trivial, h⟩
  | cons e es ih =>
    simp only [run, Option.bind_eq_some_iff] at hs
    obtain ⟨s1, h1, h2⟩ := hs
    obtain ⟨hc, ho'⟩ := h s1 h1
    obtain ⟨h3, h4⟩ := ih ho' h2
    refine ⟨?_, h4⟩
    intro s2 hs2
    rw [h1] at hs2; cases hs2
    exact ⟨hc, h3⟩

end NextPlaid.Slots
