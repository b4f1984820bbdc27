import Mathlib.Tactic.ByContra
import Verif.Spec.Slots

/-! Lemmas on loaded indices. -/

namespace NextPlaid.Slots
open NextPlaid NextPlaid.Spec

theorem mem_set {α : Type} {l : List α} {i : Nat} {a b : α} (h : b ∈ l.set i a) : b ∈ l ∨ b = a :=
  List.mem_or_eq_of_mem_set h

/-- Versions come from the directory. -/
structure Genuine (s : State) : Prop where
  loads : ∀ v ∈ s.loads, v ≤ s.disk
  slots : ∀ v ∈ s.slots, v ∈ s.loads
  seen : ∀ v ∈ s.seen, v ∈ s.loads
  carried : ∀ p ∈ s.threads, ∀ v, carried p = some v → v ∈ s.loads
  entry : ∀ k, s.entry = some k → k < s.slots.length

theorem advance_genuine {s s' : State} {i : Nat} {p : Phase} (h : Genuine s) (hi : s.threads[i]? = some p)
    (hs : advance s i p = some s') : Genuine s' := by
  have hp : p ∈ s.threads := List.mem_of_getElem? hi
  have thr : ∀ q : Phase, (∀ v, Spec.carried q = some v → v ∈ s.loads) →
      ∀ p' ∈ s.threads.set i q, ∀ v, Spec.carried p' = some v → v ∈ s.loads := by
    intro q hq p' hp' v hv
    rcases mem_set hp' with h1 | h1
    · exact h.carried p' h1 v hv
    · subst h1; exact hq v hv
  have none' : ∀ q : Phase, Spec.carried q = none → ∀ v, Spec.carried q = some v → v ∈ s.loads := by
    intro q hq v hv; rw [hq] at hv; cases hv
  have ins : ∀ v, v ∈ s.loads → Genuine (setPhase (insert s v) i .pDone) ∧ Genuine (setPhase (insert s v) i .rInserted) := by
    intro v hv
    constructor <;>
    · refine ⟨h.loads, ?_, h.seen, thr _ (none' _ rfl), ?_⟩
      · intro w hw
        simp only [setPhase, insert, List.mem_append, List.mem_singleton] at hw
        rcases hw with hw | rfl
        · exact h.slots w hw
        · exact hv
      · intro k hk
        simp only [setPhase, insert, Option.some.injEq, List.length_append, List.length_singleton] at hk ⊢
        omega
  cases p with
  | rStart =>
    simp only [advance] at hs
    split at hs <;> cases hs <;> exact ⟨h.loads, h.slots, h.seen, thr _ (none' _ rfl), h.entry⟩
  | rWait =>
    simp only [advance] at hs
    split at hs <;> cases hs
    exact ⟨h.loads, h.slots, h.seen, thr _ (none' _ rfl), h.entry⟩
  | rLocked =>
    simp only [advance] at hs
    split at hs <;> cases hs <;> exact ⟨h.loads, h.slots, h.seen, thr _ (none' _ rfl), h.entry⟩
  | rMissing =>
    simp only [advance] at hs
    split at hs
    · cases hs
      refine ⟨?_, fun v hv => List.mem_append_left _ (h.slots v hv), fun v hv => List.mem_append_left _ (h.seen v hv), ?_, h.entry⟩
      · intro v hv
        simp only [setPhase, List.mem_append, List.mem_singleton] at hv
        rcases hv with hv | rfl
        · exact h.loads v hv
        · exact Nat.le_refl _
      · intro p' hp' v hv
        rcases mem_set hp' with h1 | h1
        · exact List.mem_append_left _ (h.carried p' h1 v hv)
        · subst h1; cases hv; simp [setPhase]
    · cases hs; exact ⟨h.loads, h.slots, h.seen, thr _ (none' _ rfl), h.entry⟩
  | rLoaded v =>
    simp only [advance] at hs
    cases hs
    exact (ins v (h.carried _ hp v rfl)).2
  | rInserted =>
    simp only [advance] at hs
    split at hs <;> cases hs <;> exact ⟨h.loads, h.slots, h.seen, thr _ (none' _ rfl), h.entry⟩
  | rSlot k =>
    simp only [advance] at hs
    split at hs
    · next v hv =>
      cases hs
      refine ⟨h.loads, h.slots, ?_, thr _ (none' _ rfl), h.entry⟩
      intro w hw
      simp only [setPhase, List.mem_append, List.mem_singleton] at hw
      rcases hw with hw | rfl
      · exact h.seen w hw
      · exact h.slots w (List.mem_of_getElem? hv)
    · cases hs
  | rHas v => simp only [advance] at hs; cases hs
  | rFailed => simp only [advance] at hs; cases hs
  | pStart r =>
    simp only [advance] at hs
    split at hs
    · cases hs
      refine ⟨?_, fun v hv => List.mem_append_left _ (h.slots v hv), fun v hv => List.mem_append_left _ (h.seen v hv), ?_, h.entry⟩
      · intro v hv
        simp only [setPhase, List.mem_append, List.mem_singleton] at hv
        rcases hv with hv | rfl
        · exact h.loads v hv
        · exact Nat.le_refl _
      · intro p' hp' v hv
        rcases mem_set hp' with h1 | h1
        · exact List.mem_append_left _ (h.carried p' h1 v hv)
        · subst h1; cases hv; simp [setPhase]
    · cases hs; exact ⟨h.loads, h.slots, h.seen, thr _ (none' _ rfl), h.entry⟩
  | pLoaded r v =>
    have hv := h.carried _ hp v rfl
    simp only [advance] at hs
    split at hs
    · next k hk =>
      cases hs
      refine ⟨h.loads, ?_, h.seen, thr _ (none' _ rfl), ?_⟩
      · intro w hw
        rcases mem_set hw with h1 | h1
        · exact h.slots w h1
        · subst h1; exact hv
      · intro k' hk'
        simp only [setPhase, store, List.length_set]
        exact h.entry k' hk'
    · cases hs
      split
      · exact (ins v hv).1
      · exact ⟨h.loads, h.slots, h.seen, thr _ (fun w hw => by cases hw; exact hv), h.entry⟩
  | pInsert v =>
    simp only [advance] at hs
    cases hs
    exact (ins v (h.carried _ hp v rfl)).1
  | pDone => simp only [advance] at hs; cases hs

theorem step_genuine {s s' : State} {e : Event} (h : Genuine s) (hs : step s e = some s') : Genuine s' := by
  have app : ∀ q : Phase, Spec.carried q = none → ∀ p' ∈ s.threads ++ [q], ∀ v, Spec.carried p' = some v → v ∈ s.loads := by
    intro q hq p' hp' v hv
    simp only [List.mem_append, List.mem_singleton] at hp'
    rcases hp' with h1 | rfl
    · exact h.carried p' h1 v hv
    · rw [hq] at hv; cases hv
  cases e with
  | write => cases hs; exact ⟨fun v hv => Nat.le_succ_of_le (h.loads v hv), h.slots, h.seen, h.carried, h.entry⟩
  | remove => cases hs; exact ⟨h.loads, h.slots, h.seen, h.carried, h.entry⟩
  | unload => cases hs; exact ⟨h.loads, h.slots, h.seen, h.carried, fun k hk => by cases hk⟩
  | read => cases hs; exact ⟨h.loads, h.slots, h.seen, app _ rfl, h.entry⟩
  | publish r => cases hs; exact ⟨h.loads, h.slots, h.seen, app _ rfl, h.entry⟩
  | next i =>
    simp only [step] at hs
    split at hs
    · cases hs
    · next p hi => exact advance_genuine h hi hs

theorem run_genuine {s s' : State} {es : List Event} (h : Genuine s) (hs : run s es = some s') : Genuine s' := by
  induction es generalizing s with
  | nil => cases hs; exact h
  | cons e es ih =>
    simp only [run, Option.bind_eq_some_iff] at hs
    obtain ⟨s1, h1, h2⟩ := hs
    exact ih (step_genuine h h1) h2

theorem genuine_start : Genuine {} := by constructor <;> simp

/-- A reader keeps its snapshot. -/
theorem step_has {s s' : State} {e : Event} {i v : Nat} (h : s.threads[i]? = some (.rHas v)) (hs : step s e = some s') :
    s'.threads[i]? = some (.rHas v) := by
  have hlt := (List.getElem?_eq_some_iff.1 h).1
  have set' : ∀ j q, j ≠ i → (s.threads.set j q)[i]? = some (.rHas v) := by
    intro j q hj; rw [List.getElem?_set_ne hj]; exact h
  cases e with
  | write => cases hs; exact h
  | remove => cases hs; exact h
  | unload => cases hs; exact h
  | read => cases hs; simp only [List.getElem?_append_left hlt]; exact h
  | publish r => cases hs; simp only [List.getElem?_append_left hlt]; exact h
  | next j =>
    simp only [step] at hs
    split at hs
    · cases hs
    · next p hj =>
      have hji : j ≠ i := by
        rintro rfl
        rw [h] at hj; cases hj
        simp only [advance] at hs; cases hs
      cases p <;> simp only [advance] at hs <;> try (cases hs; done)
      all_goals first
        | (cases hs; exact set' _ _ hji)
        | (split at hs <;> first | (cases hs; done) | (cases hs; exact set' _ _ hji) | (cases hs; split <;> exact set' _ _ hji))

theorem run_has {s s' : State} {es : List Event} {i v : Nat} (h : s.threads[i]? = some (.rHas v)) (hs : run s es = some s') :
    s'.threads[i]? = some (.rHas v) := by
  induction es generalizing s with
  | nil => cases hs; exact h
  | cons e es ih =>
    simp only [run, Option.bind_eq_some_iff] at hs
    obtain ⟨s1, h1, h2⟩ := hs
    exact ih (step_has h h1) h2

/-! ### Publications that do not overlap -/

theorem alone {i : Nat} {l : List Phase} {p q : Phase} (h : l[i]? = some p) (hl : l.countP publishing ≤ 1)
    (hp : publishing p = true) : ∀ p' ∈ l.set i q, publishing p' = true → p' = q := by
  induction l generalizing i with
  | nil => simp at h
  | cons a l ih =>
    cases i with
    | zero =>
      simp only [List.getElem?_cons_zero, Option.some.injEq] at h
      subst h
      rw [List.countP_cons, if_pos hp] at hl
      have h0 : l.countP publishing = 0 := by omega
      intro p' hp' hc
      simp only [List.set_cons_zero, List.mem_cons] at hp'
      rcases hp' with h1 | h1
      · exact h1
      · rw [List.countP_eq_zero] at h0
        exact absurd hc (h0 p' h1)
    | succ i =>
      simp only [List.getElem?_cons_succ] at h
      rw [List.countP_cons] at hl
      intro p' hp' hc
      simp only [List.set_cons_succ, List.mem_cons] at hp'
      have hpos : 0 < l.countP publishing := List.countP_pos_iff.2 ⟨p, List.mem_of_getElem? h, hp⟩
      by_cases ha : publishing a = true
      · rw [if_pos ha] at hl; omega
      · rcases hp' with h1 | h1
        · subst h1; exact absurd hc ha
        · exact ih h (by omega) p' h1 hc

theorem alone' {i : Nat} {l : List Phase} {q : Phase} (hi : i < l.length) (hl : (l.set i q).countP publishing ≤ 1)
    (hq : publishing q = true) : ∀ p' ∈ l.set i q, publishing p' = true → p' = q := by
  have := alone (l := l.set i q) (i := i) (p := q) (q := q) (by rw [List.getElem?_set_self hi]) hl hq
  rwa [List.set_set] at this

/-- The invariant: there is at most one slot; what it holds is at least what was seen; what is carried is at least what
the slot holds. -/
structure Ordered (s : State) : Prop where
  gen : Genuine s
  count : s.threads.countP publishing ≤ 1
  one : s.slots.length ≤ 1
  entry : s.slots ≠ [] → s.entry = some 0
  empty : s.slots = [] → s.entry = none ∧ s.seen = []
  slot : ∀ v w, s.slots[0]? = some v → w ∈ s.seen → w ≤ v
  carry : ∀ p ∈ s.threads, ∀ v, carried p = some v → ∀ w ∈ s.slots, w ≤ v
  ins : ∀ p ∈ s.threads, (p = .rMissing ∨ ∃ v, p = .rLoaded v ∨ p = .pInsert v) → s.slots = []
  back : neverBack s.seen

theorem carried_publishing {p : Phase} {v : Nat} (h : carried p = some v) : publishing p = true := by
  simp [publishing, h]

theorem ins_publishing {p : Phase} (h : p = .rMissing ∨ ∃ v, p = .rLoaded v ∨ p = .pInsert v) : publishing p = true := by
  rcases h with rfl | ⟨v, rfl | rfl⟩ <;> rfl

/-- Steps that change only the phase of a thread (and bookkeeping), to a phase that is not publishing. -/
theorem Ordered.phase {s s' : State} {i : Nat} {q : Phase} (h : Ordered s) (hq : publishing q = false)
    (hg : Genuine s') (hc : s'.threads.countP publishing ≤ 1) (ht : s'.threads = s.threads.set i q)
    (h1 : s'.slots = s.slots) (h2 : s'.entry = s.entry) (h3 : s'.seen = s.seen) : Ordered s' := by
  refine ⟨hg, hc, by rw [h1]; exact h.one, by rw [h1, h2]; exact h.entry, by rw [h1, h2, h3]; exact h.empty,
    by rw [h1, h3]; exact h.slot, ?_, ?_, by rw [h3]; exact h.back⟩
  · intro p hp v hv
    rw [ht] at hp
    rcases mem_set hp with hp | rfl
    · rw [h1]; exact h.carry p hp v hv
    · rw [carried_publishing hv] at hq; cases hq
  · intro p hp hi
    rw [ht] at hp
    rcases mem_set hp with hp | rfl
    · rw [h1]; exact h.ins p hp hi
    · rw [ins_publishing hi] at hq; cases hq

/-- The step by which a loaded version gets into an empty map. -/
theorem Ordered.insert {s s' : State} {i v : Nat} {p q : Phase} (h : Ordered s) (hi : s.threads[i]? = some p)
    (hp : carried p = some v) (hs : s.slots = []) (hq : publishing q = false)
    (hg : Genuine s') (hc : s'.threads.countP publishing ≤ 1) (ht : s'.threads = s.threads.set i q)
    (h1 : s'.slots = [v]) (h2 : s'.entry = some 0) (h3 : s'.seen = s.seen) : Ordered s' := by
  have hal := alone (q := q) hi h.count (carried_publishing hp)
  have hno : ∀ p' ∈ s'.threads, publishing p' = true → False := by
    intro p' hp' hpub
    rw [ht] at hp'
    rw [hal p' hp' hpub, hq] at hpub; cases hpub
  refine ⟨hg, hc, by rw [h1]; simp, fun _ => h2, fun hn => (by rw [h1] at hn; cases hn), ?_, ?_, ?_, by rw [h3]; exact h.back⟩
  · intro v' w _ hw
    rw [h3, (h.empty hs).2] at hw; cases hw
  · intro p' hp' v' hv'
    exact absurd (carried_publishing hv') (hno p' hp')
  · intro p' hp' hi'
    exact absurd (ins_publishing hi') (hno p' hp')

/-- The step by which a thread loads the current version of the directory. -/
theorem Ordered.load {s s' : State} {i : Nat} {p q : Phase} (h : Ordered s) (hi : s.threads[i]? = some p)
    (hq : carried q = some s.disk) (hs : (q = .rLoaded s.disk ∨ q = .pInsert s.disk) → s.slots = []) (hm : q ≠ .rMissing)
    (hg : Genuine s') (hc : s'.threads.countP publishing ≤ 1) (ht : s'.threads = s.threads.set i q)
    (h1 : s'.slots = s.slots) (h2 : s'.entry = s.entry) (h3 : s'.seen = s.seen) : Ordered s' := by
  have hal := alone' (List.getElem?_eq_some_iff.1 hi).1 (ht ▸ hc) (carried_publishing hq)
  refine ⟨hg, hc, by rw [h1]; exact h.one, by rw [h1, h2]; exact h.entry, by rw [h1, h2, h3]; exact h.empty,
    by rw [h1, h3]; exact h.slot, ?_, ?_, by rw [h3]; exact h.back⟩
  · intro p' hp' v hv w hw
    rw [ht] at hp'
    rw [hal p' hp' (carried_publishing hv), hq] at hv; cases hv
    rw [h1] at hw
    exact h.gen.loads w (h.gen.slots w hw)
  · intro p' hp' hi'
    rw [ht] at hp'
    have := hal p' hp' (ins_publishing hi')
    subst this
    rw [h1]
    apply hs
    rcases hi' with rfl | ⟨v, rfl | rfl⟩
    · exact absurd rfl hm
    · cases hq; exact .inl rfl
    · cases hq; exact .inr rfl

theorem advance_ordered {s s' : State} {i : Nat} {p : Phase} (h : Ordered s) (hi : s.threads[i]? = some p)
    (hs : advance s i p = some s') (hc : s'.threads.countP publishing ≤ 1) : Ordered s' := by
  have hg := advance_genuine h.gen hi hs
  have hp : p ∈ s.threads := List.mem_of_getElem? hi
  cases p with
  | rStart =>
    simp only [advance] at hs
    split at hs <;> cases hs <;> exact h.phase rfl hg hc rfl rfl rfl rfl
  | rWait =>
    simp only [advance] at hs
    split at hs <;> cases hs
    exact h.phase rfl hg hc rfl rfl rfl rfl
  | rLocked =>
    simp only [advance] at hs
    split at hs
    · cases hs; exact h.phase rfl hg hc rfl rfl rfl rfl
    · next hn =>
      cases hs
      have hsl : s.slots = [] := by
        by_contra hne
        rw [h.entry hne] at hn; cases hn
      have hal := alone' (List.getElem?_eq_some_iff.1 hi).1 hc rfl
      refine ⟨hg, hc, h.one, h.entry, h.empty, h.slot, ?_, fun _ _ _ => hsl, h.back⟩
      intro p' hp' v hv
      rw [hal p' hp' (carried_publishing hv)] at hv; cases hv
  | rMissing =>
    have hsl := h.ins _ hp (.inl rfl)
    simp only [advance] at hs
    split at hs
    · cases hs; exact h.load hi (q := .rLoaded s.disk) rfl (fun _ => hsl) (by simp) hg hc rfl rfl rfl rfl
    · cases hs; exact h.phase rfl hg hc rfl rfl rfl rfl
  | rLoaded v =>
    have hsl := h.ins _ hp (.inr ⟨v, .inl rfl⟩)
    simp only [advance] at hs
    cases hs
    exact h.insert hi rfl hsl (q := .rInserted) rfl hg hc rfl (by simp [setPhase, Slots.insert, hsl]) (by simp [setPhase, Slots.insert, hsl]) rfl
  | rInserted =>
    simp only [advance] at hs
    split at hs <;> cases hs <;> exact h.phase rfl hg hc rfl rfl rfl rfl
  | rSlot k =>
    simp only [advance] at hs
    split at hs
    · next v hv =>
      cases hs
      have hk : k = 0 := by
        have := (List.getElem?_eq_some_iff.1 hv).1
        have := h.one; omega
      subst hk
      have hle := h.slot v
      refine ⟨hg, hc, h.one, h.entry, ?_, ?_, ?_, ?_, ?_⟩
      · intro hn; simp only [setPhase] at hn; rw [hn] at hv; cases hv
      · intro v' w hv' hw
        simp only [setPhase] at hv' hw
        rw [hv] at hv'; cases hv'
        simp only [List.mem_append, List.mem_singleton] at hw
        rcases hw with hw | rfl
        · exact hle w hv hw
        · exact Nat.le_refl _
      · intro p' hp' v' hv'
        rcases mem_set hp' with hp' | rfl
        · exact h.carry p' hp' v' hv'
        · cases hv'
      · intro p' hp' hi'
        rcases mem_set hp' with hp' | rfl
        · exact h.ins p' hp' hi'
        · rcases hi' with hi' | ⟨v, hi' | hi'⟩ <;> cases hi'
      · show (s.seen ++ [v]).Pairwise (· ≤ ·)
        rw [List.pairwise_append]
        refine ⟨h.back, by simp, fun a ha b hb => ?_⟩
        simp only [List.mem_singleton] at hb
        subst hb; exact hle a hv ha
    · cases hs
  | rHas v => simp only [advance] at hs; cases hs
  | rFailed => simp only [advance] at hs; cases hs
  | pStart r =>
    simp only [advance] at hs
    split at hs
    · cases hs
      exact h.load hi (q := .pLoaded r s.disk) rfl (fun h' => by rcases h' with h' | h' <;> cases h') (by simp) hg hc rfl rfl rfl rfl
    · cases hs; exact h.phase rfl hg hc rfl rfl rfl rfl
  | pLoaded r v =>
    simp only [advance] at hs
    split at hs
    · next k hk =>
      cases hs
      have hne : s.slots ≠ [] := by
        intro hn; rw [(h.empty hn).1] at hk; cases hk
      have hk0 : k = 0 := by rw [h.entry hne] at hk; cases hk; rfl
      subst hk0
      obtain ⟨w0, hw0⟩ : ∃ w, s.slots = [w] := by
        have := h.one
        match hsl : s.slots with
        | [] => exact absurd hsl hne
        | [w] => exact ⟨w, rfl⟩
        | _ :: _ :: _ => rw [hsl] at this; simp at this
      have hsl' : s.slots.set 0 v = [v] := by rw [hw0]; rfl
      have hwv : w0 ≤ v := h.carry _ hp v rfl w0 (by rw [hw0]; simp)
      have hal := alone (q := .pDone) hi h.count rfl
      have hno : ∀ p' ∈ s.threads.set i .pDone, publishing p' = true → False := by
        intro p' hp' hpub
        rw [hal p' hp' hpub] at hpub; cases hpub
      refine ⟨hg, hc, ?_, fun _ => hk, ?_, ?_, ?_, ?_, h.back⟩
      · simp only [setPhase, store, hsl']; simp
      · intro hn; simp only [setPhase, store, hsl'] at hn; cases hn
      · intro v' w hv' hw
        simp only [setPhase, store, hsl'] at hv' hw
        cases hv'
        exact Nat.le_trans (h.slot w0 w (by rw [hw0]; rfl) hw) hwv
      · intro p' hp' v' hv'
        exact absurd (carried_publishing hv') (hno p' hp')
      · intro p' hp' hi'
        exact absurd (ins_publishing hi') (hno p' hp')
    · next hn =>
      have hsl : s.slots = [] := by
        by_contra hne
        rw [h.entry hne] at hn; cases hn
      cases hs
      cases r
      · simp only [Bool.false_eq_true, if_false] at hg hc ⊢
        have hal := alone (q := .pInsert v) hi h.count rfl
        refine ⟨hg, hc, h.one, h.entry, h.empty, h.slot, ?_, fun _ _ _ => hsl, h.back⟩
        intro p' hp' v' hv' w hw
        simp only [setPhase, hsl] at hw; cases hw
      · simp only [if_true] at hg hc ⊢
        exact h.insert hi rfl hsl (q := .pDone) rfl hg hc rfl (by simp [setPhase, Slots.insert, hsl]) (by simp [setPhase, Slots.insert, hsl]) rfl
  | pInsert v =>
    have hsl := h.ins _ hp (.inr ⟨v, .inr rfl⟩)
    simp only [advance] at hs
    cases hs
    exact h.insert hi rfl hsl (q := .pDone) rfl hg hc rfl (by simp [setPhase, Slots.insert, hsl]) (by simp [setPhase, Slots.insert, hsl]) rfl
  | pDone => simp only [advance] at hs; cases hs

theorem step_ordered {s s' : State} {e : Event} (h : Ordered s) (he : e ≠ .unload) (hs : step s e = some s')
    (hc : s'.threads.countP publishing ≤ 1) : Ordered s' := by
  have hg := step_genuine h.gen hs
  have app : ∀ q : Phase, publishing q = false → s'.threads = s.threads ++ [q] → s'.slots = s.slots → s'.entry = s.entry →
      s'.seen = s.seen → Ordered s' := by
    intro q hq ht h1 h2 h3
    refine ⟨hg, hc, by rw [h1]; exact h.one, by rw [h1, h2]; exact h.entry, by rw [h1, h2, h3]; exact h.empty,
      by rw [h1, h3]; exact h.slot, ?_, ?_, by rw [h3]; exact h.back⟩
    · intro p hp v hv
      rw [ht, List.mem_append, List.mem_singleton] at hp
      rcases hp with hp | rfl
      · rw [h1]; exact h.carry p hp v hv
      · rw [carried_publishing hv] at hq; cases hq
    · intro p hp hi
      rw [ht, List.mem_append, List.mem_singleton] at hp
      rcases hp with hp | rfl
      · rw [h1]; exact h.ins p hp hi
      · rw [ins_publishing hi] at hq; cases hq
  cases e with
  | write => cases hs; exact ⟨hg, hc, h.one, h.entry, h.empty, h.slot, h.carry, h.ins, h.back⟩
  | remove => cases hs; exact ⟨hg, hc, h.one, h.entry, h.empty, h.slot, h.carry, h.ins, h.back⟩
  | unload => exact absurd rfl he
  | read => cases hs; exact app .rStart rfl rfl rfl rfl rfl
  | publish r => cases hs; exact app (.pStart r) rfl rfl rfl rfl rfl
  | next i =>
    simp only [step] at hs
    split at hs
    · cases hs
    · next p hi => exact advance_ordered h hi hs hc

theorem run_ordered {s s' : State} {es : List Event} (h : Ordered s) (he : .unload ∉ es) (ho : noOverlap s es)
    (hs : run s es = some s') : Ordered s' := by
  induction es generalizing s with
  | nil => cases hs; exact h
  | cons e es ih =>
    simp only [run, Option.bind_eq_some_iff] at hs
    obtain ⟨s1, h1, h2⟩ := hs
    obtain ⟨hc, ho'⟩ := ho s1 h1
    exact ih (step_ordered h (fun h' => he (by simp [h'])) h1 hc) (fun h' => he (by simp [h'])) ho' h2

theorem ordered_start : Ordered {} := ⟨genuine_start, by simp, by simp, by simp, by simp, by simp, by simp, by simp, by simp [neverBack]⟩

end NextPlaid.Slots
