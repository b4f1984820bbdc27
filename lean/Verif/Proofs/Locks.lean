import Verif.Spec.Locks

/-! Lemmas on paths and locks. -/

namespace NextPlaid.Paths

theorem parts_ne_nil (p : List Char) : parts p ≠ [] := by
  cases p with
  | nil => simp [parts]
  | cons c cs => unfold parts; split; · simp
                 split <;> simp

theorem parts_append (a b : List Char) : parts (a ++ '/' :: b) = parts a ++ parts b := by
  induction a with
  | nil => simp [parts]
  | cons c cs ih =>
    rw [List.cons_append, parts, ih, parts]
    split
    · simp
    · cases h : parts cs with
      | nil => exact absurd h (parts_ne_nil cs)
      | cons w ws => simp

theorem parts_plain (p : List Char) (h : '/' ∉ p) : parts p = [p] := by
  induction p with
  | nil => rfl
  | cons c cs ih =>
    simp only [List.mem_cons, not_or] at h
    rw [parts, if_neg (fun h' => h.1 h'.symm), ih h.2]

theorem absolute_append {a b : List Char} (h : a ≠ []) : absolute (a ++ b) = absolute a := by
  cases a with
  | nil => exact absurd rfl h
  | cons c cs => rfl

theorem enter_plain {name : List Char} (h : Spec.plainName name) (dir : List (List Char)) :
    enter dir name = dir ++ [name] := by
  unfold enter
  rw [if_neg (by rintro (h' | h'); exacts [h.1 h', h.2.2.1 h']), if_neg h.2.2.2]

theorem plain_absolute {name : List Char} (h : Spec.plainName name) : absolute name = false := by
  unfold absolute
  cases name with
  | nil => rfl
  | cons c cs =>
    have := h.2.1
    simp only [List.mem_cons, not_or] at this
    simpa using fun h' : c = '/' => this.1 h'.symm

theorem resolve_plain (cwd : List (List Char)) (dir : List Char) {name : List Char} (h : Spec.plainName name) :
    resolve cwd (indexPath dir name) = resolve cwd dir ++ [name] := by
  unfold indexPath join
  rw [plain_absolute h, if_neg (by decide)]
  by_cases h0 : dir = []
  · subst h0
    simp only [List.isEmpty_nil, Bool.true_or, if_true, List.nil_append, resolve, parts_plain name h.2.1,
      plain_absolute h, List.foldl_cons, List.foldl_nil, enter_plain h]
    simp [parts, absolute, enter]
  · by_cases h1 : dir.getLast? = some '/'
    · rw [if_pos (by simp [h1])]
      obtain ⟨b, rfl⟩ : ∃ b, dir = b ++ ['/'] := by
        rw [List.getLast?_eq_some_iff] at h1; exact h1
      unfold resolve
      rw [absolute_append h0, List.append_assoc, List.singleton_append, parts_append, parts_append,
        parts_plain name h.2.1, List.foldl_append, List.foldl_append, List.foldl_cons, List.foldl_nil, enter_plain h]
      simp [parts, enter]
    · rw [if_neg (by simp [h0, h1])]
      unfold resolve
      rw [absolute_append h0, parts_append, parts_plain name h.2.1, List.foldl_append, List.foldl_cons,
        List.foldl_nil, enter_plain h]

theorem join_length {dir name : List Char} (h : absolute name = false) (hd : dir ≠ []) : join dir name ≠ name := by
  intro hj
  have hl := congrArg List.length hj
  have hpos : 0 < dir.length := List.length_pos_iff.2 hd
  unfold join at hl
  rw [h, if_neg (by decide)] at hl
  split at hl
  · rw [List.length_append] at hl; omega
  · rw [List.length_append, List.length_cons] at hl; omega

end NextPlaid.Paths

namespace NextPlaid.Locks
open NextPlaid.Spec

/-- The invariant of the lock system. -/
structure Inv (dir : List Char) (s : State) : Prop where
  small : ∀ e ∈ s.registry, e.2 < s.registry.length
  keys : ∀ e ∈ s.registry, ∀ e' ∈ s.registry, e.1 = e'.1 → e.2 = e'.2
  locks : ∀ e ∈ s.registry, ∀ e' ∈ s.registry, e.2 = e'.2 → e.1 = e'.1
  wait : ∀ (i : Nat) (job : Job) (l : Nat), s.jobs[i]? = some (job, .waiting l) → ∃ k, key dir job = some k ∧ (k, l) ∈ s.registry
  work : ∀ (i : Nat) (job : Job) (l : Nat), s.jobs[i]? = some (job, .working l) → s.held l = some i ∧ ∃ k, key dir job = some k ∧ (k, l) ∈ s.registry
  hold : ∀ (l i : Nat), s.held l = some i → ∃ job, s.jobs[i]? = some (job, .working l)
  rel : ∀ (i : Nat) (job : Job), s.jobs[i]? = some (job, .released) → job.kind = .remove
  free : ∀ (i : Nat) (job : Job), s.jobs[i]? = some (job, .unlocked) → key dir job = none

theorem getLock_spec {dir : List Char} {s : State} (h : Inv dir s) (k : List Char) :
    Inv dir (getLock s k).2 ∧ (k, (getLock s k).1) ∈ (getLock s k).2.registry ∧ (getLock s k).2.jobs = s.jobs ∧
      (getLock s k).2.held = s.held := by
  unfold getLock
  split
  · next e he =>
    have h1 := List.find?_some he
    have h2 := List.mem_of_find?_eq_some he
    have : e.1 = k := by simpa using h1
    subst this
    exact ⟨h, h2, rfl, rfl⟩
  · next he =>
    have hk : ∀ e ∈ s.registry, e.1 ≠ k := by
      intro e hm hek
      rw [List.find?_eq_none] at he
      exact he e hm (by simp [hek])
    refine ⟨⟨?_, ?_, ?_, ?_, ?_, h.hold, h.rel, h.free⟩, by simp, rfl, rfl⟩
    · intro e hm
      simp only [List.mem_append, List.mem_singleton, List.length_append, List.length_singleton] at hm ⊢
      rcases hm with hm | rfl
      · have := h.small e hm; omega
      · simp
    · intro e hm e' hm' heq
      simp only [List.mem_append, List.mem_singleton] at hm hm'
      rcases hm with hm | rfl <;> rcases hm' with hm' | rfl
      · exact h.keys e hm e' hm' heq
      · exact absurd heq (hk e hm)
      · exact absurd heq.symm (hk e' hm')
      · rfl
    · intro e hm e' hm' heq
      simp only [List.mem_append, List.mem_singleton] at hm hm'
      rcases hm with hm | rfl <;> rcases hm' with hm' | rfl
      · exact h.locks e hm e' hm' heq
      · have := h.small e hm; simp only at heq; omega
      · have := h.small e' hm'; simp only at heq; omega
      · rfl
    · intro i job l hj
      obtain ⟨k', h1, h2⟩ := h.wait i job l hj
      exact ⟨k', h1, by simp [h2]⟩
    · intro i job l hj
      obtain ⟨h0, k', h1, h2⟩ := h.work i job l hj
      exact ⟨h0, k', h1, by simp [h2]⟩

/-- The phase of one job changes; nothing else. -/
theorem jobs_setPhase (s : State) (i : Nat) (p : Phase) (j : Nat) (job : Job) (hi : s.jobs[i]? = some (job, q)) :
    (setPhase s i p).jobs[j]? = if j = i then some (job, p) else s.jobs[j]? := by
  unfold setPhase
  simp only [List.getElem?_modify]
  by_cases h : j = i
  · subst h; simp [hi]
  · have : ¬ i = j := fun h' => h h'.symm
    simp only [if_neg this, if_neg h]
    cases s.jobs[j]? <;> rfl

theorem advance_inv {dir : List Char} {s s' : State} {i : Nat} {job : Job} {p : Phase} (h : Inv dir s)
    (hi : s.jobs[i]? = some (job, p)) (hs : advance dir s i job p = some s') : Inv dir s' := by
  cases p with
  | start =>
    simp only [advance] at hs
    split at hs
    · next hk =>
      cases hs
      have hj := fun j => jobs_setPhase s i .unlocked j job hi
      refine ⟨h.small, h.keys, h.locks, ?_, ?_, ?_, ?_, ?_⟩
      · intro j job' l hj'
        rw [hj] at hj'; split at hj'
        · cases hj'
        · exact h.wait j job' l hj'
      · intro j job' l hj'
        rw [hj] at hj'; split at hj'
        · cases hj'
        · exact h.work j job' l hj'
      · intro l j hl
        obtain ⟨job', hw⟩ := h.hold l j hl
        refine ⟨job', ?_⟩
        rw [hj, if_neg]; · exact hw
        rintro rfl; rw [hi] at hw; cases hw
      · intro j job' hj'
        rw [hj] at hj'; split at hj'
        · cases hj'
        · exact h.rel j job' hj'
      · intro j job' hj'
        rw [hj] at hj'; split at hj'
        · cases hj'; exact hk
        · exact h.free j job' hj'
    · next k hk =>
      cases hs
      obtain ⟨h1, h2, h3, h4⟩ := getLock_spec h k
      generalize (getLock s k).1 = l0 at *
      generalize (getLock s k).2 = t at *
      have hi' : t.jobs[i]? = some (job, .start) := by rw [h3]; exact hi
      have hj := fun j => jobs_setPhase t i (.waiting l0) j job hi'
      refine ⟨h1.small, h1.keys, h1.locks, ?_, ?_, ?_, ?_, ?_⟩
      · intro j job' l hj'
        rw [hj] at hj'; split at hj'
        · cases hj'; exact ⟨k, hk, h2⟩
        · exact h1.wait j job' l hj'
      · intro j job' l hj'
        rw [hj] at hj'; split at hj'
        · cases hj'
        · exact h1.work j job' l hj'
      · intro l j hl
        obtain ⟨job', hw⟩ := h1.hold l j hl
        refine ⟨job', ?_⟩
        rw [hj, if_neg]; · exact hw
        rintro rfl; rw [hi'] at hw; cases hw
      · intro j job' hj'
        rw [hj] at hj'; split at hj'
        · cases hj'
        · exact h1.rel j job' hj'
      · intro j job' hj'
        rw [hj] at hj'; split at hj'
        · cases hj'
        · exact h1.free j job' hj'
  | waiting l0 =>
    simp only [advance] at hs
    split at hs
    · next hf =>
      cases hs
      have hj := fun j => jobs_setPhase (setHeld s l0 (some i)) i (.working l0) j job hi
      refine ⟨h.small, h.keys, h.locks, ?_, ?_, ?_, ?_, ?_⟩
      · intro j job' l hj'
        rw [hj] at hj'; split at hj'
        · cases hj'
        · exact h.wait j job' l hj'
      · intro j job' l hj'
        rw [hj] at hj'; split at hj'
        · next hji =>
          cases hj'
          exact ⟨by simp [setPhase, setHeld, hji], h.wait i job l0 hi⟩
        · obtain ⟨w1, w2⟩ := h.work j job' l hj'
          refine ⟨?_, w2⟩
          show (if l = l0 then some i else s.held l) = some j
          rw [if_neg]; · exact w1
          rintro rfl; rw [hf] at w1; cases w1
      · intro l j hl
        change (if l = l0 then some i else s.held l) = some j at hl
        split at hl
        · next hl0 => cases hl; exact ⟨job, by rw [hj, if_pos rfl, hl0]⟩
        · obtain ⟨job', hw⟩ := h.hold l j hl
          refine ⟨job', ?_⟩
          rw [hj, if_neg]; · exact hw
          rintro rfl; rw [hi] at hw; cases hw
      · intro j job' hj'
        rw [hj] at hj'; split at hj'
        · cases hj'
        · exact h.rel j job' hj'
      · intro j job' hj'
        rw [hj] at hj'; split at hj'
        · cases hj'
        · exact h.free j job' hj'
    · cases hs
  | working l0 =>
    simp only [advance] at hs
    cases hs
    have hj := fun j => jobs_setPhase (setHeld s l0 none) i (if job.kind = .remove then .released else .done) j job hi
    have hw0 := h.work i job l0 hi
    refine ⟨h.small, h.keys, h.locks, ?_, ?_, ?_, ?_, ?_⟩
    · intro j job' l hj'
      rw [hj] at hj'; split at hj'
      · split at hj' <;> cases hj'
      · exact h.wait j job' l hj'
    · intro j job' l hj'
      rw [hj] at hj'; split at hj'
      · split at hj' <;> cases hj'
      · next hji =>
        obtain ⟨w1, w2⟩ := h.work j job' l hj'
        refine ⟨?_, w2⟩
        show (if l = l0 then none else s.held l) = some j
        rw [if_neg]; · exact w1
        rintro rfl; rw [hw0.1] at w1; cases w1; exact hji rfl
    · intro l j hl
      change (if l = l0 then none else s.held l) = some j at hl
      split at hl
      · cases hl
      · next hl0 =>
        obtain ⟨job', hw⟩ := h.hold l j hl
        refine ⟨job', ?_⟩
        rw [hj, if_neg]; · exact hw
        rintro rfl; rw [hi] at hw; cases hw; exact hl0 rfl
    · intro j job' hj'
      rw [hj] at hj'; split at hj'
      · split at hj'
        · next hk => cases hj'; exact hk
        · cases hj'
      · exact h.rel j job' hj'
    · intro j job' hj'
      rw [hj] at hj'; split at hj'
      · split at hj' <;> cases hj'
      · exact h.free j job' hj'
  | released =>
    simp only [advance] at hs
    cases hs
    have hj := fun j => jobs_setPhase s i .done j job hi
    refine ⟨h.small, h.keys, h.locks, ?_, ?_, ?_, ?_, ?_⟩
    · intro j job' l hj'
      rw [hj] at hj'; split at hj'
      · cases hj'
      · exact h.wait j job' l hj'
    · intro j job' l hj'
      rw [hj] at hj'; split at hj'
      · cases hj'
      · exact h.work j job' l hj'
    · intro l j hl
      obtain ⟨job', hw⟩ := h.hold l j hl
      refine ⟨job', ?_⟩
      rw [hj, if_neg]; · exact hw
      rintro rfl; rw [hi] at hw; cases hw
    · intro j job' hj'
      rw [hj] at hj'; split at hj'
      · cases hj'
      · exact h.rel j job' hj'
    · intro j job' hj'
      rw [hj] at hj'; split at hj'
      · cases hj'
      · exact h.free j job' hj'
  | unlocked =>
    simp only [advance] at hs
    cases hs
    have hj := fun j => jobs_setPhase s i .done j job hi
    refine ⟨h.small, h.keys, h.locks, ?_, ?_, ?_, ?_, ?_⟩
    · intro j job' l hj'
      rw [hj] at hj'; split at hj'
      · cases hj'
      · exact h.wait j job' l hj'
    · intro j job' l hj'
      rw [hj] at hj'; split at hj'
      · cases hj'
      · exact h.work j job' l hj'
    · intro l j hl
      obtain ⟨job', hw⟩ := h.hold l j hl
      refine ⟨job', ?_⟩
      rw [hj, if_neg]; · exact hw
      rintro rfl; rw [hi] at hw; cases hw
    · intro j job' hj'
      rw [hj] at hj'; split at hj'
      · cases hj'
      · exact h.rel j job' hj'
    · intro j job' hj'
      rw [hj] at hj'; split at hj'
      · cases hj'
      · exact h.free j job' hj'
  | done => simp only [advance] at hs; cases hs

theorem step_inv {dir : List Char} {s s' : State} {e : Event} (h : Inv dir s) (hs : step dir s e = some s') :
    Inv dir s' := by
  cases e with
  | next i =>
    simp only [step] at hs
    split at hs
    · cases hs
    · next job p hi => exact advance_inv h hi hs
  | spawn job =>
    simp only [step] at hs
    cases hs
    have hj : ∀ (j : Nat) (x : Job × Phase), (s.jobs ++ [(job, Phase.start)])[j]? = some x → s.jobs[j]? = some x ∨ x = (job, Phase.start) := by
      intro j x hx
      rw [List.getElem?_append] at hx
      split at hx
      · exact .inl hx
      · have := List.mem_of_getElem? hx
        simp only [List.mem_singleton] at this
        exact .inr this
    refine ⟨h.small, h.keys, h.locks, ?_, ?_, ?_, ?_, ?_⟩
    · intro j job' l hj'
      rcases hj j _ hj' with h' | h'
      · exact h.wait j job' l h'
      · cases h'
    · intro j job' l hj'
      rcases hj j _ hj' with h' | h'
      · exact h.work j job' l h'
      · cases h'
    · intro l j hl
      obtain ⟨job', hw⟩ := h.hold l j hl
      exact ⟨job', by
        show (s.jobs ++ [(job, Phase.start)])[j]? = _
        rw [List.getElem?_append_left (List.getElem?_eq_some_iff.1 hw).1]; exact hw⟩
    · intro j job' hj'
      rcases hj j _ hj' with h' | h'
      · exact h.rel j job' h'
      · cases h'
    · intro j job' hj'
      rcases hj j _ hj' with h' | h'
      · exact h.free j job' h'
      · cases h'

theorem run_inv {dir : List Char} {s s' : State} {es : List Event} (h : Inv dir s) (hs : run dir s es = some s') :
    Inv dir s' := by
  induction es generalizing s with
  | nil => cases hs; exact h
  | cons e es ih =>
    simp only [run, Option.bind_eq_some_iff] at hs
    obtain ⟨s1, h1, h2⟩ := hs
    exact ih (step_inv h h1) h2

theorem inv_start (dir : List Char) : Inv dir {} := by
  constructor <;> simp

end NextPlaid.Locks
