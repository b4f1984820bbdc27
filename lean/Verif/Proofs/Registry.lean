import Verif.Spec.Registry

/-!
Proofs about the queues and semaphores of the server.
-/

namespace NextPlaid.Registry
open NextPlaid.Spec

theorem says_setting (env : Env) (name : String) (d : Nat) : SettingIs env name d (setting env name d) := by
  unfold SettingIs setting
  cases h : env name with
  | none => rfl
  | some v =>
    cases h' : Npy.parseUsize v.toList with
    | none => simp [h']
    | some m => simp [h']

/-- The settings read are fine, no mutex is poisoned, and what was made differs. -/
structure Good (s : Process) : Prop where
  channel : ∀ n ∈ s.channel, 0 < n ∧ n ≤ maxPermits
  tasks : ∀ n ∈ s.tasks, n ≤ maxPermits
  clean : ∀ k, s.poisoned k = false
  below : ∀ k key id, s.made k key = some id → id < s.next
  differ : ∀ k key k' key' id, s.made k key = some id → s.made k' key' = some id → k = k' ∧ key = key'

theorem good_fresh : Good fresh := by
  constructor <;> simp [fresh]

/-- The result of making a new thing. -/
theorem obtain_good {k : Kind} {env : Env} {key : String} {s : Process} (hs : Good s) (he : SensibleEnv env) :
    ∃ id, (obtain_ k env key s).1 = some id ∧ Good (obtain_ k env key s).2 ∧ (obtain_ k env key s).2.made k key = some id ∧
      ∀ k' key' i, s.made k' key' = some i → (obtain_ k env key s).2.made k' key' = some i := by
  unfold obtain_
  rw [if_neg (by simp [hs.clean k])]
  cases hm : s.made k key with
  | some id => exact ⟨id, rfl, hs, hm, fun _ _ _ h => h⟩
  | none =>
    dsimp only
    have hsz : makes k (sizeFor k env s).1 = true ∧ Good (sizeFor k env s).2 ∧ (sizeFor k env s).2.made = s.made ∧ (sizeFor k env s).2.next = s.next := by
      have hc : 0 < s.channel.getD (setting env "BATCH_CHANNEL_SIZE" 100) ∧ s.channel.getD (setting env "BATCH_CHANNEL_SIZE" 100) ≤ maxPermits := by
        cases h : s.channel with
        | some n => exact hs.channel n h
        | none =>
          have := he.1 _ (says_setting env "BATCH_CHANNEL_SIZE" 100)
          simp only [Option.getD_none, maxPermits]
          omega
      have ht : s.tasks.getD (setting env "MAX_QUEUED_TASKS_PER_INDEX" 10) ≤ maxPermits := by
        cases h : s.tasks with
        | some n => exact hs.tasks n h
        | none =>
          have := he.2 _ (says_setting env "MAX_QUEUED_TASKS_PER_INDEX" 10)
          simp only [Option.getD_none, maxPermits]
          omega
      cases k with
      | semaphores =>
        refine ⟨decide_eq_true ht, ⟨hs.channel, ?_, hs.clean, hs.below, hs.differ⟩, rfl, rfl⟩
        intro n hn
        simp only [sizeFor, Option.mem_def, Option.some.injEq] at hn
        subst hn; exact ht
      | updates =>
        refine ⟨Bool.and_eq_true_iff.2 ⟨decide_eq_true hc.1, decide_eq_true hc.2⟩, ⟨?_, hs.tasks, hs.clean, hs.below, hs.differ⟩, rfl, rfl⟩
        intro n hn
        simp only [sizeFor, Option.mem_def, Option.some.injEq] at hn
        subst hn; exact hc
      | deletes =>
        refine ⟨Bool.and_eq_true_iff.2 ⟨decide_eq_true hc.1, decide_eq_true hc.2⟩, ⟨?_, hs.tasks, hs.clean, hs.below, hs.differ⟩, rfl, rfl⟩
        intro n hn
        simp only [sizeFor, Option.mem_def, Option.some.injEq] at hn
        subst hn; exact hc
    obtain ⟨h1, h2, h3, h4⟩ := hsz
    rw [if_pos h1]
    refine ⟨_, rfl, ⟨h2.channel, h2.tasks, h2.clean, ?_, ?_⟩, by simp, ?_⟩
    · intro k' key' id h
      dsimp only at h ⊢
      split at h
      · cases h; omega
      · have := h2.below k' key' id h
        omega
    · intro k1 key1 k2 key2 id ha hb
      dsimp only at ha hb
      split at ha <;> split at hb
      · rename_i e1 e2; exact ⟨e1.1.trans e2.1.symm, e1.2.trans e2.2.symm⟩
      · cases ha; exact absurd (h2.below _ _ _ hb) (by omega)
      · cases hb; exact absurd (h2.below _ _ _ ha) (by omega)
      · exact h2.differ _ _ _ _ _ ha hb
    · intro k' key' i h
      dsimp only
      rw [if_neg, h3]
      · exact h
      · rintro ⟨rfl, rfl⟩
        rw [hm] at h
        cases h

theorem serve_good : ∀ (rs : List Request) (s : Process), Good s → (∀ r ∈ rs, SensibleEnv r.env) →
    Good (serve rs s).2 ∧ (serve rs s).1.length = rs.length ∧
    (∀ k key i, s.made k key = some i → (serve rs s).2.made k key = some i) ∧
    ∀ (i : Nat) (r : Request), rs[i]? = some r → ∃ id, (serve rs s).1[i]? = some (some id) ∧ (serve rs s).2.made r.kind r.key = some id
  | [], s, hs, _ => ⟨hs, rfl, fun _ _ _ h => h, by intro i r h; simp at h⟩
  | r :: rs, s, hs, he => by
    obtain ⟨id, h1, h2, h3, h4⟩ := obtain_good (k := r.kind) (key := r.key) hs (he r (List.mem_cons_self ..))
    obtain ⟨g1, g2, g3, g4⟩ := serve_good rs _ h2 fun x hx => he x (List.mem_cons_of_mem _ hx)
    unfold serve
    dsimp only
    refine ⟨g1, by simp [g2], fun k key i h => g3 k key i (h4 k key i h), ?_⟩
    intro i x hx
    cases i with
    | zero =>
      simp at hx
      subst hx
      exact ⟨id, by simp [h1], g3 _ _ _ h3⟩
    | succ i =>
      obtain ⟨j, hj1, hj2⟩ := g4 i x (by simpa using hx)
      exact ⟨j, by simpa using hj1, hj2⟩

theorem obtain_poisoned {k k' : Kind} {env : Env} {key : String} {s : Process} (h : s.poisoned k = true) : (obtain_ k' env key s).2.poisoned k = true := by
  unfold obtain_
  split
  · exact h
  · split
    · exact h
    · dsimp only
      split
      · cases k' <;> exact h
      · cases k' <;> simp [sizeFor, h]

theorem serve_poisoned (k : Kind) : ∀ (rs : List Request) (s : Process), s.poisoned k = true → ∀ (i : Nat) (r : Request), rs[i]? = some r → r.kind = k →
    (serve rs s).1[i]? = some none
  | [], s, _, i, r, h, _ => by simp at h
  | x :: rs, s, hs, i, r, h, hk => by
    unfold serve
    cases i with
    | zero =>
      simp at h
      subst h
      have : (obtain_ x.kind x.env x.key s).1 = none := by
        unfold obtain_
        rw [hk, if_pos hs]
      simp [this]
    | succ i =>
      have := serve_poisoned k rs _ (obtain_poisoned (k' := x.kind) (env := x.env) (key := x.key) hs) i r (by simpa using h) hk
      simpa using this

end NextPlaid.Registry
