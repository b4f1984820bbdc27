import Verif.Proofs.Registry

/-!
C115: every index has one queue of each kind and one semaphore for the life of the server, made with the settings as first read.
-/

namespace NextPlaid.Props
open NextPlaid.Spec NextPlaid.Registry

/-- With sensible settings, whatever the requests and their order: each gets its queue or semaphore, and two get the same one exactly
when they need the same kind for the same index. -/
theorem C115_one_each_partial (rs : List Request) (he : ∀ r ∈ rs, SensibleEnv r.env) : OneForEach rs (serve rs fresh).1 := by
  obtain ⟨g, hl, _, h⟩ := serve_good rs fresh good_fresh he
  refine ⟨hl, ?_, ?_⟩
  · intro a ha
    obtain ⟨i, hi, rfl⟩ := List.mem_iff_getElem.1 ha
    obtain ⟨id, hid, _⟩ := h i rs[i] (List.getElem?_eq_getElem (by omega))
    rw [List.getElem?_eq_getElem hi] at hid
    rw [Option.some.inj hid]
    simp
  · intro i j ri rj a b hi hj ha hb
    obtain ⟨x, hx, mx⟩ := h i ri hi
    obtain ⟨y, hy, my⟩ := h j rj hj
    rw [hx] at ha
    rw [hy] at hb
    cases ha; cases hb
    constructor
    · intro e
      cases e
      exact g.differ _ _ _ _ _ mx my
    · rintro ⟨e1, e2⟩
      rw [e1, e2, my] at mx
      exact mx.symm

/-- A setting is a number when the variable is one (a plus sign is allowed), else the default; it is read with the first thing made,
and a later change of the environment has no effect. -/
theorem C115_settings (k : Kind) (env : Env) (s : Process) :
    (k = .semaphores → (s.tasks = none → SettingIs env "MAX_QUEUED_TASKS_PER_INDEX" 10 (sizeFor k env s).1) ∧
      (∀ n, s.tasks = some n → (sizeFor k env s).1 = n) ∧ (sizeFor k env s).2.tasks = some (sizeFor k env s).1) ∧
    (k ≠ .semaphores → (s.channel = none → SettingIs env "BATCH_CHANNEL_SIZE" 100 (sizeFor k env s).1) ∧
      (∀ n, s.channel = some n → (sizeFor k env s).1 = n) ∧ (sizeFor k env s).2.channel = some (sizeFor k env s).1) := by
  constructor
  · rintro rfl
    refine ⟨fun h => ?_, fun n h => ?_, rfl⟩
    · simp only [sizeFor, h, Option.getD_none]; exact says_setting ..
    · simp only [sizeFor, h, Option.getD_some]
  · intro hk
    cases k with
    | semaphores => exact absurd rfl hk
    | updates =>
      refine ⟨fun h => ?_, fun n h => ?_, rfl⟩
      · simp only [sizeFor, h, Option.getD_none]; exact says_setting ..
      · simp only [sizeFor, h, Option.getD_some]
    | deletes =>
      refine ⟨fun h => ?_, fun n h => ?_, rfl⟩
      · simp only [sizeFor, h, Option.getD_none]; exact says_setting ..
      · simp only [sizeFor, h, Option.getD_some]

/-- `BATCH_CHANNEL_SIZE=0` (or a number beyond what tokio takes): the first update panics, and so does every later one, of every
index, whatever the environment is then. -/
theorem C115_zero_refuted (env : Env) (n : Nat) (hn : SettingIs env "BATCH_CHANNEL_SIZE" 100 n) (hz : n = 0 ∨ 2 ^ 61 ≤ n) (key : String)
    (rs : List Request) (i : Nat) (r : Request) (hi : (⟨.updates, key, env⟩ :: rs)[i]? = some r) (hk : r.kind = .updates) :
    (serve (⟨.updates, key, env⟩ :: rs) fresh).1[i]? = some none := by
  have he : n = setting env "BATCH_CHANNEL_SIZE" 100 := by
    have h1 := says_setting env "BATCH_CHANNEL_SIZE" 100
    unfold SettingIs at h1 hn
    split at hn
    · rename_i h; rw [h] at h1; exact hn.trans h1.symm
    · rename_i v h
      rw [h] at h1
      dsimp only at h1
      split at hn
      · rename_i m h'; rw [h'] at h1; exact hn.trans h1.symm
      · rename_i h'; rw [h'] at h1; exact hn.trans h1.symm
  have hm : makes .updates (sizeFor .updates env fresh).1 = false := by
    simp only [sizeFor, fresh, Option.getD_none, ← he, makes, maxPermits]
    rcases hz with rfl | h
    · rfl
    · simp; omega
  have h0 : (obtain_ .updates env key fresh).1 = none ∧ (obtain_ .updates env key fresh).2.poisoned .updates = true := by
    have hp : fresh.poisoned .updates = false := rfl
    have hq : fresh.made .updates key = none := rfl
    unfold obtain_
    rw [hp, hq]
    simp [hm]
  unfold serve
  cases i with
  | zero => simp [h0.1]
  | succ i =>
    have := serve_poisoned .updates rs _ h0.2 i r (by simpa using hi) hk
    simpa using this

/-! ### A concrete case -/

namespace ToyRegistry

def env : Env := fun n => if n = "BATCH_CHANNEL_SIZE" then some "+7" else if n = "MAX_QUEUED_TASKS_PER_INDEX" then some "many" else none

def requests : List Request := [⟨.updates, "a", env⟩, ⟨.semaphores, "a", env⟩, ⟨.updates, "b", env⟩, ⟨.updates, "a", env⟩, ⟨.deletes, "a", env⟩]

end ToyRegistry

open ToyRegistry in
example : (∀ r ∈ requests, SensibleEnv r.env) ∧ (serve requests fresh).1 = [some 0, some 1, some 2, some 0, some 3] ∧
    (serve requests fresh).2.channel = some 7 ∧ (serve requests fresh).2.tasks = some 10 := by
  have h7 : Npy.parseUsize "+7".toList = some 7 := by decide
  have hm : Npy.parseUsize "many".toList = none := by decide
  have hs : SensibleEnv env := by
    constructor
    · intro n h
      have h' : n = 7 := h
      omega
    · intro n h
      have h' : n = 10 := h
      omega
  refine ⟨?_, by decide +kernel, by decide +kernel, by decide +kernel⟩
  intro r hr
  simp only [requests, List.mem_cons, List.not_mem_nil, or_false] at hr
  rcases hr with rfl | rfl | rfl | rfl | rfl <;> exact hs

example : SettingIs (fun _ => some "0") "BATCH_CHANNEL_SIZE" 100 0 := rfl

end NextPlaid.Props
