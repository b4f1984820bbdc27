import Verif.Model.Stderr

namespace NextPlaid.Stderr

@[simp] theorem write_terminal (m : String) (s : St) : (write m s).terminal = s.terminal := by unfold write; split <;> rfl
@[simp] theorem write_hook (m : String) (s : St) : (write m s).hook = s.hook := by unfold write; split <;> rfl
@[simp] theorem write_buffer (m : String) (s : St) : (write m s).buffer = s.buffer := by unfold write; split <;> rfl
@[simp] theorem write_next (m : String) (s : St) : (write m s).next = s.next := by unfold write; split <;> rfl
theorem write_null {m : String} {s : St} (h : s.terminal = false) : write m s = s := by simp [write, h]
theorem write_screen_null {m : String} {s : St} (h : s.terminal = false) : (write m s).screen = s.screen := by rw [write_null h]
theorem write_screen {m : String} {s : St} (h : s.terminal = true) : (write m s).screen = s.screen ++ [m] := by simp [write, h]

@[simp] theorem runHook_terminal (m : String) (s : St) : (runHook m s).terminal = s.terminal := by unfold runHook; split <;> simp
@[simp] theorem runHook_hook (m : String) (s : St) : (runHook m s).hook = s.hook := by
  unfold runHook; split <;> rename_i h
  · exact write_hook m s
  · exact h.symm ▸ rfl

theorem finish_hook (g : Guard) (p : Bool) (s : St) : (finish g p s).hook = g.prevHook := by
  unfold finish; dsimp only; split
  · split <;> simp [leave]
  · rfl

theorem finish_terminal (g : Guard) (p : Bool) (s : St) : (finish g p s).terminal = g.original.getD s.terminal := by
  unfold finish; dsimp only; split
  · split <;> simp [leave]
  · rfl

theorem exec_hook : ∀ (p : Prog) (s : St), (exec p s).1.hook = s.hook ∧ (exec p s).1.terminal = s.terminal
  | .ret, s => ⟨rfl, rfl⟩
  | .say m k, s => by have := exec_hook k (write m s); simpa [exec] using this
  | .boom m, s => by simp [exec]
  | .attempt b k, s => by
    have h1 := exec_hook b s
    have h2 := exec_hook k (exec b s).1
    exact ⟨by show (exec k (exec b s).1).1.hook = _; rw [h2.1, h1.1], by show (exec k (exec b s).1).1.terminal = _; rw [h2.2, h1.2]⟩
  | .quiet ok b k, s => by
    have hb := exec_hook b (enter ok s).2
    have h1 : (finish (enter ok s).1 (exec b (enter ok s).2).2 (exec b (enter ok s).2).1).hook = s.hook := finish_hook _ _ _
    have h2 : (finish (enter ok s).1 (exec b (enter ok s).2).2 (exec b (enter ok s).2).1).terminal = s.terminal := by
      rw [finish_terminal, hb.2]; cases ok <;> rfl
    have hk := exec_hook k (finish (enter ok s).1 (exec b (enter ok s).2).2 (exec b (enter ok s).2).1)
    simp only [exec]
    split
    · exact ⟨h1, h2⟩
    · exact ⟨hk.1.trans h1, hk.2.trans h2⟩

theorem exec_panics : ∀ (p : Prog) (s : St), (exec p s).2 = p.escapes.isSome
  | .ret, s => rfl
  | .say m k, s => exec_panics k _
  | .boom m, s => rfl
  | .attempt b k, s => exec_panics k _
  | .quiet ok b k, s => by
    have hb := exec_panics b (enter ok s).2
    simp only [exec, Prog.escapes]
    cases h : b.escapes with
    | none => rw [h] at hb; simp only [hb]; exact exec_panics k _
    | some m => rw [h] at hb; simp [hb]

/-- While standard error is /dev/null nothing is shown. -/
theorem exec_null : ∀ (p : Prog) (s : St), s.terminal = false → (exec p s).1.screen = s.screen
  | .ret, s, _ => rfl
  | .say m k, s, h => by
    have : write m s = s := write_null h
    simp only [exec, this]; exact exec_null k s h
  | .boom m, s, h => by
    simp only [exec, runHook]; split
    · rw [write_null h]
    · rfl
  | .attempt b k, s, h => by
    have h1 := exec_null b s h
    have h2 := exec_null k (exec b s).1 (by rw [(exec_hook b s).2, h])
    show (exec k (exec b s).1).1.screen = _; rw [h2, h1]
  | .quiet ok b k, s, h => by
    have ht : (enter ok s).2.terminal = false := by cases ok <;> simp [enter, h]
    have hb := exec_null b (enter ok s).2 ht
    have hbt := (exec_hook b (enter ok s).2).2
    have hs : (enter ok s).2.screen = s.screen := rfl
    have hft : (finish (enter ok s).1 (exec b (enter ok s).2).2 (exec b (enter ok s).2).1).terminal = false := by
      rw [finish_terminal, hbt]; cases ok <;> simp [enter, h]
    have hf : (finish (enter ok s).1 (exec b (enter ok s).2).2 (exec b (enter ok s).2).1).screen = s.screen := by
      rw [← hs, ← hb]
      have hl : (leave (enter ok s).1 (exec b (enter ok s).2).1).terminal = false := by
        simp only [leave, hbt]; cases ok <;> simp [enter, h]
      unfold finish; dsimp only; split
      · split
        · refine Eq.trans (write_screen_null ?_) ?_ <;> first | exact hl | rfl
        · rfl
      · rfl
    have hk := exec_null k _ hft
    simp only [exec]
    split
    · exact hf
    · exact hk.trans hf

/-- A program without suppressed parts that panics leaves the message in the buffer of the hook. -/
theorem exec_flat : ∀ (p : Prog) (s : St) (i : Nat), p.flat = true → s.hook = some i → ∀ m, p.escapes = some m → (exec p s).1.buffer i = some m
  | .ret, s, i, _, _, m, hm => by simp [Prog.escapes] at hm
  | .say m' k, s, i, hf, hh, m, hm => exec_flat k (write m' s) i hf (by simpa using hh) m hm
  | .boom m', s, i, hf, hh, m, hm => by
    simp only [Prog.escapes, Option.some.injEq] at hm; subst hm
    simp [exec, runHook, hh]
  | .attempt b k, s, i, hf, hh, m, hm => by
    simp only [Prog.flat, Bool.and_eq_true] at hf
    exact exec_flat k (exec b s).1 i hf.2 (by rw [(exec_hook b s).1, hh]) m hm
  | .quiet ok b k, s, i, hf, _, m, _ => by simp [Prog.flat] at hf

/-- What a program without suppressed parts shows while the hook is that of a call. -/
theorem exec_flat_screen : ∀ (p : Prog) (s : St) (i : Nat), p.flat = true → s.hook = some i → s.terminal = true →
    (exec p s).1.screen = s.screen ++ p.said
  | .ret, s, i, _, _, _ => by simp [exec, Prog.said]
  | .say m' k, s, i, hf, hh, ht => by
    have ho := exec_flat_screen k (write m' s) i hf (by simpa using hh) (by simpa using ht)
    simp only [exec]; rw [ho, write_screen ht]; simp [Prog.said]
  | .boom m', s, i, hf, hh, ht => by simp [exec, runHook, hh, Prog.said]
  | .attempt b k, s, i, hf, hh, ht => by
    simp only [Prog.flat, Bool.and_eq_true] at hf
    have ho := exec_flat_screen b s i hf.1 hh ht
    have ho' := exec_flat_screen k (exec b s).1 i hf.2 (by rw [(exec_hook b s).1, hh]) (by rw [(exec_hook b s).2, ht])
    show (exec k (exec b s).1).1.screen = _; rw [ho', ho]; simp [Prog.said]
  | .quiet ok b k, s, i, hf, _, _ => by simp [Prog.flat] at hf

theorem finish_no_panic (g : Guard) (s : St) : (finish g false s).screen = s.screen := by simp [finish, leave]

theorem finish_some {g : Guard} {s : St} {m : String} (hb : s.buffer g.slot = some m) (ht : (finish g true s).terminal = true) :
    (finish g true s).screen = s.screen ++ [m] := by
  rw [finish_terminal] at ht
  unfold finish
  simp only [if_true]
  have : (leave g s).buffer g.slot = some m := hb
  rw [this]
  dsimp only
  rw [write_screen ht]; rfl

theorem finish_null {g : Guard} {p : Bool} {s : St} (ht : (finish g p s).terminal = false) : (finish g p s).screen = s.screen := by
  rw [finish_terminal] at ht
  have hl : (leave g s).terminal = false := ht
  unfold finish; dsimp only; split
  · split
    · refine Eq.trans (write_screen_null ?_) ?_ <;> first | exact hl | rfl
    · rfl
  · rfl

end NextPlaid.Stderr

namespace NextPlaid.Props.Toy

open NextPlaid.Stderr

/-- No program writes to the buffer of a call other than that of the hook and those of its own calls. -/
theorem exec_buffer : ∀ (p : Prog) (s : St) (j : Nat), j < s.next → s.hook ≠ some j → (exec p s).1.buffer j = s.buffer j ∧ s.next ≤ (exec p s).1.next
  | .ret, s, j, _, _ => ⟨rfl, Nat.le_refl _⟩
  | .say m k, s, j, hj, hh => by
    have := exec_buffer k (write m s) j (by simpa using hj) (by simpa using hh)
    simpa [exec] using this
  | .boom m, s, j, hj, hh => by
    simp only [exec, runHook]; split
    · simp
    · rename_i i hi
      have : j ≠ i := fun h => hh (by rw [hi, h])
      simp [this]
  | .attempt b k, s, j, hj, hh => by
    have h1 := exec_buffer b s j hj hh
    have h2 := exec_buffer k (exec b s).1 j (by omega) (by rw [(exec_hook b s).1]; exact hh)
    exact ⟨by show (exec k (exec b s).1).1.buffer j = _; rw [h2.1, h1.1], by show _ ≤ (exec k (exec b s).1).1.next; omega⟩
  | .quiet ok b k, s, j, hj, hh => by
    have hb := exec_buffer b (enter ok s).2 j (by show j < s.next + 1; omega) (by show some s.next ≠ some j; simp; omega)
    have hbe : (enter ok s).2.buffer j = s.buffer j := by show (if j = s.next then none else s.buffer j) = _; rw [if_neg (by omega)]
    have hne : (enter ok s).2.next = s.next + 1 := rfl
    have hf : ∀ p t, (finish (enter ok s).1 p t).buffer j = t.buffer j ∧ (finish (enter ok s).1 p t).next = t.next := fun p t => by
      unfold finish; dsimp only; split
      · split
        · have : j ≠ s.next := by omega
          simp [leave, enter, this]
        · exact ⟨rfl, rfl⟩
      · exact ⟨rfl, rfl⟩
    have hF := hf (exec b (enter ok s).2).2 (exec b (enter ok s).2).1
    have hk := exec_buffer k (finish (enter ok s).1 (exec b (enter ok s).2).2 (exec b (enter ok s).2).1) j (by omega)
      (by rw [finish_hook]; exact hh)
    simp only [exec]
    split
    · exact ⟨by rw [hF.1, hb.1, hbe], by rw [hF.2]; omega⟩
    · exact ⟨by rw [hk.1, hF.1, hb.1, hbe], Nat.le_trans (by omega) hk.2⟩

/-- An inner call leaves the buffer of the outer one alone. -/
theorem inner_buffer (body : Prog) (s : St) (j : Nat) (h0 : s.buffer j = none) (hj : j < s.next) :
    (exec (.quiet true body .ret) s).1.buffer j = none := by
  have hb := exec_buffer body (enter true s).2 j (by show j < s.next + 1; omega) (by show some s.next ≠ some j; simp; omega)
  have hbe : (enter true s).2.buffer j = none := by show (if j = s.next then none else s.buffer j) = _; rw [if_neg (by omega), h0]
  have hne : j ≠ s.next := by omega
  have hf : ∀ p t, (finish (enter true s).1 p t).buffer j = t.buffer j := fun p t => by
    unfold finish; dsimp only; split
    · split
      · simp [leave, enter, hne]
      · rfl
    · rfl
  simp only [exec]
  split
  · rw [hf, hb.1, hbe]
  · rw [hf, hb.1, hbe]

end NextPlaid.Props.Toy
