import Verif.Proofs.Interrupt2

/-!
Invariants of whole runs that may be interrupted.
-/

namespace NextPlaid.Interrupt

variable {α : Type} {p : Setup α}

/-- What the main thread is about to send. -/
def Main.offered : Main α → List α
  | .offer m => m
  | _ => []

open Classical in
/-- What is always true. -/
structure Inv (p : Setup α) (chunks : List (List α)) (s : State α) : Prop where
  kinds : s.cells.map (fun c => (c.kind, c.cap)) = [(Kind.plain, 2), (.encode, 2), (.plain, 2), (.write, 4), (.store, 8)]
  roles : Roles s.cells
  shut : Shut p s.main.closed s.cells
  depth : s.shared.depth = guards s.cells
  joined : ∀ i, s.main = .join i → ∀ c ∈ s.cells.take i, c.phase = .ended true
  done : ∀ b, s.main = .ret (some b) → ∀ c ∈ s.cells, c.phase = .ended true
  was : s.was = true → s.shared.flag = true
  result : ∀ b, s.main = .ret (some b) → b = s.was
  live : s.shared.rows ++ live p s.cells ++ (if Alive s.cells ∧ s.main.closed = false then s.main.offered ++ s.todo.flatten else []) <+: chunks.flatten
  inStep : Sound s.cells → InStep p s.shared s.cells
  ends : s.shared.flag = false → Sound s.cells → Ends s.main.closed s.cells
  flow : s.shared.flag = false → Sound s.cells → s.shared.rows ++ flow p s.cells ++ s.main.offered ++ s.todo.flatten = chunks.flatten
  sent : s.shared.flag = false → Sound s.cells → s.main.closed = true → s.todo = []

theorem tail_of {cs : List (Cell α)} (h : cs.map (fun c => (c.kind, c.cap)) = [(Kind.plain, 2), (.encode, 2), (.plain, 2), (.write, 4), (.store, 8)]) :
    Tail cs := by
  refine ⟨[], ?_⟩
  have := congrArg (List.map Prod.fst) h
  rw [List.map_map] at this
  exact this

theorem inv_start (p : Setup α) (chunks : List (List α)) : Inv p chunks (start chunks) where
  kinds := rfl
  roles := by
    intro c hc
    simp only [start, List.mem_cons, List.not_mem_nil, or_false] at hc
    rcases hc with rfl | rfl | rfl | rfl | rfl <;> simp [Role]
  shut := by simp [start, Shut]
  depth := by simp [start, guards, Cell.guards]
  joined := fun i h => by cases h
  done := fun i h => by cases h
  was := fun h => by cases h
  result := fun i h => by cases h
  live := by
    have : NextPlaid.Interrupt.live p (start chunks).cells = [] := by simp [start, NextPlaid.Interrupt.live, Cell.units]
    rw [this]
    split <;> simp [start, Main.offered]
  inStep := fun _ => by simp [start, InStep, Cell.inIndex, Cell.held, NextPlaid.Interrupt.flow, Cell.units]
  ends := fun _ _ => by simp [start, Ends, Cell.isEnded]
  flow := fun _ _ => by simp [start, NextPlaid.Interrupt.flow, Cell.units, Main.offered]
  sent := fun _ _ h => by cases h

theorem sound_back {cs cs' : List (Cell α)} (h : List.Forall₂ (fun c c' => c.isEnded = true → c' = c) cs cs') (hs : Sound cs') : Sound cs := by
  induction h with
  | nil => exact hs
  | cons h1 _ ih =>
    rw [sound_cons] at hs ⊢
    refine ⟨fun hb => ?_, ih hs.2⟩
    rw [h1 (ended_of_phase hb)] at hs
    exact hs.1 hb

theorem ended_kept {cs cs' : List (Cell α)} (h : List.Forall₂ (fun c c' => c.isEnded = true → c' = c) cs cs') :
    ∀ i, (∀ c ∈ cs.take i, c.phase = .ended true) → ∀ c ∈ cs'.take i, c.phase = .ended true := by
  induction h with
  | nil => intro i h; exact h
  | cons h1 _ ih =>
    intro i
    cases i with
    | zero => intro _ c hc; simp at hc
    | succ n =>
      intro hc c hm
      rw [List.take_succ_cons] at hc hm
      rcases List.mem_cons.mp hm with rfl | hm
      · have := hc _ List.mem_cons_self
        rw [h1 (ended_of_phase this)]
        exact this
      · exact ih n (fun c hm => hc c (List.mem_cons_of_mem _ hm)) c hm

/-- The step of a thread, or its failure. -/
theorem inv_local {chunks : List (List α)} {s : State α} {bad : Bool} {g' : Shared α} {cs' : List (Cell α)} (hi : Inv p chunks s)
    (h : Local p bad s.main.closed s.shared s.cells g' cs') : Inv p chunks { s with shared := g', cells := cs' } := by
  have ht := tail_of hi.kinds
  have hk := local_keeps h
  have hfl := local_flag h
  have hlv := local_live h ht hi.roles
  exact {
    kinds := hk.1.trans hi.kinds
    roles := local_roles h hi.roles
    shut := local_shut h hi.shut
    depth := by simpa using local_guards h 0 (by rw [hi.depth]; rfl)
    joined := fun i hm => ended_kept hk.2 i (hi.joined i hm)
    done := fun b hm => by
      have := ended_kept hk.2 s.cells.length (by rw [List.take_length]; exact hi.done b hm)
      rw [hk.2.length_eq, List.take_length] at this
      exact this
    was := fun hw => by rw [hfl]; exact hi.was hw
    result := hi.result
    live := by
      refine List.IsPrefix.trans ?_ hi.live
      show g'.rows ++ NextPlaid.Interrupt.live p cs' ++ _ <+: _
      by_cases ha : Alive cs' ∧ s.main.closed = false
      · rw [if_pos ha, if_pos ⟨(hlv.1 ha.1).1, ha.2⟩, (hlv.1 ha.1).2]
        exact List.prefix_rfl
      · rw [if_neg ha, List.append_nil]
        exact hlv.2.trans (List.prefix_append _ _)
    inStep := fun hn => local_inStep h ht hi.roles hi.shut hn (hi.inStep (sound_back hk.2 hn))
    ends := fun hf hn => by
      have hf' : s.shared.flag = false := hfl ▸ hf
      exact (local_ends h hf' hi.shut (hi.ends hf' (sound_back hk.2 hn))).1 hn
    flow := fun hf hn => by
      have hf' : s.shared.flag = false := hfl ▸ hf
      have := hi.flow hf' (sound_back hk.2 hn)
      show g'.rows ++ NextPlaid.Interrupt.flow p cs' ++ _ ++ _ = _
      rw [local_flow h ht hi.roles hi.shut hn (.inl hf')]
      exact this
    sent := fun hf hn hc => by
      have hf' : s.shared.flag = false := hfl ▸ hf
      exact hi.sent hf' (sound_back hk.2 hn) hc }

theorem units_push (d : Cell α) (m : List α) (hd : d.isEnded = false) : Cell.units p { d with queue := d.queue ++ [m] } = d.units p ++ m := by
  unfold Cell.isEnded at hd
  unfold Cell.units
  cases hp : d.phase <;> simp_all

theorem stop_flag {g : Shared α} (h : g.stop = true) : g.flag = true := by
  unfold Shared.stop at h
  split at h
  · cases h
  · exact h

theorem inv_main {chunks : List (List α)} {s s' : State α} (hi : Inv p chunks s) (h : mainStep s = some s') : Inv p chunks s' := by
  unfold mainStep at h
  split at h
  · rename_i hm
    have hclosed : s.main.closed = false := by rw [hm]; rfl
    split at h
    · rename_i ht
      cases h
      exact { hi with
        shut := by have := hi.shut; rw [hclosed] at this; exact this.mono _
        joined := fun i hj c hc => by cases hj; simp at hc
        done := fun b hb => by cases hb
        result := fun b hb => by cases hb
        live := by
          refine List.IsPrefix.trans ?_ hi.live
          rw [if_neg (by simp [Main.closed]), List.append_nil]
          exact List.prefix_append _ _
        ends := fun hf hn => by have := hi.ends hf hn; rw [hclosed] at this; exact this.mono _
        flow := fun hf hn => by have := hi.flow hf hn; rw [hm] at this; exact this
        sent := fun _ _ _ => ht }
    · rename_i m rest ht
      split at h
      · rename_i hst
        have hflag := stop_flag hst
        cases h
        exact { hi with
          shut := by have := hi.shut; rw [hclosed] at this; exact this.mono _
          joined := fun i hj c hc => by cases hj; simp at hc
          done := fun b hb => by cases hb
          was := fun _ => hflag
          result := fun b hb => by cases hb
          live := by
            refine List.IsPrefix.trans ?_ hi.live
            rw [if_neg (by simp [Main.closed]), List.append_nil]
            exact List.prefix_append _ _
          ends := fun hf => by rw [hflag] at hf; cases hf
          flow := fun hf => by rw [hflag] at hf; cases hf
          sent := fun hf => by rw [hflag] at hf; cases hf }
      · cases h
        exact { hi with
          shut := by have := hi.shut; rw [hclosed] at this; exact this
          joined := fun i hj => by cases hj
          done := fun b hb => by cases hb
          result := fun b hb => by cases hb
          live := by
            have := hi.live
            rw [hm, ht] at this
            by_cases ha : Alive s.cells
            · rw [if_pos ⟨ha, rfl⟩] at this ⊢
              simpa [Main.offered] using this
            · rw [if_neg fun h => ha h.1] at this ⊢
              exact this
          ends := fun hf hn => by have := hi.ends hf hn; rw [hclosed] at this; exact this
          flow := fun hf hn => by
            have := hi.flow hf hn
            rw [hm, ht] at this
            simpa [Main.offered] using this
          sent := fun _ _ hc => by cases hc }
  · rename_i m hm
    have hclosed : s.main.closed = false := by rw [hm]; rfl
    split at h
    · cases h
    · rename_i c cs hcs
      split at h
      · rename_i hend
        cases h
        have hno : s.shared.flag = false → Sound s.cells → False := by
          intro hf hn
          have := hi.ends hf hn
          rw [hcs, hclosed] at this
          have := this.1 hend
          cases this
        exact { hi with
          shut := by have := hi.shut; rw [hclosed] at this; exact this.mono _
          joined := fun i hj => by cases hj
          done := fun b hb => by cases hb
          result := fun b hb => by cases hb
          live := by
            refine List.IsPrefix.trans ?_ hi.live
            rw [if_neg (by simp [Main.closed]), List.append_nil]
            exact List.prefix_append _ _
          ends := fun hf hn => (hno hf hn).elim
          flow := fun hf hn => (hno hf hn).elim
          sent := fun hf hn => (hno hf hn).elim }
      · rename_i hend
        have hend : c.isEnded = false := by simpa using hend
        split at h
        · cases h
          have hu := units_push (p := p) c m hend
          have hsound : Sound ({ c with queue := c.queue ++ [m] } :: cs) → Sound s.cells := by
            rw [hcs, sound_cons, sound_cons]
            exact id
          have halive : Alive ({ c with queue := c.queue ++ [m] } :: cs) ↔ Alive s.cells := by
            rw [hcs, alive_cons, alive_cons]
            exact Iff.rfl
          exact {
            kinds := by have := hi.kinds; rw [hcs] at this; exact this
            roles := by
              have := hi.roles
              rw [hcs, roles_cons] at this
              exact (roles_cons _ _).mpr ⟨role_of _ _ this.1 rfl rfl (.inr (.inr rfl)), this.2⟩
            shut := by
              have := hi.shut
              rw [hcs, hclosed] at this
              refine ⟨fun h1 h2 => ?_, this.2⟩
              have := (this.1 h1 h2).1
              cases this
            depth := by have := hi.depth; rw [hcs] at this; exact this
            joined := fun i hj => by cases hj
            done := fun b hb => by cases hb
            was := hi.was
            result := fun b hb => by cases hb
            live := by
              have := hi.live
              rw [hm] at this
              by_cases ha : Alive s.cells
              · rw [if_pos ⟨ha, rfl⟩] at this
                rw [if_pos ⟨halive.mpr ha, rfl⟩]
                have ha' := halive.mpr ha
                rw [hcs] at this ha
                rw [live_cons, if_pos ha] at this
                rw [live_cons, if_pos ha', hu]
                simpa [Main.offered] using this
              · rw [if_neg fun h => ha h.1] at this
                rw [if_neg fun h => ha (halive.mp h.1)]
                have ha' : ¬ Alive ({ c with queue := c.queue ++ [m] } :: cs) := fun h => ha (halive.mp h)
                rw [hcs] at this ha
                rw [live_cons, if_neg ha] at this
                rw [live_cons, if_neg ha']
                exact this
            inStep := fun hn => by
              have h1 := hi.inStep (hsound hn)
              have hk : c.kind = .plain := by
                have := hi.kinds
                rw [hcs] at this
                simp only [List.map_cons, List.cons.injEq, Prod.mk.injEq] at this
                exact this.1.1
              rw [hcs] at h1
              simp only [InStep] at h1 ⊢
              rw [if_neg (by rw [hk]; decide)] at h1 ⊢
              exact h1
            ends := fun hf hn => by
              have := hi.ends hf (hsound hn)
              rw [hcs, hclosed] at this
              exact this
            flow := fun hf hn => by
              have := hi.flow hf (hsound hn)
              rw [hcs, hm] at this
              simp only [NextPlaid.Interrupt.flow, hu, Main.offered] at this ⊢
              simpa using this
            sent := fun _ _ hc => by cases hc }
        · cases h
  · rename_i i hm
    have hclosed : s.main.closed = true := by rw [hm]; rfl
    split at h
    · rename_i hnone
      cases h
      have hlen : s.cells.length ≤ i := by simpa using hnone
      exact { hi with
        shut := by have := hi.shut; rw [hclosed] at this; exact this
        joined := fun i hj => by cases hj
        done := fun b _ => by
          have := hi.joined i hm
          rw [List.take_of_length_le hlen] at this
          exact this
        result := fun b hb => by cases hb; rfl
        live := by
          have := hi.live
          rw [hm] at this
          exact this
        ends := fun hf hn => by have := hi.ends hf hn; rw [hclosed] at this; exact this
        flow := fun hf hn => by have := hi.flow hf hn; rw [hm] at this; exact this
        sent := fun hf hn _ => hi.sent hf hn hclosed }
    · rename_i c hc
      split at h
      · rename_i hph
        cases h
        exact { hi with
          shut := by have := hi.shut; rw [hclosed] at this; exact this
          joined := fun j hj d hd => by
            cases hj
            rw [List.take_add_one, List.mem_append, hc] at hd
            rcases hd with hd | hd
            · exact hi.joined i hm d hd
            · simp at hd
              rw [hd]
              exact hph
          done := fun b hb => by cases hb
          result := fun b hb => by cases hb
          live := by
            have := hi.live
            rw [hm] at this
            exact this
          ends := fun hf hn => by have := hi.ends hf hn; rw [hclosed] at this; exact this
          flow := fun hf hn => by have := hi.flow hf hn; rw [hm] at this; exact this
          sent := fun hf hn _ => hi.sent hf hn hclosed }
      · rename_i hph
        cases h
        exact { hi with
          shut := by have := hi.shut; rw [hclosed] at this; exact this
          joined := fun i hj => by cases hj
          done := fun b hb => by cases hb
          result := fun b hb => by cases hb
          live := by
            have := hi.live
            rw [hm] at this
            exact this
          ends := fun hf hn => by have := hi.ends hf hn; rw [hclosed] at this; exact this
          flow := fun hf hn => by have := hi.flow hf hn; rw [hm] at this; exact this
          sent := fun hf hn _ => hi.sent hf hn hclosed }
      · cases h
  · cases h

theorem inv_step {chunks : List (List α)} {s s' : State α} {a : Act} (hi : Inv p chunks s) (h : step p s a = some s') : Inv p chunks s' := by
  unfold step at h
  split at h
  · cases h
  · cases a with
    | signal =>
      cases h
      exact { hi with
        was := fun _ => rfl
        inStep := fun hn => inStep_congr (g := s.shared) (g' := { s.shared with flag := true }) rfl rfl _ (hi.inStep hn)
        ends := fun hf => by cases hf
        flow := fun hf => by cases hf
        sent := fun hf => by cases hf }
    | main => exact inv_main hi h
    | cell i =>
      obtain ⟨r, hr, rfl⟩ := Option.map_eq_some_iff.mp h
      exact inv_local hi (stepAt_sound p _ i _ _ r hr)
    | fail i =>
      obtain ⟨r, hr, rfl⟩ := Option.map_eq_some_iff.mp h
      exact inv_local hi (failAt_sound p _ i _ _ r hr)
    | exit =>
      simp only at h
      split at h
      · cases h
        exact { hi with }
      · cases h

theorem inv_run {chunks : List (List α)} {s s' : State α} {as : List Act} (hr : Run p as s s') (hi : Inv p chunks s) : Inv p chunks s' := by
  induction hr with
  | nil => exact hi
  | cons h _ ih => exact ih (inv_step hi h)

/-! ### Without signals and failures -/

theorem quiet_step {chunks : List (List α)} {s s' : State α} {a : Act} (hi : Inv p chunks s) (ha : a = .main ∨ (∃ i, a = .cell i) ∨ a = .exit)
    (hq : s.shared.flag = false ∧ Sound s.cells ∧ s.main ≠ .ret none) (h : step p s a = some s') :
    s'.shared.flag = false ∧ Sound s'.cells ∧ s'.main ≠ .ret none := by
  obtain ⟨hf, hn, hm⟩ := hq
  unfold step at h
  split at h
  · cases h
  · rcases ha with rfl | ⟨i, rfl⟩ | rfl
    · simp only [mainStep] at h
      split at h
      · split at h
        · cases h; exact ⟨hf, hn, fun h => by cases h⟩
        · split at h <;> (cases h; exact ⟨hf, hn, fun h => by cases h⟩)
      · rename_i m hmm
        split at h
        · cases h
        · rename_i c cs hcs
          split at h
          · rename_i hend
            have := hi.ends hf hn
            rw [hcs, hmm] at this
            have := this.1 hend
            cases this
          · split at h
            · cases h
              refine ⟨hf, ?_, fun h => by cases h⟩
              rw [hcs, sound_cons] at hn
              exact (sound_cons _ _).mpr hn
            · cases h
      · split at h
        · cases h; exact ⟨hf, hn, fun h => by cases h⟩
        · rename_i c hc
          split at h
          · cases h; exact ⟨hf, hn, fun h => by cases h⟩
          · rename_i hph
            exact absurd hph (hn c (List.mem_of_getElem? hc))
          · cases h
      · cases h
    · obtain ⟨r, hr, rfl⟩ := Option.map_eq_some_iff.mp h
      have hl := stepAt_sound p _ i _ _ r hr
      exact ⟨(local_flag hl).trans hf, (local_ends hl hf hi.shut (hi.ends hf hn)).2 rfl hn, hm⟩
    · cases hmm : s.main with
      | ret r =>
        cases r with
        | none => exact absurd hmm hm
        | some b => rw [hmm] at h; cases h
      | _ => rw [hmm] at h; cases h

end NextPlaid.Interrupt
