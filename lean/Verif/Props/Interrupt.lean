import Verif.Proofs.Interrupt4

/-!
C97: Ctrl+C while an index is made.
-/

namespace NextPlaid.Props

open NextPlaid.Spec
open NextPlaid.Interrupt

variable {α : Type}

/-- **C97, nothing is left running.**  When the run returns without an error, interrupted or not and whatever failed on the way, all threads have ended and
nothing is being written; the index and the database have the same units, the first of those to be indexed, in order.  It says that it was interrupted only
if it was. -/
theorem C97_settled (p : Setup α) (chunks : List (List α)) (as : List Act) (s : State α) (hr : Run p as (start chunks) s) (b : Bool)
    (hm : s.main = .ret (some b)) :
    AllEnded s ∧ ¬ Writing s ∧ s.shared.docs = s.shared.rows ∧ s.shared.rows <+: chunks.flatten ∧ (b = true → s.shared.flag = true) := by
  have hi := inv_run hr (inv_start p chunks)
  have hd := hi.done b hm
  have hend : ∀ c ∈ s.cells, c.isEnded = true := fun c hc => ended_of_phase (hd c hc)
  have hsound : Sound s.cells := fun c hc h => by rw [hd c hc] at h; cases h
  refine ⟨hend, ?_, ?_, ?_, ?_⟩
  · rintro ⟨c, hc, hw⟩
    rw [hd c hc] at hw
    cases hw
  · have hs := hi.inStep hsound
    have hk := hi.kinds
    have key : ∀ cs : List (Cell α), (∀ c ∈ cs, c.phase = .ended true) → (∃ c ∈ cs, c.kind = .write) → InStep p s.shared cs → s.shared.docs = s.shared.rows := by
      intro cs
      induction cs with
      | nil => rintro _ ⟨c, hc, _⟩; cases hc
      | cons c cs ih =>
        intro hall hex hin
        simp only [InStep] at hin
        split at hin
        · have h1 := hall c List.mem_cons_self
          have hflow : flow p cs = [] := by
            have : ∀ l : List (Cell α), (∀ c ∈ l, c.phase = .ended true) → flow p l = [] := by
              intro l
              induction l with
              | nil => intro _; rfl
              | cons d l ih =>
                intro h
                simp [flow, ih fun e he => h e (List.mem_cons_of_mem _ he), Cell.units, h d List.mem_cons_self]
            exact this cs fun d hd => hall d (List.mem_cons_of_mem _ hd)
          have := hin.1
          simpa [Cell.inIndex, Cell.isEnded, Cell.held, h1, hflow] using this
        · rename_i hkk
          refine ih (fun d hd => hall d (List.mem_cons_of_mem _ hd)) ?_ hin
          obtain ⟨d, hd, hdk⟩ := hex
          rcases List.mem_cons.mp hd with rfl | hd
          · exact absurd hdk hkk
          · exact ⟨d, hd, hdk⟩
    refine key s.cells hd ?_ hs
    have : (Kind.write, 4) ∈ s.cells.map (fun c => (c.kind, c.cap)) := by rw [hk]; simp
    obtain ⟨c, hc, he⟩ := List.mem_map.mp this
    exact ⟨c, hc, congrArg Prod.fst he⟩
  · exact ((List.prefix_append _ _).trans (List.prefix_append _ _)).trans hi.live
  · intro hb
    exact hi.was (by rw [← hi.result b hm]; exact hb)

/-- **C97, what is reported as complete is complete.**  If the run returns without an error and Ctrl+C was not pressed before, all units are in the index and
in the database. -/
theorem C97_complete (p : Setup α) (chunks : List (List α)) (as : List Act) (s : State α) (hr : Run p as (start chunks) s) (b : Bool)
    (hm : s.main = .ret (some b)) (hf : s.shared.flag = false) : b = false ∧ s.shared.docs = chunks.flatten ∧ s.shared.rows = chunks.flatten := by
  have hi := inv_run hr (inv_start p chunks)
  have hset := C97_settled p chunks as s hr b hm
  have hd := hi.done b hm
  have hsound : Sound s.cells := fun c hc h => by rw [hd c hc] at h; cases h
  have hflow : ∀ l : List (Cell α), (∀ c ∈ l, c.phase = .ended true) → flow p l = [] := by
    intro l
    induction l with
    | nil => intro _; rfl
    | cons d l ih =>
      intro h
      simp [flow, ih fun e he => h e (List.mem_cons_of_mem _ he), Cell.units, h d List.mem_cons_self]
  have h1 := hi.flow hf hsound
  have h2 := hi.sent hf hsound (by rw [hm]; rfl)
  rw [hflow _ hd, h2, hm] at h1
  have hrows : s.shared.rows = chunks.flatten := by simpa [Main.offered] using h1
  refine ⟨?_, hset.2.2.1.trans hrows, hrows⟩
  cases b with
  | false => rfl
  | true =>
    have := hset.2.2.2.2 rfl
    rw [hf] at this
    cases this

/-- **C97, in order.**  At every moment of every run the rows of the database are those of the first units, in order. -/
theorem C97_in_order (p : Setup α) (chunks : List (List α)) (as : List Act) (s : State α) (hr : Run p as (start chunks) s) :
    s.shared.rows <+: chunks.flatten := by
  have hi := inv_run hr (inv_start p chunks)
  exact ((List.prefix_append _ _).trans (List.prefix_append _ _)).trans hi.live

/-- **C97, no error of its own.**  Without Ctrl+C and failures, the run does not return an error: no message is sent to a thread that is gone. -/
theorem C97_no_error (p : Setup α) (chunks : List (List α)) (as : List Act) (s : State α) (hr : Run p as (start chunks) s)
    (has : ∀ a ∈ as, a ≠ .signal ∧ ∀ i, a ≠ .fail i) : s.main ≠ .ret none := by
  have key : ∀ (as : List Act) (s0 s : State α), Run p as s0 s → (∀ a ∈ as, a ≠ .signal ∧ ∀ i, a ≠ .fail i) → Inv p chunks s0 →
      (s0.shared.flag = false ∧ Sound s0.cells ∧ s0.main ≠ .ret none) → s.main ≠ .ret none := by
    intro as s0 s hr
    induction hr with
    | nil => intro _ _ h; exact h.2.2
    | @cons a as s s' s'' h _ ih =>
      intro has hi hq
      refine ih (fun a ha => has a (List.mem_cons_of_mem _ ha)) (inv_step hi h) (quiet_step hi ?_ hq h)
      have h1 := has _ List.mem_cons_self
      cases a with
      | signal => exact absurd rfl h1.1
      | fail i => exact absurd rfl (h1.2 i)
      | main => exact .inl rfl
      | cell i => exact .inr (.inl ⟨i, rfl⟩)
      | exit => exact .inr (.inr rfl)
  refine key as _ s hr has (inv_start p chunks) ⟨rfl, ?_, fun h => by cases h⟩
  intro c hc
  simp only [start, List.mem_cons, List.not_mem_nil, or_false] at hc
  rcases hc with rfl | rfl | rfl | rfl | rfl <;> simp

/-- **C97, prompt.**  While Ctrl+C has been pressed and nothing is being written, no batch is begun, no message is taken up by the encoder and none is
sent off by the main thread: a step leaves the batches in progress as they are, or ends the encoder. -/
theorem C97_prompt (p : Setup α) (s s' : State α) (a : Act) (hf : s.shared.flag = true) (hd : s.shared.depth = 0) (h : step p s a = some s') :
    (∀ m, s'.main = .offer m → s.main = .offer m) ∧
      ∀ (i : Nat) (c : Cell α) (m : List α) (n : Nat), s'.cells[i]? = some c → c.phase = .busy m n → ∃ d, s.cells[i]? = some d ∧ d.phase = .busy m n := by
  have hstop : s.shared.stop = true := by simp [Shared.stop, hd, hf]
  have hloc : ∀ (bad up : Bool) (g g' : Shared α) (cs cs' : List (Cell α)), g.stop = true → Local p bad up g cs g' cs' →
      ∀ (i : Nat) (c : Cell α) (m : List α) (n : Nat), cs'[i]? = some c → c.phase = .busy m n → ∃ d, cs[i]? = some d ∧ d.phase = .busy m n := by
    intro bad up g g' cs cs' hg hl
    induction hl with
    | deeper _ ih =>
      intro i c m n hc hb
      cases i with
      | zero => exact ⟨c, hc, hb⟩
      | succ i => exact ih hg i c m n hc hb
    | one _ hal =>
      intro i c m n hc hb
      cases i with
      | zero =>
        simp only [List.getElem?_cons_zero, Option.some.injEq] at hc
        subst hc
        exfalso
        cases hal <;> simp_all
      | succ i => exact ⟨c, hc, hb⟩
    | @push up g c0 d cs m0 gd _ h0 hd' _ =>
      intro i c m n hc hb
      match i with
      | 0 =>
        simp only [List.getElem?_cons_zero, Option.some.injEq] at hc
        subst hc
        cases hb
      | 1 =>
        simp only [List.getElem?_cons_succ, List.getElem?_cons_zero, Option.some.injEq] at hc
        subst hc
        exact ⟨d, rfl, hb⟩
      | i + 2 => exact ⟨c, hc, hb⟩
    | _ =>
      intro i c m n hc hb
      cases i with
      | zero =>
        simp only [List.getElem?_cons_zero, Option.some.injEq] at hc
        subst hc
        cases hb
      | succ i => exact ⟨c, hc, hb⟩
  unfold step at h
  split at h
  · cases h
  · cases a with
    | signal =>
      cases h
      exact ⟨fun _ h => h, fun i c m n h1 h2 => ⟨c, h1, h2⟩⟩
    | cell i =>
      obtain ⟨r, hr, rfl⟩ := Option.map_eq_some_iff.mp h
      exact ⟨fun _ h => h, hloc _ _ _ _ _ _ hstop (stepAt_sound p _ i _ _ r hr)⟩
    | fail i =>
      obtain ⟨r, hr, rfl⟩ := Option.map_eq_some_iff.mp h
      exact ⟨fun _ h => h, hloc _ _ _ _ _ _ hstop (failAt_sound p _ i s.main.closed _ r hr)⟩
    | exit =>
      simp only at h
      split at h
      · cases h
        exact ⟨fun _ h => h, fun i c m n h1 h2 => ⟨c, h1, h2⟩⟩
      · cases h
    | main =>
      simp only [mainStep] at h
      split at h
      · split at h
        · cases h
          exact ⟨fun _ h => (by cases h), fun i c m n h1 h2 => ⟨c, h1, h2⟩⟩
        · rw [hstop] at h
          cases h
          exact ⟨fun _ h => (by cases h), fun i c m n h1 h2 => ⟨c, h1, h2⟩⟩
      · split at h
        · cases h
        · rename_i c0 cs hcs
          split at h
          · cases h
            exact ⟨fun _ h => (by cases h), fun i c m n h1 h2 => ⟨c, h1, h2⟩⟩
          · split at h
            · cases h
              refine ⟨fun _ h => (by cases h), fun i c m n h1 h2 => ?_⟩
              rw [hcs]
              cases i with
              | zero =>
                simp only [List.getElem?_cons_zero, Option.some.injEq] at h1
                subst h1
                exact ⟨c0, rfl, h2⟩
              | succ i => exact ⟨c, h1, h2⟩
            · cases h
      · split at h
        · cases h
          exact ⟨fun _ h => (by cases h), fun i c m n h1 h2 => ⟨c, h1, h2⟩⟩
        · split at h
          · cases h
            exact ⟨fun _ h => (by cases h), fun i c m n h1 h2 => ⟨c, h1, h2⟩⟩
          · cases h
            exact ⟨fun _ h => (by cases h), fun i c m n h1 h2 => ⟨c, h1, h2⟩⟩
          · cases h
      · cases h

/-- **C97, critical sections.**  At every moment of every run: while the index is being written, the counter says so; when all threads have ended, also by
errors and panics, the counter is back at zero, so that Ctrl+C is not ignored for ever. -/
theorem C97_sections (p : Setup α) (chunks : List (List α)) (as : List Act) (s : State α) (hr : Run p as (start chunks) s) :
    (Writing s → 0 < s.shared.depth) ∧ (AllEnded s → s.shared.depth = 0) := by
  have hi := inv_run hr (inv_start p chunks)
  rw [hi.depth]
  constructor
  · rintro ⟨c, hc, hw⟩
    obtain ⟨pre, post, hs⟩ := List.append_of_mem hc
    have h3 : c.guards = 1 := by simp [Cell.guards, hw]
    rw [hs, guards, List.map_append, List.sum_append, List.map_cons, List.sum_cons]
    omega
  · intro h
    have key : ∀ cs : List (Cell α), (∀ c ∈ cs, c.isEnded = true) → guards cs = 0 := by
      intro cs
      induction cs with
      | nil => intro _; rfl
      | cons c cs ih =>
        intro h
        have h1 := h c List.mem_cons_self
        have h2 := ih fun d hd => h d (List.mem_cons_of_mem _ hd)
        have h3 : c.guards = 0 := by
          unfold Cell.isEnded at h1
          split at h1
          · rename_i hp
            simp [Cell.guards, hp]
          · cases h1
        simp only [guards, List.map_cons, List.sum_cons] at h2 ⊢
        omega
    exact key s.cells h

/-- **C97, reported.**  If the run returns that it was not interrupted, all chunks have been sent off. -/
theorem C97_reported (p : Setup α) (chunks : List (List α)) (as : List Act) (s : State α) (hr : Run p as (start chunks) s)
    (hm : s.main = .ret (some false)) : s.todo = [] := by
  let Q : State α → Prop := fun s => ((∃ i, s.main = .join i) → s.was = false → s.todo = []) ∧ (∀ b, s.main = .ret (some b) → s.was = b) ∧
    (s.main = .ret (some false) → s.todo = [])
  have hstep : ∀ (s s' : State α) (a : Act), Q s → step p s a = some s' → Q s' := by
    rintro s s' a hq h
    unfold step at h
    split at h
    · cases h
    · cases a with
      | signal => cases h; exact hq
      | cell i => obtain ⟨r, hr, rfl⟩ := Option.map_eq_some_iff.mp h; exact hq
      | fail i => obtain ⟨r, hr, rfl⟩ := Option.map_eq_some_iff.mp h; exact hq
      | exit =>
        simp only at h
        split at h
        · cases h; exact hq
        · cases h
      | main =>
        simp only [mainStep] at h
        split at h
        · split at h
          · rename_i hto
            cases h
            exact ⟨fun _ _ => hto, fun b h => (by cases h), fun h => (by cases h)⟩
          · split at h
            · cases h
              exact ⟨fun _ h => (by cases h), fun b h => (by cases h), fun h => (by cases h)⟩
            · cases h
              exact ⟨fun ⟨_, h⟩ => (by cases h), fun b h => (by cases h), fun h => (by cases h)⟩
        · split at h
          · cases h
          · split at h
            · cases h
              exact ⟨fun ⟨_, h⟩ => (by cases h), fun b h => (by cases h), fun h => (by cases h)⟩
            · split at h
              · cases h
                exact ⟨fun ⟨_, h⟩ => (by cases h), fun b h => (by cases h), fun h => (by cases h)⟩
              · cases h
        · rename_i i hj
          split at h
          · cases h
            refine ⟨fun ⟨_, h⟩ => (by cases h), fun b h => ?_, fun h => ?_⟩
            · simp only [Main.ret.injEq, Option.some.injEq] at h
              exact h
            · simp only [Main.ret.injEq, Option.some.injEq] at h
              exact hq.1 ⟨i, hj⟩ h
          · split at h
            · cases h
              exact ⟨fun _ hw => hq.1 ⟨i, hj⟩ hw, fun b h => (by cases h), fun h => (by cases h)⟩
            · cases h
              exact ⟨fun ⟨_, h⟩ => (by cases h), fun b h => (by cases h), fun h => (by cases h)⟩
            · cases h
        · cases h
  have hrun : ∀ (as : List Act) (s s' : State α), Run p as s s' → Q s → Q s' := by
    intro as s s' hr
    induction hr with
    | nil => exact id
    | cons h _ ih => exact fun hq => ih (hstep _ _ _ hq h)
  exact (hrun as _ s hr ⟨fun ⟨_, h⟩ => (by cases h), fun b h => (by cases h), fun h => (by cases h)⟩).2.2 hm

/-- **C97, it does not hang.**  As long as the run has not returned, one of its threads can do something, whatever was interrupted or failed. -/
theorem C97_no_deadlock (p : Setup α) (chunks : List (List α)) (as : List Act) (s : State α) (hr : Run p as (start chunks) s) (hx : s.exited = false)
    (hm : ∀ r, s.main ≠ .ret r) : ∃ a s', (a = .main ∨ ∃ i, a = .cell i) ∧ step p s a = some s' := by
  have hi := inv_run hr (inv_start p chunks)
  have hlen : s.cells.length = 5 := by simpa using congrArg List.length hi.kinds
  have hcap : ∀ d ∈ s.cells, 0 < d.cap := by
    intro d hd
    have : (d.kind, d.cap) ∈ s.cells.map (fun c => (c.kind, c.cap)) := List.mem_map.mpr ⟨d, hd, rfl⟩
    rw [hi.kinds] at this
    simp at this
    omega
  have ht := tail_of hi.kinds
  have lift : ∀ i r, stepAt p s.main.closed s.shared i s.cells = some r → ∃ a s', (a = Act.main ∨ ∃ i, a = .cell i) ∧ step p s a = some s' := by
    intro i r h
    exact ⟨.cell i, { s with shared := r.1, cells := r.2 }, .inr ⟨i, rfl⟩, by simp [step, hx, h]⟩
  have byMain : ∀ s', mainStep s = some s' → ∃ a s', (a = Act.main ∨ ∃ i, a = .cell i) ∧ step p s a = some s' := by
    intro s' h
    exact ⟨.main, s', .inl rfl, by simp [step, hx, h]⟩
  cases hmm : s.main with
  | ret r => exact absurd hmm (hm r)
  | top =>
    cases hto : s.todo with
    | nil => exact byMain _ (by simp [mainStep, hmm, hto]; rfl)
    | cons m rest =>
      cases hst : s.shared.stop with
      | true => exact byMain _ (by simp [mainStep, hmm, hto, hst]; rfl)
      | false => exact byMain _ (by simp [mainStep, hmm, hto, hst]; rfl)
  | offer m =>
    cases hcs : s.cells with
    | nil => rw [hcs] at hlen; cases hlen
    | cons c cs =>
      rw [hcs] at ht hcap
      have hro := hi.roles
      rw [hcs] at hro
      rcases progress p s.shared cs s.main.closed c ht hro hcap with ⟨i, r, h⟩ | h | ⟨h1, h2, -⟩
      · exact lift i r (by rw [hcs]; exact h)
      · exact byMain _ (by simp [mainStep, hmm, hcs, h]; rfl)
      · have he : c.isEnded = false := by simp [Cell.isEnded, h1]
        have hc := hcap c List.mem_cons_self
        exact byMain _ (by simp [mainStep, hmm, hcs, he, h2, hc]; rfl)
  | join i =>
    cases hc : s.cells[i]? with
    | none => exact byMain _ (by simp [mainStep, hmm, hc]; rfl)
    | some c =>
      cases hcp : c.phase with
      | ended ok => cases ok <;> exact byMain _ (by simp [mainStep, hmm, hc, hcp]; rfl)
      | _ =>
        have hne : c.isEnded = false := by simp [Cell.isEnded, hcp]
        obtain ⟨hil, hget⟩ := List.getElem?_eq_some_iff.mp hc
        have hsplit : s.cells = s.cells.take i ++ c :: s.cells.drop (i + 1) := by
          rw [← hget, List.getElem_cons_drop hil, List.take_append_drop]
        have hj := hi.joined i hmm
        have deep : ∀ (pre : List (Cell α)) (up : Bool) (cs : List (Cell α)), (∀ d ∈ pre, d.isEnded = true) → (pre = [] → up = true) →
            (∃ j r, stepAt p true s.shared j cs = some r) → ∃ j r, stepAt p up s.shared j (pre ++ cs) = some r := by
          intro pre
          induction pre with
          | nil =>
            intro up cs _ hu h
            rw [hu rfl]
            exact h
          | cons d pre ih =>
            intro up cs hall _ h
            obtain ⟨j, r, h⟩ := ih d.isEnded cs (fun e he => hall e (List.mem_cons_of_mem _ he)) (fun _ => hall d List.mem_cons_self) h
            exact ⟨j + 1, (r.1, d :: r.2), by rw [List.cons_append, stepAt, h]; rfl⟩
        have hsub : ∀ (pre cs : List (Cell α)), Tail (pre ++ cs) → Tail cs := by
          intro pre
          induction pre with
          | nil => exact fun _ h => h
          | cons d pre ih => exact fun cs h => ih cs h.next
        have htc : Tail (c :: s.cells.drop (i + 1)) := hsub (s.cells.take i) _ (by rw [← hsplit]; exact ht)
        have hmem : ∀ d ∈ c :: s.cells.drop (i + 1), d ∈ s.cells := by
          intro d hd
          rw [hsplit]
          exact List.mem_append_right _ hd
        rcases progress p s.shared _ true c htc (fun d hd => hi.roles d (hmem d hd)) (fun d hd => hcap d (hmem d hd)) with h | h | ⟨-, -, h⟩
        · obtain ⟨j, r, h⟩ := deep (s.cells.take i) s.main.closed _ (fun d hd => ended_of_phase (hj d hd)) (fun _ => by rw [hmm]; rfl) h
          exact lift j r (by rw [hsplit]; exact h)
        · rw [hne] at h; cases h
        · cases h

/-- **C97, it ends.**  There is a bound on the steps of a run, whatever the schedule, the signals and the failures. -/
theorem C97_ends (p : Setup α) (chunks : List (List α)) : ∃ bound, ∀ as s, Run p as (start chunks) s → (as.filter (· ≠ .signal)).length ≤ bound := by
  refine ⟨(start chunks).weight p, ?_⟩
  have key : ∀ (as : List Act) (s0 s : State α), Run p as s0 s → Inv p chunks s0 → (as.filter (· ≠ .signal)).length + s.weight p ≤ s0.weight p := by
    intro as s0 s hr
    induction hr with
    | nil => intro _; simp
    | @cons a as s s' s'' h _ ih =>
      intro hi
      have := ih (inv_step hi h)
      by_cases ha : a = .signal
      · subst ha
        have hw : s'.weight p = s.weight p := by
          unfold step at h
          split at h
          · cases h
          · cases h; rfl
        simp only [ne_eq, not_true_eq_false, decide_false, Bool.false_eq_true, not_false_eq_true, List.filter_cons_of_neg]
        rw [hw] at this
        exact this
      · have hlt := step_weight hi h ha
        rw [List.filter_cons_of_pos (by simpa using ha), List.length_cons]
        omega
  intro as s hr
  have := key as _ s hr (inv_start p chunks)
  omega

/-- **C97, Ctrl+C again.**  Pressing it a second time changes nothing: the process cannot be made to end sooner. -/
theorem C97_again (p : Setup α) (s s' s'' : State α) (h : step p s .signal = some s') (h' : step p s' .signal = some s'') : s'' = s' ∧ s'.exited = false := by
  unfold step at h h'
  split at h
  · cases h
  · rename_i hx
    cases h
    split at h'
    · cases h'
    · cases h'
      exact ⟨rfl, by simpa using hx⟩

/-- **C97, an interruption is mostly an error.**  If the encoder stops while the tokenizer still has something to send on, the run never returns normally:
it ends in an error. -/
theorem C97_interrupt_is_an_error (p : Setup α) (chunks : List (List α)) (as as' : List Act) (s s' : State α) (hr : Run p as (start chunks) s)
    (t e : Cell α) (rest : List (Cell α)) (hc : s.cells = t :: e :: rest) (he : e.isEnded = true) (ht : t.isEnded = false)
    (hm : (∃ m gd, t.phase = .hold m gd) ∨ t.queue ≠ []) (hr' : Run p as' s s') (b : Bool) : s'.main ≠ .ret (some b) := by
  have hi := inv_run hr (inv_start p chunks)
  let Q : State α → Prop := fun s => ∃ t e rest, s.cells = t :: e :: rest ∧ e.isEnded = true ∧ t.kind = .plain ∧
    (t.phase = .ended false ∨ (∃ m gd, t.phase = .hold m gd) ∨ (t.phase = .idle ∧ t.queue ≠ [])) ∧ (∀ i, s.main ≠ .join (i + 1)) ∧ ∀ b, s.main ≠ .ret (some b)
  have hloc : ∀ (bad up : Bool) (g g' : Shared α) (t e : Cell α) (rest cs' : List (Cell α)), Local p bad up g (t :: e :: rest) g' cs' → e.isEnded = true →
      t.kind = .plain → (t.phase = .ended false ∨ (∃ m gd, t.phase = .hold m gd) ∨ (t.phase = .idle ∧ t.queue ≠ [])) →
      ∃ t' e' rest', cs' = t' :: e' :: rest' ∧ e'.isEnded = true ∧ t'.kind = .plain ∧
        (t'.phase = .ended false ∨ (∃ m gd, t'.phase = .hold m gd) ∨ (t'.phase = .idle ∧ t'.queue ≠ [])) := by
    intro bad up g g' t e rest cs' hl he hk ht
    cases hl with
    | deeper h =>
      have h2 := (local_keeps h).2
      cases h2 with
      | cons h1 _ =>
        exact ⟨t, _, _, rfl, by rw [h1 he]; exact he, hk, ht⟩
    | one _ h =>
      refine ⟨_, e, rest, rfl, he, (alone_kind h).1.trans hk, ?_⟩
      have hlive := alone_live h
      rcases ht with ht | ⟨m, gd, ht⟩ | ⟨ht, hq⟩
      · rw [ended_of_phase ht] at hlive; cases hlive
      · cases h <;> simp_all
      · cases h <;> simp_all
    | push _ _ hd _ => rw [he] at hd; cases hd
    | lost _ _ _ => exact ⟨_, e, rest, rfl, he, hk, .inl rfl⟩
    | failBusy _ h =>
      exfalso
      rcases ht with ht | ⟨m, gd, ht⟩ | ⟨ht, _⟩ <;> rw [h] at ht <;> cases ht
    | failHold _ _ => exact ⟨_, e, rest, rfl, he, hk, .inl rfl⟩
    | failWriting _ _ => exact ⟨_, e, rest, rfl, he, hk, .inl rfl⟩
    | failIdle _ _ => exact ⟨_, e, rest, rfl, he, hk, .inl rfl⟩
  have hstep : ∀ (s s' : State α) (a : Act), Q s → step p s a = some s' → Q s' := by
    rintro s s' a ⟨t, e, rest, hc, he, hk, ht, hj, hb⟩ h
    unfold step at h
    split at h
    · cases h
    · cases a with
      | signal =>
        cases h
        exact ⟨t, e, rest, hc, he, hk, ht, hj, hb⟩
      | cell i =>
        obtain ⟨r, hr, rfl⟩ := Option.map_eq_some_iff.mp h
        rw [hc] at hr
        obtain ⟨t', e', rest', h1, h2, h3, h4⟩ := hloc _ _ _ _ t e rest _ (stepAt_sound p _ i _ _ r hr) he hk ht
        exact ⟨t', e', rest', h1, h2, h3, h4, hj, hb⟩
      | fail i =>
        obtain ⟨r, hr, rfl⟩ := Option.map_eq_some_iff.mp h
        rw [hc] at hr
        obtain ⟨t', e', rest', h1, h2, h3, h4⟩ := hloc _ _ _ _ t e rest _ (failAt_sound p _ i s.main.closed _ r hr) he hk ht
        exact ⟨t', e', rest', h1, h2, h3, h4, hj, hb⟩
      | exit =>
        simp only at h
        split at h
        · cases h
          exact ⟨t, e, rest, hc, he, hk, ht, hj, hb⟩
        · cases h
      | main =>
        simp only [mainStep] at h
        split at h
        · split at h
          · cases h
            exact ⟨t, e, rest, hc, he, hk, ht, fun i h => (by simp at h), fun b h => (by cases h)⟩
          · split at h
            · cases h
              exact ⟨t, e, rest, hc, he, hk, ht, fun i h => (by simp at h), fun b h => (by cases h)⟩
            · cases h
              exact ⟨t, e, rest, hc, he, hk, ht, fun i h => (by cases h), fun b h => (by cases h)⟩
        · rw [hc] at h
          simp only at h
          split at h
          · cases h
            exact ⟨t, e, rest, rfl, he, hk, ht, fun i h => (by cases h), fun b h => (by cases h)⟩
          · split at h
            · cases h
              refine ⟨_, e, rest, rfl, he, hk, ?_, fun i h => (by cases h), fun b h => (by cases h)⟩
              rcases ht with ht | ht | ⟨ht, _⟩
              · exact .inl ht
              · exact .inr (.inl ht)
              · exact .inr (.inr ⟨ht, by simp⟩)
            · cases h
        · rename_i i hmm
          cases i with
          | succ i => exact absurd hmm (hj i)
          | zero =>
            rw [hc] at h
            simp only [List.getElem?_cons_zero] at h
            split at h
            · rename_i hph
              exfalso
              rcases ht with ht | ⟨m, gd, ht⟩ | ⟨ht, _⟩ <;> rw [hph] at ht <;> cases ht
            · cases h
              exact ⟨t, e, rest, rfl, he, hk, ht, fun i h => (by cases h), fun b h => (by cases h)⟩
            · cases h
        · cases h
  have hQ : Q s := by
    have hk : t.kind = .plain := by
      have := hi.kinds
      rw [hc] at this
      simp only [List.map_cons, List.cons.injEq, Prod.mk.injEq] at this
      exact this.1.1
    have hro := hi.roles t (by rw [hc]; exact List.mem_cons_self)
    refine ⟨t, e, rest, hc, he, hk, ?_, ?_, ?_⟩
    · rcases hm with hm | hm
      · exact .inr (.inl hm)
      · cases hp : t.phase with
        | idle => exact .inr (.inr ⟨rfl, hm⟩)
        | hold m gd => exact .inr (.inl ⟨m, gd, rfl⟩)
        | busy m n => exact absurd (hro.2.1 m n hp) (by rw [hk]; decide)
        | writing => exact absurd (hro.2.2.1 hp) (by rw [hk]; decide)
        | ended ok => rw [ended_of_phase hp] at ht; cases ht
    · intro i hj
      have := hi.joined _ hj t (by rw [hc]; simp)
      rw [ended_of_phase this] at ht
      cases ht
    · intro b hb
      have := hi.done b hb t (by rw [hc]; simp)
      rw [ended_of_phase this] at ht
      cases ht
  have hrun : ∀ (as : List Act) (s s' : State α), Run p as s s' → Q s → Q s' := by
    intro as s s' hr
    induction hr with
    | nil => exact id
    | cons h _ ih => exact fun hq => ih (hstep _ _ _ hq h)
  obtain ⟨_, _, _, _, _, _, _, _, hb⟩ := hrun as' s s' hr' hQ
  exact hb b

/-! ### A concrete run -/

namespace ToyInterrupt

def setup : Setup Nat := { create := false, limit := 1000, batches := fun _ => 2 }

def chunks : List (List Nat) := [[1], [2], [3], [4], [5], [6]]

/-- Runs a list of actions. -/
def exec (p : Setup Nat) : List Act → State Nat → Option (State Nat)
  | [], s => some s
  | a :: as, s => (step p s a).bind (exec p as)

theorem exec_run (p : Setup Nat) : ∀ (as : List Act) (s s' : State Nat), exec p as s = some s' → Run p as s s' := by
  intro as
  induction as with
  | nil => intro s s' h; cases h; exact .nil
  | cons a as ih =>
    intro s s' h
    obtain ⟨s1, h1, h2⟩ := Option.bind_eq_some_iff.mp h
    exact .cons h1 (ih s1 s' h2)

/-- The first chunk gets to the index thread; two more are on their way when the user presses Ctrl+C.  The encoder stops, the index thread begins to write
what it has, the tokenizer finds the encoder gone, and so the main thread returns an error and the process ends. -/
def torn : List Act :=
  [.main, .main, .cell 0, .cell 0, .cell 1, .cell 1, .cell 1, .cell 1, .cell 1, .cell 2, .cell 2, .cell 3,
    .main, .main, .cell 0, .cell 0, .main, .main, .cell 0, .cell 0, .main, .main,
    .signal, .cell 1, .cell 2, .cell 3, .cell 0, .cell 0, .main, .main, .exit]

def finish : State Nat := ((exec setup torn (start chunks)).getD (start []))

def calm : List Act := (List.replicate 40 [Act.main, .cell 0, .cell 1, .cell 2, .cell 3, .cell 4]).flatten

/-- As many of the actions as are possible. -/
def greedy (p : Setup Nat) : List Act → State Nat → State Nat
  | [], s => s
  | a :: as, s => greedy p as ((step p s a).getD s)

example : (greedy setup calm (start chunks)).main = .ret (some false) ∧ (greedy setup calm (start chunks)).shared.docs = [1, 2, 3, 4, 5, 6] ∧
    (greedy setup calm (start chunks)).shared.rows = [1, 2, 3, 4, 5, 6] := by decide +kernel

example : (greedy { setup with create := true } calm (start chunks)).main = .ret (some false) ∧
    (greedy { setup with create := true } calm (start chunks)).shared.docs = [1, 2, 3, 4, 5, 6] := by decide +kernel

/-- An interruption that is not an error: nothing has been sent yet. -/
example : (greedy setup (.signal :: calm) (start chunks)).main = .ret (some true) := by decide +kernel

theorem greedy_run (p : Setup Nat) : ∀ (as : List Act) (s : State Nat), ∃ as', Run p as' s (greedy p as s) := by
  intro as
  induction as with
  | nil => exact fun s => ⟨[], .nil⟩
  | cons a as ih =>
    intro s
    rw [greedy]
    cases h : step p s a with
    | none => exact ih s
    | some s' =>
      obtain ⟨as', hr⟩ := ih s'
      exact ⟨a :: as', .cons h hr⟩

/-- The hypotheses of `C97_complete`. -/
example : ∃ as, ∃ s : State Nat, Run setup as (start chunks) s ∧ s.main = .ret (some false) ∧ s.shared.flag = false := by
  obtain ⟨as, hr⟩ := greedy_run setup calm (start chunks)
  exact ⟨as, _, hr, by decide +kernel, by decide +kernel⟩

/-- The hypotheses of `C97_interrupt_is_an_error`. -/
example : ∃ t e rest, ((exec setup (torn.take 24) (start chunks)).getD (start [])).cells = t :: e :: rest ∧ e.isEnded = true ∧ t.isEnded = false ∧ t.queue ≠ [] :=
  ⟨_, _, _, rfl, by decide +kernel, by decide +kernel, by decide +kernel⟩

end ToyInterrupt

/-- **C97, refuted: the write in progress is not finished.**  Ctrl+C is pressed once and nothing fails, but the process ends while a thread is inside a write
to the index, which the counter of critical sections was meant to prevent. -/
theorem C97_torn : ∃ (p : Setup Nat) (chunks : List (List Nat)) (as : List Act) (s : State Nat), Run p as (start chunks) s ∧
    as.count .signal = 1 ∧ (∀ i, Act.fail i ∉ as) ∧ s.exited = true ∧ Writing s ∧ s.shared.depth = 1 := by
  have h : ToyInterrupt.exec ToyInterrupt.setup ToyInterrupt.torn (start ToyInterrupt.chunks) = some ToyInterrupt.finish := by decide +kernel
  refine ⟨ToyInterrupt.setup, ToyInterrupt.chunks, ToyInterrupt.torn, ToyInterrupt.finish, ToyInterrupt.exec_run _ _ _ _ h, by decide, ?_, by decide +kernel, ?_,
    by decide +kernel⟩
  · intro i hm
    simp [ToyInterrupt.torn] at hm
  · have : (ToyInterrupt.finish.cells.any fun c => c.phase == .writing) = true := by decide +kernel
    obtain ⟨c, hc, he⟩ := List.any_eq_true.mp this
    exact ⟨c, hc, by simpa using he⟩

end NextPlaid.Props
