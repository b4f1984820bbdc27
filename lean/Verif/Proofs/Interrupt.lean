import Verif.Spec.Interrupt
import Mathlib.Data.List.Forall2

/-!
Invariants of the threads of an indexing run that may be interrupted.
-/

namespace NextPlaid.Interrupt

variable {α : Type}

/-! ### Steps as a relation -/

/-- A step of a thread other than in `send`. -/
inductive Alone (p : Setup α) (up : Bool) (g : Shared α) (c : Cell α) : Shared α → Cell α → Prop
  | encoded {m : List α} (h : c.phase = .busy m 0) : Alone p up g c g { c with phase := .hold m false }
  | batch {m : List α} {n : Nat} (h : c.phase = .busy m (n + 1)) (hs : g.stop = false) : Alone p up g c g { c with phase := .busy m n }
  | breakIn {m : List α} {n : Nat} (h : c.phase = .busy m (n + 1)) (hs : g.stop = true) : Alone p up g c g { c with phase := .ended true }
  | writtenNew (h : c.phase = .writing) (hc : p.create = true) :
      Alone p up g c ({ g with docs := g.docs ++ c.pend }.leave true) { c with phase := .ended true }
  | written (h : c.phase = .writing) (hc : p.create = false) :
      Alone p up g c { g with docs := g.docs ++ c.pend } { c with phase := .hold c.pend true, pend := [] }
  | recvPlain {m : List α} {q : List (List α)} (h : c.phase = .idle) (hq : c.queue = m :: q) (hk : c.kind = .plain) :
      Alone p up g c g { c with queue := q, phase := .hold m false }
  | recvEncode {m : List α} {q : List (List α)} (h : c.phase = .idle) (hq : c.queue = m :: q) (hk : c.kind = .encode) (hs : g.stop = false) :
      Alone p up g c g { c with queue := q, phase := .busy m (p.batches m) }
  | breakBefore {m : List α} {q : List (List α)} (h : c.phase = .idle) (hq : c.queue = m :: q) (hk : c.kind = .encode) (hs : g.stop = true) :
      Alone p up g c g { c with queue := q, phase := .ended true }
  | recvNew {m : List α} {q : List (List α)} (h : c.phase = .idle) (hq : c.queue = m :: q) (hk : c.kind = .write) (hc : p.create = true) :
      Alone p up g c g { c with queue := q, pend := c.pend ++ m, phase := .hold m false }
  | recvFull {m : List α} {q : List (List α)} (h : c.phase = .idle) (hq : c.queue = m :: q) (hk : c.kind = .write) (hc : p.create = false)
      (hp : c.pend ++ m ≠ [] ∧ p.limit ≤ (c.pend ++ m).length) : Alone p up g c g.enter { c with queue := q, pend := c.pend ++ m, phase := .writing }
  | recvMore {m : List α} {q : List (List α)} (h : c.phase = .idle) (hq : c.queue = m :: q) (hk : c.kind = .write) (hc : p.create = false) :
      Alone p up g c g { c with queue := q, pend := c.pend ++ m }
  | store {m : List α} {q : List (List α)} (h : c.phase = .idle) (hq : c.queue = m :: q) (hk : c.kind = .store) :
      Alone p up g c { g with rows := g.rows ++ m } { c with queue := q }
  | closeWrite (h : c.phase = .idle) (hq : c.queue = []) (hu : up = true) (hk : c.kind = .write) (hp : c.pend ≠ []) :
      Alone p up g c g.enter { c with phase := .writing }
  | close (h : c.phase = .idle) (hq : c.queue = []) (hu : up = true) (hk : ¬ (c.kind = .write ∧ c.pend ≠ [])) : Alone p up g c g { c with phase := .ended true }

theorem alone_sound (p : Setup α) (up : Bool) (g g' : Shared α) (c c' : Cell α) (h : alone p up g c = some (g', c')) : Alone p up g c g' c' := by
  unfold alone at h
  split at h
  · cases h
  · cases h
  · rename_i m hp
    cases h
    exact .encoded hp
  · rename_i m n hp
    cases hs : g.stop with
    | true => rw [hs] at h; cases h; exact .breakIn hp hs
    | false => rw [hs] at h; cases h; exact .batch hp hs
  · rename_i hp
    split at h
    · rename_i hc
      cases h
      exact .writtenNew hp hc
    · rename_i hc
      cases h
      exact .written hp (by simpa using hc)
  · rename_i hp
    split at h
    · rename_i m q hq
      split at h
      · rename_i hk
        cases h
        exact .recvPlain hp hq hk
      · rename_i hk
        cases hs : g.stop with
        | true => rw [hs] at h; cases h; exact .breakBefore hp hq hk hs
        | false => rw [hs] at h; cases h; exact .recvEncode hp hq hk hs
      · rename_i hk
        split at h
        · rename_i hc
          cases h
          exact .recvNew hp hq hk hc
        · rename_i hc
          split at h
          · rename_i hf
            cases h
            exact .recvFull hp hq hk (by simpa using hc) hf
          · cases h
            exact .recvMore hp hq hk (by simpa using hc)
      · rename_i hk
        cases h
        exact .store hp hq hk
    · rename_i hq
      split at h
      · rename_i hu
        split at h
        · rename_i hk
          cases h
          exact .closeWrite hp hq hu hk.1 hk.2
        · rename_i hk
          cases h
          exact .close hp hq hu hk
      · cases h

/-- A step of one of the threads, or its failure (`bad`). -/
inductive Local (p : Setup α) (bad : Bool) : Bool → Shared α → List (Cell α) → Shared α → List (Cell α) → Prop
  | deeper {up : Bool} {g g' : Shared α} {c : Cell α} {cs cs' : List (Cell α)} (h : Local p bad c.isEnded g cs g' cs') : Local p bad up g (c :: cs) g' (c :: cs')
  | one {up : Bool} {g g' : Shared α} {c c' : Cell α} {cs : List (Cell α)} (hb : bad = false) (h : Alone p up g c g' c') :
      Local p bad up g (c :: cs) g' (c' :: cs)
  | push {up : Bool} {g : Shared α} {c d : Cell α} {cs : List (Cell α)} {m : List α} {gd : Bool} (hb : bad = false) (h : c.phase = .hold m gd)
      (hd : d.isEnded = false) (hr : d.queue.length < d.cap) :
      Local p bad up g (c :: d :: cs) (g.leave gd) ({ c with phase := .idle } :: { d with queue := d.queue ++ [m] } :: cs)
  | lost {up : Bool} {g : Shared α} {c d : Cell α} {cs : List (Cell α)} {m : List α} {gd : Bool} (hb : bad = false) (h : c.phase = .hold m gd)
      (hd : d.isEnded = true) : Local p bad up g (c :: d :: cs) (g.leave gd) ({ c with phase := .ended false } :: d :: cs)
  | failBusy {up : Bool} {g : Shared α} {c : Cell α} {cs : List (Cell α)} {m : List α} {n : Nat} (hb : bad = true) (h : c.phase = .busy m n) :
      Local p bad up g (c :: cs) g ({ c with phase := .ended g.flag } :: cs)
  | failHold {up : Bool} {g : Shared α} {c : Cell α} {cs : List (Cell α)} {m : List α} {gd : Bool} (hb : bad = true) (h : c.phase = .hold m gd) :
      Local p bad up g (c :: cs) (g.leave gd) ({ c with phase := .ended false } :: cs)
  | failWriting {up : Bool} {g : Shared α} {c : Cell α} {cs : List (Cell α)} (hb : bad = true) (h : c.phase = .writing) :
      Local p bad up g (c :: cs) (g.leave true) ({ c with phase := .ended false } :: cs)
  | failIdle {up : Bool} {g : Shared α} {c : Cell α} {cs : List (Cell α)} (hb : bad = true) (h : c.phase = .idle) :
      Local p bad up g (c :: cs) g ({ c with phase := .ended false } :: cs)

theorem stepAt_sound (p : Setup α) (g : Shared α) : ∀ (i : Nat) (up : Bool) (cs : List (Cell α)) (r : Shared α × List (Cell α)),
    stepAt p up g i cs = some r → Local p false up g cs r.1 r.2 := by
  intro i
  induction i with
  | zero =>
    intro up cs r h
    cases cs with
    | nil => cases h
    | cons c cs =>
      rw [stepAt] at h
      split at h
      · rename_i m gd hp
        cases cs with
        | nil => cases h
        | cons d ds =>
          simp only at h
          split at h
          · rename_i hd
            cases h
            exact .lost rfl hp hd
          · rename_i hd
            split at h
            · rename_i hr
              cases h
              exact .push rfl hp (by simpa using hd) hr
            · cases h
      · obtain ⟨⟨g', c'⟩, h1, rfl⟩ := Option.map_eq_some_iff.mp h
        exact .one rfl (alone_sound p up g g' c c' h1)
  | succ n ih =>
    intro up cs r h
    cases cs with
    | nil => cases h
    | cons c cs =>
      rw [stepAt] at h
      obtain ⟨⟨g', c'⟩, h1, rfl⟩ := Option.map_eq_some_iff.mp h
      exact .deeper (ih _ _ _ h1)

theorem failAt_sound (p : Setup α) (g : Shared α) : ∀ (i : Nat) (up : Bool) (cs : List (Cell α)) (r : Shared α × List (Cell α)),
    failAt g i cs = some r → Local p true up g cs r.1 r.2 := by
  intro i
  induction i with
  | zero =>
    intro up cs r h
    cases cs with
    | nil => cases h
    | cons c cs =>
      rw [failAt] at h
      split at h
      · cases h
      · rename_i hp; cases h; exact .failBusy rfl hp
      · rename_i hp; cases h; exact .failHold rfl hp
      · rename_i hp; cases h; exact .failWriting rfl hp
      · rename_i hp; cases h; exact .failIdle rfl hp
  | succ n ih =>
    intro up cs r h
    cases cs with
    | nil => cases h
    | cons c cs =>
      rw [failAt] at h
      obtain ⟨⟨g', c'⟩, h1, rfl⟩ := Option.map_eq_some_iff.mp h
      exact .deeper (ih _ _ _ h1)

variable {p : Setup α} {bad up : Bool} {g g' : Shared α} {cs cs' : List (Cell α)} {c c' : Cell α}

/-! ### What a step keeps -/

@[simp] theorem leave_flag (g : Shared α) (b : Bool) : (g.leave b).flag = g.flag := by cases b <;> rfl
@[simp] theorem leave_docs (g : Shared α) (b : Bool) : (g.leave b).docs = g.docs := by cases b <;> rfl
@[simp] theorem leave_rows (g : Shared α) (b : Bool) : (g.leave b).rows = g.rows := by cases b <;> rfl
@[simp] theorem enter_flag (g : Shared α) : g.enter.flag = g.flag := rfl
@[simp] theorem enter_docs (g : Shared α) : g.enter.docs = g.docs := rfl
@[simp] theorem enter_rows (g : Shared α) : g.enter.rows = g.rows := rfl

theorem alone_flag (h : Alone p up g c g' c') : g'.flag = g.flag := by cases h <;> simp

theorem local_flag (h : Local p bad up g cs g' cs') : g'.flag = g.flag := by
  induction h with
  | deeper _ ih => exact ih
  | one _ h => exact alone_flag h
  | _ => simp

theorem ended_of_phase {c : Cell α} {b : Bool} (h : c.phase = .ended b) : c.isEnded = true := by simp [Cell.isEnded, h]

theorem alone_live (h : Alone p up g c g' c') : c.isEnded = false := by cases h <;> simp_all [Cell.isEnded]

theorem alone_kind (h : Alone p up g c g' c') : c'.kind = c.kind ∧ c'.cap = c.cap := by cases h <;> exact ⟨rfl, rfl⟩

/-- Kinds and capacities stay; threads that have ended stay as they are. -/
theorem local_keeps (h : Local p bad up g cs g' cs') :
    cs'.map (fun c => (c.kind, c.cap)) = cs.map (fun c => (c.kind, c.cap)) ∧ List.Forall₂ (fun c c' => c.isEnded = true → c' = c) cs cs' := by
  have refl : ∀ l : List (Cell α), List.Forall₂ (fun c c' => c.isEnded = true → c' = c) l l := fun l => by
    induction l with
    | nil => exact .nil
    | cons c l ih => exact .cons (fun _ => rfl) ih
  induction h with
  | deeper _ ih => exact ⟨by simp [ih.1], .cons (fun _ => rfl) ih.2⟩
  | one _ h =>
    have hk := alone_kind h
    have hl := alone_live h
    exact ⟨by simp [hk.1, hk.2], .cons (fun he => by rw [hl] at he; cases he) (refl _)⟩
  | push _ h hd _ =>
    refine ⟨by simp, .cons (fun he => ?_) (.cons (fun he => ?_) (refl _))⟩
    · simp [Cell.isEnded, h] at he
    · rw [hd] at he; cases he
  | lost _ h _ => exact ⟨by simp, .cons (fun he => by simp [Cell.isEnded, h] at he) (refl _)⟩
  | failBusy _ h => exact ⟨by simp, .cons (fun he => by simp [Cell.isEnded, h] at he) (refl _)⟩
  | failHold _ h => exact ⟨by simp, .cons (fun he => by simp [Cell.isEnded, h] at he) (refl _)⟩
  | failWriting _ h => exact ⟨by simp, .cons (fun he => by simp [Cell.isEnded, h] at he) (refl _)⟩
  | failIdle _ h => exact ⟨by simp, .cons (fun he => by simp [Cell.isEnded, h] at he) (refl _)⟩

/-! ### Critical sections -/

def Cell.guards (c : Cell α) : Nat :=
  match c.phase with
  | .writing => 1
  | .hold _ true => 1
  | _ => 0

def guards (cs : List (Cell α)) : Nat := (cs.map Cell.guards).sum

theorem alone_guards (h : Alone p up g c g' c') (k : Nat) (hd : g.depth = c.guards + k) : g'.depth = c'.guards + k := by
  cases h <;> simp_all [Cell.guards, Shared.enter, Shared.leave] <;> omega

theorem leave_guards (g : Shared α) (c : Cell α) (m : List α) (gd : Bool) (h : c.phase = .hold m gd) (k : Nat) (hd : g.depth = c.guards + k) :
    (g.leave gd).depth = k := by
  cases gd <;> simp_all [Cell.guards, Shared.leave] <;> omega

theorem local_guards (h : Local p bad up g cs g' cs') : ∀ k, g.depth = guards cs + k → g'.depth = guards cs' + k := by
  induction h with
  | deeper _ ih =>
    intro k hd
    rename_i c cs cs' _
    simp only [guards, List.map_cons, List.sum_cons] at hd ih ⊢
    have := ih (c.guards + k) (by omega)
    omega
  | one _ h =>
    intro k hd
    simp only [guards, List.map_cons, List.sum_cons] at hd ⊢
    rw [alone_guards h _ (by rw [hd, Nat.add_assoc])]
    omega
  | push _ h _ _ =>
    intro k hd
    simp only [guards, List.map_cons, List.sum_cons] at hd ⊢
    rw [leave_guards _ _ _ _ h _ (by rw [hd, Nat.add_assoc])]
    simp only [Cell.guards]
    omega
  | lost _ h _ =>
    intro k hd
    simp only [guards, List.map_cons, List.sum_cons] at hd ⊢
    rw [leave_guards _ _ _ _ h _ (by rw [hd, Nat.add_assoc])]
    simp only [Cell.guards]
    omega
  | failBusy _ h =>
    intro k hd
    simp only [guards, List.map_cons, List.sum_cons, Cell.guards, h] at hd ⊢
    omega
  | failHold _ h =>
    intro k hd
    simp only [guards, List.map_cons, List.sum_cons] at hd ⊢
    rw [leave_guards _ _ _ _ h _ (by rw [hd, Nat.add_assoc])]
    simp only [Cell.guards]
    omega
  | failWriting _ h =>
    intro k hd
    simp only [guards, List.map_cons, List.sum_cons, Cell.guards, h] at hd ⊢
    simp only [Shared.leave, if_true]
    omega
  | failIdle _ h =>
    intro k hd
    simp only [guards, List.map_cons, List.sum_cons, Cell.guards, h] at hd ⊢
    omega

/-! ### What is under way -/

/-- The units a thread has received and not handed on, in order. -/
def Cell.units (p : Setup α) (c : Cell α) : List α :=
  match c.phase with
  | .ended _ => []
  | .idle => (if p.create then [] else c.pend) ++ c.queue.flatten
  | .busy m _ => m ++ (if p.create then [] else c.pend) ++ c.queue.flatten
  | .hold m _ => m ++ (if p.create then [] else c.pend) ++ c.queue.flatten
  | .writing => (if p.create then [] else c.pend) ++ c.queue.flatten

/-- Those of all threads, the last first. -/
def flow (p : Setup α) : List (Cell α) → List α
  | [] => []
  | c :: cs => flow p cs ++ c.units p

/-- Those that can still get to the end: none from a thread that has ended, or before it. -/
def live (p : Setup α) : List (Cell α) → List α
  | [] => []
  | c :: cs => live p cs ++ if (c :: cs).all (fun c => !c.isEnded) then c.units p else []

/-- The kinds of the threads from some thread on. -/
def Tail (cs : List (Cell α)) : Prop := ∃ pre, pre ++ cs.map (·.kind) = [Kind.plain, .encode, .plain, .write, .store]

theorem Tail.next {c : Cell α} {cs : List (Cell α)} (h : Tail (c :: cs)) : Tail cs := by
  obtain ⟨pre, h⟩ := h
  exact ⟨pre ++ [c.kind], by simpa using h⟩

theorem Tail.facts {c : Cell α} {cs : List (Cell α)} (h : Tail (c :: cs)) :
    (c.kind = .store → cs = []) ∧ (c.kind = .write → cs.map (·.kind) = [.store]) ∧ (cs = [] → c.kind = .store) := by
  obtain ⟨pre, h⟩ := h
  rcases pre with _ | ⟨a, _ | ⟨b, _ | ⟨d, _ | ⟨e, _ | ⟨f, pre⟩⟩⟩⟩⟩ <;> simp at h
  · obtain ⟨h1, h2⟩ := h
    refine ⟨fun h => (by rw [h1] at h; cases h), fun h => (by rw [h1] at h; cases h), fun h => by subst h; cases h2⟩
  · obtain ⟨-, h1, h2⟩ := h
    refine ⟨fun h => (by rw [h1] at h; cases h), fun h => (by rw [h1] at h; cases h), fun h => by subst h; cases h2⟩
  · obtain ⟨-, -, h1, h2⟩ := h
    refine ⟨fun h => (by rw [h1] at h; cases h), fun h => (by rw [h1] at h; cases h), fun h => by subst h; cases h2⟩
  · obtain ⟨-, -, -, h1, h2⟩ := h
    refine ⟨fun h => (by rw [h1] at h; cases h), fun _ => by simpa using h2, fun h => by subst h; simp at h2⟩
  · obtain ⟨-, -, -, -, h1, h2⟩ := h
    subst h2
    exact ⟨fun _ => rfl, fun h => (by rw [h1] at h; cases h), fun _ => h1⟩

/-- Only the index thread has units whose embeddings are not written, and writes; only the encoder has batches to go; the last thread sends nothing. -/
def Role (c : Cell α) : Prop :=
  (c.kind ≠ .write → c.pend = []) ∧ (∀ m n, c.phase = .busy m n → c.kind = .encode) ∧ (c.phase = .writing → c.kind = .write) ∧
    ∀ m gd, c.phase = .hold m gd → c.kind ≠ .store

def Roles (cs : List (Cell α)) : Prop := ∀ c ∈ cs, Role c

theorem roles_cons (c : Cell α) (cs : List (Cell α)) : Roles (c :: cs) ↔ Role c ∧ Roles cs := by simp [Roles]

theorem alone_roles (h : Alone p up g c g' c') (hp : Role c) : Role c' := by
  obtain ⟨h1, h2, h3, h4⟩ := hp
  cases h <;> simp_all [Role]

theorem role_of (c c' : Cell α) (hp : Role c) (hk : c'.kind = c.kind) (hd : c'.pend = c.pend) (hph : c'.phase = .idle ∨ (∃ b, c'.phase = .ended b) ∨ c'.phase = c.phase) :
    Role c' := by
  obtain ⟨h1, h2, h3, h4⟩ := hp
  refine ⟨by rw [hk, hd]; exact h1, ?_, ?_, ?_⟩
  · intro m n h
    rcases hph with hh | ⟨b, hh⟩ | hh
    · rw [hh] at h; cases h
    · rw [hh] at h; cases h
    · rw [hk]; rw [hh] at h; exact h2 m n h
  · intro h
    rcases hph with hh | ⟨b, hh⟩ | hh
    · rw [hh] at h; cases h
    · rw [hh] at h; cases h
    · rw [hk]; rw [hh] at h; exact h3 h
  · intro m gd h
    rcases hph with hh | ⟨b, hh⟩ | hh
    · rw [hh] at h; cases h
    · rw [hh] at h; cases h
    · rw [hk]; rw [hh] at h; exact h4 m gd h

theorem local_roles (h : Local p bad up g cs g' cs') (hp : Roles cs) : Roles cs' := by
  induction h with
  | deeper _ ih =>
    rw [roles_cons] at hp ⊢
    exact ⟨hp.1, ih hp.2⟩
  | one _ h =>
    rw [roles_cons] at hp ⊢
    exact ⟨alone_roles h hp.1, hp.2⟩
  | push _ _ _ _ =>
    rw [roles_cons, roles_cons] at hp ⊢
    exact ⟨role_of _ _ hp.1 rfl rfl (.inl rfl), role_of _ _ hp.2.1 rfl rfl (.inr (.inr rfl)), hp.2.2⟩
  | _ =>
    rw [roles_cons] at hp ⊢
    exact ⟨role_of _ _ hp.1 rfl rfl (.inr (.inl ⟨_, rfl⟩)), hp.2⟩

/-- A new index is written when nothing more can come. -/
def Shut (p : Setup α) : Bool → List (Cell α) → Prop
  | _, [] => True
  | up, c :: cs => (c.phase = .writing → p.create = true → up = true ∧ c.queue = []) ∧ Shut p c.isEnded cs

theorem Shut.mono {cs : List (Cell α)} (h : Shut p false cs) (up : Bool) : Shut p up cs := by
  cases cs with
  | nil => trivial
  | cons c cs => exact ⟨fun h1 h2 => (by have := (h.1 h1 h2).1; cases this), h.2⟩

theorem local_shut (h : Local p bad up g cs g' cs') (hs : Shut p up cs) : Shut p up cs' := by
  induction h with
  | deeper _ ih => exact ⟨hs.1, ih hs.2⟩
  | one _ h =>
    have hl := alone_live h
    refine ⟨?_, ?_⟩
    · intro h1 h2
      cases h <;> simp_all
    · have := hs.2
      rw [hl] at this
      exact this.mono _
  | push _ h hd _ =>
    obtain ⟨-, hs1, hs2⟩ := hs
    rw [show Cell.isEnded _ = false from by simp [Cell.isEnded, h]] at hs1
    refine ⟨fun h => (by cases h), fun h1 h2 => ?_, hs2⟩
    have := (hs1 h1 h2).1
    cases this
  | lost _ h _ =>
    obtain ⟨-, hs⟩ := hs
    rw [show Cell.isEnded _ = false from by simp [Cell.isEnded, h]] at hs
    exact ⟨fun h => (by cases h), hs.mono _⟩
  | failBusy _ h =>
    obtain ⟨-, hs⟩ := hs
    rw [show Cell.isEnded _ = false from by simp [Cell.isEnded, h]] at hs
    exact ⟨fun h => (by cases h), hs.mono _⟩
  | failHold _ h =>
    obtain ⟨-, hs⟩ := hs
    rw [show Cell.isEnded _ = false from by simp [Cell.isEnded, h]] at hs
    exact ⟨fun h => (by cases h), hs.mono _⟩
  | failWriting _ h =>
    obtain ⟨-, hs⟩ := hs
    rw [show Cell.isEnded _ = false from by simp [Cell.isEnded, h]] at hs
    exact ⟨fun h => (by cases h), hs.mono _⟩
  | failIdle _ h =>
    obtain ⟨-, hs⟩ := hs
    rw [show Cell.isEnded _ = false from by simp [Cell.isEnded, h]] at hs
    exact ⟨fun h => (by cases h), hs.mono _⟩

/-- A step of a thread that goes on keeps the units. -/
theorem alone_units (h : Alone p up g c g' c') (hk : c.kind ≠ .store) (hpend : c.kind ≠ .write → c.pend = []) (hlive : c'.isEnded = false) :
    g'.rows = g.rows ∧ c'.units p = c.units p := by
  cases h <;> simp_all [Cell.units, Cell.isEnded]

theorem alone_store (h : Alone p up g c g' c') (hk : c.kind = .store) (hpend : c.pend = []) (hlive : c'.isEnded = false) (hb : ∀ m n, c.phase ≠ .busy m n) :
    g'.rows ++ c'.units p = g.rows ++ c.units p := by
  cases h <;> simp_all [Cell.units, Cell.isEnded]

/-- A thread that ends of itself without having been told to has nothing left. -/
theorem alone_end (h : Alone p up g c g' c') (hpend : c.kind ≠ .write → c.pend = []) (hs : c.phase = .writing → p.create = true → up = true ∧ c.queue = [])
    (hb : g.flag = false ∨ (c.kind ≠ .encode ∧ ∀ m n, c.phase ≠ .busy m n)) (hend : c'.isEnded = true) : g'.rows = g.rows ∧ c.units p = [] := by
  have hstop : g.stop = true → g.flag = true := by
    unfold Shared.stop
    split
    · intro h; cases h
    · exact id
  cases h <;> simp_all [Cell.units, Cell.isEnded]
  intro _
  by_cases hk : c.kind = .write <;> simp_all

end NextPlaid.Interrupt
