import Verif.Model.Batch

/-!
The invariants of the two workers.
-/

namespace NextPlaid.Proofs.Batch
open NextPlaid.Batch

variable {E M : Type}

/-- The number of documents in some requests. -/
def docs (g : List (Item E M)) : Nat := (g.flatMap (·.embeddings)).length

/-- The batch of some requests. -/
def batchOf (g : List (Item E M)) : List E × List M := (g.flatMap (·.embeddings), g.flatMap (·.metadata))

/-- Requests that may form a batch. -/
def Group (max : Nat) (g : List (Item E M)) : Prop := g ≠ [] ∧ (1 < g.length → docs g.dropLast < max)

/-- What the worker holds. -/
def Holds (max : Nat) : Worker E M → List (Item E M) → Prop
  | .collecting e m c, cur => cur ≠ [] ∧ e = cur.flatMap (·.embeddings) ∧ m = cur.flatMap (·.metadata) ∧ c = docs cur ∧ c < max
  | _, cur => cur = []

/-- The worker is about to end or has ended. -/
def Ending : Worker E M → Prop
  | .stopped => True
  | .processing true => True
  | _ => False

structure Inv (max : Nat) (s : State E M) (groups : List (List (Item E M))) (cur : List (Item E M)) : Prop where
  accepted : s.accepted = groups.flatten ++ cur ++ s.queue
  handed : s.handed = groups.map batchOf
  group : ∀ g ∈ groups, Group max g
  holds : Holds max s.worker cur
  valid : ∀ i ∈ s.accepted, valid i = true
  ending : Ending s.worker → s.closed = true ∧ s.queue = []
  closed : s.closed = true → s.reserved = 0

theorem init (max : Nat) : Inv max ({} : State E M) [] [] where
  accepted := rfl
  handed := rfl
  group := by simp
  holds := rfl
  valid := by intro i hi; cases hi
  ending := by intro h; cases h
  closed := by intro h; cases h

theorem valid_ne {i : Item E M} (h : valid i = true) : i.embeddings ≠ [] ∧ i.metadata.length = i.embeddings.length := by
  unfold NextPlaid.Batch.valid at h
  simpa using h

/-- Handing over. -/
theorem finish_inv {max : Nat} {s : State E M} {groups : List (List (Item E M))} {cur : List (Item E M)} (last : Bool)
    (hacc : s.accepted = groups.flatten ++ cur ++ s.queue) (hh : s.handed = groups.map batchOf)
    (hg : ∀ g ∈ groups, Group max g) (hcur : Group max cur) (hv : ∀ i ∈ s.accepted, NextPlaid.Batch.valid i = true)
    (hl : last = true → s.closed = true ∧ s.queue = []) (hc : s.closed = true → s.reserved = 0) :
    Inv max (finish s (cur.flatMap (·.embeddings)) (cur.flatMap (·.metadata)) last) (groups ++ [cur]) [] := by
  have hne : (cur.flatMap (·.embeddings)).isEmpty = false := by
    match cur, hcur with
    | i :: rest, _ =>
      have := (valid_ne (hv i (by rw [hacc]; simp))).1
      rw [Bool.eq_false_iff]
      intro h
      rw [List.isEmpty_iff] at h
      simp only [List.flatMap_cons, List.append_eq_nil_iff] at h
      exact this h.1
  unfold finish
  rw [hne]
  simp only [Bool.false_eq_true, if_false]
  exact {
    accepted := by rw [hacc]; simp
    handed := by rw [hh]; simp [batchOf]
    group := by
      intro g hgm
      rcases List.mem_append.1 hgm with h | h
      · exact hg g h
      · rw [List.mem_singleton.1 h]; exact hcur
    holds := rfl
    valid := hv
    ending := by
      intro h
      cases last
      · cases h
      · exact hl rfl
    closed := hc }

theorem collect_inv {max : Nat} {s : State E M} {groups : List (List (Item E M))} {cur : List (Item E M)}
    (hacc : s.accepted = groups.flatten ++ cur ++ s.queue) (hh : s.handed = groups.map batchOf)
    (hg : ∀ g ∈ groups, Group max g) (hcur : Group max cur) (hv : ∀ i ∈ s.accepted, NextPlaid.Batch.valid i = true)
    (hc : s.closed = true → s.reserved = 0) : ∃ groups' cur',
    Inv max (collect max s (cur.flatMap (·.embeddings)) (cur.flatMap (·.metadata)) (docs cur)) groups' cur' := by
  unfold collect
  split
  · rename_i hlt
    exact ⟨groups, cur, {
      accepted := hacc
      handed := hh
      group := hg
      holds := ⟨hcur.1, rfl, rfl, rfl, hlt⟩
      valid := hv
      ending := by intro h; cases h
      closed := hc }⟩
  · exact ⟨_, _, finish_inv false hacc hh hg hcur hv (by intro h; cases h) hc⟩

theorem closed_group {max : Nat} {cur : List (Item E M)} (hne : cur ≠ []) (hlt : docs cur < max) : Group max cur := by
  refine ⟨hne, fun _ => Nat.lt_of_le_of_lt ?_ hlt⟩
  unfold docs
  conv => rhs; rw [← List.dropLast_concat_getLast hne]
  simp

theorem step_inv {max cap : Nat} {s s' : State E M} {e : Event E M} {groups : List (List (Item E M))} {cur : List (Item E M)}
    (hi : Inv max s groups cur) (h : step max cap s e = some s') : ∃ groups' cur', Inv max s' groups' cur' := by
  cases e with
  | request item =>
    simp only [step] at h
    split at h
    · rename_i hc
      cases h
      refine ⟨groups, cur, { hi with accepted := by rw [hi.accepted]; simp, valid := ?_, ending := ?_ }⟩
      · intro i hm
        rcases List.mem_append.1 hm with hm | hm
        · exact hi.valid i hm
        · rw [List.mem_singleton.1 hm]; exact hc.1
      · intro he
        have := (hi.ending he).1
        rw [hc.2.1] at this
        cases this
    · cases h
      exact ⟨_, _, hi⟩
  | reserve =>
    simp only [step] at h
    split at h
    · rename_i hc
      cases h
      refine ⟨groups, cur, { hi with closed := ?_ }⟩
      intro hcl
      change s.closed = true at hcl
      rw [hc.1] at hcl
      cases hcl
    · cases h
      exact ⟨_, _, hi⟩
  | sendReserved item =>
    simp only [step] at h
    split at h
    · rename_i hc
      cases h
      have hopen : s.closed ≠ true := by
        intro hcl
        have := hi.closed hcl
        omega
      refine ⟨groups, cur, { hi with accepted := by rw [hi.accepted]; simp, valid := ?_, ending := ?_, closed := ?_ }⟩
      · intro i hm
        rcases List.mem_append.1 hm with hm | hm
        · exact hi.valid i hm
        · rw [List.mem_singleton.1 hm]; exact hc.2
      · intro he
        exact absurd (hi.ending he).1 hopen
      · intro hcl
        exact absurd hcl hopen
    · cases h
  | abandon =>
    simp only [step] at h
    split at h
    · rename_i hc
      cases h
      refine ⟨groups, cur, { hi with closed := ?_ }⟩
      intro hcl
      have := hi.closed hcl
      omega
    · cases h
  | close =>
    simp only [step] at h
    split at h
    · rename_i hc
      cases h
      exact ⟨groups, cur, { hi with ending := fun he => ⟨rfl, (hi.ending he).2⟩, closed := fun _ => hc }⟩
    · cases h
  | recv =>
    change receive max s = some s' at h
    unfold receive at h
    have hh := hi.holds
    have hend := hi.ending
    split at h
    · rename_i item rest hw hq
      rw [hw] at hh
      cases hh
      cases h
      have hv := hi.valid
      have := collect_inv (max := max) (s := { s with queue := rest }) (groups := groups) (cur := [item])
        (by change s.accepted = _; rw [hi.accepted, hq]; simp) hi.handed hi.group ⟨by simp, by simp⟩ hi.valid hi.closed
      simpa [docs] using this
    · rename_i hw hq
      rw [hw] at hh
      cases hh
      split at h
      · rename_i hcl
        cases h
        exact ⟨groups, [], { hi with holds := rfl, ending := fun _ => ⟨hcl, hq⟩ }⟩
      · cases h
    · rename_i e m c item rest hw hq
      rw [hw] at hh
      obtain ⟨hne, rfl, rfl, rfl, hlt⟩ := hh
      cases h
      have := collect_inv (max := max) (s := { s with queue := rest }) (groups := groups) (cur := cur ++ [item])
        (by change s.accepted = _; rw [hi.accepted, hq]; simp) hi.handed hi.group ⟨by simp, by simpa using fun _ => hlt⟩
        hi.valid hi.closed
      simpa [docs] using this
    · rename_i e m c hw hq
      rw [hw] at hh
      obtain ⟨hne, rfl, rfl, rfl, hlt⟩ := hh
      split at h
      · rename_i hcl
        cases h
        exact ⟨_, _, finish_inv true hi.accepted hi.handed hi.group (closed_group hne hlt) hi.valid (fun _ => ⟨hcl, hq⟩) hi.closed⟩
      · cases h
    · cases h
  | timeout =>
    simp only [step] at h
    have hh := hi.holds
    split at h
    · rename_i e m c hw
      rw [hw] at hh
      obtain ⟨hne, rfl, rfl, rfl, hlt⟩ := hh
      cases h
      exact ⟨_, _, finish_inv false hi.accepted hi.handed hi.group (closed_group hne hlt) hi.valid (by intro h; cases h) hi.closed⟩
    · cases h
  | done =>
    simp only [step] at h
    have hh := hi.holds
    have hend := hi.ending
    split at h
    · rename_i last hw
      rw [hw] at hh hend
      cases hh
      cases h
      refine ⟨groups, [], { hi with holds := ?_, ending := ?_ }⟩
      · cases last <;> rfl
      · cases last
        · intro h; cases h
        · exact fun _ => hend trivial
    · cases h

theorem run_inv {max cap : Nat} : ∀ (es : List (Event E M)) {s s' : State E M} {groups : List (List (Item E M))}
    {cur : List (Item E M)}, Inv max s groups cur → run max cap s es = some s' → ∃ groups' cur', Inv max s' groups' cur' := by
  intro es
  induction es with
  | nil =>
    intro s s' groups cur hi h
    cases h
    exact ⟨_, _, hi⟩
  | cons e es ih =>
    intro s s' groups cur hi h
    unfold run at h
    rcases hs : step max cap s e with _ | s1
    · rw [hs] at h; cases h
    · rw [hs] at h
      obtain ⟨g1, c1, h1⟩ := step_inv hi hs
      exact ih h1 h

/-- How many more steps the worker can make on its own. -/
def measure (s : State E M) : Nat :=
  match s.worker with
  | .idle => 3 * s.queue.length + 1
  | .processing _ => 3 * s.queue.length + 2
  | .collecting _ _ _ => 3 * s.queue.length + 3
  | .stopped => 0

theorem measure_finish (s : State E M) (e : List E) (m : List M) (last : Bool) :
    measure (finish s e m last) ≤ 3 * s.queue.length + 2 := by
  unfold finish
  split
  · cases last <;> simp [measure]
  · simp [measure]

theorem measure_collect (max : Nat) (s : State E M) (e : List E) (m : List M) (c : Nat) :
    measure (collect max s e m c) ≤ 3 * s.queue.length + 3 := by
  unfold collect
  split
  · simp [measure]
  · have := measure_finish s e m false
    omega

theorem measure_step {max cap : Nat} {s s' : State E M} {e : Event E M} (he : e = .recv ∨ e = .timeout ∨ e = .done)
    (h : step max cap s e = some s') : measure s' < measure s := by
  rcases he with rfl | rfl | rfl
  · change receive max s = some s' at h
    unfold receive at h
    split at h
    · rename_i item rest hw hq
      cases h
      have := measure_collect max { s with queue := rest } item.embeddings item.metadata item.embeddings.length
      simp only [measure, hw, hq, List.length_cons] at this ⊢
      omega
    · rename_i hw hq
      split at h
      · cases h
        simp [measure, hw]
      · cases h
    · rename_i e m c item rest hw hq
      cases h
      have := measure_collect max { s with queue := rest } (e ++ item.embeddings) (m ++ item.metadata) (c + item.embeddings.length)
      simp only [measure, hw, hq, List.length_cons] at this ⊢
      omega
    · rename_i e m c hw hq
      split at h
      · cases h
        have := measure_finish s e m true
        simp only [measure, hw] at this ⊢
        omega
      · cases h
    · cases h
  · simp only [step] at h
    split at h
    · rename_i e m c hw
      cases h
      have := measure_finish s e m false
      simp only [measure, hw] at this ⊢
      omega
    · cases h
  · simp only [step] at h
    split at h
    · rename_i last hw
      cases h
      cases last <;> simp [measure, hw]
    · cases h

theorem run_measure {max cap : Nat} : ∀ (es : List (Event E M)) {s s' : State E M},
    (∀ e ∈ es, e = .recv ∨ e = .timeout ∨ e = .done) → run max cap s es = some s' → es.length + measure s' ≤ measure s := by
  intro es
  induction es with
  | nil => intro s s' _ h; cases h; simp
  | cons e es ih =>
    intro s s' he h
    unfold run at h
    rcases hs : step max cap s e with _ | s1
    · rw [hs] at h; cases h
    · rw [hs] at h
      have h1 := measure_step (he e (by simp)) hs
      have h2 := ih (fun x hx => he x (by simp [hx])) h
      simp only [List.length_cons]
      omega

/-! ### Deletions -/

variable {α : Type}

def DHolds (max : Nat) : DWorker α → List α → Prop
  | .first b, cur => cur ≠ [] ∧ b = cur ∧ cur.length < max
  | .second b, cur => cur ≠ [] ∧ b = cur ∧ cur.length < max
  | _, cur => cur = []

def DEnding : DWorker α → Prop
  | .stopped => True
  | .processing true => True
  | _ => False

structure DInv (max : Nat) (s : DState α) (cur : List α) : Prop where
  accepted : s.accepted = s.handed.flatten ++ cur ++ s.queue
  group : ∀ g ∈ s.handed, g ≠ [] ∧ (1 < g.length → g.length ≤ max)
  holds : DHolds max s.worker cur
  ending : DEnding s.worker → s.closed = true ∧ s.queue = []

theorem dInit (max : Nat) : DInv max ({} : DState α) [] where
  accepted := rfl
  group := by intro g hg; cases hg
  holds := rfl
  ending := by intro h; cases h

theorem dFinish_inv {max : Nat} {s : DState α} {cur : List α} (last : Bool)
    (hacc : s.accepted = s.handed.flatten ++ cur ++ s.queue) (hg : ∀ g ∈ s.handed, g ≠ [] ∧ (1 < g.length → g.length ≤ max))
    (hcur : cur ≠ [] ∧ (1 < cur.length → cur.length ≤ max)) (hl : last = true → s.closed = true ∧ s.queue = []) :
    DInv max (dFinish s cur last) [] where
  accepted := by change s.accepted = _; rw [hacc]; simp [dFinish]
  group := by
    intro g hgm
    rcases List.mem_append.1 hgm with h | h
    · exact hg g h
    · rw [List.mem_singleton.1 h]; exact hcur
  holds := rfl
  ending := by
    intro h
    cases last
    · cases h
    · exact hl rfl

theorem dCollect_inv {max : Nat} {s : DState α} {cur : List α} (first : Bool)
    (hacc : s.accepted = s.handed.flatten ++ cur ++ s.queue) (hg : ∀ g ∈ s.handed, g ≠ [] ∧ (1 < g.length → g.length ≤ max))
    (hcur : cur ≠ [] ∧ (1 < cur.length → cur.length ≤ max)) : ∃ cur', DInv max (dCollect max s first cur) cur' := by
  unfold dCollect
  split
  · rename_i hlt
    refine ⟨cur, { accepted := hacc, group := hg, holds := ?_, ending := ?_ }⟩
    · cases first <;> exact ⟨hcur.1, rfl, hlt⟩
    · cases first <;> (intro h; cases h)
  · exact ⟨_, dFinish_inv false hacc hg hcur (by intro h; cases h)⟩

theorem dStep_inv {max cap : Nat} {s s' : DState α} {e : DEvent α} {cur : List α} (hi : DInv max s cur)
    (h : dStep max cap s e = some s') : ∃ cur', DInv max s' cur' := by
  have hh := hi.holds
  have hend := hi.ending
  cases e with
  | request item =>
    simp only [dStep] at h
    split at h
    · rename_i hc
      cases h
      refine ⟨cur, { hi with accepted := by rw [hi.accepted]; simp, ending := ?_ }⟩
      intro he
      have := (hi.ending he).1
      rw [hc.1] at this
      cases this
    · cases h
      exact ⟨_, hi⟩
  | close =>
    cases h
    exact ⟨cur, { hi with ending := fun he => ⟨rfl, (hi.ending he).2⟩ }⟩
  | recv =>
    change dReceive max s = some s' at h
    unfold dReceive at h
    split at h
    · rename_i item rest hw hq
      rw [hw] at hh
      cases hh
      cases h
      exact dCollect_inv (s := { s with queue := rest }) (cur := [item]) true
        (by change s.accepted = _; rw [hi.accepted, hq]; simp) hi.group ⟨by simp, by simp⟩
    · rename_i hw hq
      rw [hw] at hh
      cases hh
      split at h
      · rename_i hcl
        cases h
        exact ⟨[], { hi with holds := rfl, ending := fun _ => ⟨hcl, hq⟩ }⟩
      · cases h
    · rename_i b item rest hw hq
      rw [hw] at hh
      obtain ⟨hne, rfl, hlt⟩ := hh
      cases h
      exact dCollect_inv (s := { s with queue := rest }) (cur := b ++ [item]) true
        (by change s.accepted = _; rw [hi.accepted, hq]; simp) hi.group ⟨by simp, by simp; omega⟩
    · rename_i b hw hq
      rw [hw] at hh
      obtain ⟨hne, rfl, hlt⟩ := hh
      split at h
      · rename_i hcl
        cases h
        exact ⟨_, dFinish_inv true hi.accepted hi.group ⟨hne, fun _ => by omega⟩ fun _ => ⟨hcl, hq⟩⟩
      · cases h
    · rename_i b item rest hw hq
      rw [hw] at hh
      obtain ⟨hne, rfl, hlt⟩ := hh
      cases h
      exact dCollect_inv (s := { s with queue := rest }) (cur := b ++ [item]) false
        (by change s.accepted = _; rw [hi.accepted, hq]; simp) hi.group ⟨by simp, by simp; omega⟩
    · rename_i b hw hq
      rw [hw] at hh
      obtain ⟨hne, rfl, hlt⟩ := hh
      split at h
      · rename_i hcl
        cases h
        exact ⟨_, dFinish_inv true hi.accepted hi.group ⟨hne, fun _ => by omega⟩ fun _ => ⟨hcl, hq⟩⟩
      · cases h
    · cases h
  | timeout =>
    simp only [dStep] at h
    split at h
    · rename_i b hw
      rw [hw] at hh
      obtain ⟨hne, rfl, hlt⟩ := hh
      cases h
      exact ⟨b, { hi with holds := ⟨hne, rfl, hlt⟩, ending := fun h => by cases h }⟩
    · rename_i b hw
      rw [hw] at hh
      obtain ⟨hne, rfl, hlt⟩ := hh
      cases h
      exact ⟨_, dFinish_inv false hi.accepted hi.group ⟨hne, fun _ => by omega⟩ (by intro h; cases h)⟩
    · cases h
  | done =>
    simp only [dStep] at h
    split at h
    · rename_i last hw
      rw [hw] at hh hend
      cases hh
      cases h
      refine ⟨[], { hi with holds := ?_, ending := ?_ }⟩
      · cases last <;> rfl
      · cases last
        · intro h; cases h
        · exact fun _ => hend trivial
    · cases h

theorem dRun_inv {max cap : Nat} : ∀ (es : List (DEvent α)) {s s' : DState α} {cur : List α}, DInv max s cur →
    dRun max cap s es = some s' → ∃ cur', DInv max s' cur' := by
  intro es
  induction es with
  | nil => intro s s' cur hi h; cases h; exact ⟨_, hi⟩
  | cons e es ih =>
    intro s s' cur hi h
    unfold dRun at h
    rcases hs : dStep max cap s e with _ | s1
    · rw [hs] at h; cases h
    · rw [hs] at h
      obtain ⟨c1, h1⟩ := dStep_inv hi hs
      exact ih h1 h

def dMeasure (s : DState α) : Nat :=
  match s.worker with
  | .idle => 4 * s.queue.length + 1
  | .processing _ => 4 * s.queue.length + 2
  | .second _ => 4 * s.queue.length + 3
  | .first _ => 4 * s.queue.length + 4
  | .stopped => 0

theorem dMeasure_collect (max : Nat) (s : DState α) (first : Bool) (b : List α) :
    dMeasure (dCollect max s first b) ≤ 4 * s.queue.length + (if first then 4 else 3) := by
  unfold dCollect
  split
  · cases first <;> simp [dMeasure]
  · cases first <;> simp [dMeasure, dFinish]

theorem dMeasure_step {max cap : Nat} {s s' : DState α} {e : DEvent α} (he : e = .recv ∨ e = .timeout ∨ e = .done)
    (h : dStep max cap s e = some s') : dMeasure s' < dMeasure s := by
  rcases he with rfl | rfl | rfl
  · change dReceive max s = some s' at h
    unfold dReceive at h
    split at h
    · rename_i item rest hw hq
      cases h
      have := dMeasure_collect max { s with queue := rest } true [item]
      simp only [dMeasure, hw, hq, List.length_cons, if_true] at this ⊢
      omega
    · rename_i hw hq
      split at h
      · cases h
        simp [dMeasure, hw]
      · cases h
    · rename_i b item rest hw hq
      cases h
      have := dMeasure_collect max { s with queue := rest } true (b ++ [item])
      simp only [dMeasure, hw, hq, List.length_cons, if_true] at this ⊢
      omega
    · rename_i b hw hq
      split at h
      · cases h
        simp [dMeasure, hw, dFinish]
      · cases h
    · rename_i b item rest hw hq
      cases h
      have := dMeasure_collect max { s with queue := rest } false (b ++ [item])
      simp only [dMeasure, hw, hq, List.length_cons, if_false, Bool.false_eq_true] at this ⊢
      omega
    · rename_i b hw hq
      split at h
      · cases h
        simp [dMeasure, hw, dFinish]
      · cases h
    · cases h
  · simp only [dStep] at h
    split at h
    · rename_i b hw
      cases h
      simp [dMeasure, hw]
    · rename_i b hw
      cases h
      simp [dMeasure, hw, dFinish]
    · cases h
  · simp only [dStep] at h
    split at h
    · rename_i last hw
      cases h
      cases last <;> simp [dMeasure, hw]
    · cases h

theorem dRun_measure {max cap : Nat} : ∀ (es : List (DEvent α)) {s s' : DState α},
    (∀ e ∈ es, e = .recv ∨ e = .timeout ∨ e = .done) → dRun max cap s es = some s' → es.length + dMeasure s' ≤ dMeasure s := by
  intro es
  induction es with
  | nil => intro s s' _ h; cases h; simp
  | cons e es ih =>
    intro s s' he h
    unfold dRun at h
    rcases hs : dStep max cap s e with _ | s1
    · rw [hs] at h; cases h
    · rw [hs] at h
      have h1 := dMeasure_step (he e (by simp)) hs
      have h2 := ih (fun x hx => he x (by simp [hx])) h
      simp only [List.length_cons]
      omega

/-! ### The capacity -/

theorem receive_room {max : Nat} {s s' : State E M} (h : receive max s = some s') :
    s'.queue.length ≤ s.queue.length ∧ s'.reserved = s.reserved := by
  have fin : ∀ (s1 : State E M) e m l, (finish s1 e m l).queue = s1.queue ∧ (finish s1 e m l).reserved = s1.reserved := by
    intro s1 e m l; unfold finish; split <;> exact ⟨rfl, rfl⟩
  have col : ∀ (s1 : State E M) e m c, (collect max s1 e m c).queue = s1.queue ∧ (collect max s1 e m c).reserved = s1.reserved := by
    intro s1 e m c; unfold collect; split
    · exact ⟨rfl, rfl⟩
    · exact fin ..
  unfold receive at h
  split at h
  · next hq => cases h; rw [(col ..).1, (col ..).2, hq]; exact ⟨by simp, rfl⟩
  · next hq =>
    split at h <;> cases h
    exact ⟨Nat.le_refl _, rfl⟩
  · next hq => cases h; rw [(col ..).1, (col ..).2, hq]; exact ⟨by simp, rfl⟩
  · next hq =>
    split at h <;> cases h
    rw [(fin ..).1, (fin ..).2]; exact ⟨Nat.le_refl _, rfl⟩
  · cases h

theorem step_room {max cap : Nat} {s s' : State E M} {e : Event E M} (h : step max cap s e = some s')
    (hc : s.queue.length + s.reserved ≤ cap) : s'.queue.length + s'.reserved ≤ cap := by
  cases e with
  | request item =>
    simp only [step] at h
    split at h
    · next hif => cases h; simp only [List.length_append, List.length_singleton]; omega
    · cases h; exact hc
  | reserve =>
    simp only [step] at h
    split at h
    · next hif => cases h; simp only; omega
    · cases h; exact hc
  | sendReserved item =>
    simp only [step] at h
    split at h
    · next hif => cases h; simp only [List.length_append, List.length_singleton]; omega
    · cases h
  | abandon =>
    simp only [step] at h
    split at h
    · next hif => cases h; simp only; omega
    · cases h
  | close =>
    simp only [step] at h
    split at h
    · cases h; exact hc
    · cases h
  | recv => have := receive_room h; omega
  | timeout =>
    simp only [step] at h
    split at h
    · cases h; unfold finish; split <;> exact hc
    · cases h
  | done =>
    simp only [step] at h
    split at h
    · cases h; exact hc
    · cases h

theorem run_room {max cap : Nat} : ∀ (es : List (Event E M)) {s s' : State E M}, run max cap s es = some s' →
    s.queue.length + s.reserved ≤ cap → s'.queue.length + s'.reserved ≤ cap
  | [], _, _, h, hc => by cases h; exact hc
  | e :: es, s, s', h, hc => by
    simp only [run, Option.bind_eq_some_iff] at h
    obtain ⟨s1, h1, h2⟩ := h
    exact run_room es h2 (step_room h1 hc)

theorem dReceive_room {max : Nat} {s s' : DState α} (h : dReceive max s = some s') : s'.queue.length ≤ s.queue.length := by
  have col : ∀ (s1 : DState α) f b, (dCollect max s1 f b).queue = s1.queue := by
    intro s1 f b; unfold dCollect; split <;> rfl
  unfold dReceive at h
  split at h
  · next hq => cases h; rw [col, hq]; simp
  · next hq => split at h <;> cases h; exact Nat.le_refl _
  · next hq => cases h; rw [col, hq]; simp
  · next hq => split at h <;> cases h; exact Nat.le_refl _
  · next hq => cases h; rw [col, hq]; simp
  · next hq => split at h <;> cases h; exact Nat.le_refl _
  · cases h

theorem dRun_room {max cap : Nat} : ∀ (es : List (DEvent α)) {s s' : DState α}, dRun max cap s es = some s' →
    s.queue.length ≤ cap → s'.queue.length ≤ cap
  | [], _, _, h, hc => by cases h; exact hc
  | e :: es, s, s', h, hc => by
    simp only [dRun, Option.bind_eq_some_iff] at h
    obtain ⟨s1, h1, h2⟩ := h
    refine dRun_room es h2 ?_
    cases e with
    | request item =>
      simp only [dStep] at h1
      split at h1
      · next hif => cases h1; simp only [List.length_append, List.length_singleton]; omega
      · cases h1; exact hc
    | close => cases h1; exact hc
    | recv => have := dReceive_room h1; omega
    | timeout =>
      simp only [dStep] at h1
      split at h1 <;> first | (cases h1; done) | (cases h1; exact hc)
    | done =>
      simp only [dStep] at h1
      split at h1 <;> first | (cases h1; done) | (cases h1; exact hc)

end NextPlaid.Proofs.Batch
