import Verif.Proofs.Interrupt

/-!
What the threads of an indexing run carry, and what they leave behind.
-/

namespace NextPlaid.Interrupt

variable {α : Type} {p : Setup α} {bad up : Bool} {g g' : Shared α} {cs cs' : List (Cell α)} {c c' : Cell α}

/-- No thread has ended with an error. -/
def Sound (cs : List (Cell α)) : Prop := ∀ c ∈ cs, c.phase ≠ .ended false

theorem sound_cons (c : Cell α) (cs : List (Cell α)) : Sound (c :: cs) ↔ c.phase ≠ .ended false ∧ Sound cs := by simp [Sound]

/-- Nothing is lost by a step after which no thread has failed, if the flag is not set or the threads are behind the encoder. -/
theorem local_flow (h : Local p bad up g cs g' cs') (ht : Tail cs) (hr : Roles cs) (hs : Shut p up cs) (hn : Sound cs')
    (hb : g.flag = false ∨ ∀ c ∈ cs, c.kind ≠ .encode) : g'.rows ++ flow p cs' = g.rows ++ flow p cs := by
  induction h with
  | deeper _ ih =>
    have := ih ht.next ((roles_cons _ _).mp hr).2 hs.2 ((sound_cons _ _).mp hn).2 (hb.imp_right fun h c hc => h c (by simp [hc]))
    simp only [flow]
    rw [← List.append_assoc, this, List.append_assoc]
  | @one up g g' c c' cs _ h =>
    obtain ⟨⟨hr1, hr2, -, -⟩, -⟩ := (roles_cons _ _).mp hr
    simp only [flow]
    cases he : c'.isEnded with
    | true =>
      have hu : c'.units p = [] := by
        unfold Cell.isEnded at he
        unfold Cell.units
        split <;> simp_all
      have := alone_end h hr1 hs.1 (hb.imp_right fun hb => ⟨hb c (by simp), fun m n hbz => hb c (by simp) (hr2 m n hbz)⟩) he
      rw [hu, this.1, this.2]
    | false =>
      by_cases hk : c.kind = .store
      · have hcs := ht.facts.1 hk
        subst hcs
        simp only [flow, List.nil_append]
        refine alone_store h hk (hr1 (by rw [hk]; decide)) he ?_
        intro m n hbz
        have := hr2 m n hbz
        rw [hk] at this
        cases this
      · have := alone_units h hk hr1 he
        rw [this.1, this.2]
  | @push up g c d cs m gd _ h hd _ =>
    simp only [flow, leave_rows]
    have h1 : Cell.units p { c with phase := .idle } = (if p.create then [] else c.pend) ++ c.queue.flatten := rfl
    have h2 : c.units p = m ++ ((if p.create then [] else c.pend) ++ c.queue.flatten) := by simp [Cell.units, h]
    have h3 : Cell.units p { d with queue := d.queue ++ [m] } = d.units p ++ m := by
      unfold Cell.isEnded at hd
      unfold Cell.units
      cases hp : d.phase <;> simp_all
    rw [h1, h2, h3]
    simp only [List.append_assoc]
  | lost _ _ _ => exact absurd rfl ((sound_cons _ _).mp hn).1
  | @failBusy up g c cs m n hb' h =>
    have := ((sound_cons _ _).mp hn).1
    rcases hb with hb | hb
    · rw [hb] at this
      exact absurd rfl this
    · have hk := (((roles_cons _ _).mp hr).1.2.1 m n h)
      exact absurd hk (hb c (by simp))
  | failHold _ _ => exact absurd rfl ((sound_cons _ _).mp hn).1
  | failWriting _ _ => exact absurd rfl ((sound_cons _ _).mp hn).1
  | failIdle _ _ => exact absurd rfl ((sound_cons _ _).mp hn).1

/-! ### In order, whatever happens -/

def Alive (cs : List (Cell α)) : Prop := ∀ c ∈ cs, c.isEnded = false

theorem alive_cons (c : Cell α) (cs : List (Cell α)) : Alive (c :: cs) ↔ c.isEnded = false ∧ Alive cs := by simp [Alive]

theorem all_alive (cs : List (Cell α)) : (cs.all fun c => !c.isEnded) = true ↔ Alive cs := by simp [Alive]

open Classical in
theorem live_cons (c : Cell α) (cs : List (Cell α)) : live p (c :: cs) = live p cs ++ if Alive (c :: cs) then c.units p else [] := by
  rw [live]
  congr 1
  by_cases h : Alive (c :: cs)
  · rw [if_pos h, if_pos ((all_alive _).mpr h)]
  · rw [if_neg h, if_neg fun h' => h ((all_alive _).mp h')]

/-- Whatever happens, what can still get to the end only gets less, from the back; and it stays the same as long as all threads go on. -/
theorem local_live (h : Local p bad up g cs g' cs') (ht : Tail cs) (hr : Roles cs) :
    (Alive cs' → Alive cs ∧ g'.rows ++ live p cs' = g.rows ++ live p cs) ∧ g'.rows ++ live p cs' <+: g.rows ++ live p cs := by
  have dead : ∀ (g g' : Shared α) (c c' : Cell α) (cs : List (Cell α)), g'.rows = g.rows → c'.isEnded = true →
      (Alive (c' :: cs) → Alive (c :: cs) ∧ g'.rows ++ live p (c' :: cs) = g.rows ++ live p (c :: cs)) ∧
        g'.rows ++ live p (c' :: cs) <+: g.rows ++ live p (c :: cs) := by
    intro g g' c c' cs hg he
    refine ⟨fun ha => ?_, ?_⟩
    · have := ((alive_cons _ _).mp ha).1
      rw [he] at this
      cases this
    · rw [live_cons, live_cons, if_neg, hg, List.append_nil, ← List.append_assoc]
      · exact List.prefix_append _ _
      · intro ha
        have := ((alive_cons _ _).mp ha).1
        rw [he] at this
        cases this
  induction h with
  | @deeper up g g' c cs cs' _ ih =>
    have ih := ih ht.next ((roles_cons _ _).mp hr).2
    by_cases ha : Alive (c :: cs')
    · have ha' := (alive_cons _ _).mp ha
      obtain ⟨h1, h2⟩ := ih.1 ha'.2
      have hac : Alive (c :: cs) := (alive_cons _ _).mpr ⟨ha'.1, h1⟩
      have : g'.rows ++ live p (c :: cs') = g.rows ++ live p (c :: cs) := by
        rw [live_cons, live_cons, if_pos ha, if_pos hac, ← List.append_assoc, h2, List.append_assoc]
      exact ⟨fun _ => ⟨hac, this⟩, this ▸ List.prefix_rfl⟩
    · refine ⟨fun h => absurd h ha, ?_⟩
      rw [live_cons, live_cons, if_neg ha, List.append_nil, ← List.append_assoc]
      exact ih.2.trans (List.prefix_append _ _)
  | @one up g g' c c' cs _ h =>
    obtain ⟨⟨hr1, hr2, -, -⟩, -⟩ := (roles_cons _ _).mp hr
    have hl := alone_live h
    cases he : c'.isEnded with
    | true =>
      refine dead g g' c c' cs ?_ he
      cases h <;> simp_all [Cell.isEnded]
    | false =>
      have key : Alive (c' :: cs) ↔ Alive (c :: cs) := by rw [alive_cons, alive_cons, he, hl]
      have heq : g'.rows ++ live p (c' :: cs) = g.rows ++ live p (c :: cs) := by
        by_cases hk : c.kind = .store
        · have hcs := ht.facts.1 hk
          subst hcs
          have ha : Alive [c] := by simp [Alive, hl]
          rw [live_cons, live_cons, if_pos (key.mpr ha), if_pos ha]
          simp only [live, List.nil_append]
          refine alone_store h hk (hr1 (by rw [hk]; decide)) he ?_
          intro m n hbz
          have := hr2 m n hbz
          rw [hk] at this
          cases this
        · have := alone_units h hk hr1 he
          rw [live_cons, live_cons, this.1, this.2]
          by_cases ha : Alive (c :: cs)
          · rw [if_pos ha, if_pos (key.mpr ha)]
          · rw [if_neg ha, if_neg fun h' => ha (key.mp h')]
      exact ⟨fun ha => ⟨key.mp ha, heq⟩, heq ▸ List.prefix_rfl⟩
  | @push up g c d cs m gd _ h hd _ =>
    have hcl : c.isEnded = false := by simp [Cell.isEnded, h]
    have h2 : c.units p = m ++ ((if p.create then [] else c.pend) ++ c.queue.flatten) := by simp [Cell.units, h]
    have h3 : Cell.units p { d with queue := d.queue ++ [m] } = d.units p ++ m := by
      unfold Cell.isEnded at hd
      unfold Cell.units
      cases hp : d.phase <;> simp_all
    have hd' : Cell.isEnded { d with queue := d.queue ++ [m] } = false := hd
    have key : Alive ({ c with phase := .idle } :: { d with queue := d.queue ++ [m] } :: cs) ↔ Alive (c :: d :: cs) := by
      rw [alive_cons, alive_cons, alive_cons, alive_cons, hd', hd, hcl]
      simp [Cell.isEnded]
    have heq : (g.leave gd).rows ++ live p ({ c with phase := .idle } :: { d with queue := d.queue ++ [m] } :: cs) = g.rows ++ live p (c :: d :: cs) := by
      rw [leave_rows, live_cons, live_cons, live_cons c, live_cons d]
      by_cases ha : Alive (c :: d :: cs)
      · have ha2 := ((alive_cons _ _).mp ha).2
        have ha3 := ((alive_cons _ _).mp (key.mpr ha)).2
        rw [if_pos ha, if_pos ha2, if_pos ha3, if_pos (key.mpr ha), h2, h3]
        simp only [List.append_assoc]
        rfl
      · have hn : ¬ Alive ({ d with queue := d.queue ++ [m] } :: cs) := by
          intro h'
          have h'' := (alive_cons _ _).mp h'
          exact ha ((alive_cons _ _).mpr ⟨hcl, (alive_cons _ _).mpr ⟨hd, h''.2⟩⟩)
        have hn2 : ¬ Alive (d :: cs) := fun h' => ha ((alive_cons _ _).mpr ⟨hcl, h'⟩)
        rw [if_neg ha, if_neg hn, if_neg hn2, if_neg fun h' => ha (key.mp h')]
    exact ⟨fun ha => ⟨key.mp ha, heq⟩, heq ▸ List.prefix_rfl⟩
  | lost _ _ _ => exact dead _ _ _ _ _ (leave_rows _ _) rfl
  | failBusy _ _ => exact dead _ _ _ _ _ rfl rfl
  | failHold _ _ => exact dead _ _ _ _ _ (leave_rows _ _) rfl
  | failWriting _ _ => exact dead _ _ _ _ _ (leave_rows _ _) rfl
  | failIdle _ _ => exact dead _ _ _ _ _ rfl rfl

/-! ### The index and the database -/

/-- What the index thread holds on the way to the database. -/
def Cell.held (c : Cell α) : List α :=
  match c.phase with
  | .hold m _ => m
  | _ => []

/-- What is or will be in the index: of a new one, what is to be written. -/
def Cell.inIndex (p : Setup α) (g : Shared α) (c : Cell α) : List α := if p.create = true ∧ c.isEnded = false then c.pend else g.docs

/-- The index and the database differ by what is on the way. -/
def InStep (p : Setup α) (g : Shared α) : List (Cell α) → Prop
  | [] => True
  | c :: cs => if c.kind = .write then c.inIndex p g = g.rows ++ flow p cs ++ c.held ∧ (p.create = true → c.isEnded = false → g.docs = []) else InStep p g cs

theorem inStep_congr (hd : g'.docs = g.docs) (hr : g'.rows = g.rows) : ∀ cs : List (Cell α), InStep p g cs → InStep p g' cs := by
  intro cs
  induction cs with
  | nil => exact id
  | cons c cs ih =>
    simp only [InStep, Cell.inIndex, hd, hr]
    split
    · exact id
    · exact ih

theorem alone_docs (h : Alone p up g c g' c') (hw : c.phase ≠ .writing) : g'.docs = g.docs := by
  cases h <;> simp_all

theorem alone_rows (h : Alone p up g c g' c') (hw : c.kind ≠ .store) : g'.rows = g.rows := by
  cases h <;> simp_all

theorem local_docs (h : Local p bad up g cs g' cs') (hr : Roles cs) (hk : ∀ c ∈ cs, c.kind ≠ .write) : g'.docs = g.docs := by
  induction h with
  | deeper _ ih => exact ih ((roles_cons _ _).mp hr).2 fun c hc => hk c (by simp [hc])
  | one _ h =>
    refine alone_docs h fun hw => ?_
    exact hk _ (by simp) (((roles_cons _ _).mp hr).1.2.2.1 hw)
  | _ => simp

theorem local_inStep (h : Local p bad up g cs g' cs') (ht : Tail cs) (hr : Roles cs) (hs : Shut p up cs) (hn : Sound cs') (hi : InStep p g cs) :
    InStep p g' cs' := by
  induction h with
  | @deeper up g g' c cs cs' h ih =>
    have hr' := ((roles_cons _ _).mp hr).2
    have hn' := ((sound_cons _ _).mp hn).2
    simp only [InStep] at hi ⊢
    split
    · rename_i hk
      rw [if_pos hk] at hi
      have hst := ht.facts.2.1 hk
      have hno : ∀ k, k ∈ cs.map (·.kind) → k = .store := by
        rw [hst]
        simp
      have h1 := local_docs h hr' (by
        intro d hd hw
        have := hno d.kind (List.mem_map.mpr ⟨d, hd, rfl⟩)
        rw [hw] at this
        cases this)
      have h2 := local_flow h ht.next hr' hs.2 hn' (.inr (by
        intro d hd hw
        have := hno d.kind (List.mem_map.mpr ⟨d, hd, rfl⟩)
        rw [hw] at this
        cases this))
      refine ⟨?_, by rw [h1]; exact hi.2⟩
      rw [h2]
      have : c.inIndex p g' = c.inIndex p g := by simp only [Cell.inIndex, h1]
      rw [this]
      exact hi.1
    · rename_i hk
      rw [if_neg hk] at hi
      exact ih ht.next hr' hs.2 hn' hi
  | @one up g g' c c' cs _ h =>
    have hr1 := ((roles_cons _ _).mp hr).1
    have hkk := (alone_kind h).1
    by_cases hk : c.kind = .write
    · simp only [InStep] at hi ⊢
      rw [if_pos hk] at hi
      rw [if_pos (hkk.trans hk)]
      obtain ⟨hi1, hi2⟩ := hi
      have hl := alone_live h
      have hrw := alone_rows h (by rw [hk]; decide)
      rw [hrw]
      cases h with
      | encoded hp => exact absurd (hr1.2.1 _ _ hp) (by rw [hk]; decide)
      | batch hp _ => exact absurd (hr1.2.1 _ _ hp) (by rw [hk]; decide)
      | breakIn hp _ => exact absurd (hr1.2.1 _ _ hp) (by rw [hk]; decide)
      | writtenNew hp hc =>
        simp only [Cell.inIndex, hc, hl, and_self, if_true] at hi1
        have hd := hi2 hc hl
        have hh : c.held = [] := by simp [Cell.held, hp]
        rw [hh, List.append_nil] at hi1
        simp [Cell.inIndex, Cell.isEnded, Cell.held, hd, hi1]
      | written hp hc =>
        simp only [Cell.inIndex, hc, Bool.false_eq_true, false_and, if_false] at hi1
        have hh : c.held = [] := by simp [Cell.held, hp]
        rw [hh, List.append_nil] at hi1
        simp [Cell.inIndex, Cell.held, hc, hi1]
      | recvPlain _ _ hk' => rw [hk] at hk'; cases hk'
      | recvEncode _ _ hk' _ => rw [hk] at hk'; cases hk'
      | breakBefore _ _ hk' _ => rw [hk] at hk'; cases hk'
      | recvNew hp hq _ hc =>
        simp only [Cell.inIndex, hc, hl, and_self, if_true] at hi1
        have hh : c.held = [] := by simp [Cell.held, hp]
        have hd := hi2 hc hl
        rw [hh, List.append_nil] at hi1
        simp [Cell.inIndex, Cell.isEnded, Cell.held, hc, hi1, hd]
      | recvFull hp hq _ hc _ =>
        simp only [Cell.inIndex, hc, Bool.false_eq_true, false_and, if_false] at hi1
        have hh : c.held = [] := by simp [Cell.held, hp]
        rw [hh, List.append_nil] at hi1
        simp [Cell.inIndex, Cell.held, hc, hi1]
      | recvMore hp hq _ hc =>
        simp only [Cell.inIndex, hc, Bool.false_eq_true, false_and, if_false] at hi1
        have hh : c.held = [] := by simp [Cell.held, hp]
        simp [Cell.inIndex, Cell.held, hc, hi1, hh, hp]
      | store _ _ hk' => rw [hk] at hk'; cases hk'
      | closeWrite hp hq _ _ _ =>
        have hh : c.held = [] := by simp [Cell.held, hp]
        rw [hh] at hi1
        refine ⟨?_, fun hc _ => hi2 hc hl⟩
        simp only [Cell.inIndex, hl, and_true] at hi1
        have hw : ∀ c : Cell α, Cell.isEnded { c with phase := .writing } = false := fun _ => rfl
        simp only [Cell.inIndex, hw, and_true, Cell.held, enter_docs]
        exact hi1
      | close hp hq _ hk' =>
        have hpend : c.pend = [] := by
          by_contra hne
          exact hk' ⟨hk, hne⟩
        have hh : c.held = [] := by simp [Cell.held, hp]
        rw [hh] at hi1
        refine ⟨?_, fun _ h => by cases h⟩
        have hend : ∀ c : Cell α, Cell.isEnded { c with phase := .ended true } = true := fun _ => rfl
        simp only [Cell.inIndex, hend, Bool.true_eq_false, and_false, if_false, Cell.held]
        simp only [Cell.inIndex, hl, and_true] at hi1
        split at hi1
        · rename_i hc
          rw [hi2 hc hl, ← hi1, hpend]
        · exact hi1
    · have hw : c.phase ≠ .writing := fun hw => hk (hr1.2.2.1 hw)
      simp only [InStep] at hi ⊢
      rw [if_neg hk] at hi
      rw [if_neg (by rw [hkk]; exact hk)]
      by_cases hst : c.kind = .store
      · have := ht.facts.1 hst
        subst this
        trivial
      · exact inStep_congr (alone_docs h hw) (alone_rows h hst) cs hi
  | @push up g c d cs m gd _ h hd _ =>
    have h3 : Cell.units p { d with queue := d.queue ++ [m] } = d.units p ++ m := by
      unfold Cell.isEnded at hd
      unfold Cell.units
      cases hp : d.phase <;> simp_all
    have hcl : c.isEnded = false := by simp [Cell.isEnded, h]
    simp only [InStep] at hi ⊢
    split
    · rename_i hk
      rw [if_pos hk] at hi
      obtain ⟨hi1, hi2⟩ := hi
      have hh : c.held = m := by simp [Cell.held, h]
      rw [hh] at hi1
      refine ⟨?_, fun hc _ => by rw [leave_docs]; exact hi2 hc hcl⟩
      have hil : ∀ c : Cell α, Cell.isEnded { c with phase := .idle } = false := fun _ => rfl
      simp only [Cell.inIndex, hil, and_true, leave_docs, leave_rows, flow, h3, Cell.held, List.append_nil]
      simp only [Cell.inIndex, hcl, and_true, flow] at hi1
      rw [hi1]
      simp only [List.append_assoc]
    · rename_i hk
      rw [if_neg hk] at hi
      split
      · rename_i hkd
        rw [if_pos hkd] at hi
        simp only [Cell.inIndex, Cell.isEnded, leave_docs, leave_rows, Cell.held] at hi ⊢
        exact hi
      · rename_i hkd
        rw [if_neg hkd] at hi
        exact inStep_congr (leave_docs _ _) (leave_rows _ _) cs hi
  | lost _ _ _ => exact absurd rfl ((sound_cons _ _).mp hn).1
  | @failBusy up g c cs m n hb' h =>
    have hk := ((roles_cons _ _).mp hr).1.2.1 m n h
    simp only [InStep] at hi ⊢
    rw [if_neg (by rw [hk]; decide)] at hi ⊢
    exact hi
  | failHold _ _ => exact absurd rfl ((sound_cons _ _).mp hn).1
  | failWriting _ _ => exact absurd rfl ((sound_cons _ _).mp hn).1
  | failIdle _ _ => exact absurd rfl ((sound_cons _ _).mp hn).1

/-! ### Who ends when -/

/-- A thread ends when its sender has. -/
def Ends : Bool → List (Cell α) → Prop
  | _, [] => True
  | up, c :: cs => (c.isEnded = true → up = true) ∧ Ends c.isEnded cs

theorem Ends.mono {cs : List (Cell α)} (h : Ends false cs) (up : Bool) : Ends up cs := by
  cases cs with
  | nil => trivial
  | cons c cs => exact ⟨fun h1 => (by have := h.1 h1; cases this), h.2⟩

/-- Without the flag and without failures, threads end one after the other, and no `send` fails. -/
theorem local_ends (h : Local p bad up g cs g' cs') (hf : g.flag = false) (hs : Shut p up cs) (he : Ends up cs) :
    (Sound cs' → Ends up cs') ∧ (bad = false → Sound cs → Sound cs') := by
  have hstop : g.stop = false := by
    unfold Shared.stop
    rw [hf, ite_self]
  induction h with
  | deeper _ ih =>
    have ih := ih hf hs.2 he.2 hstop
    refine ⟨fun hn => ⟨he.1, ih.1 ((sound_cons _ _).mp hn).2⟩, fun hb hn => ?_⟩
    rw [sound_cons] at hn ⊢
    exact ⟨hn.1, ih.2 hb hn.2⟩
  | @one up g g' c c' cs _ h =>
    have hl := alone_live h
    have he2 := he.2
    rw [hl] at he2
    have hup : c'.isEnded = true → up = true := by
      intro hend
      cases h <;> simp_all [Cell.isEnded]
      · exact (hs.1 (by assumption) (by assumption)).1
    refine ⟨fun _ => ⟨hup, he2.mono _⟩, fun _ hn => ?_⟩
    rw [sound_cons] at hn ⊢
    refine ⟨?_, hn.2⟩
    intro hbad
    cases h <;> simp_all
  | @push up g c d cs m gd _ h hd _ =>
    have hcl : c.isEnded = false := by simp [Cell.isEnded, h]
    obtain ⟨-, he1, he2⟩ := he
    refine ⟨fun _ => ⟨fun h => (by cases h), fun h => ?_, he2⟩, fun _ hn => ?_⟩
    · rw [show Cell.isEnded { d with queue := d.queue ++ [m] } = d.isEnded from rfl, hd] at h
      cases h
    · rw [sound_cons, sound_cons] at hn ⊢
      exact ⟨fun h => (by cases h), hn.2⟩
  | @lost up g c d cs m gd _ h hd =>
    have hcl : c.isEnded = false := by simp [Cell.isEnded, h]
    have := he.2.1 hd
    rw [hcl] at this
    cases this
  | failBusy hb h =>
    refine ⟨fun hn => ?_, fun h => by rw [hb] at h; cases h⟩
    have := ((sound_cons _ _).mp hn).1
    rw [hf] at this
    exact absurd rfl this
  | failHold hb _ => exact ⟨fun hn => absurd rfl ((sound_cons _ _).mp hn).1, fun h => by rw [hb] at h; cases h⟩
  | failWriting hb _ => exact ⟨fun hn => absurd rfl ((sound_cons _ _).mp hn).1, fun h => by rw [hb] at h; cases h⟩
  | failIdle hb _ => exact ⟨fun hn => absurd rfl ((sound_cons _ _).mp hn).1, fun h => by rw [hb] at h; cases h⟩

/-! ### Something can always be done -/

theorem alone_progress (p : Setup α) (up : Bool) (g : Shared α) (c : Cell α) :
    (∃ r, alone p up g c = some r) ∨ c.isEnded = true ∨ (∃ m gd, c.phase = .hold m gd) ∨ (c.phase = .idle ∧ c.queue = [] ∧ up = false) := by
  unfold alone Cell.isEnded
  cases hp : c.phase with
  | ended b => exact .inr (.inl rfl)
  | hold m gd => exact .inr (.inr (.inl ⟨m, gd, rfl⟩))
  | busy m n => left; cases n <;> exact ⟨_, rfl⟩
  | writing => left; simp only; split <;> exact ⟨_, rfl⟩
  | idle =>
    simp only
    cases hq : c.queue with
    | cons m q =>
      left
      simp only
      cases c.kind with
      | plain => exact ⟨_, rfl⟩
      | encode => exact ⟨_, rfl⟩
      | store => exact ⟨_, rfl⟩
      | write =>
        simp only
        split
        · exact ⟨_, rfl⟩
        · split <;> exact ⟨_, rfl⟩
    | nil =>
      cases up with
      | false => exact .inr (.inr (.inr (by simp)))
      | true =>
        left
        simp only [if_true]
        split <;> exact ⟨_, rfl⟩

/-- From some thread on: one of them can do something, or the first has ended or waits for its sender. -/
theorem progress (p : Setup α) (g : Shared α) : ∀ (cs : List (Cell α)) (up : Bool) (c : Cell α), Tail (c :: cs) → Roles (c :: cs) →
    (∀ d ∈ c :: cs, 0 < d.cap) → (∃ i r, stepAt p up g i (c :: cs) = some r) ∨ c.isEnded = true ∨ (c.phase = .idle ∧ c.queue = [] ∧ up = false) := by
  intro cs
  induction cs with
  | nil =>
    intro up c ht hr _
    rcases alone_progress p up g c with ⟨r, h⟩ | h | ⟨m, gd, h⟩ | h
    · left
      refine ⟨0, (r.1, [r.2]), ?_⟩
      rw [stepAt]
      split
      · rename_i hp
        simp [alone, hp] at h
      · rw [h]; rfl
    · exact .inr (.inl h)
    · exact absurd (ht.facts.2.2 rfl) (((roles_cons _ _).mp hr).1.2.2.2 m gd h)
    · exact .inr (.inr h)
  | cons d ds ih =>
    intro up c ht hr hcap
    rcases alone_progress p up g c with ⟨r, h⟩ | h | ⟨m, gd, h⟩ | h
    · left
      refine ⟨0, (r.1, r.2 :: d :: ds), ?_⟩
      rw [stepAt]
      split
      · rename_i hp
        simp [alone, hp] at h
      · rw [h]; rfl
    · exact .inr (.inl h)
    · left
      rcases ih c.isEnded d ht.next ((roles_cons _ _).mp hr).2 (fun e he => hcap e (by simp at he ⊢; right; exact he)) with ⟨i, r, hs⟩ | hd | ⟨hd, hq, -⟩
      · exact ⟨i + 1, (r.1, c :: r.2), by rw [stepAt, hs]; rfl⟩
      · exact ⟨0, (g.leave gd, { c with phase := .ended false } :: d :: ds), by simp [stepAt, h, hd]⟩
      · have hde : d.isEnded = false := by simp [Cell.isEnded, hd]
        have hc := hcap d (by simp)
        exact ⟨0, (g.leave gd, { c with phase := .idle } :: { d with queue := d.queue ++ [m] } :: ds), by simp [stepAt, h, hde, hq, hc]⟩
    · exact .inr (.inr h)

end NextPlaid.Interrupt
