import Verif.Proofs.Progress

/-! Lemmas on the system of handlers, worker and report. -/

namespace NextPlaid.Progress
open NextPlaid NextPlaid.Spec

variable {E M : Type}

local macro "nd" : term => `((by dsimp only; first | exact keys_record _ _ _ _ ‹_› | exact keys_record _ _ _ _ (keys_record _ _ _ _ ‹_›)))

/-- The status the report shows for an index. -/
def statusIn (m : Map) (name : String) : Option Status := (find m name).map (·.status)

theorem statusIn_record {m : Map} (h : (keys m).Nodup) (now : Int) (name : String) (e : Event) :
    statusIn (record m now name e) name = some (next ((find m name).filter fun p => visible p now) now e).status := by
  unfold statusIn
  rw [find_record _ _ _ _ _ h, if_pos rfl]; rfl

theorem running_queued {m : Map} (h : (keys m).Nodup) (now : Int) (name : String) (n : Nat) (msg : String) :
    (statusIn m name = some .running ↔ statusIn (record m now name (.queued n msg)) name = some .running) := by
  rw [statusIn_record h]
  unfold statusIn
  cases hf : find m name with
  | none => simp [next]
  | some p =>
    by_cases hp : p.status = .running
    · have hv : visible p now = true := visible_active (.inr hp)
      rw [Option.filter_some, if_pos hv]
      simp [next, requeue, hp]
    · have : ∀ o : Option Progress, (o = none ∨ o = some p) → (next o now (.queued n msg)).status = .queued := by
        rintro o (rfl | rfl)
        · rfl
        · simp [next, requeue, hp]
      rw [this]
      · simp [hp]
      · rw [Option.filter_some]; split <;> simp

theorem statusIn_stage {m : Map} (h : (keys m).Nodup) (now : Int) (name : String) (a b : String) :
    statusIn (record m now name (.stage a b)) name = some .running := by rw [statusIn_record h]; rfl

theorem statusIn_complete {m : Map} (h : (keys m).Nodup) (now : Int) (name : String) (a : Nat) (b : String) :
    statusIn (record m now name (.complete a b)) name = some .complete := by rw [statusIn_record h]; rfl

theorem statusIn_failed {m : Map} (h : (keys m).Nodup) (now : Int) (name : String) (a : String) :
    statusIn (record m now name (.failed a)) name = some .failed := by rw [statusIn_record h]; rfl

/-- A worker inside `process_batch` stays there until it is done. -/
theorem step_processing {max cap : Nat} {s s' : Batch.State E M} {e : Batch.Event E M} (hd : e ≠ .done)
    (h : Batch.step max cap s e = some s') (hp : processing s = true) : processing s' = true := by
  unfold processing at hp
  split at hp
  · next last hw =>
    have hw' : s'.worker = s.worker := by
      cases e with
      | request item => simp only [Batch.step] at h; split at h <;> cases h <;> rfl
      | reserve => simp only [Batch.step] at h; split at h <;> cases h <;> rfl
      | sendReserved item => simp only [Batch.step] at h; split at h <;> cases h; rfl
      | abandon => simp only [Batch.step] at h; split at h <;> cases h; rfl
      | close => simp only [Batch.step] at h; split at h <;> cases h; rfl
      | recv => simp only [Batch.step, Batch.receive, hw] at h; cases h
      | timeout => simp only [Batch.step, hw] at h; cases h
      | done => exact absurd rfl hd
    unfold processing; rw [hw', hw]
  · cases hp

/-- While a batch is processed the report says so. -/
structure Shown (name : String) (s : System E M) : Prop where
  nodup : (keys s.map).Nodup
  run : s.begun = true → processing s.batch = true ∧ statusIn s.map name = some .running

theorem act_shown {max cap : Nat} {name : String} {s s' : System E M} {now : Int} {a : Act E M}
    (hs : Shown name s) (ha : ∀ e, a ≠ .encodeFailed e) (h : act max cap name s now a = some s') : Shown name s' := by
  have hn := hs.nodup
  have keep : ∀ {e : Batch.Event E M} {b}, e ≠ .done → Batch.step max cap s.batch e = some b →
      s.begun = true → processing b = true ∧ statusIn s.map name = some .running :=
    fun hd hb hg => ⟨step_processing hd hb (hs.run hg).1, (hs.run hg).2⟩
  cases a with
  | accept item =>
    simp only [act, Option.bind_eq_some_iff] at h
    obtain ⟨b, hb, h⟩ := h
    split at h
    · cases h; exact hs
    · cases h; exact ⟨hs.nodup, keep (by simp) hb⟩
  | recordSent =>
    simp only [act] at h
    split at h
    · cases h
    · cases h
      exact ⟨nd, fun hg => ⟨(hs.run hg).1, (running_queued hs.nodup ..).1 (hs.run hg).2⟩⟩
  | reserve n =>
    simp only [act, Option.bind_eq_some_iff] at h
    obtain ⟨b, hb, h⟩ := h
    split at h
    · cases h; exact hs
    · cases h
      exact ⟨nd,
        fun hg => ⟨(keep (by simp) hb hg).1, statusIn_stage (keys_record _ _ _ _ hs.nodup) ..⟩⟩
  | encoded item =>
    simp only [act, Option.map_eq_some_iff] at h
    obtain ⟨b, hb, h⟩ := h
    cases h; exact ⟨hs.nodup, keep (by simp) hb⟩
  | encodeFailed e => exact absurd rfl (ha e)
  | recv =>
    simp only [act, Option.map_eq_some_iff] at h
    obtain ⟨b, hb, h⟩ := h
    cases h; exact ⟨hs.nodup, keep (by simp) hb⟩
  | timeout =>
    simp only [act, Option.map_eq_some_iff] at h
    obtain ⟨b, hb, h⟩ := h
    cases h; exact ⟨hs.nodup, keep (by simp) hb⟩
  | close =>
    simp only [act, Option.map_eq_some_iff] at h
    obtain ⟨b, hb, h⟩ := h
    cases h; exact ⟨hs.nodup, keep (by simp) hb⟩
  | begin =>
    simp only [act] at h
    split at h
    · next hc => cases h; exact ⟨nd, fun _ => ⟨hc.1, statusIn_stage hs.nodup ..⟩⟩
    · cases h
  | stage a b =>
    simp only [act] at h
    split at h
    · next hc => cases h; exact ⟨nd, fun _ => ⟨(hs.run hc).1, statusIn_stage hs.nodup ..⟩⟩
    · cases h
  | complete n =>
    simp only [act] at h
    split at h
    · rw [Option.map_eq_some_iff] at h
      obtain ⟨b, _, h⟩ := h
      cases h; exact ⟨nd, fun hg => by simp at hg⟩
    · cases h
  | fail e =>
    simp only [act] at h
    split at h
    · rw [Option.map_eq_some_iff] at h
      obtain ⟨b, _, h⟩ := h
      cases h; exact ⟨nd, fun hg => by simp at hg⟩
    · cases h

theorem runActs_shown {max cap : Nat} {name : String} {s s' : System E M} {acts : List (Int × Act E M)}
    (hs : Shown name s) (ha : ∀ a ∈ acts, ∀ e, a.2 ≠ .encodeFailed e) (h : runActs max cap name s acts = some s') :
    Shown name s' := by
  induction acts generalizing s with
  | nil => cases h; exact hs
  | cons a as ih =>
    simp only [runActs, Option.bind_eq_some_iff] at h
    obtain ⟨s1, h1, h2⟩ := h
    exact ih (act_shown hs (ha a (by simp)) h1) (fun b hb => ha b (by simp [hb])) h2

/-- Something is still to be done. -/
def Busy (b : Batch.State E M) : Prop :=
  0 < b.reserved ∨ b.queue ≠ [] ∨ (∃ e m c, b.worker = .collecting e m c) ∨ ∃ l, b.worker = .processing l

/-- Items are not empty, and the report does not show work when there is none. -/
structure Honest (name : String) (s : System E M) : Prop where
  nodup : (keys s.map).Nodup
  queue : ∀ i ∈ s.batch.queue, i.embeddings ≠ []
  coll : ∀ e m c, s.batch.worker = .collecting e m c → e ≠ []
  begun : s.begun = true → processing s.batch = true
  busy : statusIn s.map name = some .running → Busy s.batch

theorem valid_ne {item : Batch.Item E M} (h : Batch.valid item = true) : item.embeddings ≠ [] := by
  unfold Batch.valid at h
  simp only [Bool.and_eq_true, Bool.not_eq_true', List.isEmpty_eq_false_iff] at h
  exact h.1

/-- The parts of `Honest` about the queue, for a step of the queue. -/
theorem step_queue {max cap : Nat} {s s' : Batch.State E M} {e : Batch.Event E M}
    (hq : ∀ i ∈ s.queue, i.embeddings ≠ []) (hc : ∀ e m c, s.worker = .collecting e m c → e ≠ [])
    (h : Batch.step max cap s e = some s') :
    (∀ i ∈ s'.queue, i.embeddings ≠ []) ∧ (∀ e m c, s'.worker = .collecting e m c → e ≠ []) := by
  have push : ∀ item : Batch.Item E M, Batch.valid item = true → ∀ i ∈ s.queue ++ [item], i.embeddings ≠ [] := by
    intro item hv i hi
    rw [List.mem_append, List.mem_singleton] at hi
    rcases hi with hi | rfl
    · exact hq i hi
    · exact valid_ne hv
  cases e with
  | request item =>
    simp only [Batch.step] at h
    split at h
    · next hv => cases h; exact ⟨push item hv.1, hc⟩
    · cases h; exact ⟨hq, hc⟩
  | reserve => simp only [Batch.step] at h; split at h <;> cases h <;> exact ⟨hq, hc⟩
  | sendReserved item =>
    simp only [Batch.step] at h
    split at h
    · next hv => cases h; exact ⟨push item hv.2, hc⟩
    · cases h
  | abandon => simp only [Batch.step] at h; split at h <;> cases h; exact ⟨hq, hc⟩
  | close => simp only [Batch.step] at h; split at h <;> cases h; exact ⟨hq, hc⟩
  | timeout =>
    simp only [Batch.step] at h
    split at h
    · next hw =>
      cases h
      unfold Batch.finish
      split
      · exact ⟨hq, fun _ _ _ hw => by simp at hw⟩
      · exact ⟨hq, fun _ _ _ hw => by simp at hw⟩
    · cases h
  | done =>
    simp only [Batch.step] at h
    split at h
    · next last hw => cases h; exact ⟨hq, fun _ _ _ hw => by cases last <;> simp at hw⟩
    · cases h
  | recv =>
    simp only [Batch.step, Batch.receive] at h
    have coll : ∀ (t : Batch.State E M) e m c, (∀ i ∈ t.queue, i.embeddings ≠ []) → e ≠ [] →
        (∀ i ∈ (Batch.collect max t e m c).queue, i.embeddings ≠ []) ∧
        (∀ e' m' c', (Batch.collect max t e m c).worker = .collecting e' m' c' → e' ≠ []) := by
      intro t e m c ht he
      unfold Batch.collect
      split
      · exact ⟨ht, fun _ _ _ hw => by cases hw; exact he⟩
      · unfold Batch.finish
        split <;> exact ⟨ht, fun _ _ _ hw => by simp at hw⟩
    split at h
    · next hw hqq =>
      cases h
      exact coll _ _ _ _ (fun i hi => hq i (by rw [hqq]; simp [hi])) (hq _ (by rw [hqq]; simp))
    · next hw hqq =>
      split at h <;> cases h
      exact ⟨hq, fun _ _ _ hw => by simp at hw⟩
    · next hw hqq =>
      cases h
      exact coll _ _ _ _ (fun i hi => hq i (by rw [hqq]; simp [hi])) (by simp [hc _ _ _ hw])
    · next hw hqq =>
      split at h <;> cases h
      unfold Batch.finish
      split <;> exact ⟨hq, fun _ _ _ hw => by simp at hw⟩
    · cases h

/-- A step of the queue other than giving up a slot or finishing leaves work to be done. -/
theorem step_busy {max cap : Nat} {s s' : Batch.State E M} {e : Batch.Event E M}
    (hq : ∀ i ∈ s.queue, i.embeddings ≠ []) (hc : ∀ e m c, s.worker = .collecting e m c → e ≠ [])
    (hd : e ≠ .done) (ha : e ≠ .abandon) (h : Batch.step max cap s e = some s') (hb : Busy s) : Busy s' := by
  cases e with
  | request item =>
    simp only [Batch.step] at h
    split at h
    · cases h; exact .inr (.inl (by simp))
    · cases h; exact hb
  | reserve =>
    simp only [Batch.step] at h
    split at h
    · cases h; exact .inl (Nat.succ_pos _)
    · cases h; exact hb
  | sendReserved item =>
    simp only [Batch.step] at h
    split at h <;> cases h
    exact .inr (.inl (by simp))
  | abandon => exact absurd rfl ha
  | close => simp only [Batch.step] at h; split at h <;> cases h; exact hb
  | timeout =>
    simp only [Batch.step] at h
    split at h
    · next hw =>
      cases h
      unfold Batch.finish
      rw [if_neg (by simpa using hc _ _ _ hw)]
      exact .inr (.inr (.inr ⟨_, rfl⟩))
    · cases h
  | done => exact absurd rfl hd
  | recv =>
    simp only [Batch.step, Batch.receive] at h
    have coll : ∀ (t : Batch.State E M) e m c, e ≠ [] → Busy (Batch.collect max t e m c) := by
      intro t e m c he
      unfold Batch.collect
      split
      · exact .inr (.inr (.inl ⟨_, _, _, rfl⟩))
      · unfold Batch.finish
        rw [if_neg (by simpa using he)]
        exact .inr (.inr (.inr ⟨_, rfl⟩))
    split at h
    · next hw hqq => cases h; exact coll _ _ _ _ (hq _ (by rw [hqq]; simp))
    · next hw hqq =>
      split at h <;> cases h
      rcases hb with hb | hb | ⟨_, _, _, hb⟩ | ⟨_, hb⟩
      · exact .inl hb
      · exact absurd hqq hb
      · rw [hw] at hb; cases hb
      · rw [hw] at hb; cases hb
    · next hw hqq => cases h; exact coll _ _ _ _ (by simp [hc _ _ _ hw])
    · next hw hqq =>
      split at h <;> cases h
      unfold Batch.finish
      rw [if_neg (by simpa using hc _ _ _ hw)]
      exact .inr (.inr (.inr ⟨_, rfl⟩))
    · cases h

theorem act_honest {max cap : Nat} {name : String} {s s' : System E M} {now : Int} {a : Act E M}
    (hs : Honest name s) (h : act max cap name s now a = some s') : Honest name s' := by
  have hn := hs.nodup
  have keep : ∀ {e : Batch.Event E M} {b}, e ≠ .done → e ≠ .abandon → Batch.step max cap s.batch e = some b →
      statusIn s.map name = some .running → Busy b :=
    fun hd ha hb hr => step_busy hs.queue hs.coll hd ha hb (hs.busy hr)
  have proc : ∀ {e : Batch.Event E M} {b}, e ≠ .done → Batch.step max cap s.batch e = some b →
      s.begun = true → processing b = true := fun hd hb hg => step_processing hd hb (hs.begun hg)
  have q : ∀ {e : Batch.Event E M} {b}, Batch.step max cap s.batch e = some b → _ :=
    fun hb => step_queue hs.queue hs.coll hb
  cases a with
  | accept item =>
    simp only [act, Option.bind_eq_some_iff] at h
    obtain ⟨b, hb, h⟩ := h
    split at h
    · cases h; exact hs
    · cases h; exact ⟨hs.nodup, (q hb).1, (q hb).2, proc (by simp) hb, keep (by simp) (by simp) hb⟩
  | recordSent =>
    simp only [act] at h
    split at h
    · cases h
    · cases h
      exact ⟨nd, hs.queue, hs.coll, hs.begun, fun hr => hs.busy ((running_queued hs.nodup ..).2 hr)⟩
  | reserve n =>
    simp only [act, Option.bind_eq_some_iff] at h
    obtain ⟨b, hb, h⟩ := h
    split at h
    · cases h; exact hs
    · next hne =>
      cases h
      refine ⟨nd, (q hb).1, (q hb).2, proc (by simp) hb, fun _ => ?_⟩
      simp only [Batch.step] at hb
      split at hb
      · cases hb; exact .inl (Nat.succ_pos _)
      · cases hb; exact absurd rfl hne
  | encoded item =>
    simp only [act, Option.map_eq_some_iff] at h
    obtain ⟨b, hb, h⟩ := h
    cases h; exact ⟨hs.nodup, (q hb).1, (q hb).2, proc (by simp) hb, keep (by simp) (by simp) hb⟩
  | encodeFailed e =>
    simp only [act, Option.map_eq_some_iff] at h
    obtain ⟨b, hb, h⟩ := h
    cases h
    exact ⟨nd, (q hb).1, (q hb).2, proc (by simp) hb, fun hr => by simp [statusIn_failed hs.nodup] at hr⟩
  | recv =>
    simp only [act, Option.map_eq_some_iff] at h
    obtain ⟨b, hb, h⟩ := h
    cases h; exact ⟨hs.nodup, (q hb).1, (q hb).2, proc (by simp) hb, keep (by simp) (by simp) hb⟩
  | timeout =>
    simp only [act, Option.map_eq_some_iff] at h
    obtain ⟨b, hb, h⟩ := h
    cases h; exact ⟨hs.nodup, (q hb).1, (q hb).2, proc (by simp) hb, keep (by simp) (by simp) hb⟩
  | close =>
    simp only [act, Option.map_eq_some_iff] at h
    obtain ⟨b, hb, h⟩ := h
    cases h; exact ⟨hs.nodup, (q hb).1, (q hb).2, proc (by simp) hb, keep (by simp) (by simp) hb⟩
  | begin =>
    simp only [act] at h
    split at h
    · next hc =>
      cases h
      refine ⟨nd, hs.queue, hs.coll, fun _ => hc.1, fun _ => ?_⟩
      have := hc.1
      unfold processing at this
      split at this
      · next l hw => exact .inr (.inr (.inr ⟨l, hw⟩))
      · cases this
    · cases h
  | stage a b =>
    simp only [act] at h
    split at h
    · cases h
      refine ⟨nd, hs.queue, hs.coll, hs.begun, fun _ => ?_⟩
      have := hs.begun ‹_›
      unfold processing at this
      split at this
      · next l hw => exact .inr (.inr (.inr ⟨l, hw⟩))
      · cases this
    · cases h
  | complete n =>
    simp only [act] at h
    split at h
    · rw [Option.map_eq_some_iff] at h
      obtain ⟨b, hb, h⟩ := h
      cases h
      exact ⟨nd, (q hb).1, (q hb).2, fun hg => by simp at hg, fun hr => by simp [statusIn_complete hs.nodup] at hr⟩
    · cases h
  | fail e =>
    simp only [act] at h
    split at h
    · rw [Option.map_eq_some_iff] at h
      obtain ⟨b, hb, h⟩ := h
      cases h
      exact ⟨nd, (q hb).1, (q hb).2, fun hg => by simp at hg, fun hr => by simp [statusIn_failed hs.nodup] at hr⟩
    · cases h

theorem runActs_honest {max cap : Nat} {name : String} {s s' : System E M} {acts : List (Int × Act E M)}
    (hs : Honest name s) (h : runActs max cap name s acts = some s') : Honest name s' := by
  induction acts generalizing s with
  | nil => cases h; exact hs
  | cons a as ih =>
    simp only [runActs, Option.bind_eq_some_iff] at h
    obtain ⟨s1, h1, h2⟩ := h
    exact ih (act_honest hs h1) h2

end NextPlaid.Progress
