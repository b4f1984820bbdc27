import Verif.Spec.Shutdown
import Verif.Model.Shutdown
import Verif.Proofs.Batch

/-! Proofs about `Verif.Model.Shutdown`. -/

namespace NextPlaid.Proofs.Shutdown
open NextPlaid.Batch NextPlaid.Shutdown NextPlaid.Spec NextPlaid.Spec.Shutdown

variable {E M α : Type}

/-- What is known of a life that is over. -/
structure Fine (max cap dmax dcap : Nat) (l : Life E M α) : Prop where
  up : AllBut (cap + Nat.max 1 max) (fun g => (g.flatMap (·.embeddings), g.flatMap (·.metadata))) l.updates l.updated
  del : AllBut (dcap + Nat.max 1 dmax) id l.deletions l.deleted

structure Inv (max cap dmax dcap : Nat) (s : Server E M α) : Prop where
  up : ∃ groups cur, Batch.Inv max s.up groups cur
  room : s.up.queue.length + s.up.reserved ≤ cap
  del : ∃ cur, Batch.DInv dmax s.del cur
  droom : s.del.queue.length ≤ dcap
  held : s.up.reserved ≤ s.underWay
  count : s.taken = s.replied + s.underWay
  down : s.down = true → s.underWay = 0
  past : ∀ l ∈ s.past, Fine max cap dmax dcap l

theorem init_inv (max cap dmax dcap : Nat) (past : List (Life E M α)) (h : ∀ l ∈ past, Fine max cap dmax dcap l) :
    Inv max cap dmax dcap ({ past := past } : Server E M α) where
  up := ⟨[], [], Batch.init max⟩
  room := Nat.zero_le _
  del := ⟨[], Batch.dInit dmax⟩
  droom := Nat.zero_le _
  held := Nat.le_refl _
  count := rfl
  down := by intro h; cases h
  past := h

theorem docs_ge : ∀ (g : List (Item E M)), (∀ i ∈ g, valid i = true) → g.length ≤ Batch.docs g
  | [], _ => by simp
  | i :: g, h => by
    have ih := docs_ge g fun j hj => h j (by simp [hj])
    have := List.length_pos_iff.2 (Batch.valid_ne (h i (by simp))).1
    simp only [Batch.docs, List.flatMap_cons, List.length_append, List.length_cons] at ih ⊢
    omega

theorem group_length {max : Nat} {g : List (Item E M)} (hg : Batch.Group max g) (hv : ∀ i ∈ g, valid i = true) :
    g.length ≤ Nat.max 1 max := by
  by_cases h1 : 1 < g.length
  · have h2 := hg.2 h1
    have h3 := docs_ge g.dropLast fun i hi => hv i ((List.dropLast_sublist g).subset hi)
    rw [List.length_dropLast] at h3
    have := Nat.le_max_right 1 max
    change _ ≤ Nat.max 1 max at this
    omega
  · have := Nat.le_max_left 1 max
    change _ ≤ Nat.max 1 max at this
    omega

theorem cur_length {max : Nat} {w : Worker E M} {cur : List (Item E M)} (h : Batch.Holds max w cur)
    (hv : ∀ i ∈ cur, valid i = true) : cur.length ≤ Nat.max 1 max ∧ (busy w = true → cur = []) := by
  cases w with
  | collecting e m c =>
    obtain ⟨_, _, _, h1, h2⟩ := h
    have := docs_ge cur hv
    have h3 := Nat.le_max_right 1 max
    change _ ≤ Nat.max 1 max at h3
    exact ⟨by omega, by intro h; cases h⟩
  | idle => cases h; exact ⟨Nat.zero_le _, fun _ => rfl⟩
  | processing b => cases h; exact ⟨Nat.zero_le _, fun _ => rfl⟩
  | stopped => cases h; exact ⟨Nat.zero_le _, fun _ => rfl⟩

theorem dcur_length {max : Nat} {w : DWorker α} {cur : List α} (h : Batch.DHolds max w cur) :
    cur.length ≤ Nat.max 1 max ∧ (dBusy w = true → cur = []) := by
  have h3 := Nat.le_max_right 1 max
  change _ ≤ Nat.max 1 max at h3
  cases w with
  | first b => obtain ⟨_, _, h1⟩ := h; exact ⟨by omega, by intro h; cases h⟩
  | second b => obtain ⟨_, _, h1⟩ := h; exact ⟨by omega, by intro h; cases h⟩
  | idle => cases h; exact ⟨Nat.zero_le _, fun _ => rfl⟩
  | processing b => cases h; exact ⟨Nat.zero_le _, fun _ => rfl⟩
  | stopped => cases h; exact ⟨Nat.zero_le _, fun _ => rfl⟩

/-- Cutting a list of pieces short. -/
theorem cut_short {R B : Type} {f : List R → B} {acc : List R} {groups : List (List R)} {rest : List R} {n k : Nat}
    (h : CutsInto acc groups rest) (hg : ∀ g ∈ groups, g.length ≤ n) (hr : rest.length ≤ k) :
    AllBut (k + n) f acc (groups.map f).dropLast := by
  rcases List.eq_nil_or_concat groups with rfl | ⟨gs, g, rfl⟩
  · exact ⟨[], rest, ⟨h.1, by simp⟩, rfl, by omega⟩
  · refine ⟨gs, g ++ rest, ⟨?_, fun p hp => h.2 p (by simp [hp])⟩, by simp, ?_⟩
    · have := h.1
      simpa using this
    · have := hg g (by simp)
      rw [List.length_append]; omega

theorem life_fine {max cap dmax dcap : Nat} {s : Server E M α} (hi : Inv max cap dmax dcap s) (u d : Bool) :
    Fine max cap dmax dcap (life s u d) := by
  obtain ⟨groups, cur, hu⟩ := hi.up
  obtain ⟨dcur, hd⟩ := hi.del
  have hroom := hi.room
  have hdroom := hi.droom
  have hvg : ∀ g ∈ groups, ∀ i ∈ g, valid i = true := by
    intro g hg i hgi
    refine hu.valid i ?_
    rw [hu.accepted]
    exact List.mem_append_left _ (List.mem_append_left _ (List.mem_flatten.2 ⟨g, hg, hgi⟩))
  have hvc : ∀ i ∈ cur, valid i = true := by
    intro i hic
    refine hu.valid i ?_
    rw [hu.accepted]
    exact List.mem_append_left _ (List.mem_append_right _ hic)
  have hcur := cur_length hu.holds hvc
  have hdcur := dcur_length hd.holds
  have hcut : CutsInto s.up.accepted groups (cur ++ s.up.queue) :=
    ⟨by rw [hu.accepted]; simp, fun g hg => (hu.group g hg).1⟩
  have hdcut : CutsInto s.del.accepted s.del.handed (dcur ++ s.del.queue) :=
    ⟨by rw [hd.accepted]; simp, fun g hg => (hd.group g hg).1⟩
  constructor
  · simp only [life, kept]
    split
    · rename_i hb
      simp only [Bool.and_eq_true] at hb
      rw [hu.handed]
      exact cut_short hcut (fun g hg => group_length (hu.group g hg) (hvg g hg)) (by rw [hcur.2 hb.1]; simp; omega)
    · exact ⟨groups, cur ++ s.up.queue, hcut, hu.handed, by rw [List.length_append]; omega⟩
  · simp only [life, kept]
    split
    · rename_i hb
      simp only [Bool.and_eq_true] at hb
      have := cut_short (f := id) (n := Nat.max 1 dmax) (k := dcap) hdcut (fun g hg => by
        have h1 := (hd.group g hg).2
        have h2 := Nat.le_max_left 1 dmax
        have h3 := Nat.le_max_right 1 dmax
        change _ ≤ Nat.max 1 dmax at h2 h3
        omega) (by rw [hdcur.2 hb.1]; simpa using hdroom)
      simpa using this
    · exact ⟨s.del.handed, dcur ++ s.del.queue, hdcut, by simp, by rw [List.length_append]; omega⟩

/-- How a step of the queue changes the reservations. -/
theorem reserved_step {max cap : Nat} {q q' : State E M} {e : Batch.Event E M} (h : step max cap q e = some q')
    (n : Nat) (hn : q.reserved ≤ n) (hneed : needs e = true → q.reserved < n) :
    (replies cap q e = true → q'.reserved ≤ n - 1 ∧ 0 < n) ∧ (replies cap q e = false → q'.reserved ≤ n) := by
  cases e with
  | request item =>
    have := hneed rfl
    simp only [step] at h
    refine ⟨fun _ => ?_, by intro h; cases h⟩
    split at h <;> cases h
    · simp only; omega
    · omega
  | reserve =>
    have := hneed rfl
    simp only [step] at h
    split at h <;> rename_i hc <;> cases h
    · refine ⟨?_, fun _ => by simp only; omega⟩
      intro hr
      exfalso
      simp only [replies, Bool.not_eq_true', Bool.and_eq_false_iff, beq_eq_false_iff_ne, decide_eq_false_iff_not] at hr
      rcases hr with hr | hr
      · exact hr hc.1
      · exact hr hc.2
    · exact ⟨fun _ => by omega, fun _ => hn⟩
  | sendReserved item =>
    simp only [step] at h
    refine ⟨fun _ => ?_, by intro h; cases h⟩
    split at h <;> cases h
    simp only; omega
  | abandon =>
    simp only [step] at h
    refine ⟨fun _ => ?_, by intro h; cases h⟩
    split at h <;> cases h
    simp only; omega
  | close =>
    simp only [step] at h
    refine ⟨by intro h; (cases h), fun _ => ?_⟩
    split at h <;> cases h
    exact hn
  | recv =>
    refine ⟨by intro h; (cases h), fun _ => ?_⟩
    have : q'.reserved = q.reserved := by
      simp only [step, receive] at h
      split at h
      · cases h; simp only [collect, finish]; split <;> (try split) <;> rfl
      · split at h <;> cases h; rfl
      · cases h; simp only [collect, finish]; split <;> (try split) <;> rfl
      · split at h <;> cases h; simp only [finish]; split <;> rfl
      · cases h
    omega
  | timeout =>
    refine ⟨by intro h; (cases h), fun _ => ?_⟩
    have : q'.reserved = q.reserved := by
      simp only [step] at h
      split at h
      · cases h; simp only [finish]; split <;> rfl
      · cases h
    omega
  | done =>
    refine ⟨by intro h; (cases h), fun _ => ?_⟩
    simp only [step] at h
    split at h <;> cases h
    exact hn

theorem dStep_room {max cap : Nat} {s s' : DState α} {e : DEvent α} (h : dStep max cap s e = some s')
    (hc : s.queue.length ≤ cap) : s'.queue.length ≤ cap := by
  have : dRun max cap s [e] = some s' := by simp [dRun, h]
  exact Batch.dRun_room [e] this hc

theorem next_inv {max cap dmax dcap : Nat} {s s' : Server E M α} {e : Event E M α} (hi : Inv max cap dmax dcap s)
    (h : next max cap dmax dcap s e = some s') : Inv max cap dmax dcap s' := by
  unfold next at h
  split at h
  · split at h <;> cases h
    exact init_inv max cap dmax dcap _ hi.past
  · rename_i hdown
    have hcount := hi.count
    cases e with
    | arrive =>
      simp only [runningStep] at h
      split at h <;> cases h
      exact ⟨hi.up, hi.room, hi.del, hi.droom, Nat.le_succ_of_le hi.held, by simp only; omega, fun hd => absurd hd hdown, hi.past⟩
    | other =>
      simp only [runningStep] at h
      split at h <;> cases h
      rename_i hlt
      exact ⟨hi.up, hi.room, hi.del, hi.droom, by simp only [reply, if_true]; omega, by simp only [reply, if_true]; omega,
        fun hd => absurd hd hdown, hi.past⟩
    | up e =>
      simp only [runningStep, upStep] at h
      split at h
      · cases h
      · rename_i hc
        simp only [Bool.or_eq_true, Bool.and_eq_true, decide_eq_true_eq, not_or, not_and] at hc
        rcases hq : step max cap s.up e with _ | q
        · rw [hq] at h; cases h
        · rw [hq] at h
          cases h
          obtain ⟨groups, cur, hu⟩ := hi.up
          have hup := Batch.step_inv hu hq
          have hroom := Batch.step_room hq hi.room
          have hres := reserved_step hq s.underWay hi.held (fun hn => by have := hc.2 hn; omega)
          unfold reply
          split
          · rename_i hr
            have := hres.1 hr
            exact ⟨hup, hroom, hi.del, hi.droom, this.1, by simp only; omega, fun hd => absurd hd hdown, hi.past⟩
          · rename_i hr
            have := hres.2 (by simpa using hr)
            exact ⟨hup, hroom, hi.del, hi.droom, this, hi.count, fun hd => absurd hd hdown, hi.past⟩
    | del e =>
      simp only [runningStep, delStep] at h
      split at h
      · cases h
      · rename_i hc
        simp only [Bool.or_eq_true, Bool.and_eq_true, decide_eq_true_eq, not_or, not_and] at hc
        rcases hq : dStep dmax dcap s.del e with _ | q
        · rw [hq] at h; cases h
        · rw [hq] at h
          cases h
          obtain ⟨dcur, hd⟩ := hi.del
          have hdel := Batch.dStep_inv hd hq
          have hroom := dStep_room hq hi.droom
          have hheld := hi.held
          unfold reply
          split
          · rename_i hr
            have := hc.2 hr
            exact ⟨hi.up, hi.room, hdel, hroom, by simp only; omega, by simp only; omega, fun hd => absurd hd hdown, hi.past⟩
          · exact ⟨hi.up, hi.room, hdel, hroom, hi.held, hi.count, fun hd => absurd hd hdown, hi.past⟩
    | signal =>
      simp only [runningStep] at h
      cases h
      exact ⟨hi.up, hi.room, hi.del, hi.droom, hi.held, hi.count, fun hd => absurd hd hdown, hi.past⟩
    | exit u d =>
      simp only [runningStep] at h
      split at h <;> cases h
      rename_i hc
      refine ⟨hi.up, hi.room, hi.del, hi.droom, hi.held, hi.count, fun _ => hc.2, ?_⟩
      intro l hl
      rcases List.mem_append.1 hl with hl | hl
      · exact hi.past l hl
      · rw [List.mem_singleton.1 hl]; exact life_fine hi u d
    | start => simp [runningStep] at h

theorem course_inv {max cap dmax dcap : Nat} : ∀ (es : List (Event E M α)) {s s' : Server E M α},
    Inv max cap dmax dcap s → course max cap dmax dcap s es = some s' → Inv max cap dmax dcap s'
  | [], _, _, hi, h => by cases h; exact hi
  | e :: es, s, s', hi, h => by
    simp only [course, Option.bind_eq_some_iff] at h
    obtain ⟨s1, h1, h2⟩ := h
    exact course_inv es (next_inv hi h1) h2

theorem next_past {max cap dmax dcap : Nat} {s s' : Server E M α} {e : Event E M α}
    (h : next max cap dmax dcap s e = some s') : s.past <+: s'.past := by
  unfold next at h
  split at h
  · split at h <;> cases h
    exact List.prefix_rfl
  · cases e with
    | arrive => simp only [runningStep] at h; split at h <;> cases h; exact List.prefix_rfl
    | other => simp only [runningStep] at h; split at h <;> cases h; exact List.prefix_rfl
    | up e =>
      simp only [runningStep, upStep] at h
      split at h
      · cases h
      · rcases hq : step max cap s.up e with _ | q
        · rw [hq] at h; cases h
        · rw [hq] at h; cases h; unfold reply; split <;> exact List.prefix_rfl
    | del e =>
      simp only [runningStep, delStep] at h
      split at h
      · cases h
      · rcases hq : dStep dmax dcap s.del e with _ | q
        · rw [hq] at h; cases h
        · rw [hq] at h; cases h; unfold reply; split <;> exact List.prefix_rfl
    | signal => simp only [runningStep] at h; cases h; exact List.prefix_rfl
    | exit u d => simp only [runningStep] at h; split at h <;> cases h; exact List.prefix_append _ _
    | start => simp [runningStep] at h

theorem course_past {max cap dmax dcap : Nat} : ∀ (es : List (Event E M α)) {s s' : Server E M α},
    course max cap dmax dcap s es = some s' → s.past <+: s'.past
  | [], _, _, h => by cases h; exact List.prefix_rfl
  | e :: es, s, s', h => by
    simp only [course, Option.bind_eq_some_iff] at h
    obtain ⟨s1, h1, h2⟩ := h
    exact (next_past h1).trans (course_past es h2)

end NextPlaid.Proofs.Shutdown
