import Verif.Spec.Accepted
import Verif.Proofs.Abort
import Verif.Props.Batch

namespace NextPlaid.Accepted

open NextPlaid.Abort

variable {V M : Type} {max cap : Nat}

theorem handed_finish {E M : Type} (s : Batch.State E M) (e : List E) (m : List M) (l : Bool) :
    (Batch.finish s e m l).handed = s.handed ∨ (Batch.finish s e m l).handed = s.handed ++ [(e, m)] := by
  unfold Batch.finish
  split
  · exact Or.inl rfl
  · exact Or.inr rfl

theorem handed_collect {E M : Type} (s : Batch.State E M) (e : List E) (m : List M) (c : Nat) :
    (Batch.collect max s e m c).handed = s.handed ∨ ∃ b, (Batch.collect max s e m c).handed = s.handed ++ [b] := by
  unfold Batch.collect
  split
  · exact Or.inl rfl
  · rcases handed_finish s e m false with h | h
    · exact Or.inl h
    · exact Or.inr ⟨_, h⟩

/-- A step hands over at most one batch. -/
theorem handed_step {E M : Type} {q q' : Batch.State E M} {e : Batch.Event E M} (h : Batch.step max cap q e = some q') :
    q'.handed = q.handed ∨ ∃ b, q'.handed = q.handed ++ [b] := by
  have hf : ∀ e m l, (Batch.finish q e m l).handed = q.handed ∨ ∃ b, (Batch.finish q e m l).handed = q.handed ++ [b] := by
    intro e m l
    rcases handed_finish q e m l with h | h
    · exact Or.inl h
    · exact Or.inr ⟨_, h⟩
  cases e with
  | request i => simp only [Batch.step] at h; split at h <;> cases h <;> exact Or.inl rfl
  | reserve => simp only [Batch.step] at h; split at h <;> cases h <;> exact Or.inl rfl
  | sendReserved i => simp only [Batch.step] at h; split at h <;> cases h; exact Or.inl rfl
  | abandon => simp only [Batch.step] at h; split at h <;> cases h; exact Or.inl rfl
  | close => simp only [Batch.step] at h; split at h <;> cases h; exact Or.inl rfl
  | recv =>
    simp only [Batch.step, Batch.receive] at h
    split at h
    · cases h; exact handed_collect { q with queue := _ } _ _ _
    · split at h <;> cases h; exact Or.inl rfl
    · cases h; exact handed_collect { q with queue := _ } _ _ _
    · split at h <;> cases h; exact hf _ _ _
    · cases h
  | timeout =>
    simp only [Batch.step] at h
    split at h
    · cases h; exact hf _ _ _
    · cases h
  | done =>
    simp only [Batch.step] at h
    split at h <;> cases h; exact Or.inl rfl

/-- A step accepts at most the item of its request. -/
theorem accepted_step {E M : Type} {q q' : Batch.State E M} {e : Batch.Event E M} (h : Batch.step max cap q e = some q') :
    q'.accepted = q.accepted ∨ ∃ i, (e = .request i ∨ e = .sendReserved i) ∧ q'.accepted = q.accepted ++ [i] := by
  have hf : ∀ (q : Batch.State E M) e m l, (Batch.finish q e m l).accepted = q.accepted := by
    intro q e m l
    unfold Batch.finish
    split <;> rfl
  have hc : ∀ (q : Batch.State E M) e m c, (Batch.collect max q e m c).accepted = q.accepted := by
    intro q e m c
    unfold Batch.collect
    split
    · rfl
    · exact hf _ _ _ _
  cases e with
  | request i =>
    simp only [Batch.step] at h
    split at h <;> cases h
    · exact Or.inr ⟨i, Or.inl rfl, rfl⟩
    · exact Or.inl rfl
  | reserve => simp only [Batch.step] at h; split at h <;> cases h <;> exact Or.inl rfl
  | sendReserved i =>
    simp only [Batch.step] at h
    split at h <;> cases h
    exact Or.inr ⟨i, Or.inr rfl, rfl⟩
  | abandon => simp only [Batch.step] at h; split at h <;> cases h; exact Or.inl rfl
  | close => simp only [Batch.step] at h; split at h <;> cases h; exact Or.inl rfl
  | recv =>
    simp only [Batch.step, Batch.receive] at h
    split at h
    · cases h; exact Or.inl (hc _ _ _ _)
    · split at h <;> cases h; exact Or.inl rfl
    · cases h; exact Or.inl (hc _ _ _ _)
    · split at h <;> cases h; exact Or.inl (hf _ _ _ _)
    · cases h
  | timeout =>
    simp only [Batch.step] at h
    split at h
    · cases h; exact Or.inl (hf _ _ _ _)
    · cases h
  | done =>
    simp only [Batch.step] at h
    split at h <;> cases h; exact Or.inl rfl

/-- Slots are only reserved by `reserve`. -/
theorem reserved_step {E M : Type} {q q' : Batch.State E M} {e : Batch.Event E M} (h : Batch.step max cap q e = some q')
    (hne : e ≠ .reserve) : q'.reserved ≤ q.reserved := by
  have hf : ∀ (q : Batch.State E M) e m l, (Batch.finish q e m l).reserved = q.reserved := by
    intro q e m l
    unfold Batch.finish
    split <;> rfl
  have hc : ∀ (q : Batch.State E M) e m c, (Batch.collect max q e m c).reserved = q.reserved := by
    intro q e m c
    unfold Batch.collect
    split
    · rfl
    · exact hf _ _ _ _
  cases e with
  | request i => simp only [Batch.step] at h; split at h <;> cases h <;> exact Nat.le_refl _
  | reserve => exact absurd rfl hne
  | sendReserved i => simp only [Batch.step] at h; split at h <;> cases h; exact Nat.sub_le _ _
  | abandon => simp only [Batch.step] at h; split at h <;> cases h; exact Nat.sub_le _ _
  | close => simp only [Batch.step] at h; split at h <;> cases h; exact Nat.le_refl _
  | recv =>
    simp only [Batch.step, Batch.receive] at h
    split at h
    · cases h; exact Nat.le_of_eq (hc _ _ _ _)
    · split at h <;> cases h; exact Nat.le_refl _
    · cases h; exact Nat.le_of_eq (hc _ _ _ _)
    · split at h <;> cases h; exact Nat.le_of_eq (hf _ _ _ _)
    · cases h
  | timeout =>
    simp only [Batch.step] at h
    split at h
    · cases h; exact Nat.le_of_eq (hf _ _ _ _)
    · cases h
  | done =>
    simp only [Batch.step] at h
    split at h <;> cases h; exact Nat.le_refl _

/-- A worker with nothing to do stays so. -/
theorem spent_step {q q' : Batch.State (Mat V) M} {e : Batch.Event (Mat V) M} (h : Batch.step max cap q e = some q')
    (hs : Spent q) (ha : asks e = false) (hi : itemOf e = none) : Spent q' ∧ q'.handed = q.handed ∧ q'.accepted = q.accepted := by
  obtain ⟨h1, h2, h3⟩ := hs
  cases e with
  | request i => simp [asks] at ha
  | reserve => simp [asks] at ha
  | sendReserved i => simp [itemOf] at hi
  | abandon => simp [Batch.step, h2] at h
  | close =>
    simp only [Batch.step, h2, if_true, Option.some.injEq] at h
    subst h
    exact ⟨⟨h1, rfl, h3⟩, rfl, rfl⟩
  | recv =>
    rcases h3 with h3 | h3
    · simp only [Batch.step, Batch.receive, h1, h3] at h
      split at h <;> cases h
      exact ⟨⟨rfl, h2, Or.inr rfl⟩, rfl, rfl⟩
    · simp [Batch.step, Batch.receive, h3] at h
  | timeout => rcases h3 with h3 | h3 <;> simp [Batch.step, h3] at h
  | done => rcases h3 with h3 | h3 <;> simp [Batch.step, h3] at h

theorem run_snoc {E M : Type} : ∀ (es : List (Batch.Event E M)) {s t u : Batch.State E M} {e : Batch.Event E M},
    Batch.run max cap s es = some t → Batch.step max cap t e = some u → Batch.run max cap s (es ++ [e]) = some u
  | [], s, t, u, e, h, hs => by
    cases h
    simp [Batch.run, hs]
  | x :: es, s, t, u, e, h, hs => by
    simp only [Batch.run] at h
    cases hx : Batch.step max cap s x with
    | none => simp [hx] at h
    | some s' =>
      rw [hx] at h
      simp only [List.cons_append, Batch.run, hx, Option.bind_some]
      exact run_snoc es h hs

theorem fit_empty : Fit (Ix.empty : Ix V) :=
  ⟨[], [], [], rfl, Or.inl ⟨rfl, rfl, rfl⟩, Or.inl ⟨rfl, rfl, rfl⟩, rfl⟩

/-- What is true as long as clients give documents of width `w` and the index is not removed. -/
structure Good (max cap w : Nat) (s : Sys V M) : Prop where
  old : ∀ q ∈ s.old, Spent q
  reach : ∃ es, Batch.run max cap {} es = some (s.cur.getD {})
  docs : s.srv.ix.docs = (s.cur.getD {}).handed.flatMap fun b => given b.1
  rows : s.srv.rows = (s.cur.getD {}).handed.flatMap fun b => b.2
  fit : Fit s.srv.ix
  dim : s.srv.ix.docs ≠ [] → s.srv.ix.dim = w
  items : ∀ i ∈ (s.cur.getD {}).accepted, WellFormed w i
  decl : s.declared = false → (s.cur.getD {}).accepted = [] ∧ (s.cur.getD {}).reserved = 0

theorem zip_lengths {q : Batch.State (Mat V) M} (h : ∀ b ∈ q.handed, b.1 ≠ [] ∧ b.2.length = b.1.length) :
    (q.handed.flatMap fun b => b.2).length = (q.handed.flatMap fun b => given b.1).length := by
  generalize q.handed = l at h
  induction l with
  | nil => rfl
  | cons b l ih =>
    simp only [List.flatMap_cons, List.length_append]
    rw [ih fun x hx => h x (by simp [hx]), (h b (by simp)).2]
    simp [given]

theorem zip_handed {l : List (List (Mat V) × List M)} (h : ∀ b ∈ l, b.1 ≠ [] ∧ b.2.length = b.1.length) :
    (l.flatMap fun b => given b.1).zip (l.flatMap fun b => b.2) = l.flatMap fun b => (given b.1).zip b.2 := by
  induction l with
  | nil => rfl
  | cons b l ih =>
    simp only [List.flatMap_cons]
    rw [List.zip_append (by simp [given, (h b (by simp)).2]), ih fun x hx => h x (by simp [hx])]

/-- Everything handed over comes from accepted items. -/
theorem handed_from {q : Batch.State (Mat V) M} {es : List (Batch.Event (Mat V) M)} (h : Batch.run max cap {} es = some q)
    {b : List (Mat V) × List M} (hb : b ∈ q.handed) :
    ∃ g : List (Batch.Item (Mat V) M), g ≠ [] ∧ (∀ i ∈ g, i ∈ q.accepted) ∧ b.1 = g.flatMap (·.embeddings) := by
  obtain ⟨groups, rest, ⟨hcut, hne⟩, hh, _⟩ := Props.C31_batches max cap es q h
  rw [hh] at hb
  obtain ⟨g, hg, rfl⟩ := List.mem_map.mp hb
  refine ⟨g, hne g hg, fun i hi => ?_, rfl⟩
  rw [← hcut]
  exact List.mem_append_left _ (List.mem_flatten.mpr ⟨g, hg, hi⟩)

theorem work_good {w : Nat} {cfg : Cfg} {held : List Nat} {s s' : Sys V M} {e : Batch.Event (Mat V) M}
    (hg : Good max cap w s) (hi : ∀ i, itemOf e = some i → WellFormed w i)
    (h : workStep max cap cfg held s e = some s') : Good max cap w s' := by
  unfold workStep at h
  split at h
  · cases h; exact hg
  rename_i hask
  split at h
  · cases h
  split at h
  · cases h
  rename_i q' hq
  cases h
  obtain ⟨es, hes⟩ := hg.reach
  have hes' := run_snoc es hes hq
  have hitems : ∀ i ∈ q'.accepted, WellFormed w i := by
    rcases accepted_step hq with h | ⟨i, he, h⟩
    · rw [h]; exact hg.items
    · rw [h]
      intro j hj
      rcases List.mem_append.mp hj with hj | hj
      · exact hg.items j hj
      · rw [List.mem_singleton.mp hj]
        rcases he with rfl | rfl <;> exact hi i rfl
  have hdecl : s.declared = false → q'.accepted = [] ∧ q'.reserved = 0 := by
    intro hd
    have hr := reserved_step hq
    have ⟨ha0, hr0⟩ := hg.decl hd
    have hne : e ≠ .reserve := by
      rintro rfl
      simp [asks, hd] at hask
    refine ⟨?_, by have := hr hne; omega⟩
    rcases accepted_step hq with h | ⟨i, he, h⟩
    · rw [h]; exact ha0
    · rcases he with rfl | rfl
      · simp [asks, hd] at hask
      · simp [Batch.step, hr0] at hq
  have hl : s.srv.rows.length = s.srv.ix.docs.length := by
    rw [hg.rows, hg.docs]
    exact zip_lengths (Props.C31_documents_in_order max cap es _ hes).1
  rcases handed_step hq with hh | ⟨b, hh⟩
  · have hp : process cfg held s.declared s.srv (s.cur.getD {}) q' = s.srv := by
      simp [process, hh]
    refine ⟨hg.old, ⟨_, hes'⟩, ?_, ?_, ?_, ?_, hitems, hdecl⟩
    · show (process cfg held s.declared s.srv (s.cur.getD {}) q').ix.docs = q'.handed.flatMap _
      rw [hp, hg.docs, hh]
    · show (process cfg held s.declared s.srv (s.cur.getD {}) q').rows = q'.handed.flatMap _
      rw [hp, hg.rows, hh]
    · show Fit (process cfg held s.declared s.srv (s.cur.getD {}) q').ix
      rw [hp]; exact hg.fit
    · show (process cfg held s.declared s.srv (s.cur.getD {}) q').ix.docs ≠ [] → (process cfg held s.declared s.srv (s.cur.getD {}) q').ix.dim = w
      rw [hp]; exact hg.dim
  · obtain ⟨g, hgne, hgm, hb1⟩ := handed_from hes' (b := b) (by rw [hh]; simp)
    obtain ⟨i0, g', rfl⟩ := List.exists_cons_of_ne_nil hgne
    have hd : s.declared = true := by
      by_contra hd
      have := (hdecl (by simpa using hd)).1
      have h0 := hgm i0 (by simp)
      rw [this] at h0
      simp at h0
    have hcols : ∀ m ∈ b.1, m.cols = w := by
      intro m hm
      rw [hb1] at hm
      obtain ⟨i, hi', hm⟩ := List.mem_flatMap.mp hm
      exact (hitems i (hgm i hi')).1 m hm
    have hsome : Something b.1 := by
      obtain ⟨m, hm, hr⟩ := (hitems i0 (hgm i0 (by simp))).2
      exact ⟨m, by rw [hb1]; exact List.mem_flatMap.mpr ⟨i0, by simp, hm⟩, hr⟩
    have hsuit : Suits s.srv.ix b.1 := ⟨w, hcols, fun h0 => (hg.dim h0).symm⟩
    have hok := batch_ok hl hg.fit hsome hsuit b.2 cfg held
    have hst := stores hg.fit hsome hsuit cfg held
    have hp : process cfg held s.declared s.srv (s.cur.getD {}) q' = (batch s.srv b.1 b.2 cfg held).1 := by
      simp [process, hh, hd]
    have hdim : (batch s.srv b.1 b.2 cfg held).1.ix.dim = w := by
      obtain ⟨m, hm, _⟩ := hsome
      have hr : repair s.srv = s.srv := by simp [repair, hl]
      have := hst.2.2.2 m hm
      simp only [batch, hr, hst.1, if_true]
      rw [← this, hcols m hm]
    refine ⟨hg.old, ⟨_, hes'⟩, ?_, ?_, ?_, ?_, hitems, hdecl⟩
    · show (process cfg held s.declared s.srv (s.cur.getD {}) q').ix.docs = q'.handed.flatMap _
      rw [hp, hok.2.1, hg.docs, hh]; simp
    · show (process cfg held s.declared s.srv (s.cur.getD {}) q').rows = q'.handed.flatMap _
      rw [hp, hok.2.2.1, hg.rows, hh]; simp
    · show Fit (process cfg held s.declared s.srv (s.cur.getD {}) q').ix
      rw [hp]; exact hok.2.2.2
    · show (process cfg held s.declared s.srv (s.cur.getD {}) q').ix.docs ≠ [] → (process cfg held s.declared s.srv (s.cur.getD {}) q').ix.dim = w
      rw [hp]; exact fun _ => hdim

theorem good_init (max cap w : Nat) : Good max cap w ({} : Sys V M) :=
  ⟨by simp, ⟨[], rfl⟩, rfl, rfl, fit_empty, fun h => absurd rfl h, by simp, fun _ => ⟨rfl, rfl⟩⟩

theorem drain_good {w : Nat} {cfg : Cfg} {held : List Nat} {s s' : Sys V M} {i : Nat} {e : Batch.Event (Mat V) M}
    (hg : Good max cap w s) (ha : asks e = false) (hi : itemOf e = none)
    (h : drainStep max cap cfg held s i e = some s') : Good max cap w s' := by
  unfold drainStep at h
  split at h
  · cases h
  rename_i q hq
  split at h
  · cases h
  rename_i q' hq'
  cases h
  have hs := hg.old q (List.mem_of_getElem? hq)
  obtain ⟨hs', hh, _⟩ := spent_step hq' hs ha hi
  have hp : process cfg held s.declared s.srv q q' = s.srv := by simp [process, hh]
  refine ⟨?_, hg.reach, ?_, ?_, ?_, ?_, hg.items, hg.decl⟩
  · intro x hx
    rcases List.mem_or_eq_of_mem_set hx with hx | rfl
    · exact hg.old x hx
    · exact hs'
  all_goals simp only [hp]
  · exact hg.docs
  · exact hg.rows
  · exact hg.fit
  · exact hg.dim

theorem step_good {w : Nat} {cfg : Cfg} {held : List Nat} {s s' : Sys V M} {e : Event V M} (hg : Good max cap w s)
    (hf : Fine w s e) (h : step max cap cfg held s e = some s') : Good max cap w s' := by
  cases e with
  | declare =>
    cases h
    exact ⟨hg.old, hg.reach, hg.docs, hg.rows, hg.fit, hg.dim, hg.items, fun hd => by simp at hd⟩
  | remove =>
    cases h
    refine ⟨?_, ⟨[], rfl⟩, rfl, rfl, fit_empty, fun h => absurd rfl h, by simp, fun _ => ⟨rfl, rfl⟩⟩
    intro q hq
    rcases List.mem_append.mp hq with hq | hq
    · exact hg.old q hq
    · cases hc : s.cur with
      | none => simp [hc] at hq
      | some x =>
        simp only [hc, Option.toList_some, List.mem_singleton] at hq
        subst hq
        simpa [Fine, hc] using hf
  | work e => exact work_good hg hf h
  | drain i e => exact drain_good hg hf.1 hf.2 h

theorem run_good {w : Nat} {cfg : Cfg} {held : List Nat} : ∀ (es : List (Event V M)) {s s' : Sys V M},
    Good max cap w s → Orderly max cap cfg held w s es → run max cap cfg held s es = some s' → Good max cap w s'
  | [], s, s', hg, _, h => by cases h; exact hg
  | e :: es, s, s', hg, ho, h => by
    simp only [run] at h
    cases hs : step max cap cfg held s e with
    | none => simp [hs] at h
    | some t =>
      rw [hs] at h
      exact run_good es (step_good hg ho.1 hs) (ho.2 t hs) h

theorem repair_rows (s : Srv V M) : ∀ r ∈ (repair s).rows, r ∈ s.rows := by
  intro r hr
  unfold repair at hr
  split at hr
  · exact List.mem_of_mem_take hr
  · split at hr <;> exact hr

theorem batch_rows (s : Srv V M) (new : List (Mat V)) (items : List M) (cfg : Cfg) (held : List Nat) :
    ∀ r ∈ (batch s new items cfg held).1.rows, r ∈ s.rows ∨ r ∈ items := by
  intro r hr
  simp only [batch] at hr
  split at hr
  · rcases List.mem_append.mp hr with h | h
    · exact Or.inl (repair_rows s r h)
    · exact Or.inr h
  · exact Or.inl (repair_rows s r hr)

theorem process_rows {cfg : Cfg} {held : List Nat} {d : Bool} {srv : Srv V M} {q q' : Batch.State (Mat V) M}
    {es : List (Batch.Event (Mat V) M)} (h : Batch.run max cap {} es = some q') :
    ∀ r ∈ (process cfg held d srv q q').rows, r ∈ srv.rows ∨ ∃ i ∈ q'.accepted, r ∈ i.metadata := by
  intro r hr
  unfold process at hr
  split at hr
  · exact Or.inl hr
  · rename_i b l hb
    split at hr
    · rcases batch_rows _ _ _ _ _ r hr with h' | h'
      · exact Or.inl h'
      · have hm : b ∈ q'.handed := List.mem_of_mem_drop (by rw [hb]; simp)
        obtain ⟨groups, rest, ⟨hcut, _⟩, hh, _⟩ := Props.C31_batches max cap es q' h
        rw [hh] at hm
        obtain ⟨g, hg, rfl⟩ := List.mem_map.mp hm
        obtain ⟨i, hi, hri⟩ := List.mem_flatMap.mp h'
        refine Or.inr ⟨i, ?_, hri⟩
        rw [← hcut]
        exact List.mem_append_left _ (List.mem_flatten.mpr ⟨g, hg, hi⟩)
    · exact Or.inl hr

theorem accepted_grows {E M : Type} {q q' : Batch.State E M} {e : Batch.Event E M} (h : Batch.step max cap q e = some q') :
    ∀ i ∈ q.accepted, i ∈ q'.accepted := by
  intro i hi
  rcases accepted_step h with h | ⟨j, _, h⟩ <;> rw [h]
  · exact hi
  · exact List.mem_append_left _ hi

/-- What is true of every history. -/
structure From (max cap : Nat) (s : Sys V M) : Prop where
  cur : ∃ es, Batch.run max cap {} es = some (s.cur.getD {})
  old : ∀ q ∈ s.old, ∃ es, Batch.run max cap {} es = some q
  rows : ∀ r ∈ s.srv.rows, ∃ i ∈ everAccepted s, r ∈ i.metadata

theorem from_step {cfg : Cfg} {held : List Nat} {s s' : Sys V M} {e : Event V M} (hg : From max cap s)
    (h : step max cap cfg held s e = some s') : From max cap s' := by
  cases e with
  | declare => cases h; exact ⟨hg.cur, hg.old, hg.rows⟩
  | remove =>
    cases h
    refine ⟨⟨[], rfl⟩, ?_, by simp⟩
    intro q hq
    rcases List.mem_append.mp hq with hq | hq
    · exact hg.old q hq
    · cases hc : s.cur with
      | none => simp [hc] at hq
      | some x =>
        simp only [hc, Option.toList_some, List.mem_singleton] at hq
        subst hq
        simpa [hc] using hg.cur
  | work e =>
    simp only [step, workStep] at h
    split at h
    · cases h; exact hg
    split at h
    · cases h
    split at h
    · cases h
    rename_i q' hq
    cases h
    obtain ⟨es, hes⟩ := hg.cur
    have hes' := run_snoc es hes hq
    refine ⟨⟨_, hes'⟩, hg.old, ?_⟩
    intro r hr
    rcases process_rows hes' r hr with h | ⟨i, hi, h⟩
    · obtain ⟨i, hi, hri⟩ := hg.rows r h
      refine ⟨i, ?_, hri⟩
      simp only [everAccepted, List.mem_append] at hi ⊢
      rcases hi with hi | hi
      · exact Or.inl hi
      · exact Or.inr (accepted_grows hq i hi)
    · exact ⟨i, List.mem_append_right _ hi, h⟩
  | drain k e =>
    simp only [step, drainStep] at h
    split at h
    · cases h
    rename_i q hq
    split at h
    · cases h
    rename_i q' hq'
    cases h
    obtain ⟨es, hes⟩ := hg.old q (List.mem_of_getElem? hq)
    have hes' := run_snoc es hes hq'
    obtain ⟨hk, hqk⟩ := List.getElem?_eq_some_iff.mp hq
    have hmem : q' ∈ s.old.set k q' := List.mem_set hk _
    refine ⟨hg.cur, ?_, ?_⟩
    · intro x hx
      rcases List.mem_or_eq_of_mem_set hx with hx | rfl
      · exact hg.old x hx
      · exact ⟨_, hes'⟩
    · intro r hr
      have hin : ∀ i ∈ q'.accepted, i ∈ (s.old.set k q').flatMap (·.accepted) := fun i hi =>
        List.mem_flatMap.mpr ⟨q', hmem, hi⟩
      rcases process_rows hes' r hr with h | ⟨i, hi, h⟩
      · obtain ⟨i, hi, hri⟩ := hg.rows r h
        refine ⟨i, ?_, hri⟩
        simp only [everAccepted, List.mem_append] at hi ⊢
        rcases hi with hi | hi
        · left
          obtain ⟨x, hx, hix⟩ := List.mem_flatMap.mp hi
          obtain ⟨j, hj, rfl⟩ := List.getElem_of_mem hx
          by_cases hjk : j = k
          · subst hjk
            rw [hqk] at hix
            exact hin i (accepted_grows hq' i hix)
          · refine List.mem_flatMap.mpr ⟨s.old[j], ?_, hix⟩
            refine List.mem_of_getElem? (i := j) ?_
            rw [List.getElem?_set_ne (Ne.symm hjk)]
            exact List.getElem?_eq_getElem hj
        · exact Or.inr hi
      · exact ⟨i, List.mem_append_left _ (hin i hi), h⟩

theorem from_run {cfg : Cfg} {held : List Nat} : ∀ (es : List (Event V M)) {s s' : Sys V M},
    From max cap s → run max cap cfg held s es = some s' → From max cap s'
  | [], s, s', hg, h => by cases h; exact hg
  | e :: es, s, s', hg, h => by
    simp only [run] at h
    cases hs : step max cap cfg held s e with
    | none => simp [hs] at h
    | some t =>
      rw [hs] at h
      exact from_run es (from_step hg hs) h

theorem pairs_map (i : Batch.Item (Mat V) M) :
    pairs i = (i.embeddings.zip i.metadata).map fun p => (p.1.rows, p.2) := by
  rw [pairs, given, List.zip_map_left]
  rfl

theorem flatMap_pairs (l : List (Batch.Item (Mat V) M)) :
    l.flatMap pairs = (l.flatMap fun i => i.embeddings.zip i.metadata).map fun p => (p.1.rows, p.2) := by
  induction l with
  | nil => rfl
  | cons i l ih => simp only [List.flatMap_cons, List.map_append, ih, pairs_map]

theorem flatMap_given (l : List (List (Mat V) × List M)) :
    (l.flatMap fun b => (given b.1).zip b.2) = (l.flatMap fun b => b.1.zip b.2).map fun p => (p.1.rows, p.2) := by
  induction l with
  | nil => rfl
  | cons b l ih =>
    rw [List.flatMap_cons, List.flatMap_cons, List.map_append, ih, given, List.zip_map_left]
    rfl

/-! ### The queue in the registry stays open -/

theorem batch_open {E M : Type} {max cap : Nat} {q q' : Batch.State E M} {e : Batch.Event E M} (hq : q.closed = false) (he : e ≠ .close)
    (h : Batch.step max cap q e = some q') : q'.closed = false := by
  cases e with
  | close => exact absurd rfl he
  | request i => simp only [Batch.step] at h; split at h <;> · cases h; exact hq
  | reserve => simp only [Batch.step] at h; split at h <;> · cases h; exact hq
  | sendReserved i =>
    simp only [Batch.step] at h
    split at h
    · cases h; exact hq
    · cases h
  | abandon =>
    simp only [Batch.step] at h
    split at h
    · cases h; exact hq
    · cases h
  | recv =>
    simp only [Batch.step, Batch.receive, Batch.collect, Batch.finish] at h
    repeat' split at h
    all_goals first | (cases h; done) | (cases h; exact hq)
  | timeout =>
    simp only [Batch.step, Batch.finish] at h
    repeat' split at h
    all_goals first | (cases h; done) | (cases h; exact hq)
  | done =>
    simp only [Batch.step] at h
    repeat' split at h
    all_goals first | (cases h; done) | (cases h; exact hq)

theorem open_run {max cap : Nat} {cfg : Cfg} {held : List Nat} : ∀ (es : List (Event V M)) {s s' : Sys V M},
    (s.cur.getD {}).closed = false → run max cap cfg held s es = some s' → (s'.cur.getD {}).closed = false
  | [], s, s', hs, h => by cases h; exact hs
  | e :: es, s, s', hs, h => by
    rw [run] at h
    cases h1 : step max cap cfg held s e with
    | none => rw [h1] at h; cases h
    | some s1 =>
      rw [h1] at h
      refine open_run es ?_ h
      cases e with
      | declare => cases h1; exact hs
      | remove => cases h1; rfl
      | drain i e =>
        simp only [step, drainStep] at h1
        repeat' split at h1
        all_goals first | (cases h1; done) | (cases h1; exact hs)
      | work e =>
        simp only [step, workStep] at h1
        split at h1
        · cases h1; exact hs
        · split at h1
          · cases h1
          · next hc =>
            split at h1
            · cases h1
            · next q' hq' =>
              cases h1
              refine batch_open hs ?_ hq'
              rintro rfl
              exact hc rfl

end NextPlaid.Accepted
