import Verif.Proofs.Colgrep3
import Verif.Spec.Colgrep

/-! Runs of the colgrep indexer, one after the other. -/

namespace NextPlaid.Colgrep

variable {P C U H : Type} [DecidableEq P] [DecidableEq H]

omit [DecidableEq H] in
theorem putAll_nil_get {β : Type} (es : List (P × β)) (h : (es.map (·.1)).Nodup) (p : P) : get (putAll [] es) p = get es p := by
  rw [get_putAll es h, get_nil]
  cases get es p <;> rfl

/-- A full rebuild. -/
theorem rebuild_ok (L : Lang P C U H) (hL : L.Lawful) (seen : List (Disk P C)) (disk : Disk P C) (hn : (disk.map (·.1)).Nodup) (hseen : disk ∈ seen)
    (l : Log P U H) : ∃ l', rebuild L disk .never l = .ok l' ∧ After L seen disk l'.now := by
  unfold rebuild
  simp only [Bool.false_eq_true, if_false]
  refine ⟨_, rfl, ?_⟩
  have hk := scan_nodup hn
  obtain ⟨v, hv1, hv2, hv3⟩ : ∃ v : Option (List (P × U)), (if unitsOf (parseAll L (scan disk)) = [] then
        (if l.now.vec.isSome ∨ l.now.db.isSome then write (if l.now.building then write l fun d => { d with building := false } else l)
          fun d => { d with vec := none, db := none } else (if l.now.building then write l fun d => { d with building := false } else l))
      else write (if l.now.vec.isSome ∨ l.now.db.isSome then write (if l.now.building then write l fun d => { d with building := false } else l)
          fun d => { d with vec := none, db := none } else (if l.now.building then write l fun d => { d with building := false } else l))
        fun d => { d with vec := some (L.arrange (unitsOf (parseAll L (scan disk)))), db := some (L.arrange (unitsOf (parseAll L (scan disk)))) }).now.vec = v ∧
      (if unitsOf (parseAll L (scan disk)) = [] then
        (if l.now.vec.isSome ∨ l.now.db.isSome then write (if l.now.building then write l fun d => { d with building := false } else l)
          fun d => { d with vec := none, db := none } else (if l.now.building then write l fun d => { d with building := false } else l))
      else write (if l.now.vec.isSome ∨ l.now.db.isSome then write (if l.now.building then write l fun d => { d with building := false } else l)
          fun d => { d with vec := none, db := none } else (if l.now.building then write l fun d => { d with building := false } else l))
        fun d => { d with vec := some (L.arrange (unitsOf (parseAll L (scan disk)))), db := some (L.arrange (unitsOf (parseAll L (scan disk)))) }).now.db = v ∧
      (v.getD []).Perm (unitsOf (parseAll L (scan disk))) := by
    by_cases hu : unitsOf (parseAll L (scan disk)) = []
    · refine ⟨none, ?_, ?_, by simp [hu]⟩
      · simp only [hu, if_true]
        split
        · rfl
        · rename_i h
          rw [not_or] at h
          split <;> simpa [write] using h.1
      · simp only [hu, if_true]
        split
        · rfl
        · rename_i h
          rw [not_or] at h
          split <;> simpa [write] using h.2
    · refine ⟨some (L.arrange (unitsOf (parseAll L (scan disk)))), ?_, ?_, ?_⟩
      · simp only [hu, if_false]; rfl
      · simp only [hu, if_false]; rfl
      · exact hL.arrange _
  have hg : ∀ p, get (putAll [] (recordsOf L (parseAll L (scan disk)))) p =
      ((get (scan disk) p).filter fun f => (L.parse p f.content).isSome).map (infoOf L) := by
    intro p
    rw [putAll_nil_get _ (records_nodup L _ hk), get_recordsOf L _ hk]
  have hd : ∀ p, (docs p (v.getD [])).Perm (match get (scan disk) p with | some f => unitDocs L p f | none => []) := by
    intro p
    have := unitsOf_docs L (scan disk) hk p
    exact (docs_perm p hv3).trans (List.Perm.of_eq this)
  have hskip : ∀ p ∈ skippedOf (parseAll L (scan disk)), ∃ f, get (scan disk) p = some f ∧ L.parse p f.content = none := by
    intro p hp
    obtain ⟨f, hf, hpn⟩ := (mem_skippedOf L _ p).mp hp
    exact ⟨f, mem_get hk hf, hpn⟩
  constructor
  · rfl
  · simp only [saveState, write]
    by_cases hb : l.now.building = true
    · simp only [hb, if_true]
      repeat' split
      all_goals rfl
    · simp only [hb]
      repeat' split
      all_goals simpa using hb
  · simp only [saveState, write] at hv1 hv2 ⊢
    rw [hv1, hv2]
  · intro p info h
    simp only [saveState, write] at hv1 h ⊢
    rw [hg] at h
    obtain ⟨f, hf, rfl⟩ := Option.map_eq_some_iff.mp h
    obtain ⟨hf1, hf2⟩ := Option.filter_eq_some_iff.mp hf
    refine ⟨f, hf1, rfl, by intro hz; simp [hz] at hf2, ?_⟩
    have := hd p
    rw [hf1] at this
    rw [hv1]
    exact this
  · intro p h
    simp only [saveState, write] at hv1 h ⊢
    rw [hg] at h
    rw [hv1]
    have := hd p
    cases hs : get (scan disk) p with
    | none => rw [hs] at this; exact this.eq_nil
    | some f =>
      rw [hs] at this h
      have hpn : L.parse p f.content = none := by
        cases hp : L.parse p f.content with
        | none => rfl
        | some us => simp [Option.filter_some, hp] at h
      simp only [unitDocs, hpn] at this
      exact this.eq_nil
  · intro p f hs hi
    simp only [saveState, write] at hi ⊢
    rw [hg, hs]
    cases hp : L.parse p f.content with
    | none => exact absurd ((mem_skippedOf L _ p).mpr ⟨f, get_mem hs, hp⟩) hi
    | some us => simp [Option.filter_some, hp]
  · intro p hi
    simp only [saveState, write] at hi ⊢
    obtain ⟨f, hf, hpn⟩ := hskip p hi
    rw [hg, hf]
    simp [Option.filter_some, hpn]
  · intro p info h
    simp only [saveState, write] at h
    rw [hg] at h
    obtain ⟨f, hf, rfl⟩ := Option.map_eq_some_iff.mp h
    obtain ⟨hf1, hf2⟩ := Option.filter_eq_some_iff.mp hf
    exact ⟨disk, hseen, f, (List.mem_filter.mp (get_mem hf1)).1, rfl⟩
  · intro p hi
    simp only [saveState, write] at hi
    obtain ⟨f, hf, hpn⟩ := hskip p hi
    have := List.mem_filter.mp (get_mem hf)
    exact ⟨disk, hseen, f, this.1, this.2, hpn⟩

theorem classify_ignored {L : Lang P C U H} {st : State P H} {e : P × File C} (h : classify L st e = .skipped) : e.1 ∈ st.ignored := by
  unfold classify at h
  by_contra hi
  simp only [hi, if_false] at h
  split at h
  · cases h
  · split at h
    · cases h
    · split at h <;> cases h

theorem classify_added {L : Lang P C U H} {st : State P H} {e : P × File C} (h : classify L st e = .added) :
    e.1 ∉ st.ignored ∧ get st.files e.1 = none := by
  unfold classify at h
  split at h
  · cases h
  · rename_i hi
    refine ⟨hi, ?_⟩
    split at h
    · assumption
    · split at h
      · cases h
      · split at h <;> cases h

theorem classify_known {L : Lang P C U H} {st : State P H} {e : P × File C} (h1 : classify L st e ≠ .skipped) (h2 : classify L st e ≠ .added) :
    e.1 ∉ st.ignored ∧ ∃ info, get st.files e.1 = some info ∧
      (classify L st e = .same → info.stat = e.2.stat) ∧ (classify L st e = .touched → info.hash = L.hash e.2.content) ∧
      (classify L st e = .changed → info.hash ≠ L.hash e.2.content) := by
  unfold classify at *
  by_cases hi : e.1 ∈ st.ignored
  · simp [hi] at h1
  · refine ⟨hi, ?_⟩
    simp only [hi, if_false] at *
    cases hg : get st.files e.1 with
    | none => simp [hg] at h2
    | some info =>
      refine ⟨info, rfl, ?_⟩
      simp only [hg] at *
      by_cases ha : info.stat = e.2.stat
      · simp [ha]
      · by_cases hb : info.hash = L.hash e.2.content
        · simp [ha, hb]
        · simp [ha, hb]

/-- One run after another. -/
theorem index_ok (L : Lang P C U H) (hL : L.Lawful) (hinj : Function.Injective L.hash) (seen : List (Disk P C)) (last disk : Disk P C)
    (hlast : (last.map (·.1)).Nodup) (hc : Spec.Calm L.parse seen last disk) (l : Log P U H) (ha : After L seen last l.now) :
    ∃ l', index L disk .never l = .ok l' ∧ After L (disk :: seen) disk l'.now := by
  obtain ⟨⟨st, v, db, bd⟩, past⟩ := l
  have hdb : v = db := ha.aligned
  subst hdb
  have hbd : bd = false := ha.building
  subst hbd
  have hdirty : st.dirty = false := ha.dirty
  have hon : ∀ p f, get (scan disk) p = some f → (p, f) ∈ disk ∧ f.scanned = true := fun p f h => List.mem_filter.mp (get_mem h)
  have hon' : ∀ p f, get (scan last) p = some f → (p, f) ∈ last ∧ f.scanned = true := fun p f h => List.mem_filter.mp (get_mem h)
  have hcode : ∀ p info f, get st.files p = some info → get (scan disk) p = some f → info.hash ≠ L.hash f.content →
      L.parse p f.content ≠ some [] ∧ docs p (v.getD []) ≠ [] := by
    intro p info f hg hs hne
    obtain ⟨f0, h0, h1, h2, h3⟩ := ha.current p info hg
    have := hc.code p f0 f (hon' p f0 h0).1 (hon p f hs).1 (hon' p f0 h0).2 (hon p f hs).2 (by
      intro h; rw [h] at h1; exact hne h1)
    refine ⟨this.2, ?_⟩
    intro hz
    simp only at h3
    rw [hz] at h3
    have := h3.symm.eq_nil
    unfold unitDocs at this
    cases hp : L.parse p f0.content with
    | none => exact h2 hp
    | some us =>
      rw [hp] at this
      simp at this
      subst this
      simp_all
  have hsame : ∀ p info f, get st.files p = some info → get (scan disk) p = some f → info.hash = L.hash f.content →
      L.parse p f.content ≠ none ∧ (docs p (v.getD [])).Perm (unitDocs L p f) := by
    intro p info f hg hs he
    obtain ⟨f0, h0, h1, h2, h3⟩ := ha.current p info hg
    have hcc : f0.content = f.content := hinj (h1 ▸ he)
    simp only at h3
    refine ⟨hcc ▸ h2, ?_⟩
    unfold unitDocs at *
    rw [hcc] at h3
    exact h3
  have hhonest : ∀ p info f, get st.files p = some info → get (scan disk) p = some f → info.stat = f.stat → info = infoOf L f := by
    intro p info f hg hs he
    obtain ⟨d0, hd0, f0, hf0, rfl⟩ := ha.recorded p info hg
    have := hc.honest d0 hd0 p f0 f hf0 (hon p f hs).1 he
    unfold infoOf at *
    simp only at he
    rw [this, he]
  have hseen : disk ∈ disk :: seen := by simp
  unfold index
  cases v with
  | none =>
    simp only [Option.isNone_none, or_true, if_true]
    have hmid : Mid L (disk :: seen) disk st ((none : Option (List (P × U))).getD []) := by
      constructor
      · intro p info f hg hs
        have he : info.hash = L.hash f.content := by
          by_contra hne
          exact (hcode p info f hg hs hne).2 (by simp [docs])
        exact ⟨he, hsame p info f hg hs he⟩
      · intro p _ hd
        exact absurd (by simp [docs]) hd
      · exact ha.ignored
      · intro p info hg
        obtain ⟨d0, hd0, h⟩ := ha.recorded p info hg
        exact ⟨d0, by simp [hd0], h⟩
      · intro p hp
        obtain ⟨d0, hd0, h⟩ := ha.skipped p hp
        exact ⟨d0, by simp [hd0], h⟩
    rcases build_ok L hL (disk :: seen) disk hc.names hseen .never ⟨⟨st, none, none, false⟩, past⟩ st none false rfl hmid with h | h
    · exact h
    · obtain ⟨_, _, _, h, _⟩ := h; exact absurd rfl h
  | some d =>
    simp only [Bool.false_eq_true, Option.isNone_some, or_self, if_false]
    by_cases hf : st.files = []
    · have hd : d = [] := by
        apply docs_nil_all
        intro p
        have := ha.absent p
        simp only at this
        exact this (by rw [hf]; rfl)
      subst hd
      simp only [hf, if_true]
      exact rebuild_ok L hL (disk :: seen) disk hc.names hseen _
    · simp only [hf, if_false]
      rw [reconcile_same _ st (some d) false rfl]
      have habs : ∀ p, get st.files p = none → docs p d = [] := ha.absent
      have hign : ∀ p ∈ st.ignored, get st.files p = none := ha.ignored
      -- the cleanup
      obtain ⟨gone, hgone, hgo⟩ : ∃ gone : List P, gone = (if (computePlan L disk st).deleted ≠ [] ∨ (0 < st.searches ∧ st.searches % 50 = 0)
          then orphans disk d else []) ∧ ∀ p ∈ gone, p ∉ disk.map (·.1) := by
        refine ⟨_, rfl, ?_⟩
        intro p hp
        split at hp
        · have := (List.mem_filter.mp hp).2
          simpa using this
        · cases hp
      obtain ⟨l2, e2, h2⟩ := deleteFiles_ok gone ⟨⟨st, some d, some d, false⟩, past⟩ st (some d) false rfl
      have hd1 : ∀ p, docs p (d.filter fun x => x.1 ∉ gone) = docs p d ∨
          (docs p (d.filter fun x => x.1 ∉ gone) = [] ∧ get (scan disk) p = none) := by
        intro p
        rw [docs_kept]
        by_cases hp : p ∈ gone
        · right
          refine ⟨by simp [hp], ?_⟩
          cases hs : get (scan disk) p with
          | none => rfl
          | some f => exact absurd (scan_on_disk hs) (hgo p hp)
        · left; simp [hp]
      unfold incremental
      simp only [bind, Except.bind, hdirty, Bool.false_eq_true, if_false, Option.getD_some, ← hgone]
      rw [e2]
      simp only
      by_cases hnone : (computePlan L disk st).added = [] ∧ (computePlan L disk st).changed = [] ∧ (computePlan L disk st).deleted = [] ∧ gone = []
      · simp only [hnone, and_self, if_true]
        -- nothing to do
        have hgn : gone = [] := hnone.2.2.2
        have hst' : ∀ b : Bool, ∀ p, get (marked (touchedState L st (computePlan L disk st)) b).files p =
            match get (scan disk) p with
            | none => get st.files p
            | some f => if classify L st (p, f) = .touched then some (infoOf L f) else get st.files p := by
          intro b p
          have ht : get (touchedState L st (computePlan L disk st)).files p = _ :=
            get_putAll (touchedInfos L (computePlan L disk st)) (by
              unfold touchedInfos
              rw [keys_map _ (fun _ f => infoOf L f)]
              exact keys_filter_nodup (scan_nodup hc.names) _) st.files p
          have ht2 : get (touchedInfos L (computePlan L disk st)) p = _ := get_map _ (fun _ f => infoOf L f) p
          have ht3 : get (computePlan L disk st).touched p = _ := get_filter' (scan_nodup hc.names) _ p
          show get (touchedState L st (computePlan L disk st)).files p = _
          rw [ht, ht2, ht3]
          cases hs : get (scan disk) p with
          | none => simp
          | some f =>
            by_cases hcl : classify L st (p, f) = .touched
            · simp [Option.filter_some, hcl]
            · simp [Option.filter_some, hcl]
        have hres : ∃ st' : State P H, (if (computePlan L disk st).touched ≠ [] then
              saveState l2 (marked (touchedState L st (computePlan L disk st)) false) else l2).now = ⟨st', some d, some d, false⟩ ∧
            st'.dirty = false ∧ st'.ignored = st.ignored ∧ ∀ p, get st'.files p =
            match get (scan disk) p with
            | none => get st.files p
            | some f => if classify L st (p, f) = .touched then some (infoOf L f) else get st.files p := by
          have h2' : l2.now = ⟨st, some d, some d, false⟩ := by
            rw [h2, hgn]; simp
          split
          · refine ⟨marked (touchedState L st (computePlan L disk st)) false, by simp only [saveState, write, h2'], rfl, rfl, hst' false⟩
          · rename_i hnt
            rw [not_not] at hnt
            refine ⟨st, h2', hdirty, rfl, ?_⟩
            intro p
            cases hs : get (scan disk) p with
            | none => rfl
            | some f =>
              have : classify L st (p, f) ≠ .touched := by
                intro hcl
                have hm : p ∈ (computePlan L disk st).touched.map (·.1) := (classed_mem L disk st hc.names .touched p).mpr ⟨f, hs, hcl⟩
                rw [hnt] at hm
                simp at hm
              simp [this]
        obtain ⟨st', hnow, hdy, hig, hget⟩ := hres
        refine ⟨_, by simp only [or_false]; rfl, ?_⟩
        simp only [or_false] at *
        rw [hnow]
        -- every scanned file is ignored or recorded with its content
        have hcls : ∀ p f, get (scan disk) p = some f → p ∉ st.ignored → ∃ info, get st.files p = some info ∧
            info.hash = L.hash f.content := by
          intro p f hs hi
          have h1 : classify L st (p, f) ≠ .skipped := fun h => hi (classify_ignored h)
          have h2 : classify L st (p, f) ≠ .added := by
            intro h
            have hm : p ∈ (computePlan L disk st).added.map (·.1) := (classed_mem L disk st hc.names .added p).mpr ⟨f, hs, h⟩
            rw [hnone.1] at hm; simp at hm
          have h3 : classify L st (p, f) ≠ .changed := by
            intro h
            have hm : p ∈ (computePlan L disk st).changed.map (·.1) := (classed_mem L disk st hc.names .changed p).mpr ⟨f, hs, h⟩
            rw [hnone.2.1] at hm; simp at hm
          obtain ⟨_, info, hg, hA, hB, _⟩ := classify_known h1 h2
          refine ⟨info, hg, ?_⟩
          cases hcl : classify L st (p, f) with
          | skipped => exact absurd hcl h1
          | added => exact absurd hcl h2
          | changed => exact absurd hcl h3
          | same =>
            rw [hhonest p info f hg hs (hA hcl)]; rfl
          | touched => exact hB hcl
        have hscan : ∀ p info, get st.files p = some info → ∃ f, get (scan disk) p = some f := by
          intro p info hg
          cases hs : get (scan disk) p with
          | some f => exact ⟨f, rfl⟩
          | none =>
            have : p ∈ (computePlan L disk st).deleted := (deleted_mem L disk st p).mpr ⟨by rw [hg]; simp, hs⟩
            rw [hnone.2.2.1] at this
            simp at this
        have hgetn : ∀ p, get st'.files p = none ↔ get st.files p = none := by
          intro p
          rw [hget]
          cases hs : get (scan disk) p with
          | none => simp
          | some f =>
            simp only
            split
            · rename_i hcl
              obtain ⟨_, info, hg, _⟩ := classify_known (L := L) (st := st) (e := (p, f)) (by rw [hcl]; simp) (by rw [hcl]; simp)
              simp only at hg
              simp [hg]
            · simp
        have hgets : ∀ p info', get st'.files p = some info' → ∃ f info, get (scan disk) p = some f ∧ get st.files p = some info ∧
            info'.hash = L.hash f.content ∧ (info' = infoOf L f ∨ info' = info) := by
          intro p info' hg'
          have hne : get st.files p ≠ none := by
            rw [Ne, ← hgetn, hg']; simp
          obtain ⟨info, hg⟩ := Option.ne_none_iff_exists'.mp hne
          obtain ⟨f, hs⟩ := hscan p info hg
          have hni : p ∉ st.ignored := fun h => hne (hign p h)
          obtain ⟨info2, hg2, hh⟩ := hcls p f hs hni
          rw [hg] at hg2; cases hg2
          rw [hget, hs] at hg'
          simp only at hg'
          refine ⟨f, info, hs, hg, ?_⟩
          split at hg'
          · cases hg'; exact ⟨rfl, Or.inl rfl⟩
          · rw [hg] at hg'; cases hg'; exact ⟨hh, Or.inr rfl⟩
        constructor
        · exact hdy
        · rfl
        · rfl
        · intro p info' hg'
          obtain ⟨f, info, hs, hg, hh, _⟩ := hgets p info' hg'
          refine ⟨f, hs, hh, ?_⟩
          refine hsame p info f hg hs ?_
          obtain ⟨info2, hg2, hh2⟩ := hcls p f hs (fun h => by rw [hign p h] at hg; cases hg)
          rw [hg] at hg2; cases hg2
          exact hh2
        · intro p hg
          exact habs p ((hgetn p).mp hg)
        · intro p f hs hi
          simp only at hi ⊢
          rw [Ne, hgetn]
          rw [hig] at hi
          obtain ⟨info, hg, _⟩ := hcls p f hs hi
          rw [hg]; simp
        · intro p hi
          simp only at hi ⊢
          rw [hig] at hi
          exact (hgetn p).mpr (hign p hi)
        · intro p info' hg'
          obtain ⟨f, info, hs, hg, hh, hor⟩ := hgets p info' hg'
          rcases hor with rfl | rfl
          · exact ⟨disk, hseen, f, (hon p f hs).1, rfl⟩
          · obtain ⟨d0, hd0, h⟩ := ha.recorded p info' hg
            exact ⟨d0, by simp [hd0], h⟩
        · intro p hi
          simp only at hi
          rw [hig] at hi
          obtain ⟨d0, hd0, h⟩ := ha.skipped p hi
          exact ⟨d0, by simp [hd0], h⟩
      · rw [if_neg hnone]
        obtain ⟨l', d', e', h', hdocs⟩ := applyPlan_ok L hL disk hc.names st d (d.filter fun x => x.1 ∉ gone) false l2 st
          (by rw [h2]; rfl) hd1 habs hign (by
            intro p f hs hcl hp
            obtain ⟨_, info, hg, _, _, hne⟩ := classify_known (L := L) (st := st) (e := (p, f)) (by rw [hcl]; simp) (by rw [hcl]; simp)
            exact absurd hp (hcode p info f hg hs (hne hcl)).1)
        refine ⟨l', e', ?_⟩
        rw [h']
        have hget := planState_get L disk st hc.names
        have hign' : ∀ p, p ∈ (planState L disk st (computePlan L disk st)).ignored ↔ p ∈ st.ignored ∨
            ∃ f, get (scan disk) p = some f ∧ (classify L st (p, f) = .added ∨ classify L st (p, f) = .changed) ∧ L.parse p f.content = none := by
          intro p
          rw [← planSkipped_mem L disk st hc.names p]
          exact List.mem_append
        constructor
        · rfl
        · rfl
        · rfl
        · intro p info hg
          simp only [Option.getD_some] at hg ⊢
          rw [hget] at hg
          have hdp := hdocs p
          unfold wanted at hdp
          cases hs : get (scan disk) p with
          | none => rw [hs] at hg; cases hg
          | some f =>
            rw [hs] at hg hdp
            simp only at hg hdp
            refine ⟨f, rfl, ?_⟩
            cases hcl : classify L st (p, f) with
            | skipped =>
              rw [hcl] at hg
              simp only at hg
              rw [hign p (classify_ignored hcl)] at hg
              cases hg
            | same =>
              rw [hcl] at hg hdp
              simp only at hg hdp
              obtain ⟨_, info2, hg2, hA, _⟩ := classify_known (L := L) (st := st) (e := (p, f)) (by rw [hcl]; simp) (by rw [hcl]; simp)
              simp only at hg2
              rw [hg] at hg2; cases hg2
              have he : info.hash = L.hash f.content := by rw [hhonest p info f hg hs (hA hcl)]; rfl
              obtain ⟨h1, h2⟩ := hsame p info f hg hs he
              exact ⟨he, h1, hdp.trans h2⟩
            | touched =>
              rw [hcl] at hg hdp
              simp only at hg hdp
              cases hg
              obtain ⟨_, info2, hg2, _, hB, _⟩ := classify_known (L := L) (st := st) (e := (p, f)) (by rw [hcl]; simp) (by rw [hcl]; simp)
              obtain ⟨h1, h2⟩ := hsame p info2 f hg2 hs (hB hcl)
              exact ⟨rfl, h1, hdp.trans h2⟩
            | changed =>
              rw [hcl] at hg hdp
              simp only at hg hdp
              split at hg
              · rename_i hp
                cases hg
                exact ⟨rfl, by intro hz; simp [hz] at hp, hdp⟩
              · cases hg
            | added =>
              rw [hcl] at hg hdp
              simp only at hg hdp
              split at hg
              · rename_i hp
                cases hg
                exact ⟨rfl, by intro hz; simp [hz] at hp, hdp⟩
              · cases hg
        · intro p hg
          simp only [Option.getD_some] at hg ⊢
          rw [hget] at hg
          have hdp := hdocs p
          unfold wanted at hdp
          cases hs : get (scan disk) p with
          | none => rw [hs] at hdp; exact hdp.eq_nil
          | some f =>
            rw [hs] at hg hdp
            simp only at hg hdp
            cases hcl : classify L st (p, f) with
            | skipped => rw [hcl] at hdp; exact hdp.eq_nil
            | same =>
              rw [hcl] at hg hdp
              simp only at hg hdp
              rw [habs p hg] at hdp
              exact hdp.eq_nil
            | touched => rw [hcl] at hg; cases hg
            | changed =>
              rw [hcl] at hg hdp
              simp only at hg hdp
              split at hg
              · cases hg
              · rename_i hp
                have : L.parse p f.content = none := by simpa using hp
                simp only [unitDocs, this] at hdp
                exact hdp.eq_nil
            | added =>
              rw [hcl] at hg hdp
              simp only at hg hdp
              split at hg
              · cases hg
              · rename_i hp
                have : L.parse p f.content = none := by simpa using hp
                simp only [unitDocs, this] at hdp
                exact hdp.eq_nil
        · intro p f hs hi
          simp only at hi ⊢
          rw [hign', not_or] at hi
          rw [hget, hs]
          simp only
          cases hcl : classify L st (p, f) with
          | skipped => exact absurd (classify_ignored hcl) hi.1
          | same =>
            obtain ⟨_, info2, hg2, _⟩ := classify_known (L := L) (st := st) (e := (p, f)) (by rw [hcl]; simp) (by rw [hcl]; simp)
            simp only at hg2 ⊢
            rw [hg2]; simp
          | touched => simp
          | changed =>
            simp only
            rw [if_pos]
            · simp
            · cases hp : L.parse p f.content with
              | none => exact absurd ⟨f, hs, Or.inr hcl, hp⟩ hi.2
              | some _ => rfl
          | added =>
            simp only
            rw [if_pos]
            · simp
            · cases hp : L.parse p f.content with
              | none => exact absurd ⟨f, hs, Or.inl hcl, hp⟩ hi.2
              | some _ => rfl
        · intro p hi
          simp only at hi ⊢
          rw [hign'] at hi
          rw [hget]
          rcases hi with hi | ⟨f, hs, hcl, hp⟩
          · have hcl : ∀ f, classify L st (p, f) = .skipped := fun f => by simp [classify, hi]
            cases hs : get (scan disk) p with
            | none => rfl
            | some f => simp only [hcl]; exact hign p hi
          · rw [hs]
            simp only
            rcases hcl with hcl | hcl <;> simp [hcl, hp]
        · intro p info hg
          simp only at hg
          rw [hget] at hg
          cases hs : get (scan disk) p with
          | none => rw [hs] at hg; cases hg
          | some f =>
            rw [hs] at hg
            simp only at hg
            have hold : get st.files p = some info → ∃ d0 ∈ disk :: seen, ∃ f0, (p, f0) ∈ d0 ∧ info = infoOf L f0 := by
              intro h
              obtain ⟨d0, hd0, h⟩ := ha.recorded p info h
              exact ⟨d0, by simp [hd0], h⟩
            have hnew : info = infoOf L f → ∃ d0 ∈ disk :: seen, ∃ f0, (p, f0) ∈ d0 ∧ info = infoOf L f0 := by
              intro h
              exact ⟨disk, hseen, f, (hon p f hs).1, h⟩
            cases hcl : classify L st (p, f) with
            | skipped => rw [hcl] at hg; exact hold hg
            | same => rw [hcl] at hg; exact hold hg
            | touched => rw [hcl] at hg; cases hg; exact hnew rfl
            | changed =>
              rw [hcl] at hg
              simp only at hg
              split at hg
              · cases hg; exact hnew rfl
              · cases hg
            | added =>
              rw [hcl] at hg
              simp only at hg
              split at hg
              · cases hg; exact hnew rfl
              · cases hg
        · intro p hi
          simp only at hi
          rw [hign'] at hi
          rcases hi with hi | ⟨f, hs, hcl, hp⟩
          · obtain ⟨d0, hd0, h⟩ := ha.skipped p hi
            exact ⟨d0, by simp [hd0], h⟩
          · exact ⟨disk, hseen, f, (hon p f hs).1, (hon p f hs).2, hp⟩

/-- Runs of the indexer that come to their end. -/
def runs (L : Lang P C U H) : List (Disk P C) → Log P U H → Except (Halt P U H) (Log P U H)
  | [], l => .ok l
  | disk :: disks, l => (index L disk .never l).bind (runs L disks)

theorem runs_ok (L : Lang P C U H) (hL : L.Lawful) (hinj : Function.Injective L.hash) (disks : List (Disk P C)) (seen : List (Disk P C))
    (last : Disk P C) (hlast : (last.map (·.1)).Nodup) (hc : Spec.CalmFrom L.parse seen last disks) (l : Log P U H) (ha : After L seen last l.now) :
    ∃ l', runs L disks l = .ok l' ∧ After L (disks.reverse ++ seen) (disks.getLast?.getD last) l'.now := by
  induction disks generalizing seen last l with
  | nil => exact ⟨l, rfl, ha⟩
  | cons disk disks ih =>
    obtain ⟨l1, e1, h1⟩ := index_ok L hL hinj seen last disk hlast hc.1 l ha
    obtain ⟨l2, e2, h2⟩ := ih (disk :: seen) disk hc.1.names hc.2 l1 h1
    refine ⟨l2, by simp [runs, e1, Except.bind, e2], ?_⟩
    have : ((disk :: disks).getLast?).getD last = disks.getLast?.getD disk := by
      rw [List.getLast?_cons]; rfl
    rw [this]
    simpa using h2

omit [DecidableEq H] in
theorem after_start (L : Lang P C U H) : After L [] [] ({} : Log P U H).now where
  dirty := rfl
  building := rfl
  aligned := rfl
  current := by intro p info h; cases h
  absent := by intro p _; rfl
  complete := by intro p f h; cases h
  ignored := by intro p h; cases h
  recorded := by intro p info h; cases h
  skipped := by intro p h; cases h

omit [DecidableEq H] in
theorem After.upToDate {L : Lang P C U H} {seen : List (Disk P C)} {disk : Disk P C} {d : Persist P U H} (hinj : Function.Injective L.hash)
    (hn : (disk.map (·.1)).Nodup) (ha : After L seen disk d) :
    Spec.UpToDate L.parse disk d.state.ignored (d.vec.getD []) (d.db.getD []) := by
  constructor
  · rw [ha.aligned]
  · intro p f hp hs hi
    have hg : get (scan disk) p = some f := mem_get (scan_nodup hn) (List.mem_filter.mpr ⟨hp, hs⟩)
    obtain ⟨info, hgi⟩ := Option.ne_none_iff_exists'.mp (ha.complete p f hg hi)
    obtain ⟨f0, h0, _, h2, h3⟩ := ha.current p info hgi
    rw [hg] at h0; cases h0
    cases hpar : L.parse p f.content with
    | none => exact absurd hpar h2
    | some us =>
      refine ⟨us, rfl, ?_⟩
      have := h3.map (·.2)
      simp only [unitDocs, hpar, Option.getD_some, List.map_map] at this
      simpa [docs, Function.comp_def] using this
  · intro x hx
    have hd : docs x.1 (d.vec.getD []) ≠ [] := docs_mem hx rfl
    have hg : get d.state.files x.1 ≠ none := fun h => hd (ha.absent _ h)
    obtain ⟨info, hgi⟩ := Option.ne_none_iff_exists'.mp hg
    obtain ⟨f, hf, _⟩ := ha.current _ info hgi
    have := List.mem_filter.mp (get_mem hf)
    exact ⟨f, this.1, this.2, fun hi => hg (ha.ignored _ hi)⟩

end NextPlaid.Colgrep
