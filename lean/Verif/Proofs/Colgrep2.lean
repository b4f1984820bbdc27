import Verif.Proofs.Colgrep

/-! The incremental update of colgrep. -/

namespace NextPlaid.Colgrep

variable {P C U H : Type} [DecidableEq P] [DecidableEq H]

section
variable (L : Lang P C U H) (disk : Disk P C) (st : State P H)

theorem scan_nodup {disk : Disk P C} (h : (disk.map (·.1)).Nodup) : ((scan disk).map (·.1)).Nodup := keys_filter_nodup h _

theorem scan_on_disk {disk : Disk P C} {p : P} {f : File C} (h : get (scan disk) p = some f) : p ∈ disk.map (·.1) := by
  have := get_mem h
  unfold scan at this
  exact List.mem_map.mpr ⟨_, (List.mem_filter.mp this).1, rfl⟩

theorem classed_mem (hn : (disk.map (·.1)).Nodup) (c : Class) (p : P) :
    p ∈ ((scan disk).filter fun e => classify L st e = c).map (·.1) ↔ ∃ f, get (scan disk) p = some f ∧ classify L st (p, f) = c := by
  simp only [List.mem_map, List.mem_filter, decide_eq_true_eq]
  constructor
  · rintro ⟨e, ⟨h1, h2⟩, rfl⟩
    exact ⟨e.2, mem_get (scan_nodup hn) h1, h2⟩
  · rintro ⟨f, h1, h2⟩
    exact ⟨_, ⟨get_mem h1, h2⟩, rfl⟩

theorem changed_mem (hn : (disk.map (·.1)).Nodup) (p : P) :
    p ∈ (computePlan L disk st).changed.map (·.1) ↔ ∃ f, get (scan disk) p = some f ∧ classify L st (p, f) = .changed :=
  classed_mem L disk st hn .changed p

theorem deleted_mem (p : P) :
    p ∈ (computePlan L disk st).deleted ↔ get st.files p ≠ none ∧ get (scan disk) p = none := by
  unfold computePlan
  simp only [List.mem_filter, decide_eq_true_eq]
  rw [get_none (scan disk) p]
  refine and_congr ?_ Iff.rfl
  rw [Ne, get_none, not_not]

/-- The files the update parses. -/
theorem toIndex_get (hn : (disk.map (·.1)).Nodup) (p : P) :
    get (((computePlan L disk st).added ++ (computePlan L disk st).changed).filter fun e => e.1 ∉ st.ignored) p =
      (get (scan disk) p).filter fun f => classify L st (p, f) = .added ∨ classify L st (p, f) = .changed := by
  have h1 : ∀ (a b : List (P × File C)), get (a ++ b) p = (get a p).or (get b p) := by
    intro a b
    induction a with
    | nil => simp [get_nil]
    | cons e a ih =>
      obtain ⟨k, v⟩ := e
      rw [List.cons_append, get_cons, get_cons, ih]
      by_cases hk : k = p <;> simp [hk]
  have h2 := get_filter (((computePlan L disk st).added ++ (computePlan L disk st).changed)) (fun x => decide (x ∉ st.ignored)) p
  rw [h2, h1]
  unfold computePlan
  simp only
  rw [get_filter' (scan_nodup hn), get_filter' (scan_nodup hn)]
  cases hs : get (scan disk) p with
  | none => simp
  | some f =>
    by_cases hi : p ∈ st.ignored
    · have : classify L st (p, f) = .skipped := by simp [classify, hi]
      simp [hi, this, Option.filter_some]
    · by_cases ha : classify L st (p, f) = .added
      · simp [hi, ha, Option.filter_some]
      · by_cases hc : classify L st (p, f) = .changed
        · simp [hi, hc, Option.filter_some]
        · simp [ha, hc, Option.filter_some]

theorem toIndex_nodup (hn : (disk.map (·.1)).Nodup) :
    (((((computePlan L disk st).added ++ (computePlan L disk st).changed).filter fun e => e.1 ∉ st.ignored)).map (·.1)).Nodup := by
  apply keys_filter_nodup
  rw [List.map_append, List.nodup_append]
  refine ⟨keys_filter_nodup (scan_nodup hn) _, keys_filter_nodup (scan_nodup hn) _, ?_⟩
  intro a ha b hb hab
  subst hab
  obtain ⟨f, hf, hfc⟩ := (classed_mem L disk st hn .added a).mp ha
  obtain ⟨g, hg, hgc⟩ := (classed_mem L disk st hn .changed a).mp hb
  rw [hf] at hg
  cases hg
  rw [hfc] at hgc
  cases hgc

/-- The files that are skipped. -/
theorem planSkipped_mem (hn : (disk.map (·.1)).Nodup) (p : P) :
    p ∈ skippedOf (planParsed L st (computePlan L disk st)) ↔
      ∃ f, get (scan disk) p = some f ∧ (classify L st (p, f) = .added ∨ classify L st (p, f) = .changed) ∧ L.parse p f.content = none := by
  unfold planParsed
  rw [mem_skippedOf]
  have hk := toIndex_nodup L disk st hn
  have hg := toIndex_get L disk st hn p
  constructor
  · rintro ⟨f, hf, hp⟩
    have := mem_get hk hf
    rw [hg] at this
    obtain ⟨h1, h2⟩ := Option.filter_eq_some_iff.mp this
    exact ⟨f, h1, by simpa using h2, hp⟩
  · rintro ⟨f, hf, hc, hp⟩
    refine ⟨f, get_mem ?_, hp⟩
    rw [hg, hf, Option.filter_some, if_pos (by simpa using hc)]

/-- What is recorded after an update. -/
theorem planState_get (hn : (disk.map (·.1)).Nodup) (p : P) :
    get (planState L disk st (computePlan L disk st)).files p =
      match get (scan disk) p with
      | none => none
      | some f => match classify L st (p, f) with
        | .skipped => get st.files p
        | .same => get st.files p
        | .touched => some (infoOf L f)
        | .changed => if (L.parse p f.content).isSome then some (infoOf L f) else none
        | .added => if (L.parse p f.content).isSome then some (infoOf L f) else none := by
  unfold planState
  simp only
  have hk := toIndex_nodup L disk st hn
  have hrec : get (recordsOf L (planParsed L st (computePlan L disk st))) p = _ := get_recordsOf L _ hk p
  have hrn : ((recordsOf L (planParsed L st (computePlan L disk st))).map (·.1)).Nodup := records_nodup L _ hk
  rw [get_putAll _ hrn, get_del, hrec, toIndex_get L disk st hn]
  have hd := get_filter (del (touchedState L st (computePlan L disk st)).files (computePlan L disk st).deleted)
    (fun x => decide (x ∈ disk.map (·.1))) p
  rw [hd, get_del]
  have ht : get (touchedState L st (computePlan L disk st)).files p = _ :=
    get_putAll (touchedInfos L (computePlan L disk st)) (by
      unfold touchedInfos
      rw [keys_map _ (fun _ f => infoOf L f)]
      exact keys_filter_nodup (scan_nodup hn) _) st.files p
  have ht2 : get (touchedInfos L (computePlan L disk st)) p = _ := get_map _ (fun _ f => infoOf L f) p
  have ht3 : get (computePlan L disk st).touched p = _ := get_filter' (scan_nodup hn) _ p
  rw [ht, ht2, ht3]
  have hs2 := planSkipped_mem L disk st hn p
  have hdel := deleted_mem L disk st p
  cases hs : get (scan disk) p with
  | none =>
    simp only [Option.filter_none, Option.map_none, Option.none_or]
    by_cases hf : get st.files p = none
    · simp [hf]
    · have : p ∈ (computePlan L disk st).deleted := hdel.mpr ⟨hf, hs⟩
      simp [this]
  | some f =>
    have hon : decide (p ∈ disk.map (·.1)) = true := decide_eq_true (scan_on_disk hs)
    have hnd : p ∉ (computePlan L disk st).deleted := by
      intro h
      have := (hdel.mp h).2
      rw [hs] at this
      cases this
    have hsk : p ∈ skippedOf (planParsed L st (computePlan L disk st)) ↔
        ((classify L st (p, f) = .added ∨ classify L st (p, f) = .changed) ∧ L.parse p f.content = none) := by
      rw [hs2]
      constructor
      · rintro ⟨g, hg, h⟩
        rw [hs] at hg; cases hg; exact h
      · intro h; exact ⟨f, hs, h⟩
    simp only [hon, if_true, hnd, if_false, hsk, Option.filter_some]
    cases hcl : classify L st (p, f) with
    | skipped => simp
    | same => simp
    | touched => simp
    | changed =>
      cases hp : L.parse p f.content with
      | none => simp [hp]
      | some us => simp [Option.filter_some, hp]
    | added =>
      cases hp : L.parse p f.content with
      | none => simp [hp]
      | some us => simp [Option.filter_some, hp]

end

/-- What the update leaves for one file. -/
def wanted (L : Lang P C U H) (disk : Disk P C) (st : State P H) (d : List (P × U)) (p : P) : List (P × U) :=
  match get (scan disk) p with
  | none => []
  | some f => match classify L st (p, f) with
    | .skipped => []
    | .same => docs p d
    | .touched => docs p d
    | .changed => unitDocs L p f
    | .added => unitDocs L p f

/-- An update that is not interrupted. -/
theorem applyPlan_ok (L : Lang P C U H) (hL : L.Lawful) (disk : Disk P C) (hn : (disk.map (·.1)).Nodup) (st : State P H)
    (d d1 : List (P × U)) (b : Bool) (l : Log P U H) (st0 : State P H) (hl : l.now = ⟨st0, some d1, some d1, b⟩)
    (hd1 : ∀ p, docs p d1 = docs p d ∨ (docs p d1 = [] ∧ get (scan disk) p = none))
    (habs : ∀ p, get st.files p = none → docs p d = [])
    (hign : ∀ p ∈ st.ignored, get st.files p = none)
    (hempty : ∀ p f, get (scan disk) p = some f → classify L st (p, f) = .changed → L.parse p f.content = some [] →
      unitsOf (planParsed L st (computePlan L disk st)) ≠ []) :
    ∃ l' d', applyPlan L disk st (computePlan L disk st) .never l = .ok l' ∧
      l'.now = ⟨planState L disk st (computePlan L disk st), some d', some d', b⟩ ∧
      ∀ p, (docs p d').Perm (wanted L disk st d p) := by
  unfold applyPlan
  obtain ⟨st1, h1⟩ : ∃ st1, (if (computePlan L disk st).deleted ≠ [] ∨ (computePlan L disk st).changed ≠ [] ∨ (computePlan L disk st).added ≠ []
      then saveState l (marked (touchedState L st (computePlan L disk st)) true) else l).now = ⟨st1, some d1, some d1, b⟩ := by
    split
    · refine ⟨(marked (touchedState L st (computePlan L disk st)) true), ?_⟩
      simp only [saveState, write, hl]
    · exact ⟨_, hl⟩
  obtain ⟨l2, e2, h2⟩ := deleteFiles_ok (computePlan L disk st).deleted _ st1 (some d1) b h1
  have h3 := tryDelete_ok ((skippedOf (planParsed L st (computePlan L disk st))).filter
    fun p => p ∈ (computePlan L disk st).changed.map (·.1)) l2 _ _ b h2
  obtain ⟨l5, v5, e5, h5, hv5⟩ : ∃ l5 v5, deleteChanged (unitsOf (planParsed L st (computePlan L disk st))) ((computePlan L disk st).changed.map (·.1))
      (tryDelete ((skippedOf (planParsed L st (computePlan L disk st))).filter fun p => p ∈ (computePlan L disk st).changed.map (·.1)) l2) = .ok l5 ∧ l5.now = ⟨st1, some v5, some v5, b⟩ ∧
      ∀ p, docs p v5 = if p ∈ (computePlan L disk st).deleted ∨
          (p ∈ skippedOf (planParsed L st (computePlan L disk st)) ∧ p ∈ (computePlan L disk st).changed.map (·.1)) ∨
          (unitsOf (planParsed L st (computePlan L disk st)) ≠ [] ∧ p ∈ (computePlan L disk st).changed.map (·.1)) then []
        else docs p d1 := by
    by_cases hu : unitsOf (planParsed L st (computePlan L disk st)) = []
    · refine ⟨_, _, by unfold deleteChanged; rw [if_pos hu], h3, ?_⟩
      intro p
      rw [docs_kept, docs_kept]
      simp only [List.mem_filter, decide_eq_true_eq, hu, ne_eq, not_true_eq_false, false_and, or_false]
      by_cases ha : p ∈ (computePlan L disk st).deleted
      · simp [ha]
      · by_cases hb : p ∈ skippedOf (planParsed L st (computePlan L disk st)) ∧ p ∈ (computePlan L disk st).changed.map (·.1)
        · simp only [ha, hb, and_self, if_true, if_false, or_true]
        · simp only [ha, hb, if_false, or_self]
    · obtain ⟨l5, e5, h5⟩ := deleteFiles_ok ((computePlan L disk st).changed.map (·.1)) _ _ _ b h3
      refine ⟨l5, _, by unfold deleteChanged; rw [if_neg hu]; exact e5, h5, ?_⟩
      intro p
      rw [docs_kept, docs_kept, docs_kept]
      simp only [List.mem_filter, decide_eq_true_eq, hu, ne_eq, not_false_eq_true, true_and]
      by_cases ha : p ∈ (computePlan L disk st).deleted
      · simp [ha]
      · by_cases hb : p ∈ (computePlan L disk st).changed.map (·.1)
        · simp [hb]
        · simp [ha, hb]
  obtain ⟨l6, e6, h6⟩ := encode_never L (unitsOf (planParsed L st (computePlan L disk st))) l5 _ _ b h5
  have hg : ∃ d', grown (some v5) (L.arrange (unitsOf (planParsed L st (computePlan L disk st)))) = some d' := by
    unfold grown; split
    · exact ⟨_, rfl⟩
    · exact ⟨_, rfl⟩
  obtain ⟨d', hd'⟩ := hg
  refine ⟨saveState l6 (planState L disk st (computePlan L disk st)), d', ?_, ?_, ?_⟩
  · simp only [bind, Except.bind]
    rw [e2]
    simp only [checkStop, reduceCtorEq, if_false]
    rw [e5]
    simp only
    rw [e6]
  · rw [hd'] at h6
    simp only [saveState, write, h6]
  · intro p
    have hd'' : d' = v5 ++ L.arrange (unitsOf (planParsed L st (computePlan L disk st))) := by
      have := grown_getD (some v5) (L.arrange (unitsOf (planParsed L st (computePlan L disk st))))
      rw [hd'] at this
      simpa using this
    rw [hd'', docs_append]
    have hU : docs p (unitsOf (planParsed L st (computePlan L disk st))) = _ := unitsOf_docs L _ (toIndex_nodup L disk st hn) p
    have hA := docs_perm p (hL.arrange (unitsOf (planParsed L st (computePlan L disk st))))
    refine (List.Perm.append_left _ hA).trans ?_
    rw [hU, toIndex_get L disk st hn, hv5 p]
    have hdel := deleted_mem L disk st p
    have hsk := planSkipped_mem L disk st hn p
    have hch := changed_mem L disk st hn p
    unfold wanted
    cases hs : get (scan disk) p with
    | none =>
      simp only [Option.filter_none, List.append_nil]
      have hnc : ¬ p ∈ (computePlan L disk st).changed.map (·.1) := by
        rw [hch]; rintro ⟨f, hf, _⟩; rw [hs] at hf; cases hf
      have hz : docs p d1 = [] ∨ p ∈ (computePlan L disk st).deleted := by
        by_cases hf : get st.files p = none
        · left
          rcases hd1 p with h | h
          · rw [h]; exact habs p hf
          · exact h.1
        · exact Or.inr (hdel.mpr ⟨hf, hs⟩)
      rcases hz with hz | hz
      · simp [hz]
      · simp [hz]
    | some f =>
      have hnd : ¬ p ∈ (computePlan L disk st).deleted := by
        rw [hdel, hs]; simp
      have hd1p : docs p d1 = docs p d := by
        rcases hd1 p with h | h
        · exact h
        · rw [hs] at h; cases h.2
      have hch' : p ∈ (computePlan L disk st).changed.map (·.1) ↔ classify L st (p, f) = .changed := by
        rw [hch, hs]; simp
      have hsk' : p ∈ skippedOf (planParsed L st (computePlan L disk st)) ↔
          (classify L st (p, f) = .added ∨ classify L st (p, f) = .changed) ∧ L.parse p f.content = none := by
        rw [hsk, hs]; simp
      simp only [hnd, hch', hsk', hd1p, false_or, Option.filter_some]
      cases hcl : classify L st (p, f) with
      | skipped =>
        have hi : p ∈ st.ignored := by
          unfold classify at hcl
          by_contra hi
          simp only [hi, if_false] at hcl
          split at hcl
          · cases hcl
          · split at hcl
            · cases hcl
            · split at hcl <;> cases hcl
        simp [habs p (hign p hi)]
      | same => simp
      | touched => simp
      | changed =>
        simp only [reduceCtorEq, or_true, true_and, decide_true, and_true, if_true]
        by_cases hu : unitsOf (planParsed L st (computePlan L disk st)) = []
        · have hnone : L.parse p f.content = none := by
            cases hp : L.parse p f.content with
            | none => rfl
            | some us =>
              exfalso
              have : us = [] := by
                rw [hu, toIndex_get L disk st hn, hs, Option.filter_some, if_pos (by simp [hcl])] at hU
                simp [docs, unitDocs, hp] at hU
                exact hU
              rw [this] at hp
              exact hempty p f hs hcl hp hu
          simp [hnone]
        · simp [hu]
      | added =>
        have hnone : get st.files p = none := by
          unfold classify at hcl
          split at hcl
          · cases hcl
          · split at hcl
            · assumption
            · split at hcl
              · cases hcl
              · split at hcl <;> cases hcl
        simp [habs p hnone]

end NextPlaid.Colgrep
