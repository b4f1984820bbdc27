import Verif.Proofs.Colgrep2

/-! The first build of colgrep, with interruptions. -/

namespace NextPlaid.Colgrep

variable {P C U H : Type} [DecidableEq P] [DecidableEq H]

omit [DecidableEq P] [DecidableEq H] in
/-- The pipeline, interrupted or not. -/
theorem encode_any (L : Lang P C U H) (units : List (P × U)) (stop : Stop) (l : Log P U H) (st : State P H)
    (v : Option (List (P × U))) (b : Bool) (hl : l.now = ⟨st, v, v, b⟩) :
    (∃ l' stop', encode L units stop l = .ok (l', stop') ∧ (stop = .never → stop' = .never) ∧
      l'.now = ⟨st, grown v (L.arrange units), grown v (L.arrange units), b⟩) ∨
    (∃ l' n, stop ≠ .never ∧ encode L units stop l = .error (.interrupted l') ∧
      l'.now = ⟨st, grown v ((L.arrange units).take n), grown v ((L.arrange units).take n), b⟩) := by
  cases stop with
  | never =>
    obtain ⟨l', h1, h2⟩ := encode_never L units l st v b hl
    exact Or.inl ⟨l', _, h1, fun _ => rfl, h2⟩
  | parsing =>
    obtain ⟨l', h1, h2⟩ := append_ok (L.arrange units) l st v b hl
    exact Or.inl ⟨l', .parsing, by simp [encode, h1], by simp, h2⟩
  | after n =>
    by_cases hn : n ≤ units.length
    · obtain ⟨l', h1, h2⟩ := append_ok ((L.arrange units).take n) l st v b hl
      exact Or.inr ⟨l', n, by simp, by simp [encode, hn, h1], h2⟩
    · obtain ⟨l', h1, h2⟩ := append_ok (L.arrange units) l st v b hl
      exact Or.inl ⟨l', .after (n - units.length), by simp [encode, hn, h1], by simp, h2⟩

/-- What holds of the state and the store during a build of `disk`. -/
structure Mid (L : Lang P C U H) (seen : List (Disk P C)) (disk : Disk P C) (st : State P H) (d : List (P × U)) : Prop where
  done : ∀ p info f, get st.files p = some info → get (scan disk) p = some f →
    info.hash = L.hash f.content ∧ L.parse p f.content ≠ none ∧ (docs p d).Perm (unitDocs L p f)
  rest : ∀ p, get st.files p = none → docs p d ≠ [] → ∃ f, get (scan disk) p = some f ∧ p ∉ st.ignored ∧ unitDocs L p f ≠ []
  ignored : ∀ p ∈ st.ignored, get st.files p = none
  recorded : ∀ p info, get st.files p = some info → ∃ d0 ∈ seen, ∃ f0, (p, f0) ∈ d0 ∧ info = infoOf L f0
  skipped : ∀ p ∈ st.ignored, ∃ d0 ∈ seen, ∃ f0, (p, f0) ∈ d0 ∧ f0.scanned ∧ L.parse p f0.content = none

omit [DecidableEq H] in
theorem docs_flatMap (units : P → List (P × U)) (hu : ∀ p, ∀ x ∈ units p, x.1 = p) (b : List P) (hb : b.Nodup) (p : P) :
    docs p (b.flatMap units) = if p ∈ b then units p else [] := by
  induction b with
  | nil => simp [docs]
  | cons q b ih =>
    rw [List.nodup_cons] at hb
    rw [List.flatMap_cons, docs_append, ih hb.2]
    by_cases hq : q = p
    · subst hq
      have : docs q (units q) = units q := by
        unfold docs
        rw [List.filter_eq_self]
        intro x hx; simp [hu q x hx]
      simp [this, hb.1]
    · have : docs p (units q) = [] := by
        unfold docs
        rw [List.filter_eq_nil_iff]
        intro x hx; simp [hu q x hx, hq]
      simp [this, Ne.symm hq]

omit [DecidableEq H] in
theorem docs_sub {p : P} {a b : List (P × U)} (h : ∀ x ∈ a, x ∈ b) (hb : docs p b = []) : docs p a = [] := by
  unfold docs at *
  rw [List.filter_eq_nil_iff] at *
  intro x hx
  exact hb x (h x hx)

/-- The batches of a build. -/
theorem flush_ok (L : Lang P C U H) (hL : L.Lawful) (seen : List (Disk P C)) (disk : Disk P C) (hseen : disk ∈ seen)
    (units : P → List (P × U)) (hu : ∀ p, ∀ x ∈ units p, x.1 = p)
    (records : List (P × Info H)) (hr : (records.map (·.1)).Nodup) (bs : List (List P)) (st : State P H) (stop : Stop) (l : Log P U H)
    (s : State P H) (v : Option (List (P × U))) (b : Bool) (hl : l.now = ⟨s, v, v, b⟩)
    (hm : Mid L seen disk st (v.getD [])) (hbs : bs.flatten.Nodup)
    (hnew : ∀ p ∈ bs.flatten, get st.files p = none)
    (hfiles : ∀ p ∈ bs.flatten, p ∉ st.ignored ∧ ∃ f, get (scan disk) p = some f ∧ units p = unitDocs L p f ∧ unitDocs L p f ≠ [] ∧
      get records p = some (infoOf L f)) :
    (∃ l' st' s' v', flush L units records bs st stop l = .ok (l', st') ∧ l'.now = ⟨s', v', v', b⟩ ∧ Mid L seen disk st' (v'.getD []) ∧
      st'.ignored = st.ignored ∧
      ∀ p, get st'.files p = if p ∈ bs.flatten then get records p else get st.files p) ∨
    (∃ l' st' v', stop ≠ .never ∧ flush L units records bs st stop l = .error (.interrupted l') ∧ l'.now = ⟨st', v', v', b⟩ ∧
      Mid L seen disk st' (v'.getD []) ∧ st'.dirty = false) := by
  induction bs generalizing st stop l s v with
  | nil =>
    left
    exact ⟨l, st, s, v, rfl, hl, hm, rfl, by simp⟩
  | cons c bs ih =>
    rw [List.flatten_cons, List.nodup_append] at hbs
    obtain ⟨hc, hbs', hdisj⟩ := hbs
    obtain ⟨l1, e1, h1⟩ := deleteFiles_ok c l s v b hl
    have hv1 : ∀ p, docs p ((v.map (·.filter fun x => x.1 ∉ c)).getD []) = if p ∈ c then [] else docs p (v.getD []) := by
      intro p
      cases v with
      | none => simp [docs]
      | some d => simpa using docs_kept p c d
    have hfl : ∀ p, docs p (L.arrange (c.flatMap units)) = [] ∨ p ∈ c := by
      intro p
      by_cases hp : p ∈ c
      · exact Or.inr hp
      · left
        have h1 := docs_perm p (hL.arrange (c.flatMap units))
        rw [docs_flatMap units hu c hc, if_neg hp] at h1
        exact h1.eq_nil
    have hfc : ∀ p ∈ c, p ∉ st.ignored ∧ ∃ f, get (scan disk) p = some f ∧ units p = unitDocs L p f ∧ unitDocs L p f ≠ [] ∧
        get records p = some (infoOf L f) := fun p hp => hfiles p (by simp [hp])
    unfold flush
    rw [e1]
    simp only
    rcases encode_any L (c.flatMap units) stop l1 s _ b h1 with ⟨l2, stop', e2, hst, h2⟩ | ⟨l2, n, hne, e2, h2⟩
    · rw [e2]
      simp only
      have hget : ∀ p, get (putAll st.files (records.filter fun e => e.1 ∈ c)) p = if p ∈ c then get records p else get st.files p := by
        intro p
        rw [get_putAll _ (keys_filter_nodup hr _)]
        have := get_filter records (fun x => decide (x ∈ c)) p
        rw [this]
        by_cases hp : p ∈ c
        · obtain ⟨_, f, _, _, _, hrf⟩ := hfc p hp
          simp [hp, hrf]
        · simp [hp]
      have hdocs : ∀ p, (docs p ((grown (v.map (·.filter fun x => x.1 ∉ c)) (L.arrange (c.flatMap units))).getD [])).Perm
          (if p ∈ c then units p else docs p (v.getD [])) := by
        intro p
        rw [grown_getD, docs_append, hv1]
        by_cases hp : p ∈ c
        · have h1 := docs_perm p (hL.arrange (c.flatMap units))
          rw [docs_flatMap units hu c hc, if_pos hp] at h1
          simpa [hp] using h1
        · have : docs p (L.arrange (c.flatMap units)) = [] := (hfl p).resolve_right hp
          simp [hp, this]
      have hmid : Mid L seen disk { st with files := putAll st.files (records.filter fun e => e.1 ∈ c), dirty := false }
          ((grown (v.map (·.filter fun x => x.1 ∉ c)) (L.arrange (c.flatMap units))).getD []) := by
        constructor
        · intro p info f hg hs
          rw [hget] at hg
          by_cases hp : p ∈ c
          · obtain ⟨_, g, hg1, hg2, hg3, hg4⟩ := hfc p hp
            rw [hs] at hg1; cases hg1
            rw [if_pos hp, hg4] at hg
            cases hg
            have := hdocs p
            rw [if_pos hp, hg2] at this
            refine ⟨rfl, ?_, this⟩
            intro hnone
            apply hg3
            simp [unitDocs, hnone]
          · rw [if_neg hp] at hg
            have := hdocs p
            rw [if_neg hp] at this
            obtain ⟨h1, h2, h3⟩ := hm.done p info f hg hs
            exact ⟨h1, h2, this.trans h3⟩
        · intro p hg hd
          rw [hget] at hg
          by_cases hp : p ∈ c
          · obtain ⟨hi, g, hg1, hg2, hg3, hg4⟩ := hfc p hp
            exact ⟨g, hg1, hi, hg3⟩
          · rw [if_neg hp] at hg
            have := hdocs p
            rw [if_neg hp] at this
            refine hm.rest p hg ?_
            intro hz
            rw [hz] at this
            exact hd this.eq_nil
        · intro p hi
          rw [hget]
          by_cases hp : p ∈ c
          · exact absurd hi (hfc p hp).1
          · rw [if_neg hp]; exact hm.ignored p hi
        · intro p info hg
          rw [hget] at hg
          by_cases hp : p ∈ c
          · obtain ⟨hi, g, hg1, hg2, hg3, hg4⟩ := hfc p hp
            rw [if_pos hp, hg4] at hg
            cases hg
            have := get_mem hg1
            exact ⟨disk, hseen, g, (List.mem_filter.mp this).1, rfl⟩
          · rw [if_neg hp] at hg
            exact hm.recorded p info hg
        · exact hm.skipped
      have h2' : (saveState l2 { st with files := putAll st.files (records.filter fun e => e.1 ∈ c), dirty := false }).now =
          ⟨{ st with files := putAll st.files (records.filter fun e => e.1 ∈ c), dirty := false },
            grown (v.map (·.filter fun x => x.1 ∉ c)) (L.arrange (c.flatMap units)),
            grown (v.map (·.filter fun x => x.1 ∉ c)) (L.arrange (c.flatMap units)), b⟩ := by
        simp only [saveState, write, h2]
      rcases ih { st with files := putAll st.files (records.filter fun e => e.1 ∈ c), dirty := false } stop' (saveState l2
          { st with files := putAll st.files (records.filter fun e => e.1 ∈ c), dirty := false }) _ _ h2' hmid hbs' (by
            intro p hp
            have hpc : p ∉ c := fun h => hdisj p h p hp rfl
            show get (putAll st.files _) p = none
            rw [hget, if_neg hpc]
            exact hnew p (by rw [List.flatten_cons]; exact List.mem_append_right _ hp)) (fun p hp => hfiles p (by
            rw [List.flatten_cons]; exact List.mem_append_right _ hp)) with
        ⟨l', st', s', v', r1, r2, r3, r4, r5⟩ | ⟨l', st', v', r0, r1, r2, r3, r4⟩
      · left
        refine ⟨l', st', s', v', r1, r2, r3, r4, ?_⟩
        intro p
        rw [r5]
        show (if p ∈ bs.flatten then get records p else get (putAll st.files _) p) = _
        rw [hget]
        by_cases hp : p ∈ c
        · simp [hp]
        · simp [hp]
      · right
        exact ⟨l', st', v', fun h => r0 (hst h), r1, r2, r3, r4⟩
    · rw [e2]
      simp only
      right
      refine ⟨_, marked st false, _, hne, rfl, by simp only [saveState, write, h2]; rfl, ?_, rfl⟩
      have hp' : ∀ p, p ∉ c → docs p ((grown (v.map (·.filter fun x => x.1 ∉ c)) ((L.arrange (c.flatMap units)).take n)).getD []) = docs p (v.getD []) := by
        intro p hp
        rw [grown_getD, docs_append, hv1, if_neg hp]
        have : docs p ((L.arrange (c.flatMap units)).take n) = [] :=
          docs_sub (fun x hx => List.mem_of_mem_take hx) ((hfl p).resolve_right hp)
        rw [this, List.append_nil]
      constructor
      · intro p info f hg hs
        by_cases hp : p ∈ c
        · exfalso
          have hg' : get st.files p = some info := hg
          rw [hnew p (by simp [hp])] at hg'
          cases hg'
        · rw [hp' p hp]
          exact hm.done p info f hg hs
      · intro p hg hd
        by_cases hp : p ∈ c
        · obtain ⟨hi, g, hg1, hg2, hg3, hg4⟩ := hfc p hp
          exact ⟨g, hg1, hi, hg3⟩
        · rw [hp' p hp] at hd
          exact hm.rest p hg hd
      · exact hm.ignored
      · exact hm.recorded
      · exact hm.skipped

omit [DecidableEq P] [DecidableEq H] in
theorem batches_flatten (k : Nat) (units : P → List (P × U)) (files : List P) (hf : ∀ f ∈ files, units f ≠ []) (batch : List P)
    (pending : List (P × U)) (hb : pending = [] → batch = []) : (batches k units files batch pending).flatten = batch ++ files := by
  induction files generalizing batch pending with
  | nil =>
    unfold batches
    by_cases h : pending = []
    · simp [h, hb h]
    · simp [h]
  | cons f files ih =>
    unfold batches
    split
    · rw [List.flatten_cons, ih (fun g hg => hf g (by simp [hg])) [] [] (fun _ => rfl)]
      simp
    · rw [ih (fun g hg => hf g (by simp [hg]))]
      · simp
      · intro h
        simp at h
        exact absurd h.2 (hf f (by simp))

/-- What holds after a run that came to its end. -/
structure After (L : Lang P C U H) (seen : List (Disk P C)) (disk : Disk P C) (d : Persist P U H) : Prop where
  dirty : d.state.dirty = false
  building : d.building = false
  aligned : d.vec = d.db
  current : ∀ p info, get d.state.files p = some info → ∃ f, get (scan disk) p = some f ∧ info.hash = L.hash f.content ∧
    L.parse p f.content ≠ none ∧ (docs p (d.vec.getD [])).Perm (unitDocs L p f)
  absent : ∀ p, get d.state.files p = none → docs p (d.vec.getD []) = []
  complete : ∀ p f, get (scan disk) p = some f → p ∉ d.state.ignored → get d.state.files p ≠ none
  ignored : ∀ p ∈ d.state.ignored, get d.state.files p = none
  recorded : ∀ p info, get d.state.files p = some info → ∃ d0 ∈ seen, ∃ f0, (p, f0) ∈ d0 ∧ info = infoOf L f0
  skipped : ∀ p ∈ d.state.ignored, ∃ d0 ∈ seen, ∃ f0, (p, f0) ∈ d0 ∧ f0.scanned ∧ L.parse p f0.content = none

theorem staleFiles_mem (disk : Disk P C) (st : State P H) (p : P) :
    p ∈ staleFiles disk st ↔ get st.files p ≠ none ∧ get (scan disk) p = none := by
  unfold staleFiles
  simp only [List.mem_filter, decide_eq_true_eq]
  rw [get_none (scan disk) p]
  refine and_congr ?_ Iff.rfl
  rw [Ne, get_none, not_not]

theorem withoutStale_get (disk : Disk P C) (st : State P H) (p : P) :
    get (withoutStale disk st).files p = if get (scan disk) p = none then none else get st.files p := by
  unfold withoutStale
  simp only
  rw [get_del]
  simp only [staleFiles_mem]
  by_cases h1 : get (scan disk) p = none
  · by_cases h2 : get st.files p = none
    · simp [h2]
    · simp [h1, h2]
  · simp [h1]

/-- A build, interrupted or not. -/
theorem build_ok (L : Lang P C U H) (hL : L.Lawful) (seen : List (Disk P C)) (disk : Disk P C) (hn : (disk.map (·.1)).Nodup) (hseen : disk ∈ seen)
    (stop : Stop) (l : Log P U H) (st : State P H) (v : Option (List (P × U))) (b : Bool) (hl : l.now = ⟨st, v, v, b⟩)
    (hm : Mid L seen disk st (v.getD [])) :
    (∃ l', build L disk stop l = .ok l' ∧ After L seen disk l'.now) ∨
    (∃ l' st' v', stop ≠ .never ∧ build L disk stop l = .error (.interrupted l') ∧ l'.now = ⟨st', v', v', true⟩ ∧
      Mid L seen disk st' (v'.getD [])) := by
  unfold build
  have h1 : repair (write l fun d => { d with building := true }) = write l fun d => { d with building := true } :=
    repair_same _ st v true (by simp only [write, hl])
  rw [h1]
  obtain ⟨l2, e2, h2⟩ := deleteFiles_ok (staleFiles disk l.now.state) (write l fun d => { d with building := true }) st v true
    (by simp only [write, hl])
  have hst : l.now.state = st := by rw [hl]
  rw [hst] at e2 h2
  rw [hst]
  -- the state and the store without stale files
  have hv1 : ∀ p, docs p ((v.map (·.filter fun x => x.1 ∉ staleFiles disk st)).getD []) =
      if p ∈ staleFiles disk st then [] else docs p (v.getD []) := by
    intro p
    cases v with
    | none => simp [docs]
    | some d => simpa using docs_kept p (staleFiles disk st) d
  generalize hst1 : withoutStale disk st = st1
  have hg1 : ∀ p, get st1.files p = if get (scan disk) p = none then none else get st.files p := by
    intro p; rw [← hst1]; exact withoutStale_get disk st p
  have hi1 : st1.ignored = st.ignored := by rw [← hst1]; rfl
  have hm1 : Mid L seen disk st1 ((v.map (·.filter fun x => x.1 ∉ staleFiles disk st)).getD []) := by
    constructor
    · intro p info f hg hs
      rw [hg1, hs] at hg
      simp at hg
      rw [hv1, if_neg (by rw [staleFiles_mem, hs]; simp)]
      exact hm.done p info f hg hs
    · intro p hg hd
      rw [hv1] at hd
      split at hd
      · exact absurd rfl hd
      · rename_i hns
        rw [hi1]
        refine hm.rest p ?_ hd
        rw [staleFiles_mem] at hns
        rw [hg1] at hg
        by_cases hs : get (scan disk) p = none
        · by_contra hne
          exact hns ⟨hne, hs⟩
        · simpa [hs] using hg
    · intro p hp
      rw [hi1] at hp
      rw [hg1]
      split
      · rfl
      · exact hm.ignored p hp
    · intro p info hg
      rw [hg1] at hg
      split at hg
      · cases hg
      · exact hm.recorded p info hg
    · rw [hi1]; exact hm.skipped
  generalize (v.map (·.filter fun x => x.1 ∉ staleFiles disk st)) = v1 at h2 hm1
  -- the files that are parsed
  have hk : (((scan disk).filter fun e => (get st1.files e.1).isNone ∧ e.1 ∉ st1.ignored).map (·.1)).Nodup :=
    keys_filter_nodup (scan_nodup hn) _
  have htodo : ∀ p, get ((scan disk).filter fun e => (get st1.files e.1).isNone ∧ e.1 ∉ st1.ignored) p =
      if get st1.files p = none ∧ p ∉ st1.ignored then get (scan disk) p else none := by
    intro p
    have := get_filter (scan disk) (fun x => decide ((get st1.files x).isNone ∧ x ∉ st1.ignored)) p
    rw [this]
    simp
  have hrec : ∀ p, get (recordsOf L (buildParsed L disk st1)) p =
      if get st1.files p = none ∧ p ∉ st1.ignored then ((get (scan disk) p).filter fun f => (L.parse p f.content).isSome).map (infoOf L) else none := by
    intro p
    have := get_recordsOf L _ hk p
    rw [htodo] at this
    unfold buildParsed
    rw [this]
    split <;> rfl
  have hrn : ((recordsOf L (buildParsed L disk st1)).map (·.1)).Nodup := records_nodup L _ hk
  have hunits : ∀ p f, get st1.files p = none → p ∉ st1.ignored → get (scan disk) p = some f → unitsFor (buildParsed L disk st1) p = unitDocs L p f := by
    intro p f a b c
    have : docs p (unitsOf (buildParsed L disk st1)) = _ := unitsOf_docs L _ hk p
    rw [htodo, if_pos ⟨a, b⟩, c] at this
    exact this
  have hskip : ∀ p, p ∈ skippedOf (buildParsed L disk st1) → get st1.files p = none ∧
      ∃ f, get (scan disk) p = some f ∧ L.parse p f.content = none := by
    intro p hp
    obtain ⟨f, hf, hpn⟩ := (mem_skippedOf L _ p).mp hp
    obtain ⟨a, b⟩ := List.mem_filter.mp hf
    simp at b
    exact ⟨b.1, f, mem_get (scan_nodup hn) a, hpn⟩
  have hskip' : ∀ p f, get st1.files p = none → p ∉ st1.ignored → get (scan disk) p = some f → L.parse p f.content = none →
      p ∈ skippedOf (buildParsed L disk st1) := by
    intro p f a b c d
    refine (mem_skippedOf L _ p).mpr ⟨f, ?_, d⟩
    exact List.mem_filter.mpr ⟨get_mem c, by simp [a, b]⟩
  -- the state with the skipped files
  have hm2 : Mid L seen disk (withSkipped st1 (skippedOf (buildParsed L disk st1))) (v1.getD []) := by
    constructor
    · exact hm1.done
    · intro p hg hd
      obtain ⟨f, a, b, c⟩ := hm1.rest p hg hd
      refine ⟨f, a, ?_, c⟩
      simp only [withSkipped, List.mem_append, not_or]
      refine ⟨b, ?_⟩
      intro hp
      obtain ⟨_, g, hg', hpn⟩ := hskip p hp
      rw [a] at hg'; cases hg'
      exact c (by simp [unitDocs, hpn])
    · intro p hp
      simp only [withSkipped, List.mem_append] at hp
      rcases hp with hp | hp
      · exact hm1.ignored p hp
      · exact (hskip p hp).1
    · exact hm1.recorded
    · intro p hp
      simp only [withSkipped, List.mem_append] at hp
      rcases hp with hp | hp
      · exact hm1.skipped p hp
      · obtain ⟨_, f, hf, hpn⟩ := hskip p hp
        have := List.mem_filter.mp (get_mem hf)
        exact ⟨disk, hseen, f, this.1, this.2, hpn⟩
  simp only [bind, Except.bind]
  rw [e2]
  simp only
  by_cases hsp : stop = .parsing
  · right
    refine ⟨_, marked (withSkipped st1 (skippedOf (buildParsed L disk st1))) false, v1, by simp [hsp],
      by simp only [checkBuild, hsp, if_true]; rfl, by simp only [saveState, write, h2], ?_⟩
    exact ⟨hm2.done, hm2.rest, hm2.ignored, hm2.recorded, hm2.skipped⟩
  · simp only [checkBuild, hsp, if_false]
    -- files without units
    have hemk : (((recordsOf L (buildParsed L disk st1)).filter fun e => unitsFor (buildParsed L disk st1) e.1 = []).map (·.1)).Nodup :=
      keys_filter_nodup hrn _
    have hem : ∀ p, get ((recordsOf L (buildParsed L disk st1)).filter fun e => unitsFor (buildParsed L disk st1) e.1 = []) p =
        if unitsFor (buildParsed L disk st1) p = [] then get (recordsOf L (buildParsed L disk st1)) p else none := by
      intro p
      have := get_filter (recordsOf L (buildParsed L disk st1)) (fun x => decide (unitsFor (buildParsed L disk st1) x = [])) p
      rw [this]
      simp
    obtain ⟨s3, st3, l4, hr0, h4, hst3, hg3, hd3⟩ : ∃ s3 st3 l4, recordEmpty ((recordsOf L (buildParsed L disk st1)).filter
          fun e => unitsFor (buildParsed L disk st1) e.1 = []) (withSkipped st1 (skippedOf (buildParsed L disk st1))) l2 = (l4, st3) ∧
        l4.now = ⟨s3, v1, v1, true⟩ ∧ st3.ignored = st1.ignored ++ skippedOf (buildParsed L disk st1) ∧
        (∀ p, get st3.files p = (if unitsFor (buildParsed L disk st1) p = [] then get (recordsOf L (buildParsed L disk st1)) p else none).or
          (get st1.files p)) ∧ True := by
      unfold recordEmpty
      split
      · rename_i he
        refine ⟨_, _, _, rfl, h2, rfl, ?_, trivial⟩
        intro p
        rw [← hem, he]
        simp [get_nil, withSkipped]
      · refine ⟨_, _, _, rfl, by simp only [saveState, write, h2]; rfl, rfl, ?_, trivial⟩
        intro p
        simp only
        rw [get_putAll _ hemk, hem]
        rfl
    rw [hr0]
    simp only
    have hunion : ∀ p info, get (recordsOf L (buildParsed L disk st1)) p = some info → get st1.files p = none ∧ p ∉ st1.ignored ∧
        ∃ f, get (scan disk) p = some f ∧ info = infoOf L f ∧ (L.parse p f.content).isSome ∧
          unitsFor (buildParsed L disk st1) p = unitDocs L p f := by
      intro p info hp
      rw [hrec] at hp
      split at hp
      · rename_i hc
        obtain ⟨f, hf, rfl⟩ := Option.map_eq_some_iff.mp hp
        obtain ⟨hf1, hf2⟩ := Option.filter_eq_some_iff.mp hf
        exact ⟨hc.1, hc.2, f, hf1, rfl, by simpa using hf2, hunits p f hc.1 hc.2 hf1⟩
      · cases hp
    have hm3 : Mid L seen disk st3 (v1.getD []) := by
      constructor
      · intro p info f hg hs
        rw [hg3] at hg
        split at hg
        · rename_i hu
          cases hr : get (recordsOf L (buildParsed L disk st1)) p with
          | none =>
            rw [hr] at hg
            simp at hg
            exact hm1.done p info f hg hs
          | some i =>
            rw [hr] at hg
            simp at hg
            subst hg
            obtain ⟨a, b, g, hg1, hg2, hg3, hg4⟩ := hunion p i hr
            rw [hs] at hg1; cases hg1
            refine ⟨by rw [hg2]; rfl, by intro h; simp [h] at hg3, ?_⟩
            have hz : docs p (v1.getD []) = [] := by
              by_contra hne
              obtain ⟨g, c, _, e⟩ := hm1.rest p a hne
              rw [hs] at c; cases c
              exact e (hg4 ▸ hu)
            rw [hz, ← hg4, hu]
        · simp at hg
          exact hm1.done p info f hg hs
      · intro p hg hd
        rw [hg3] at hg
        have hg' : get st1.files p = none := by
          rw [Option.or_eq_none_iff] at hg
          exact hg.2
        obtain ⟨f, a, b, c⟩ := hm2.rest p hg' hd
        refine ⟨f, a, ?_, c⟩
        rw [hst3]; exact b
      · intro p hp
        rw [hst3] at hp
        have h0 := hm2.ignored p hp
        have h0' : get st1.files p = none := h0
        rw [hg3, h0']
        split
        · cases hr : get (recordsOf L (buildParsed L disk st1)) p with
          | none => rfl
          | some i =>
            exfalso
            obtain ⟨a, b, g, hg1, hg2, hg3, hg4⟩ := hunion p i hr
            rcases List.mem_append.mp hp with hp | hp
            · exact b hp
            · obtain ⟨_, f, hf, hpn⟩ := hskip p hp
              rw [hg1] at hf; cases hf
              simp [hpn] at hg3
        · rfl
      · intro p info hg
        rw [hg3] at hg
        cases hr : get st1.files p with
        | some i =>
          rw [hr] at hg
          split at hg
          · cases hr' : get (recordsOf L (buildParsed L disk st1)) p with
            | none =>
              rw [hr'] at hg
              simp at hg
              exact hm1.recorded p info (by rw [hr, hg])
            | some j =>
              have := (hunion p j hr').1
              rw [hr] at this; cases this
          · simp at hg
            exact hm1.recorded p info (by rw [hr, hg])
        | none =>
          rw [hr] at hg
          split at hg
          · simp at hg
            obtain ⟨a, b, g, hg1, hg2, hg3, hg4⟩ := hunion p info hg
            exact ⟨disk, hseen, g, (List.mem_filter.mp (get_mem hg1)).1, hg2⟩
          · simp at hg
      · rw [hst3]; exact hm2.skipped
    -- the batches
    generalize hord : L.sortPaths (((recordsOf L (buildParsed L disk st1)).filter fun e => unitsFor (buildParsed L disk st1) e.1 ≠ []).map (·.1)) = ordered
    have hop : ordered.Perm (((recordsOf L (buildParsed L disk st1)).filter fun e => unitsFor (buildParsed L disk st1) e.1 ≠ []).map (·.1)) := by
      rw [← hord]; exact hL.sortPaths _
    have hom : ∀ p, p ∈ ordered ↔ (∃ i, get (recordsOf L (buildParsed L disk st1)) p = some i) ∧ unitsFor (buildParsed L disk st1) p ≠ [] := by
      intro p
      rw [hop.mem_iff]
      simp only [List.mem_map, List.mem_filter, decide_eq_true_eq]
      constructor
      · rintro ⟨e, ⟨h1, h2⟩, rfl⟩
        exact ⟨⟨e.2, mem_get hrn h1⟩, h2⟩
      · rintro ⟨⟨i, hi⟩, h2⟩
        exact ⟨_, ⟨get_mem hi, h2⟩, rfl⟩
    have hon : ordered.Nodup := hop.nodup_iff.mpr (keys_filter_nodup hrn _)
    have hfl := batches_flatten L.checkpoint (unitsFor (buildParsed L disk st1)) ordered (fun f hf => ((hom f).mp hf).2) [] [] (fun _ => rfl)
    rw [List.nil_append] at hfl
    rcases flush_ok L hL seen disk hseen (unitsFor (buildParsed L disk st1)) (by
        intro p x hx
        have := (List.mem_filter.mp hx).2
        simpa using this) (recordsOf L (buildParsed L disk st1)) hrn (batches L.checkpoint (unitsFor (buildParsed L disk st1)) ordered [] [])
        st3 stop l4 s3 v1 true h4 hm3 (by rw [hfl]; exact hon) (by
          rw [hfl]
          intro p hp
          obtain ⟨⟨i, hi⟩, hu⟩ := (hom p).mp hp
          rw [hg3, if_neg hu]
          simp [(hunion p i hi).1]) (by
          rw [hfl]
          intro p hp
          obtain ⟨⟨i, hi⟩, hu⟩ := (hom p).mp hp
          obtain ⟨a, b, g, hg1, hg2, hg3, hg4⟩ := hunion p i hi
          refine ⟨?_, g, hg1, hg4, hg4 ▸ hu, by rw [hi, hg2]⟩
          rw [hst3, List.mem_append, not_or]
          refine ⟨b, fun hp => ?_⟩
          obtain ⟨_, f, hf, hpn⟩ := hskip p hp
          rw [hg1] at hf; cases hf
          simp [hpn] at hg3) with
      ⟨l5, st4, s4, v4, e5, h5, hm4, hi4, hg4⟩ | ⟨l5, st4, v4, hne, e5, h5, hm4, _⟩
    · left
      rw [e5]
      simp only
      refine ⟨_, rfl, ?_⟩
      rw [hfl] at hg4
      have hnow : (write (saveState l5 (marked st4 false)) fun d => { d with building := false }).now = ⟨marked st4 false, v4, v4, false⟩ := by
        simp only [write, saveState, h5]
      rw [hnow]
      have hcomp : ∀ p f, get (scan disk) p = some f → p ∉ st4.ignored → get st4.files p ≠ none := by
        intro p f hs hi hz
        rw [hi4, hst3, List.mem_append, not_or] at hi
        rw [hg4] at hz
        by_cases hr : get st1.files p = none
        · have hpar : (L.parse p f.content).isSome := by
            cases hpn : L.parse p f.content with
            | none => exact absurd (hskip' p f hr hi.1 hs hpn) hi.2
            | some _ => rfl
          have hrp : get (recordsOf L (buildParsed L disk st1)) p = some (infoOf L f) := by
            rw [hrec, if_pos ⟨hr, hi.1⟩, hs, Option.filter_some, if_pos (by simpa using hpar)]
            rfl
          split at hz
          · rw [hrp] at hz; cases hz
          · rename_i hno
            rw [hom, not_and_or, not_not] at hno
            rcases hno with hno | hno
            · exact hno ⟨_, hrp⟩
            · rw [hg3, if_pos hno, hrp] at hz
              cases hz
        · split at hz
          · rename_i ho
            obtain ⟨⟨i, hi'⟩, _⟩ := (hom p).mp ho
            rw [hi'] at hz; cases hz
          · rw [hg3, Option.or_eq_none_iff] at hz
            exact hr hz.2
      have hscan : ∀ p info, get st4.files p = some info → ∃ f, get (scan disk) p = some f := by
        intro p info hg
        rw [hg4] at hg
        split at hg
        · obtain ⟨_, _, f, hf, _⟩ := hunion p info hg
          exact ⟨f, hf⟩
        · rw [hg3] at hg
          cases hr : get st1.files p with
          | some i =>
            rw [hg1] at hr
            split at hr
            · cases hr
            · rename_i hsn
              exact Option.ne_none_iff_exists'.mp hsn
          | none =>
            rw [hr] at hg
            split at hg
            · simp at hg
              obtain ⟨_, _, f, hf, _⟩ := hunion p info hg
              exact ⟨f, hf⟩
            · simp at hg
      constructor
      · rfl
      · rfl
      · rfl
      · intro p info hg
        obtain ⟨f, hf⟩ := hscan p info hg
        exact ⟨f, hf, hm4.done p info f hg hf⟩
      · intro p hg
        by_contra hne
        obtain ⟨f, a, b, c⟩ := hm4.rest p hg hne
        exact hcomp p f a b hg
      · exact hcomp
      · exact hm4.ignored
      · exact hm4.recorded
      · exact hm4.skipped
    · right
      rw [e5]
      exact ⟨l5, st4, v4, hne, rfl, h5, hm4⟩

end NextPlaid.Colgrep
