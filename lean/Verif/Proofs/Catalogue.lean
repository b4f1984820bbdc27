import Verif.Spec.Catalogue

/-!
Proofs for C83: requests one after another.
-/

namespace NextPlaid.Catalogue

open NextPlaid.Spec.Catalogue

theorem lookup_filter (d : Disk) (n m : Name) : (d.filter (fun p => p.1 != n)).lookup m = if m = n then none else d.lookup m := by
  induction d with
  | nil => simp
  | cons p d ih =>
    obtain ⟨k, e⟩ := p
    rw [List.filter_cons]
    by_cases hk : k = n
    · subst hk
      simp only [bne_self_eq_false, Bool.false_eq_true, if_false]
      rw [ih, List.lookup_cons]
      by_cases hm : m = k
      · rw [if_pos hm, if_pos hm]
      · rw [if_neg hm, if_neg hm]
        have : (m == k) = false := by simpa using hm
        rw [this]
    · have hb : (k != n) = true := by simpa using hk
      simp only [hb, if_true]
      rw [List.lookup_cons, List.lookup_cons, ih]
      by_cases hm : m = k
      · subst hm
        simp [hk]
      · have : (m == k) = false := by simpa using hm
        rw [this]

theorem entry_put (d : Disk) (n m : Name) (e : Entry) : entry (put d n e) m = if m = n then some e else entry d m := by
  unfold entry put
  rw [List.lookup_append, lookup_filter]
  by_cases hm : m = n
  · subst hm
    simp
  · rw [if_neg hm, if_neg hm]
    have : (m == n) = false := by simpa using hm
    simp [List.lookup_cons, this]

theorem entry_filter (d : Disk) (n m : Name) : entry (d.filter (fun p => p.1 != n)) m = if m = n then none else entry d m := lookup_filter d n m

/-- What is kept between requests: names are distinct, and what is in the cache is in the file. -/
structure Inv (s : Server) : Prop where
  nodup : (s.disk.map Prod.fst).Nodup
  fresh : ∀ n c, s.cache n = some c → readFile s.disk n = some c

theorem filter_nodup {d : Disk} (h : (d.map Prod.fst).Nodup) (n : Name) : ((d.filter (fun p => p.1 != n)).map Prod.fst).Nodup :=
  h.sublist ((List.filter_sublist).map _)

theorem put_nodup {d : Disk} (h : (d.map Prod.fst).Nodup) (n : Name) (e : Entry) : ((put d n e).map Prod.fst).Nodup := by
  unfold put
  rw [List.map_append, List.nodup_append]
  refine ⟨filter_nodup h n, by simp, ?_⟩
  intro a ha b hb
  simp only [List.map_cons, List.map_nil, List.mem_singleton] at hb
  subst hb
  obtain ⟨p, hp, rfl⟩ := List.mem_map.1 ha
  have := (List.mem_filter.1 hp).2
  simpa using this

theorem readFile_eq_some {d : Disk} {n : Name} {c : Cfg} : readFile d n = some c ↔ ∃ i, entry d n = some ⟨.good c, i⟩ := by
  unfold readFile
  constructor
  · intro h
    split at h
    · rename_i c' i he
      cases h
      exact ⟨_, he⟩
    · cases h
  · rintro ⟨i, hi⟩
    rw [hi]

theorem getConfig_val {s : Server} (h : Inv s) (n : Name) : (getConfig s n).1 = readFile s.disk n := by
  unfold getConfig
  split
  · rename_i c hc
    exact (h.fresh n c hc).symm
  · split
    · rename_i hn; rw [hn]
    · rename_i c hc; rw [hc]

theorem getConfig_disk (s : Server) (n : Name) : (getConfig s n).2.disk = s.disk := by
  unfold getConfig
  split
  · rfl
  · split <;> rfl

theorem getConfig_inv {s : Server} (h : Inv s) (n : Name) : Inv (getConfig s n).2 := by
  refine ⟨by rw [getConfig_disk]; exact h.nodup, ?_⟩
  rw [getConfig_disk]
  unfold getConfig
  split
  · exact h.fresh
  · split
    · exact h.fresh
    · rename_i c hc
      intro m c' hm
      simp only [] at hm
      split at hm
      · rename_i e
        subst e
        cases hm
        exact hc
      · exact h.fresh m c' hm

theorem known_iff (f : Cat) (n : Name) : known (f n) = true ↔ Present f n := by
  unfold Present known
  cases hf : f n with
  | none => simp
  | some e =>
    obtain ⟨c, i⟩ := e
    simp

theorem mem_of_lookup {d : Disk} {n : Name} {e : Entry} (h : d.lookup n = some e) : (n, e) ∈ d := by
  induction d with
  | nil => simp at h
  | cons p d ih =>
    obtain ⟨k, e'⟩ := p
    rw [List.lookup_cons] at h
    split at h
    · rename_i hk
      cases h
      have : n = k := by simpa using hk
      subst this
      exact List.mem_cons_self
    · exact List.mem_cons_of_mem _ (ih h)

theorem lookup_of_mem {d : Disk} (hd : (d.map Prod.fst).Nodup) {n : Name} {e : Entry} (h : (n, e) ∈ d) : d.lookup n = some e := by
  induction d with
  | nil => simp at h
  | cons p d ih =>
    obtain ⟨k, e'⟩ := p
    rw [List.map_cons, List.nodup_cons] at hd
    rw [List.lookup_cons]
    rcases List.mem_cons.1 h with h | h
    · cases h
      simp
    · have hne : n ≠ k := by
        intro hk
        exact hd.1 (List.mem_map.2 ⟨_, h, hk⟩)
      have : (n == k) = false := by simpa using hne
      rw [this]
      exact ih hd.2 h

theorem mem_listAll {d : Disk} (hd : (d.map Prod.fst).Nodup) (n : Name) : n ∈ listAll d ↔ Present (entry d) n := by
  unfold listAll sortNames
  rw [List.mem_mergeSort, List.mem_map]
  constructor
  · rintro ⟨⟨k, e⟩, hp, rfl⟩
    obtain ⟨h1, h2⟩ := List.mem_filter.1 hp
    rw [← known_iff]
    have : entry d k = some e := lookup_of_mem hd h1
    simp only [this]
    exact h2
  · rintro ⟨e, he, hc⟩
    refine ⟨(n, e), List.mem_filter.2 ⟨mem_of_lookup he, ?_⟩, rfl⟩
    obtain ⟨c, i⟩ := e
    unfold known
    simpa using hc

theorem sorted_listAll {d : Disk} (hd : (d.map Prod.fst).Nodup) : (listAll d).Pairwise (· < ·) := by
  have hs : (listAll d).Pairwise (fun a b => decide (a ≤ b) = true) := by
    unfold listAll sortNames
    exact List.pairwise_mergeSort (fun a b c h1 h2 => by simp only [decide_eq_true_eq] at *; exact le_trans h1 h2)
      (fun a b => by
        rcases le_total a b with h | h
        · simp [h]
        · simp [h]) _
  have hn : (listAll d).Nodup := by
    unfold listAll sortNames
    rw [(List.mergeSort_perm _ _).nodup_iff]
    exact hd.sublist (List.filter_sublist.map _)
  refine (hs.and hn).imp ?_
  intro a b h
  exact lt_of_le_of_ne (by simpa using h.1) h.2

theorem with_put (d : Disk) (n : Name) (e : Entry) : With (entry d) n (some e) (entry (put d n e)) := by
  refine ⟨by rw [entry_put, if_pos rfl], ?_⟩
  intro m hm
  rw [entry_put, if_neg hm]

theorem conf_iff {d : Disk} {n : Name} {c : Cfg} : Conf (entry d) n c ↔ readFile d n = some c := readFile_eq_some.symm

theorem buildStored_eq (dss : Nat) (r : CfgReq) : buildStored dss r = asked dss r := by
  obtain ⟨a, b, c, d, e, f⟩ := r
  cases a <;> cases b <;> cases d <;> cases f <;> rfl

theorem step_ok (dss : Nat) {s : Server} (h : Inv s) (r : Req) :
    Answer dss (entry s.disk) r (step dss s r).1 (entry (step dss s r).2.disk) ∧ Inv (step dss s r).2 := by
  cases r with
  | create n r =>
    simp only [step, create]
    split
    · rename_i hn
      subst hn
      exact ⟨.createUnnamed r, h⟩
    · rename_i hn
      split
      · rename_i hk
        exact ⟨.createExisting r hn ((known_iff _ _).1 hk), h⟩
      · rename_i hk
        have hx : ¬ Present (entry s.disk) n := fun hx => hk ((known_iff _ _).2 hx)
        have he : (entry s.disk n).getD ⟨.absent, false⟩ = ⟨.absent, false⟩ := by
          cases hen : entry s.disk n with
          | none => rfl
          | some e =>
            obtain ⟨c, i⟩ := e
            rw [Option.getD_some]
            have h1 : c = .absent := by
              by_contra hc
              exact hx ⟨_, hen, Or.inl hc⟩
            have h2 : i = false := by
              cases i with
              | false => rfl
              | true => exact absurd ⟨_, hen, Or.inr rfl⟩ hx
            rw [h1, h2]
        rw [he, buildStored_eq]
        simp only [setConfig, entry_put, if_true]
        refine ⟨.created r hn hx ?_, ?_, ?_⟩
        · refine ⟨by rw [entry_put, if_pos rfl], ?_⟩
          intro m hm
          rw [entry_put, if_neg hm, entry_put, if_neg hm]
        · exact put_nodup (put_nodup h.nodup _ _) _ _
        · intro m c hc
          simp only [] at hc
          split at hc
          · rename_i e
            subst e
            cases hc
            rw [readFile_eq_some]
            exact ⟨false, by rw [entry_put, if_pos rfl]⟩
          · rename_i e
            obtain ⟨i, hi⟩ := readFile_eq_some.1 (h.fresh m c hc)
            rw [readFile_eq_some]
            exact ⟨i, by rw [entry_put, if_neg e, entry_put, if_neg e]; exact hi⟩
  | setMax n m =>
    simp only [step, setMax]
    have hv := getConfig_val h n
    have hd := getConfig_disk s n
    have hi := getConfig_inv h n
    rcases hg : getConfig s n with ⟨v, s'⟩
    rw [hg] at hv hd hi
    simp only [] at hv hd hi
    cases v with
    | none =>
      simp only []
      rw [hd]
      refine ⟨.setMaxNone m ?_, hi⟩
      intro c hc
      rw [conf_iff, ← hv] at hc
      cases hc
    | some c =>
      simp only []
      obtain ⟨i, hen⟩ := readFile_eq_some.1 hv.symm
      have hen' : entry s'.disk n = some ⟨.good c, i⟩ := by rw [hd]; exact hen
      simp only [setConfig, hen']
      refine ⟨.setMax m hen ?_, ?_, ?_⟩
      · rw [hd]; exact with_put _ _ _
      · exact put_nodup hi.nodup _ _
      · intro k c' hc
        simp only [] at hc
        split at hc
        · rename_i e
          subst e
          cases hc
          rw [readFile_eq_some]
          exact ⟨i, by rw [entry_put, if_pos rfl]⟩
        · rename_i e
          obtain ⟨j, hj⟩ := readFile_eq_some.1 (hi.fresh k c' hc)
          rw [readFile_eq_some]
          exact ⟨j, by rw [entry_put, if_neg e]; exact hj⟩
  | delete n =>
    simp only [step, delete]
    refine ⟨.delete ⟨by rw [entry_filter, if_pos rfl], fun m hm => by rw [entry_filter, if_neg hm]⟩, filter_nodup h.nodup n, ?_⟩
    intro m c hc
    simp only [] at hc
    split at hc
    · cases hc
    · rename_i e
      obtain ⟨i, hi⟩ := readFile_eq_some.1 (h.fresh m c hc)
      rw [readFile_eq_some]
      exact ⟨i, by rw [entry_filter, if_neg e]; exact hi⟩
  | populate n =>
    simp only [step, populate]
    have hv := getConfig_val h n
    have hd := getConfig_disk s n
    have hi := getConfig_inv h n
    rcases hg : getConfig s n with ⟨v, s'⟩
    rw [hg] at hv hd hi
    simp only [] at hv hd hi
    cases v with
    | none =>
      simp only []
      rw [hd]
      refine ⟨.populateNone ?_, hi⟩
      intro c hc
      rw [conf_iff, ← hv] at hc
      cases hc
    | some c =>
      simp only []
      obtain ⟨i, hen⟩ := readFile_eq_some.1 hv.symm
      have hen' : entry s'.disk n = some ⟨.good c, i⟩ := by rw [hd]; exact hen
      rw [hen']
      simp only [Option.getD_some]
      refine ⟨.populate hen ?_, put_nodup hi.nodup _ _, ?_⟩
      · rw [hd]; exact with_put _ _ _
      · intro k c' hc
        obtain ⟨j, hj⟩ := readFile_eq_some.1 (hi.fresh k c' hc)
        rw [readFile_eq_some]
        by_cases e : k = n
        · subst e
          rw [hen'] at hj
          cases hj
          exact ⟨true, by rw [entry_put, if_pos rfl]⟩
        · exact ⟨j, by rw [entry_put, if_neg e]; exact hj⟩
  | list => exact ⟨.list (sorted_listAll h.nodup) (mem_listAll h.nodup), h⟩
  | info n =>
    simp only [step, info]
    have hv := getConfig_val h n
    have hd := getConfig_disk s n
    have hi := getConfig_inv h n
    split
    · rename_i cf hen
      rcases hg : getConfig s n with ⟨v, s'⟩
      rw [hg] at hv hd hi
      simp only [] at hv hd hi ⊢
      rw [hd]
      refine ⟨?_, hi⟩
      cases v with
      | none =>
        refine .infoBare hen rfl ?_
        intro c hc
        rw [conf_iff, ← hv] at hc
        cases hc
      | some c =>
        obtain ⟨i, hen'⟩ := readFile_eq_some.1 hv.symm
        rw [hen] at hen'
        cases hen'
        exact .info hen
    · rename_i hno
      refine ⟨.infoNone ?_, h⟩
      intro e he
      obtain ⟨c, i⟩ := e
      cases i with
      | false => rfl
      | true => exact absurd he (hno c)
  | summary n =>
    simp only [step, summary]
    have hv := getConfig_val h n
    have hd := getConfig_disk s n
    have hi := getConfig_inv h n
    rcases hg : getConfig s n with ⟨v, s'⟩
    rw [hg] at hv hd hi
    simp only [] at hv hd hi ⊢
    rw [hd]
    have hnone : v = none → ∀ c, ¬ Conf (entry s.disk) n c := by
      intro hv' c hc
      rw [conf_iff, ← hv, hv'] at hc
      cases hc
    split
    · rename_i hany
      simp only []
      rw [hd]
      refine ⟨?_, hi⟩
      cases hen : entry s.disk n with
      | none => rw [hen] at hany; cases hany
      | some e =>
        rw [hen] at hany
        have hix : e.index = true := by simpa using hany
        cases v with
        | none => exact .summaryBare hen hix (hnone rfl)
        | some c =>
          obtain ⟨i, hen'⟩ := readFile_eq_some.1 hv.symm
          rw [hen'] at hen
          cases hen
          simp only [] at hix
          subst hix
          exact .summary hen'
    · rename_i hany
      simp only []
      rw [hd]
      refine ⟨?_, hi⟩
      cases v with
      | none =>
        refine .summaryNone ?_ (hnone rfl)
        intro e he
        rw [he] at hany
        simpa using hany
      | some c =>
        obtain ⟨i, hen'⟩ := readFile_eq_some.1 hv.symm
        rw [hen'] at hany
        have : i = false := by simpa using hany
        subst this
        exact .summaryEmpty hen'
  | restart => exact ⟨.restart, h.nodup, by intro n c hc; cases hc⟩

theorem run_ok (dss : Nat) : ∀ (rs : List Req) {s : Server}, Inv s →
    Answers dss (entry s.disk) rs (run dss s rs).1 (entry (run dss s rs).2.disk) ∧ Inv (run dss s rs).2 := by
  intro rs
  induction rs with
  | nil => intro s h; exact ⟨.nil, h⟩
  | cons r rs ih =>
    intro s h
    obtain ⟨h1, h2⟩ := step_ok dss h r
    obtain ⟨h3, h4⟩ := ih h2
    exact ⟨.cons h1 h3, h4⟩

/-! ### Consequences in the specification -/

theorem answers_append {dss : Nat} {rs1 rs2 : List Req} : ∀ {f h : Cat} {as}, Answers dss f (rs1 ++ rs2) as h →
    ∃ g as1 as2, as = as1 ++ as2 ∧ as1.length = rs1.length ∧ Answers dss f rs1 as1 g ∧ Answers dss g rs2 as2 h := by
  induction rs1 with
  | nil => intro f h as hh; exact ⟨f, [], as, rfl, rfl, .nil, hh⟩
  | cons r rs1 ih =>
    intro f h as hh
    cases hh with
    | cons h1 h2 =>
      obtain ⟨g, as1, as2, e1, e2, e3, e4⟩ := ih h2
      exact ⟨g, _ :: as1, as2, by rw [e1]; rfl, by simp [e2], .cons h1 e3, e4⟩

theorem with_exists {f g : Cat} {n m : Name} {e : Option Entry} (h : With f n e g) (hm : m ≠ n) : g m = f m := h.2 m hm

/-- A configuration stays, but for the limit on documents. -/
theorem kept {dss : Nat} {n : Name} : ∀ {rs : List Req} {f h : Cat} {as} {c : Cfg}, Answers dss f rs as h → .delete n ∉ rs → Conf f n c →
    Conf h n { c with maxDocuments := lastMax n rs c.maxDocuments } := by
  intro rs
  induction rs with
  | nil =>
    intro f h as c ha _ hc
    cases ha
    exact hc
  | cons r rs ih =>
    intro f h as c ha hd hc
    have hd' : .delete n ∉ rs := fun hx => hd (List.mem_cons_of_mem _ hx)
    have keep : ∀ {k e g}, With f k e g → k ≠ n → Conf g n c := by
      intro k e g hw hk
      obtain ⟨i, hi⟩ := hc
      exact ⟨i, by rw [hw.2 n (fun h => hk h.symm)]; exact hi⟩
    cases ha with
    | cons h1 h2 =>
      cases h1 with
      | createUnnamed => exact ih h2 hd' hc
      | createExisting => exact ih h2 hd' hc
      | created r hn hx hg =>
        rename_i k
        have hk : k ≠ n := by
          rintro rfl
          obtain ⟨i, hi⟩ := hc
          exact hx ⟨_, hi, Or.inl (by simp)⟩
        exact ih h2 hd' (keep hg hk)
      | setMaxNone m hx =>
        rename_i k
        have hk : k ≠ n := by
          rintro rfl
          exact hx c hc
        have := ih h2 hd' hc
        simpa [lastMax, hk] using this
      | setMax m hx hg =>
        rename_i k c' i
        by_cases hk : k = n
        · subst hk
          obtain ⟨j, hj⟩ := hc
          rw [hx] at hj
          cases hj
          have := ih (c := { c with maxDocuments := m }) h2 hd' ⟨i, hg.1⟩
          simpa [lastMax] using this
        · have := ih h2 hd' (keep hg hk)
          simpa [lastMax, hk] using this
      | delete hg =>
        rename_i k
        have hk : k ≠ n := by
          rintro rfl
          exact hd List.mem_cons_self
        exact ih h2 hd' (keep hg hk)
      | populateNone => exact ih h2 hd' hc
      | populate hx hg =>
        rename_i k c' i
        by_cases hk : k = n
        · subst hk
          obtain ⟨j, hj⟩ := hc
          rw [hx] at hj
          cases hj
          exact ih h2 hd' ⟨true, hg.1⟩
        · exact ih h2 hd' (keep hg hk)
      | list => exact ih h2 hd' hc
      | infoNone => exact ih h2 hd' hc
      | info => exact ih h2 hd' hc
      | infoBare => exact ih h2 hd' hc
      | summary => exact ih h2 hd' hc
      | summaryBare => exact ih h2 hd' hc
      | summaryEmpty => exact ih h2 hd' hc
      | summaryNone => exact ih h2 hd' hc
      | restart => exact ih h2 hd' hc

/-- What is not there is not there until it is created. -/
theorem gone {dss : Nat} {n : Name} : ∀ {rs : List Req} {f h : Cat} {as}, Answers dss f rs as h → (∀ r, .create n r ∉ rs) → f n = none → h n = none := by
  intro rs
  induction rs with
  | nil =>
    intro f h as ha _ hc
    cases ha
    exact hc
  | cons r rs ih =>
    intro f h as ha hd hc
    have hd' : ∀ r, .create n r ∉ rs := fun r hx => hd r (List.mem_cons_of_mem _ hx)
    have keep : ∀ {k e g}, With f k e g → (k = n → e = none) → g n = none := by
      intro k e g hw hk
      by_cases hkn : k = n
      · subst hkn
        rw [hw.1, hk rfl]
      · rw [hw.2 n (fun h => hkn h.symm), hc]
    cases ha with
    | cons h1 h2 =>
      cases h1 with
      | created r hn hx hg => exact ih h2 hd' (keep hg (fun e => (hd r (by subst e; exact List.mem_cons_self)).elim))
      | setMax m hx hg => exact ih h2 hd' (keep hg (fun e => by subst e; rw [hc] at hx; cases hx))
      | delete hg => exact ih h2 hd' (keep hg (fun _ => rfl))
      | populate hx hg => exact ih h2 hd' (keep hg (fun e => by subst e; rw [hc] at hx; cases hx))
      | _ => exact ih h2 hd' hc

end NextPlaid.Catalogue
