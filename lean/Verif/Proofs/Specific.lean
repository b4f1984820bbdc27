import Verif.Model.Specific
import Verif.Spec.Specific
import Verif.Proofs.Colgrep3

/-! Lemmas on indexing chosen files. -/

namespace NextPlaid.Colgrep

open NextPlaid.Spec.Specific

variable {P C U H : Type} [DecidableEq P] [DecidableEq H]

theorem kindOf_added {L : Lang P C U H} {st : State P H} {e : P × File C} : kindOf L st e = .added ↔ get st.files e.1 = none := by
  unfold kindOf
  cases get st.files e.1 with
  | none => simp
  | some i => by_cases h : i.hash = L.hash e.2.content <;> simp [h]

theorem kindOf_changed {L : Lang P C U H} {st : State P H} {e : P × File C} :
    kindOf L st e = .changed ↔ ∃ i, get st.files e.1 = some i ∧ i.hash ≠ L.hash e.2.content := by
  unfold kindOf
  cases get st.files e.1 with
  | none => simp
  | some i => by_cases h : i.hash = L.hash e.2.content <;> simp [h]

theorem kindOf_unchanged {L : Lang P C U H} {st : State P H} {e : P × File C} :
    kindOf L st e = .unchanged ↔ ∃ i, get st.files e.1 = some i ∧ i.hash = L.hash e.2.content := by
  unfold kindOf
  cases get st.files e.1 with
  | none => simp
  | some i => by_cases h : i.hash = L.hash e.2.content <;> simp [h]

theorem kinds_length (L : Lang P C U H) (st : State P H) (given : List (P × File C)) :
    (ofKind L st given .added).length + (ofKind L st given .changed).length + (ofKind L st given .unchanged).length = given.length := by
  unfold ofKind
  induction given with
  | nil => rfl
  | cons e g ih =>
    simp only [List.filter_cons, List.length_cons]
    cases h : kindOf L st e <;> simp <;> omega

theorem mem_ofKind {L : Lang P C U H} {st : State P H} {given : List (P × File C)} {k : Kind} {e : P × File C} :
    e ∈ ofKind L st given k ↔ e ∈ given ∧ kindOf L st e = k := by
  simp [ofKind]

theorem mem_chosen {L : Lang P C U H} {st : State P H} {given : List (P × File C)} {e : P × File C} :
    e ∈ chosen L st given ↔ e ∈ given ∧ kindOf L st e ≠ .unchanged ∧ e.1 ∉ st.ignored := by
  simp only [chosen, List.mem_filter, List.mem_append, mem_ofKind, decide_eq_true_eq]
  constructor
  · rintro ⟨⟨h, k⟩ | ⟨h, k⟩, hi⟩ <;> exact ⟨h, by rw [k]; simp, hi⟩
  · rintro ⟨h, k, hi⟩
    refine ⟨?_, hi⟩
    cases hk : kindOf L st e with
    | added => exact .inl ⟨h, rfl⟩
    | changed => exact .inr ⟨h, rfl⟩
    | unchanged => exact absurd hk k

theorem chosen_nodup {L : Lang P C U H} {st : State P H} {given : List (P × File C)} (hn : (given.map (·.1)).Nodup) :
    ((chosen L st given).map (·.1)).Nodup := by
  refine keys_filter_nodup ?_ _
  rw [List.map_append, List.nodup_append]
  refine ⟨keys_filter_nodup hn _, keys_filter_nodup hn _, ?_⟩
  intro a ha b hb hab
  subst hab
  obtain ⟨e, he, rfl⟩ := List.mem_map.1 ha
  obtain ⟨e', he', hee⟩ := List.mem_map.1 hb
  have h1 := mem_ofKind.1 he
  have h2 := mem_ofKind.1 he'
  have : e = e' := by
    have a := mem_get hn (show (e.1, e.2) ∈ given from h1.1)
    have b := mem_get hn (show (e'.1, e'.2) ∈ given from h2.1)
    rw [hee] at b
    rw [a] at b
    exact Prod.ext hee.symm (Option.some.inj b)
  subst this
  rw [h1.2] at h2
  exact absurd h2.2 (by simp)

theorem get_chosen {L : Lang P C U H} {st : State P H} {given : List (P × File C)} (hn : (given.map (·.1)).Nodup) (p : P) (f : File C) :
    get (chosen L st given) p = some f ↔ (p, f) ∈ given ∧ kindOf L st (p, f) ≠ .unchanged ∧ p ∉ st.ignored := by
  rw [← mem_chosen (e := (p, f))]
  exact ⟨get_mem, mem_get (chosen_nodup hn)⟩

theorem unitsIn_eq (p : P) (v : Option (List (P × U))) : unitsIn p v = (docs p (v.getD [])).map (·.2) := rfl

/-! ### Moments -/

/-- The documents of files that are not among those named. -/
def rest (names : List P) (v : Option (List (P × U))) : List (P × U) := (v.getD []).filter fun d => d.1 ∉ names

theorem rest_filter {names files : List P} (h : ∀ p ∈ files, p ∈ names) (v : Option (List (P × U))) :
    rest names (v.map (·.filter fun x => x.1 ∉ files)) = rest names v := by
  cases v with
  | none => rfl
  | some d =>
    simp only [rest, Option.map_some, Option.getD_some, List.filter_filter]
    refine List.filter_congr fun x _ => ?_
    by_cases hx : x.1 ∈ names
    · simp [hx]
    · simp only [hx, not_false_eq_true, decide_true, Bool.true_and, decide_eq_true_eq]
      exact fun h' => hx (h _ h')

theorem rest_append {names : List P} {d : List (P × U)} (h : ∀ x ∈ d, x.1 ∈ names) (v : Option (List (P × U))) :
    rest names (some (v.getD [] ++ d)) = rest names v := by
  simp only [rest, Option.getD_some, List.filter_append]
  have : (d.filter fun x => decide (x.1 ∉ names)) = [] := List.filter_eq_nil_iff.2 fun x hx => by simp [h x hx]
  rw [this, List.append_nil]

/-- At this moment the state is as given and the other files have these documents in the index and in the database. -/
def Kept (names : List P) (st : State P H) (r : List (P × U)) (d : Persist P U H) : Prop :=
  d.state = st ∧ rest names d.vec = r ∧ rest names d.db = r

theorem deleteFiles_kept {names files : List P} (h : ∀ p ∈ files, p ∈ names) (l : Log P U H) (st : State P H) (v : Option (List (P × U))) (b : Bool)
    (hl : l.now = ⟨st, v, v, b⟩) : ∃ l', deleteFiles files l = .ok l' ∧
      l'.now = ⟨st, v.map (·.filter fun x => x.1 ∉ files), v.map (·.filter fun x => x.1 ∉ files), b⟩ ∧
      ∀ d ∈ l'.now :: l'.past, d ∈ l.now :: l.past ∨ Kept names st (rest names v) d := by
  have hr := fun w => rest_filter (U := U) h w
  unfold deleteFiles
  rw [hl]
  cases v with
  | none => exact ⟨l, rfl, by rw [hl]; rfl, fun d hd => .inl (by rw [hl] at hd; exact hd)⟩
  | some rows =>
    by_cases hi : idsOf files rows = []
    · refine ⟨l, by simp [hi], ?_, fun d hd => .inl (by rw [hl] at hd; exact hd)⟩
      rw [hl]
      have := idsOf_nil hi
      simpa using this.symm
    · refine ⟨_, by simp only [hi, if_false]; rfl, by simp [write, hl, removeAt_idsOf], ?_⟩
      intro d hd
      simp only [write, hl, removeAt_idsOf, List.mem_cons] at hd
      have e := hr (some rows)
      rw [Option.map_some] at e
      rcases hd with rfl | rfl | rfl | hd
      · exact .inr ⟨rfl, e, e⟩
      · exact .inr ⟨rfl, e, rfl⟩
      · exact .inl (by simp)
      · exact .inl (by simp [hd])

theorem append_kept {names : List P} {d : List (P × U)} (h : ∀ x ∈ d, x.1 ∈ names) (l : Log P U H) (st : State P H) (v : Option (List (P × U))) (b : Bool)
    (hl : l.now = ⟨st, v, v, b⟩) : ∃ l', append d l = .ok l' ∧ l'.now = ⟨st, grown v d, grown v d, b⟩ ∧
      ∀ m ∈ l'.now :: l'.past, m ∈ l.now :: l.past ∨ Kept names st (rest names v) m := by
  unfold append grown
  by_cases hd : d = []
  · exact ⟨l, by simp [hd], by simp [hd, hl], fun m hm => .inl hm⟩
  · simp only [hd, if_false, hl]
    cases v with
    | none =>
      refine ⟨_, by simp; rfl, by simp [write, hl], ?_⟩
      intro m hm
      simp only [write, hl, List.mem_cons] at hm
      have e := rest_append h (none : Option (List (P × U)))
      simp only [Option.getD_none, List.nil_append] at e
      rcases hm with rfl | rfl | rfl | hm
      · exact .inr ⟨rfl, e, e⟩
      · exact .inr ⟨rfl, rfl, e⟩
      · exact .inl (by simp)
      · exact .inl (by simp [hm])
    | some w =>
      refine ⟨_, rfl, by simp [write, hl], ?_⟩
      intro m hm
      simp only [write, hl, List.mem_cons] at hm
      have e := rest_append h (some w)
      simp only [Option.getD_some] at e
      rcases hm with rfl | rfl | rfl | hm
      · exact .inr ⟨rfl, e, e⟩
      · exact .inr ⟨rfl, e, rfl⟩
      · exact .inl (by simp)
      · exact .inl (by simp [hm])

theorem rest_grown {names : List P} {d : List (P × U)} (h : ∀ x ∈ d, x.1 ∈ names) (v : Option (List (P × U))) : rest names (grown v d) = rest names v := by
  unfold grown
  split
  · rfl
  · exact rest_append h v

theorem units_named (L : Lang P C U H) (files : List (P × File C)) : ∀ x ∈ unitsOf (parseAll L files), x.1 ∈ files.map (·.1) := by
  intro x hx
  simp only [unitsOf, parseAll, List.mem_flatMap, List.mem_map] at hx
  obtain ⟨_, ⟨e, he, rfl⟩, u, _, rfl⟩ := hx
  exact List.mem_map.2 ⟨e, he, rfl⟩

/-- The pipeline, at every moment. -/
theorem encode_kept (L : Lang P C U H) (hL : L.Lawful) {names : List P} (units : List (P × U)) (h : ∀ x ∈ units, x.1 ∈ names) (stop : Stop) (l : Log P U H)
    (st : State P H) (v : Option (List (P × U))) (b : Bool) (hl : l.now = ⟨st, v, v, b⟩) :
    ∃ l', ((∃ s, encode L units stop l = .ok (l', s) ∧ l'.now = ⟨st, grown v (L.arrange units), grown v (L.arrange units), b⟩) ∨
        (stop ≠ .never ∧ encode L units stop l = .error (.interrupted l') ∧ ∃ n, stop = .after n ∧ n ≤ units.length ∧
          l'.now = ⟨st, grown v ((L.arrange units).take n), grown v ((L.arrange units).take n), b⟩)) ∧
      ∀ m ∈ l'.now :: l'.past, m ∈ l.now :: l.past ∨ Kept names st (rest names v) m := by
  have ha : ∀ x ∈ L.arrange units, x.1 ∈ names := fun x hx => h x ((hL.arrange units).mem_iff.1 hx)
  have ht : ∀ n, ∀ x ∈ (L.arrange units).take n, x.1 ∈ names := fun n x hx => ha x (List.mem_of_mem_take hx)
  obtain ⟨l', h1, h2, h3⟩ := append_kept ha l st v b hl
  cases stop with
  | never => exact ⟨l', .inl ⟨.never, by simp [encode, h1], h2⟩, h3⟩
  | parsing => exact ⟨l', .inl ⟨.parsing, by simp [encode, h1], h2⟩, h3⟩
  | after n =>
    by_cases hn : n ≤ units.length
    · obtain ⟨l'', g1, g2, g3⟩ := append_kept (ht n) l st v b hl
      exact ⟨l'', .inr ⟨by simp, by simp [encode, hn, g1], n, rfl, hn, g2⟩, g3⟩
    · exact ⟨l', .inl ⟨.after (n - units.length), by simp [encode, hn, h1], h2⟩, h3⟩

/-- How the writing of a call goes: it ends with the new state, or it is interrupted. -/
theorem writeChosen_ok (L : Lang P C U H) (hL : L.Lawful) (given : List (P × File C)) (stop : Stop) (l : Log P U H) (st : State P H)
    (v : Option (List (P × U))) (b : Bool) (hl : l.now = ⟨st, v, v, b⟩) :
    ∃ l1, (∀ m ∈ l1.now :: l1.past, m ∈ l.now :: l.past ∨ Kept (given.map (·.1)) st (rest (given.map (·.1)) v) m) ∧
      ((writeChosen L given stop l = .ok (saveState l1 (chosenState L st given)) ∧
          l1.now = ⟨st, grown (v.map (·.filter fun x => x.1 ∉ (ofKind L st given .changed).map (·.1))) (L.arrange (unitsOf (parseAll L (chosen L st given)))),
            grown (v.map (·.filter fun x => x.1 ∉ (ofKind L st given .changed).map (·.1))) (L.arrange (unitsOf (parseAll L (chosen L st given)))), b⟩) ∨
        (stop ≠ .never ∧ writeChosen L given stop l = .error (.interrupted l1) ∧
          ∃ n, stop = .after n ∧ n ≤ (unitsOf (parseAll L (chosen L st given))).length)) := by
  have hst : l.now.state = st := by rw [hl]
  have hc : ∀ p ∈ (ofKind L st given .changed).map (·.1), p ∈ given.map (·.1) := by
    intro p hp
    obtain ⟨e, he, rfl⟩ := List.mem_map.1 hp
    exact List.mem_map.2 ⟨e, (mem_ofKind.1 he).1, rfl⟩
  have hu : ∀ x ∈ unitsOf (parseAll L (chosen L st given)), x.1 ∈ given.map (·.1) := by
    intro x hx
    obtain ⟨e, he, hex⟩ := List.mem_map.1 (units_named L _ x hx)
    exact List.mem_map.2 ⟨e, (mem_chosen.1 he).1, hex⟩
  obtain ⟨l0, d1, d2, d3⟩ := deleteFiles_kept hc l st v b hl
  obtain ⟨l1, e1, e2⟩ := encode_kept L hL _ hu stop l0 st _ b d2
  rw [rest_filter hc] at e2
  refine ⟨l1, ?_, ?_⟩
  · intro m hm
    rcases e2 m hm with h | h
    · exact d3 m h
    · exact .inr h
  · unfold writeChosen
    rw [hst, d1]
    rcases e1 with ⟨s, e1, e3⟩ | ⟨e0, e1, e3⟩
    · left
      refine ⟨?_, e3⟩
      show (encode L _ stop l0 >>= _) = _
      rw [e1]
      rfl
    · right
      refine ⟨e0, ?_, ?_⟩
      · show (encode L _ stop l0 >>= _) = _
        rw [e1]
        rfl
      · obtain ⟨n, h1, h2, _⟩ := e3
        exact ⟨n, h1, h2⟩

/-- A call that is not interrupted, over an index that can be trusted. -/
theorem indexSpecific_ok (L : Lang P C U H) (hL : L.Lawful) (hinj : Function.Injective L.hash) (given : List (P × File C)) (l : Log P U H)
    (hT : Trusted L.parse L.hash (hashOf l.now.state) l.now.vec l.now.db) (hP : Plain L.parse L.hash (hashOf l.now.state) l.now.state.ignored given) :
    ∃ l' c, indexSpecific L given .never l = .ok (l', c) ∧ Trusted L.parse L.hash (hashOf l'.now.state) l'.now.vec l'.now.db ∧
      (∀ e ∈ given, ∃ units, L.parse e.1 e.2.content = some units ∧ (unitsIn e.1 l'.now.vec).Perm units) ∧
      (∀ p, p ∉ given.map (·.1) → unitsIn p l'.now.vec = unitsIn p l.now.vec ∧ hashOf l'.now.state p = hashOf l.now.state p) ∧
      l'.now.state.ignored = l.now.state.ignored := by
  obtain ⟨⟨st, v, db, b⟩, past⟩ := l
  have hal := hT.aligned
  simp only at hal hT hP
  subst hal
  have hn := hP.names
  -- what the recorded documents of a given file are
  have hsame : ∀ e ∈ given, kindOf L st e = .unchanged → ∃ units, L.parse e.1 e.2.content = some units ∧ (unitsIn e.1 v).Perm units := by
    intro e _ hk
    obtain ⟨i, h1, h2⟩ := kindOf_unchanged.1 hk
    obtain ⟨c, units, g1, g2, g3⟩ := hT.known e.1 i.hash (by simp [hashOf, h1])
    rw [h2] at g1
    rw [hinj g1] at g2
    exact ⟨units, g2, g3⟩
  by_cases hq : chosen L st given = [] ∨ Stop.never = .parsing ∨ unitsOf (parseAll L (chosen L st given)) = []
  · refine ⟨⟨⟨st, v, v, b⟩, past⟩, _, by unfold indexSpecific; exact if_pos hq, hT, ?_, fun _ _ => ⟨rfl, rfl⟩, rfl⟩
    have hu : unitsOf (parseAll L (chosen L st given)) = [] := by
      rcases hq with h | h | h
      · rw [h]; rfl
      · cases h
      · exact h
    intro e he
    by_cases hk : kindOf L st e = .unchanged
    · exact hsame e he hk
    · have hg : get (chosen L st given) e.1 = some e.2 := (get_chosen hn e.1 e.2).2 ⟨he, hk, hP.fresh e he⟩
      have hd := unitsOf_docs L (chosen L st given) (chosen_nodup hn) e.1
      rw [hu, hg] at hd
      obtain ⟨units, hpu⟩ := hP.text e he
      have he0 : units = [] := by
        simpa [docs, unitDocs, hpu] using hd
      subst he0
      refine ⟨[], hpu, ?_⟩
      cases hk' : kindOf L st e with
      | unchanged => exact absurd hk' hk
      | added =>
        rw [hT.unknown e.1 (by simp [hashOf, kindOf_added.1 hk'])]
      | changed =>
        obtain ⟨i, h1, h2⟩ := kindOf_changed.1 hk'
        exact absurd hpu (hP.code e he i.hash (by simp [hashOf, h1]) h2)
  · obtain ⟨l1, -, h⟩ := writeChosen_ok L hL given .never ⟨⟨st, v, v, b⟩, past⟩ st v b rfl
    rcases h with ⟨h1, h2⟩ | ⟨h, _⟩
    swap
    · exact absurd rfl h
    refine ⟨saveState l1 (chosenState L st given), _, by unfold indexSpecific; rw [if_neg hq, h1], ?_⟩
    -- the new documents
    have hdocs : ∀ p, (docs p ((saveState l1 (chosenState L st given)).now.vec.getD [])).Perm
        ((if p ∈ (ofKind L st given .changed).map (·.1) then [] else docs p (v.getD [])) ++
          docs p (unitsOf (parseAll L (chosen L st given)))) := by
      intro p
      simp only [saveState, write, h2]
      rw [grown_getD, docs_append]
      refine List.Perm.append ?_ (docs_perm p (hL.arrange _))
      have : (v.map (·.filter fun x => x.1 ∉ (ofKind L st given .changed).map (·.1))).getD [] =
          (v.getD []).filter fun x => x.1 ∉ (ofKind L st given .changed).map (·.1) := by cases v <;> simp
      rw [this, docs_kept]
    have hnew : ∀ p f, get (chosen L st given) p = some f →
        (unitsIn p (saveState l1 (chosenState L st given)).now.vec).Perm ((L.parse p f.content).getD []) := by
      intro p f hg
      obtain ⟨g1, g2, g3⟩ := (get_chosen hn p f).1 hg
      have hd := hdocs p
      rw [unitsOf_docs L _ (chosen_nodup hn) p, hg] at hd
      have hz : (if p ∈ (ofKind L st given .changed).map (·.1) then [] else docs p (v.getD [])) = ([] : List (P × U)) := by
        split
        · rfl
        · rename_i hc
          cases hk : kindOf L st (p, f) with
          | unchanged => exact absurd hk g2
          | changed => exact absurd (List.mem_map.2 ⟨(p, f), mem_ofKind.2 ⟨g1, hk⟩, rfl⟩) hc
          | added =>
            have := hT.unknown p (by simp [hashOf, kindOf_added.1 hk])
            rw [unitsIn_eq] at this
            exact List.map_eq_nil_iff.1 this
      rw [hz, List.nil_append] at hd
      rw [unitsIn_eq]
      have := hd.map (·.2)
      simpa [unitDocs, List.map_map, Function.comp_def] using this
    have hold : ∀ p, get (chosen L st given) p = none → p ∉ st.ignored ∨ p ∉ given.map (·.1) →
        (docs p ((saveState l1 (chosenState L st given)).now.vec.getD [])) = docs p (v.getD []) := by
      intro p hg hi
      have hc : p ∉ (ofKind L st given .changed).map (·.1) := by
        intro hc
        obtain ⟨e, he, rfl⟩ := List.mem_map.1 hc
        have hm := mem_ofKind.1 he
        have : get (chosen L st given) e.1 = some e.2 :=
          (get_chosen hn e.1 e.2).2 ⟨hm.1, by rw [hm.2]; simp, hi.elim id fun h => absurd (List.mem_map.2 ⟨e, hm.1, rfl⟩) h⟩
        rw [this] at hg
        cases hg
      have hu0 : docs p (L.arrange (unitsOf (parseAll L (chosen L st given)))) = [] := by
        have hd := unitsOf_docs L (chosen L st given) (chosen_nodup hn) p
        rw [hg] at hd
        have := docs_perm p (hL.arrange (unitsOf (parseAll L (chosen L st given))))
        rw [hd] at this
        exact this.eq_nil
      simp only [saveState, write, h2]
      rw [grown_getD, docs_append, hu0, List.append_nil]
      have : (v.map (·.filter fun x => x.1 ∉ (ofKind L st given .changed).map (·.1))).getD [] =
          (v.getD []).filter fun x => x.1 ∉ (ofKind L st given .changed).map (·.1) := by cases v <;> simp
      rw [this, docs_kept, if_neg hc]
    have hrec : ∀ p, hashOf (saveState l1 (chosenState L st given)).now.state p =
        match get (chosen L st given) p with | some f => some (L.hash f.content) | none => hashOf st p := by
      intro p
      simp only [saveState, write, chosenState, hashOf]
      rw [get_putAll _ (records_nodup L _ (chosen_nodup hn)), get_recordsOf L _ (chosen_nodup hn)]
      cases hg : get (chosen L st given) p with
      | none => simp
      | some f =>
        obtain ⟨g1, _, _⟩ := (get_chosen hn p f).1 hg
        obtain ⟨units, hu⟩ := hP.text _ g1
        simp [Option.filter_some, hu, infoOf]
    refine ⟨⟨by simp [saveState, write, h2], ?_, ?_⟩, ?_, ?_, ?_⟩
    · intro p h hh
      rw [hrec] at hh
      cases hg : get (chosen L st given) p with
      | some f =>
        rw [hg] at hh
        obtain ⟨g1, _, _⟩ := (get_chosen hn p f).1 hg
        obtain ⟨units, hu⟩ := hP.text _ g1
        refine ⟨f.content, units, by simpa using hh, hu, ?_⟩
        have := hnew p f hg
        rw [show L.parse p f.content = some units from hu] at this
        exact this
      | none =>
        rw [hg] at hh
        have hh : hashOf st p = some h := hh
        obtain ⟨c, units, g1, g2, g3⟩ := hT.known p h hh
        refine ⟨c, units, g1, g2, ?_⟩
        rw [unitsIn_eq, hold p hg]
        · exact g3
        · by_cases hp : p ∈ given.map (·.1)
          · obtain ⟨e, he, rfl⟩ := List.mem_map.1 hp
            exact .inl (hP.fresh e he)
          · exact .inr hp
    · intro p hh
      rw [hrec] at hh
      cases hg : get (chosen L st given) p with
      | some f => rw [hg] at hh; cases hh
      | none =>
        rw [hg] at hh
        have hh : hashOf st p = none := hh
        rw [unitsIn_eq, hold p hg]
        · exact hT.unknown p hh
        · by_cases hp : p ∈ given.map (·.1)
          · obtain ⟨e, he, rfl⟩ := List.mem_map.1 hp
            exact .inl (hP.fresh e he)
          · exact .inr hp
    · intro e he
      by_cases hk : kindOf L st e = .unchanged
      · obtain ⟨units, g1, g2⟩ := hsame e he hk
        refine ⟨units, g1, ?_⟩
        have hg : get (chosen L st given) e.1 = none := by
          cases hg : get (chosen L st given) e.1 with
          | none => rfl
          | some f =>
            obtain ⟨k1, k2, _⟩ := (get_chosen hn e.1 f).1 hg
            have a := mem_get hn k1
            have b := mem_get hn (show (e.1, e.2) ∈ given from he)
            rw [a] at b
            cases Option.some.inj b
            exact absurd hk k2
        rw [unitsIn_eq, hold e.1 hg (.inl (hP.fresh e he))]
        exact g2
      · obtain ⟨units, hu⟩ := hP.text e he
        have := hnew e.1 e.2 ((get_chosen hn e.1 e.2).2 ⟨he, hk, hP.fresh e he⟩)
        rw [hu] at this
        exact ⟨units, hu, this⟩
    · intro p hp
      have hg : get (chosen L st given) p = none := by
        cases hg : get (chosen L st given) p with
        | none => rfl
        | some f => exact absurd (List.mem_map.2 ⟨_, ((get_chosen hn p f).1 hg).1, rfl⟩) hp
      refine ⟨?_, ?_⟩
      · rw [unitsIn_eq, unitsIn_eq, hold p hg (.inr hp)]
      · rw [hrec, hg]
    · have : skippedOf (parseAll L (chosen L st given)) = [] := by
        rw [List.eq_nil_iff_forall_not_mem]
        intro p hp
        obtain ⟨f, h1, h2⟩ := (mem_skippedOf L _ p).1 hp
        obtain ⟨units, hu⟩ := hP.text _ (mem_chosen.1 h1).1
        rw [h2] at hu
        cases hu
      simp [saveState, write, chosenState, this]

end NextPlaid.Colgrep
