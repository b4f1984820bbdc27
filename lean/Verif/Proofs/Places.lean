import Verif.Spec.Places
import Mathlib.Data.List.Nodup
import Mathlib.Data.List.Infix

namespace NextPlaid.Places

open NextPlaid.Spec

variable {name : Path → Text → Text}

/-! ### The store -/

theorem look_mem {n : Text} {d : Dir} {s : Store} (h : look n s = some d) : (n, d) ∈ s := by
  unfold look at h
  rw [Option.map_eq_some_iff] at h
  obtain ⟨p, hp, rfl⟩ := h
  have h1 := List.mem_of_find?_eq_some hp
  have h2 := List.find?_some hp
  simp only [decide_eq_true_eq] at h2
  subst h2
  exact h1

theorem look_none {n : Text} {d : Dir} {s : Store} (h : look n s = none) : (n, d) ∉ s := by
  unfold look at h
  rw [Option.map_eq_none_iff, List.find?_eq_none] at h
  intro hm
  exact h _ hm (by simp)

theorem mem_look {n : Text} {d : Dir} : ∀ {s : Store}, (s.map (·.1)).Nodup → (n, d) ∈ s → look n s = some d := by
  intro l
  induction l with
  | nil => intro _ h; cases h
  | cons p l ih =>
    intro hn h
    rw [List.map_cons, List.nodup_cons] at hn
    rcases List.mem_cons.1 h with h | h
    · subst h; simp [look]
    · have hne : p.1 ≠ n := by
        rintro rfl
        exact hn.1 (List.mem_map.2 ⟨_, h, rfl⟩)
      have := ih hn.2 h
      unfold look at this ⊢
      rw [List.find?_cons_of_neg (by simpa using hne)]
      exact this

theorem look_put (n : Text) (d : Dir) : ∀ s : Store, look n (put n d s) = some d
  | [] => by simp [look, put]
  | p :: l => by
    by_cases hp : p.1 = n
    · simp [look, put, hp]
    · simp only [put, if_neg hp]
      have := look_put n d l
      simpa [look, List.find?_cons_of_neg, hp] using this

theorem put_names (n : Text) (d : Dir) : ∀ s : Store, (put n d s).map (·.1) = s.map (·.1) ∨
    ((put n d s).map (·.1) = s.map (·.1) ++ [n] ∧ n ∉ s.map (·.1))
  | [] => .inr ⟨rfl, by simp⟩
  | p :: l => by
    by_cases hp : p.1 = n
    · left; simp [put, hp]
    · simp only [put, if_neg hp, List.map_cons]
      rcases put_names n d l with h | ⟨h, hn⟩
      · left; rw [h]
      · right
        refine ⟨by rw [h]; rfl, ?_⟩
        rw [List.mem_cons, not_or]
        exact ⟨Ne.symm hp, hn⟩

theorem put_nodup {n : Text} {d : Dir} {s : Store} (h : (s.map (·.1)).Nodup) : ((put n d s).map (·.1)).Nodup := by
  rcases put_names n d s with e | ⟨e, hn⟩
  · rw [e]; exact h
  · rw [e, List.nodup_append]
    refine ⟨h, by simp, ?_⟩
    intro a ha b hb
    rw [List.mem_singleton.1 hb]
    rintro rfl
    exact hn ha

theorem mem_put_ne {n n' : Text} {d e : Dir} (hk : n' ≠ n) : ∀ {l : Store}, (n', e) ∈ put n d l ↔ (n', e) ∈ l
  | [] => by simp [put, hk]
  | p :: l => by
    by_cases hp : p.1 = n
    · simp only [put, if_pos hp, List.mem_cons, Prod.mk.injEq, hk, false_and, false_or]
      constructor
      · exact .inr
      · rintro (rfl | h)
        · exact absurd hp hk
        · exact h
    · simp only [put, if_neg hp, List.mem_cons, mem_put_ne hk]

theorem mem_put {n n' : Text} {d e : Dir} {s : Store} (hn : (s.map (·.1)).Nodup) (h : (n', e) ∈ put n d s) :
    (n' = n ∧ e = d) ∨ (n' ≠ n ∧ (n', e) ∈ s) := by
  by_cases hk : n' = n
  · subst hk
    have := mem_look (put_nodup hn) h
    rw [look_put] at this
    simp only [Option.some.injEq] at this
    exact .inl ⟨rfl, this.symm⟩
  · exact .inr ⟨hk, (mem_put_ne hk).1 h⟩

theorem mem_remove {n n' : Text} {e : Dir} {s : Store} : (n', e) ∈ remove n s ↔ (n', e) ∈ s ∧ n' ≠ n := by
  simp [remove]

/-! ### The nearest parent -/

/-- What is known after some of the directories. -/
def Best (s : Store) (p : Path) (m : Text) (b : Option Parent × Nat) : Prop :=
  (b = (none, 0) ∧ NothingAbove s p m) ∨
  ∃ i : Parent, b = (some i, i.root.length + 1) ∧ NearestAbove s p m i.dir i.root i.subdir

theorem isPrefixOf_iff {q p : Path} : q.isPrefixOf p = true ↔ q <+: p := List.isPrefixOf_iff_prefix

theorem recorded_append {s t : Store} {dir : Text} {q : Path} {m : Text} :
    Recorded (s ++ t) dir q m ↔ Recorded s dir q m ∨ Recorded t dir q m := by
  constructor
  · rintro ⟨d, h, e⟩
    rcases List.mem_append.1 h with h | h
    · exact .inl ⟨d, h, e⟩
    · exact .inr ⟨d, h, e⟩
  · rintro (⟨d, h, e⟩ | ⟨d, h, e⟩)
    · exact ⟨d, by simp [h], e⟩
    · exact ⟨d, by simp [h], e⟩

theorem recorded_one {e : Text × Dir} {dir : Text} {q : Path} {m : Text} :
    Recorded [e] dir q m ↔ e.1 = dir ∧ e.2.project = some (q, some m) := by
  constructor
  · rintro ⟨d, h, e'⟩
    rw [List.mem_singleton] at h
    subst h
    exact ⟨rfl, e'⟩
  · rintro ⟨rfl, h⟩
    exact ⟨e.2, by simp, h⟩

theorem best_skip {s : Store} {p : Path} {m : Text} {b : Option Parent × Nat} (h : Best s p m b) {e : Text × Dir}
    (hs : ∀ q rel, e.2.project = some (q, some m) → LiesBelow p q rel → ∃ i, b.1 = some i ∧ q.length ≤ i.root.length) :
    Best (s ++ [e]) p m b := by
  rcases h with ⟨rfl, hn⟩ | ⟨i, rfl, hr, hb, hmax⟩
  · refine .inl ⟨rfl, ?_⟩
    intro dir q rel hq hl
    rcases recorded_append.1 hq with hq | hq
    · exact hn _ _ _ hq hl
    · obtain ⟨i, hi, _⟩ := hs q rel (recorded_one.1 hq).2 hl
      cases hi
  · refine .inr ⟨i, rfl, recorded_append.2 (.inl hr), hb, ?_⟩
    intro dir q rel hq hl
    rcases recorded_append.1 hq with hq | hq
    · exact hmax _ _ _ hq hl
    · obtain ⟨i', hi, hle⟩ := hs q rel (recorded_one.1 hq).2 hl
      cases hi
      exact hle

theorem best_step {s : Store} {p : Path} {m : Text} {b : Option Parent × Nat} (h : Best s p m b) (e : Text × Dir) :
    Best (s ++ [e]) p m (consider p m b e) := by
  unfold consider
  split
  · next hp => exact best_skip h fun q rel hq _ => by rw [hp] at hq; cases hq
  · next q m' hp =>
    split
    · next hm =>
      refine best_skip h fun q' rel hq _ => ?_
      rw [hp] at hq
      cases hq
      exact absurd rfl hm
    · next hm =>
      have hm' : m' = some m := by simpa using hm
      subst hm'
      split
      · next he =>
        refine best_skip h fun q' rel hq hl => ?_
        rw [hp] at hq
        cases hq
        obtain ⟨h1, h2⟩ := hl
        rw [he] at h1
        exact absurd (List.self_eq_append_right.1 h1) h2
      · next he =>
        split
        · next hpre =>
          refine best_skip h fun q' rel hq hl => ?_
          rw [hp] at hq
          cases hq
          have : q <+: p := ⟨rel, hl.1.symm⟩
          rw [← isPrefixOf_iff, hpre] at this
          cases this
        · next hpre =>
          have hpre' : q <+: p := by rw [← isPrefixOf_iff]; simpa using hpre
          obtain ⟨rel, hrel⟩ := hpre'
          have hbelow : LiesBelow p q rel := ⟨hrel.symm, by rintro rfl; exact he (by rw [← hrel, List.append_nil])⟩
          have hdrop : p.drop q.length = rel := by rw [← hrel, List.drop_left]
          split
          · next hlt =>
            refine .inr ⟨⟨e.1, q, rel⟩, by rw [hdrop], recorded_append.2 (.inr (recorded_one.2 ⟨rfl, hp⟩)), hbelow, ?_⟩
            intro dir q' rel' hq hl
            rcases recorded_append.1 hq with hq | hq
            · rcases h with ⟨_, hn⟩ | ⟨i, rfl, _, _, hmax⟩
              · exact absurd hl (hn _ _ _ hq)
              · have := hmax _ _ _ hq hl
                dsimp only at hlt ⊢
                omega
            · have := (recorded_one.1 hq).2
              rw [hp] at this
              cases this
              exact Nat.le_refl _
          · next hlt =>
            refine best_skip h fun q' rel' hq hl => ?_
            rw [hp] at hq
            cases hq
            rcases h with ⟨rfl, _⟩ | ⟨i, rfl, _⟩
            · dsimp only at hlt; omega
            · exact ⟨i, rfl, by dsimp only at hlt; omega⟩

theorem best_fold {p : Path} {m : Text} : ∀ (t s : Store) {b : Option Parent × Nat}, Best s p m b →
    Best (s ++ t) p m (t.foldl (consider p m) b)
  | [], s, b, h => by simpa using h
  | e :: t, s, b, h => by
    have := best_fold t (s ++ [e]) (best_step h e)
    simpa using this

theorem findParent_best (s : Store) (p : Path) (m : Text) : (findParent s p m = none ∧ NothingAbove s p m) ∨
    ∃ i : Parent, findParent s p m = some i ∧ NearestAbove s p m i.dir i.root i.subdir := by
  have h0 : Best [] p m (none, 0) := .inl ⟨rfl, by rintro dir q rel ⟨d, h, _⟩; cases h⟩
  have := best_fold s [] h0
  rw [List.nil_append] at this
  rcases this with ⟨e, h⟩ | ⟨i, e, h⟩
  · exact .inl ⟨by rw [findParent, e], h⟩
  · exact .inr ⟨i, by rw [findParent, e], h⟩

/-! ### Directories in their places -/

theorem inPlace_nil : InPlace name [] := ⟨by simp, by simp⟩

theorem updated_ok {s : Store} (h : InPlace name s) (root : Path) (m : Text) (o : Outcome) : InPlace name (update name s root m o) := by
  refine ⟨put_nodup h.1, ?_⟩
  intro n d hd
  rcases mem_put h.1 hd with ⟨rfl, rfl⟩ | ⟨_, hd⟩
  · have h0 : (∀ q m', BelongsTo ((look (name root m) s).getD ⟨none, false, none⟩) q m' → name root m = name q m') ∧
        (∀ q, ((look (name root m) s).getD ⟨none, false, none⟩).project ≠ some (q, none)) ∧
        (((look (name root m) s).getD ⟨none, false, none⟩).complete = true → ((look (name root m) s).getD ⟨none, false, none⟩).holds ≠ none) := by
      cases hl : look (name root m) s with
      | none => simp [BelongsTo]
      | some d => exact h.2 _ _ (look_mem hl)
    revert h0
    generalize (look (name root m) s).getD ⟨none, false, none⟩ = d
    intro h0
    cases o with
    | busy => exact h0
    | done rebuilt complete =>
      refine ⟨?_, ?_, by simp [updated]⟩
      · rintro q m' (hb | hb)
        · simp only [updated, Option.some.injEq, Prod.mk.injEq] at hb
          rw [hb.1, hb.2]
        · simp only [updated] at hb
          split at hb
          · simp only [Option.some.injEq, Prod.mk.injEq] at hb
            rw [hb.1, hb.2]
          · exact h0.1 q m' (.inr hb)
      · intro q hb
        simp only [updated] at hb
        split at hb
        · simp at hb
        · exact h0.2.1 q hb
    | killed complete =>
      refine ⟨?_, h0.2.1, by simp [updated]⟩
      rintro q m' (hb | hb)
      · simp only [updated, Option.some.injEq, Prod.mk.injEq] at hb
        rw [hb.1, hb.2]
      · exact h0.1 q m' (.inr hb)
  · exact h.2 n d hd

theorem remove_ok {s : Store} (h : InPlace name s) (n : Text) : InPlace name (remove n s) := by
  refine ⟨?_, fun n' d hd => h.2 n' d (mem_remove.1 hd).1⟩
  exact h.1.sublist (List.Sublist.map _ List.filter_sublist)

theorem obey_ok {s : Store} (h : InPlace name s) (o : Order) : InPlace name (obey name s o) := by
  cases o with
  | search cwd p m o =>
    cases o with
    | none => exact h
    | some o => exact updated_ok h _ _ _
  | init p m o => exact updated_ok h _ _ _
  | clear p m =>
    simp only [obey, clear]
    split
    · exact remove_ok h _
    · split
      · exact remove_ok h _
      · exact h
  | clearAll => exact inPlace_nil

theorem obey_all {l : List Order} : ∀ {s : Store}, InPlace name s → InPlace name (l.foldl (obey name) s) := by
  induction l with
  | nil => exact fun h => h
  | cons o l ih => exact fun h => ih (obey_ok h o)

/-! ### What a search uses -/

theorem belongs_name {s : Store} (h : InPlace name s) {n : Text} {d : Dir} (hd : (n, d) ∈ s) {q : Path} {m : Text} (hb : BelongsTo d q m) :
    n = name q m := (h.2 n d hd).1 q m hb

theorem indexExists_iff {s : Store} (h : InPlace name s) {p : Path} {m : Text} (hc : NoClash name s p m) :
    indexExists name s p m = true ↔ HasIndex s p m := by
  unfold indexExists findIndex
  constructor
  · intro hi
    cases hl : look (name p m) s with
    | none => rw [hl] at hi; cases hi
    | some d =>
      rw [hl] at hi
      have hd := look_mem hl
      dsimp only at hi
      by_cases hcom : d.complete = true
      · refine ⟨_, d, hd, hcom, ?_⟩
        have := (h.2 _ _ hd).2.2 hcom
        cases hh : d.holds with
        | none => exact absurd hh this
        | some x =>
          obtain ⟨q, m'⟩ := x
          have e := belongs_name h hd (.inl hh)
          obtain ⟨rfl, rfl⟩ := hc _ _ q m' p hd (.inl hh) (List.prefix_refl _) e
          rfl
      · rw [if_pos (by simpa using hcom)] at hi
        cases hi
  · rintro ⟨n, d, hd, hcom, hh⟩
    have e := belongs_name h hd (.inl hh)
    subst e
    rw [mem_look h.1 hd]
    dsimp only
    rw [if_neg (by simp [hcom])]
    cases hp : d.project with
    | none => rfl
    | some x =>
      obtain ⟨q, m'⟩ := x
      dsimp only
      split
      · next hbad =>
        exfalso
        obtain ⟨rfl, h1, h2⟩ := hbad
        cases m' with
        | none => exact h2 rfl
        | some m' =>
          have e' := belongs_name h hd (.inr hp)
          obtain ⟨_, rfl⟩ := hc _ _ q m' q hd (.inr hp) (List.prefix_refl _) e'
          exact h1 rfl
      · rfl

theorem external_iff {p : Path} {cwd : Option Path} : external p cwd = true ↔ Elsewhere p cwd := by
  cases cwd with
  | none => simp [external, Elsewhere]
  | some c =>
    simp only [external, Elsewhere, Option.some.injEq, Bool.not_eq_true', exists_eq_left']
    rw [Bool.eq_false_iff, Ne, isPrefixOf_iff]
    constructor
    · intro h rel e; exact h ⟨rel, e.symm⟩
    · rintro h ⟨rel, e⟩; exact h rel e.symm

theorem parent_dir {s : Store} (h : InPlace name s) {p : Path} {m : Text} {i : Parent} (hi : NearestAbove s p m i.dir i.root i.subdir) :
    i.dir = name i.root m := by
  obtain ⟨⟨d, hd, hp⟩, _⟩ := hi
  exact belongs_name h hd (.inr hp)

theorem searchParent_spec {s : Store} (h : InPlace name s) {p : Path} {m : Text} (hc : NoClash name s p m) (cwd : Option Path) :
    (searchParent name s p m cwd = none ∧ Chosen s cwd p m p none) ∨
    ∃ i : Parent, searchParent name s p m cwd = some i ∧ Chosen s cwd p m i.root (some i.subdir) ∧ NearestAbove s p m i.dir i.root i.subdir := by
  unfold searchParent
  by_cases hi : indexExists name s p m = true
  · rw [if_pos hi]
    exact .inl ⟨rfl, .own ((indexExists_iff h hc).1 hi)⟩
  · rw [if_neg hi]
    have hi' : ¬ HasIndex s p m := fun h' => hi ((indexExists_iff h hc).2 h')
    by_cases he : external p cwd = true
    · rw [if_pos he]
      exact .inl ⟨rfl, .elsewhere hi' (external_iff.1 he)⟩
    · rw [if_neg he]
      rcases findParent_best s p m with ⟨e, hn⟩ | ⟨i, e, hn⟩
      · rw [e]; exact .inl ⟨rfl, .new hi' hn⟩
      · rw [e]; exact .inr ⟨i, rfl, .above _ _ _ hi' (fun h' => he (external_iff.2 h')) hn, hn⟩

theorem chosen_prefix {s : Store} {cwd : Option Path} {p : Path} {m : Text} {root : Path} {sub : Option Path} (h : Chosen s cwd p m root sub) :
    root <+: p := by
  cases h with
  | above dir q rel _ _ hn => exact ⟨rel, hn.2.1.1.symm⟩
  | _ => exact List.prefix_refl _

theorem update_holds {s : Store} (h : InPlace name s) {root p : Path} {m : Text} (hr : root <+: p) (hc : NoClash name s p m) {o : Outcome} {d : Dir}
    (hl : look (name root m) (update name s root m o) = some d) (hcom : d.complete = true) : d.holds = some (root, m) := by
  unfold update at hl
  rw [look_put] at hl
  simp only [Option.some.injEq] at hl
  subst hl
  cases o with
  | busy =>
    simp only [updated] at hcom ⊢
    cases hs : look (name root m) s with
    | none => rw [hs] at hcom; cases hcom
    | some d =>
      rw [hs] at hcom
      simp only [Option.getD_some] at hcom ⊢
      have hd := look_mem hs
      have hne := (h.2 _ _ hd).2.2 hcom
      cases hh : d.holds with
      | none => exact absurd hh hne
      | some x =>
        obtain ⟨q, m'⟩ := x
        obtain ⟨rfl, rfl⟩ := hc _ _ q m' root hd (.inl hh) hr (belongs_name h hd (.inl hh))
        rfl
  | done a b => rfl
  | killed b => rfl

theorem stay {s : Store} (h : InPlace name s) {root p : Path} {m : Text} (hr : root <+: p) (hc : NoClash name s p m) {o : Outcome} {n : Text} {d : Dir}
    (hd : (n, d) ∈ s) {q : Path} {m' : Text} (hh : BelongsTo d q m') (hne : ¬ (m' = m ∧ q <+: p)) : (n, d) ∈ update name s root m o := by
  unfold update
  refine (mem_put_ne ?_).2 hd
  intro e
  have := belongs_name h hd hh
  obtain ⟨rfl, rfl⟩ := hc _ _ q m' root hd hh hr (e.symm.trans this)
  exact hne ⟨rfl, hr⟩

end NextPlaid.Places
