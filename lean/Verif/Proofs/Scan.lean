import Mathlib.Tactic.Tauto
import Mathlib.Tactic.Push
import Verif.Spec.Scan

/-! The choice of the files to index. -/

namespace NextPlaid.Scan
open NextPlaid.Spec

/-! ### Patterns -/

theorem fits_iff (pat : List Char) (n : Name) : fits pat n = true ↔ FitsName pat n := by
  unfold fits FitsName Starred
  split
  · next suf => simp [List.isSuffixOf_iff_suffix]
  · next h => 
    have : ¬ ∃ suf, pat = '*' :: suf := fun ⟨s, e⟩ => h s e
    simp only [beq_iff_eq]
    constructor
    · intro e; exact Or.inr ⟨this, e⟩
    · rintro (⟨s, e, _⟩ | ⟨_, e⟩)
      · exact absurd ⟨s, e⟩ this
      · exact e

theorem fitsPath_iff (pat path : List Char) : fitsPath pat path = true ↔ FitsPath pat path := by
  unfold fitsPath FitsPath Starred
  split
  · next suf => simp [List.isSuffixOf_iff_suffix]
  · next h =>
    have : ¬ ∃ suf, pat = '*' :: suf := fun ⟨s, e⟩ => h s e
    simp only [Bool.or_eq_true, beq_iff_eq, List.isPrefixOf_iff_prefix]
    constructor
    · intro e; exact Or.inr ⟨this, e⟩
    · rintro (⟨s, e, _⟩ | ⟨_, e⟩)
      · exact absurd ⟨s, e⟩ this
      · exact e

theorem any_fits (l : List (List Char)) (n : Name) : l.any (fits · n) = true ↔ ∃ pat ∈ l, FitsName pat n := by
  rw [List.any_eq_true]
  exact ⟨fun ⟨p, h, e⟩ => ⟨p, h, (fits_iff p n).mp e⟩, fun ⟨p, h, e⟩ => ⟨p, h, (fits_iff p n).mpr e⟩⟩

theorem hidden_iff (n : Name) : (n.head? == some '.' && !allowedHidden.contains n) = true ↔ HiddenName n := by
  unfold HiddenName
  rw [Bool.and_eq_true]
  apply and_congr
  · cases n with
    | nil => simp
    | cons c n => simp
  · have h : allowedHidden.contains n = true ↔ ∃ s ∈ shownNames, n = s.toList := by
      simp only [List.contains_iff_mem, allowedHidden, shownNames, List.mem_map, List.mem_cons, List.not_mem_nil, or_false]
      constructor
      · rintro ⟨s, hs, rfl⟩
        exact ⟨s, by tauto, rfl⟩
      · rintro ⟨s, hs, rfl⟩
        exact ⟨s, by tauto, rfl⟩
    rw [Bool.not_eq_true', ← Bool.not_eq_true, h]
    push Not
    rfl

set_option maxRecDepth 10000 in
theorem builtin_iff (n : Name) : HiddenName n ∨ (∃ pat ∈ ignoredDirs, FitsName pat n) ↔ HiddenName n ∨ ∃ s ∈ builtinNames, FitsName s.toList n := by
  have h1 : ∀ pat ∈ ignoredDirs, (∃ s ∈ builtinNames, pat = s.toList) ∨ (pat.head? = some '.' ∧ ∀ s ∈ shownNames, pat ≠ s.toList) := by decide +kernel
  have h2 : ∀ s ∈ builtinNames, s.toList ∈ ignoredDirs := by decide +kernel
  constructor
  · rintro (h | ⟨pat, hp, hf⟩)
    · exact Or.inl h
    · rcases h1 pat hp with ⟨s, hs, rfl⟩ | ⟨hd, hv⟩
      · exact Or.inr ⟨s, hs, hf⟩
      · obtain ⟨r, hr⟩ : ∃ r, pat = '.' :: r := by
          cases pat with
          | nil => cases hd
          | cons c r =>
            have : c = '.' := by simpa using hd
            exact ⟨r, by rw [this]⟩
        rcases hf with ⟨suf, e, _⟩ | ⟨_, e⟩
        · rw [hr] at e; cases e
        · subst e
          exact Or.inl ⟨⟨r, hr⟩, hv⟩
  · rintro (h | ⟨s, hs, hf⟩)
    · exact Or.inl h
    · exact Or.inr ⟨_, h2 s hs, hf⟩

theorem barred_iff (extra force : List (List Char)) (n : Name) :
    barred extra force n = true ↔ IgnoredName extra n ∧ ¬ ∃ pat ∈ force, FitsName pat n := by
  unfold barred IgnoredName
  rw [← or_assoc, ← builtin_iff, or_assoc]
  by_cases hf : force.any (fits · n) = true
  · rw [if_pos hf]
    have := (any_fits force n).mp hf
    simp [this]
  · rw [if_neg hf]
    have hf' : ¬ ∃ pat ∈ force, FitsName pat n := fun h => hf ((any_fits force n).mpr h)
    by_cases hh : (n.head? == some '.' && !allowedHidden.contains n) = true
    · rw [if_pos hh]
      simp only [true_iff]
      exact ⟨Or.inl ((hidden_iff n).mp hh), hf'⟩
    · rw [if_neg hh]
      have hh' : ¬ HiddenName n := fun h => hh ((hidden_iff n).mpr h)
      by_cases hi : ignoredDirs.any (fits · n) = true
      · rw [if_pos hi]
        simp only [true_iff]
        exact ⟨Or.inr (Or.inl ((any_fits _ n).mp hi)), hf'⟩
      · rw [if_neg hi, any_fits]
        have hi' : ¬ ∃ pat ∈ ignoredDirs, FitsName pat n := fun h => hi ((any_fits _ n).mpr h)
        constructor
        · intro h; exact ⟨Or.inr (Or.inr h), hf'⟩
        · rintro ⟨h | h | h, _⟩
          · exact absurd h hh'
          · exact absurd h hi'
          · exact h

theorem shouldIgnore_iff (extra force : List (List Char)) (str : List Char) (names : List Name) :
    shouldIgnore extra force str names = true ↔ (¬ ∃ pat ∈ force, FitsPath pat str) ∧
      ∃ n ∈ names, IgnoredName extra n ∧ ¬ ∃ pat ∈ force, FitsName pat n := by
  unfold shouldIgnore
  have h : force.any (fitsPath · str) = true ↔ ∃ pat ∈ force, FitsPath pat str := by
    rw [List.any_eq_true]
    exact ⟨fun ⟨p, h, e⟩ => ⟨p, h, (fitsPath_iff p _).mp e⟩, fun ⟨p, h, e⟩ => ⟨p, h, (fitsPath_iff p _).mpr e⟩⟩
  by_cases hf : force.any (fitsPath · str) = true
  · rw [if_pos hf]
    simp only [Bool.false_eq_true, false_iff, not_and]
    intro hn
    exact absurd (h.mp hf) hn
  · rw [if_neg hf, List.any_eq_true]
    constructor
    · rintro ⟨n, hn, hb⟩
      exact ⟨fun e => hf (h.mpr e), n, hn, (barred_iff extra force n).mp hb⟩
    · rintro ⟨_, n, hn, hb⟩
      exact ⟨n, hn, (barred_iff extra force n).mpr hb⟩

theorem ignore_iff (extra force : List (List Char)) (q : List Name) :
    shouldIgnore extra force (pathStr q) q = true ↔ IgnoredPath extra force q := shouldIgnore_iff _ _ _ _

theorem keep_iff (u : Rules) (q : List Name) (b : Bool) : u.keep q b = true ↔ u.git q b = false ∧ ¬ IgnoredPath u.extra u.force q := by
  unfold Rules.keep
  rw [Bool.and_eq_true, Bool.not_eq_true', Bool.not_eq_true', ← ignore_iff, Bool.not_eq_true]

/-! ### Languages -/

theorem ofList_eq {e : List Char} {s : String} (h : String.ofList e = s) : e = s.toList := by rw [← h]; simp

theorem byExtension_of {x : String × Language} (h : x ∈ extensions) : byExtension x.1.toList = some x.2 := by
  revert x h
  decide

theorem of_byExtension {e : List Char} {l : Language} (h : byExtension e = some l) : ∃ s, (s, l) ∈ extensions ∧ e = s.toList := by
  refine ⟨String.ofList e, ?_, by simp⟩
  revert h
  unfold byExtension
  generalize String.ofList e = s
  intro h
  split at h <;> first | (cases h; decide) | cases h

theorem byName_of {x : String × Language} (h : x ∈ namedFiles) : byName x.1.toList = some x.2 := by
  revert x h
  decide

theorem of_byName {e : List Char} {l : Language} (h : byName e = some l) : ∃ s, (s, l) ∈ namedFiles ∧ e = s.toList := by
  refine ⟨String.ofList e, ?_, by simp⟩
  revert h
  unfold byName
  generalize String.ofList e = s
  intro h
  split at h <;> first | (cases h; decide) | cases h

theorem mem_takeWhile {α : Type} {p : α → Bool} {a : α} : ∀ {l : List α}, a ∈ l.takeWhile p → p a = true
  | [], h => by cases h
  | b :: l, h => by
    rw [List.takeWhile_cons] at h
    split at h
    · next hb =>
      rcases List.mem_cons.mp h with h | h
      · rw [h]; exact hb
      · exact mem_takeWhile h
    · cases h

theorem head_dropWhile {α : Type} {p : α → Bool} {a : α} {r : List α} : ∀ {l : List α}, l.dropWhile p = a :: r → p a = false
  | [], h => by cases h
  | b :: l, h => by
    rw [List.dropWhile_cons] at h
    split at h
    · exact head_dropWhile h
    · next hb =>
      cases h
      simpa using hb

theorem extension_iff (n : Name) (e : List Char) : extension n = some e ↔ ∃ stem, stem ≠ [] ∧ '.' ∉ e ∧ n = stem ++ '.' :: e := by
  unfold extension
  have hsplit := List.takeWhile_append_dropWhile (p := fun c : Char => decide (c ≠ '.')) (l := n.reverse)
  generalize hd : n.reverse.dropWhile (fun c => decide (c ≠ '.')) = d at *
  generalize ht : n.reverse.takeWhile (fun c => decide (c ≠ '.')) = t at *
  have hnt : '.' ∉ t := by
    intro hm
    rw [← ht] at hm
    have := mem_takeWhile hm
    simp at this
  have hhead : ∀ c r, d = c :: r → c = '.' := by
    intro c r e
    have := head_dropWhile (hd.trans e)
    simpa using this
  have huniq : ∀ stem, '.' ∉ e → n = stem ++ '.' :: e → t = e.reverse ∧ d = '.' :: stem.reverse := by
    intro stem he hn
    have h1 : n.reverse = e.reverse ++ '.' :: stem.reverse := by rw [hn]; simp
    have hp : ∀ c ∈ e.reverse, decide (c ≠ '.') = true := by
      intro c hc
      have : c ≠ '.' := fun h => he (by rw [← h]; simpa using hc)
      simp [this]
    constructor
    · rw [← ht, h1, List.takeWhile_append_of_pos hp]
      simp
    · rw [← hd, h1, List.dropWhile_append_of_pos hp]
      simp
  match d, hhead with
  | [], _ =>
    simp only [reduceCtorEq, false_iff]
    rintro ⟨stem, _, he, hn⟩
    have := (huniq stem he hn).2
    simp at this
  | [c], _ =>
    simp only [reduceCtorEq, false_iff]
    rintro ⟨stem, hs, he, hn⟩
    have := (huniq stem he hn).2
    simp only [List.cons.injEq] at this
    exact hs (by have := this.2; simpa using this.symm)
  | c :: c' :: r, hhead =>
    simp only [Option.some.injEq]
    constructor
    · intro h
      refine ⟨(c' :: r).reverse, by simp, ?_, ?_⟩
      · rw [← h]; simpa using hnt
      · have hc := hhead c (c' :: r) rfl
        have h2 : n = (t ++ c :: c' :: r).reverse := by rw [hsplit]; simp
        rw [h2, hc, ← h]
        simp
    · rintro ⟨stem, _, he, hn⟩
      rw [(huniq stem he hn).1]
      simp

theorem detect_iff (low : List Char → List Char) (n : Name) (l : Language) : detect low n = some l ↔ HasLanguage low n l := by
  unfold detect HasLanguage
  cases hb : byName (low n) with
  | some l' =>
    simp only [Option.some.injEq]
    obtain ⟨s, hs, he⟩ := of_byName hb
    constructor
    · intro e
      subst e
      exact Or.inl ⟨s, hs, he⟩
    · rintro (⟨s', hs', he'⟩ | ⟨h, _⟩)
      · have := byName_of hs'
        simp only at this
        rw [← he', hb] at this
        exact Option.some.inj this
      · exact absurd he (h s l' hs)
  | none =>
    have hno : ∀ s l', (s, l') ∈ namedFiles → low n ≠ s.toList := by
      intro s l' hs e
      have := byName_of hs
      simp only at this
      rw [← e, hb] at this
      cases this
    simp only [Option.bind_eq_some_iff]
    constructor
    · rintro ⟨e, he, hl⟩
      obtain ⟨stem, h1, h2, h3⟩ := (extension_iff n e).mp he
      obtain ⟨s, hs, hse⟩ := of_byExtension hl
      exact Or.inr ⟨hno, stem, e, s, h1, h2, h3, hs, hse⟩
    · rintro (⟨s, hs, he⟩ | ⟨_, stem, e, s, h1, h2, h3, hs, hse⟩)
      · exact absurd he (hno s l hs)
      · exact ⟨e, (extension_iff n e).mpr ⟨stem, h1, h2, h3⟩, by rw [hse]; exact byExtension_of hs⟩

/-! ### The walk -/

theorem fileAt_isDir {t : Tree} {p : List Name} {size : Nat} (h : FileAt t p size) : t.isDir = decide (p ≠ []) := by
  cases h <;> rfl

/-- The entries on the way to `p`. -/
def WayKept (keep : List Name → Bool → Bool) (pre p : List Name) : Prop :=
  ∀ q, q ≠ [] → q <+: p → keep (pre ++ q) (decide (q ≠ p)) = true

theorem wayKept_cons (keep : List Name → Bool → Bool) (pre : List Name) (n : Name) (p : List Name) :
    WayKept keep pre (n :: p) ↔ keep (pre ++ [n]) (decide (p ≠ [])) = true ∧ WayKept keep (pre ++ [n]) p := by
  unfold WayKept
  constructor
  · intro h
    refine ⟨?_, fun q hq hp => ?_⟩
    · have := h [n] (by simp) (by simp)
      have e : decide ([n] ≠ n :: p) = decide (p ≠ []) := by
        apply decide_eq_decide.mpr
        simp only [ne_eq, List.cons.injEq, true_and]
        exact not_congr eq_comm
      rw [e] at this
      exact this
    · have := h (n :: q) (by simp) ((List.prefix_cons_inj n).mpr hp)
      have e : decide (n :: q ≠ n :: p) = decide (q ≠ p) := by simp
      rw [e] at this
      simpa using this
  · rintro ⟨h1, h2⟩ q hq hp
    cases q with
    | nil => exact absurd rfl hq
    | cons m q =>
      obtain ⟨e1, hp'⟩ := List.cons_prefix_cons.mp hp
      subst e1
      have e : decide (m :: q ≠ m :: p) = decide (q ≠ p) := by simp
      rw [e]
      by_cases hq' : q = []
      · subst hq'
        have e2 : decide (([] : List Name) ≠ p) = decide (p ≠ []) := decide_eq_decide.mpr (not_congr eq_comm)
        rw [e2]
        exact h1
      · have := h2 q hq' hp'
        simpa using this

mutual
theorem mem_walk (keep : List Name → Bool → Bool) : ∀ (t : Tree) (pre q : List Name) (size : Nat), (q, size) ∈ walk keep pre t ↔
    ∃ p, q = pre ++ p ∧ FileAt t p size ∧ WayKept keep pre p
  | .file n, pre, q, size => by
    simp only [walk, List.mem_singleton, Prod.mk.injEq]
    constructor
    · rintro ⟨rfl, rfl⟩
      refine ⟨[], by simp, .here, fun r hr hp => absurd (List.prefix_nil.mp hp) hr⟩
    · rintro ⟨p, hq, hf, _⟩
      cases hf
      exact ⟨by simpa using hq, rfl⟩
  | .link _ _, pre, q, size => by
    simp only [walk, List.not_mem_nil, false_iff]
    rintro ⟨p, _, hf, _⟩
    cases hf
  | .dir es, pre, q, size => by
    rw [walk, mem_walkAll keep es pre q size]
    constructor
    · rintro ⟨n, t, p, h1, h2, h3, h4, h5⟩
      refine ⟨n :: p, h2, .under h1 h4, (wayKept_cons keep pre n p).mpr ⟨?_, h5⟩⟩
      rw [← fileAt_isDir h4]
      exact h3
    · rintro ⟨p, hq, hf, hk⟩
      cases hf with
      | @under es n t p size hm hf =>
        obtain ⟨h1, h2⟩ := (wayKept_cons keep pre n p).mp hk
        rw [← fileAt_isDir hf] at h1
        exact ⟨n, t, p, hm, hq, h1, hf, h2⟩
theorem mem_walkAll (keep : List Name → Bool → Bool) : ∀ (es : List (Name × Tree)) (pre q : List Name) (size : Nat),
    (q, size) ∈ walkAll keep pre es ↔ ∃ n t p, (n, t) ∈ es ∧ q = pre ++ n :: p ∧ keep (pre ++ [n]) t.isDir = true ∧ FileAt t p size ∧
      WayKept keep (pre ++ [n]) p
  | [], pre, q, size => by simp [walkAll]
  | (n, t) :: es, pre, q, size => by
    rw [walkAll, List.mem_append, mem_walkAll keep es pre q size]
    constructor
    · rintro (h | ⟨m, t', p, h1, h2⟩)
      · split at h
        · next hk =>
          obtain ⟨p, h1, h2, h3⟩ := (mem_walk keep t (pre ++ [n]) q size).mp h
          exact ⟨n, t, p, by simp, by rw [h1]; simp, hk, h2, h3⟩
        · cases h
      · exact ⟨m, t', p, by simp [h1], h2⟩
    · rintro ⟨m, t', p, h1, h2, h3, h4, h5⟩
      rcases List.mem_cons.mp h1 with h1 | h1
      · simp only [Prod.mk.injEq] at h1
        obtain ⟨rfl, rfl⟩ := h1
        left
        rw [if_pos h3]
        exact (mem_walk keep t' (pre ++ [m]) q size).mpr ⟨p, by rw [h2]; simp, h4, h5⟩
      · exact Or.inr ⟨m, t', p, h1, h2, h3, h4, h5⟩
end

theorem distinct_dir {es : List (Name × Tree)} (h : Distinct (.dir es)) : (es.map (·.1)).Nodup ∧ ∀ e ∈ es, Distinct e.2 := by
  cases h with | dir h1 h2 => exact ⟨h1, h2⟩

mutual
theorem walk_nodup (keep : List Name → Bool → Bool) : ∀ (t : Tree) (pre : List Name), Distinct t → ((walk keep pre t).map (·.1)).Nodup
  | .file n, pre, _ => by simp [walk]
  | .link _ _, pre, _ => by simp [walk]
  | .dir es, pre, h => by
    rw [walk]
    exact walkAll_nodup keep es pre (distinct_dir h).1 (distinct_dir h).2
theorem walkAll_nodup (keep : List Name → Bool → Bool) : ∀ (es : List (Name × Tree)) (pre : List Name), (es.map (·.1)).Nodup →
    (∀ e ∈ es, Distinct e.2) → ((walkAll keep pre es).map (·.1)).Nodup
  | [], pre, _, _ => by simp [walkAll]
  | (n, t) :: es, pre, h, hd => by
    rw [List.map_cons, List.nodup_cons] at h
    rw [walkAll, List.map_append, List.nodup_append]
    refine ⟨?_, walkAll_nodup keep es pre h.2 (fun e he => hd e (by simp [he])), ?_⟩
    · split
      · exact walk_nodup keep t (pre ++ [n]) (hd (n, t) (by simp))
      · simp
    · intro a ha b hb e
      subst e
      obtain ⟨⟨a', s⟩, ha', rfl⟩ := List.mem_map.mp ha
      obtain ⟨⟨b', s'⟩, hb', e⟩ := List.mem_map.mp hb
      simp only at e
      subst e
      obtain ⟨m, t', p, h1, h2, _⟩ := (mem_walkAll keep es pre b' s').mp hb'
      split at ha'
      · obtain ⟨p', h3, _⟩ := (mem_walk keep t (pre ++ [n]) b' s).mp ha'
        rw [h2, List.append_assoc] at h3
        have := List.append_cancel_left h3
        simp only [List.cons_append, List.nil_append, List.cons.injEq] at this
        exact h.1 (List.mem_map.mpr ⟨(m, t'), h1, this.1⟩)
      · cases ha'
end

/-! ### Paths -/

theorem find_distinct {es : List (Name × Tree)} (h : (es.map (·.1)).Nodup) {n : Name} {t : Tree} (hm : (n, t) ∈ es) :
    es.find? (fun e => decide (e.1 = n)) = some (n, t) := by
  induction es with
  | nil => cases hm
  | cons e es ih =>
    rw [List.map_cons, List.nodup_cons] at h
    rcases List.mem_cons.mp hm with hm | hm
    · subst hm
      simp
    · have : e.1 ≠ n := fun e' => h.1 (List.mem_map.mpr ⟨(n, t), hm, e'.symm⟩)
      rw [List.find?_cons, decide_eq_false this]
      exact ih h.2 hm

theorem get_append : ∀ (p q : List Name) (t : Tree), t.get (p ++ q) = (t.get p).bind fun s => s.get q
  | [], q, t => by simp [Tree.get]
  | n :: p, q, .file _ => by simp [Tree.get]
  | n :: p, q, .link _ _ => by simp [Tree.get]
  | n :: p, q, .dir es => by
    simp only [List.cons_append, Tree.get]
    cases es.find? fun e => decide (e.1 = n) with
    | none => rfl
    | some e => exact get_append p q e.2

theorem fileAt_get {t : Tree} (hd : Distinct t) {p : List Name} {size : Nat} (h : FileAt t p size) : t.get p = some (.file size) := by
  induction h with
  | here => rfl
  | @under es n t p size hm _ ih =>
    obtain ⟨h1, h2⟩ := distinct_dir hd
    simp only [Tree.get, find_distinct h1 hm]
    exact ih (h2 _ hm)

theorem get_fileAt : ∀ (p : List Name) (t : Tree) (size : Nat), t.get p = some (.file size) → FileAt t p size
  | [], t, size, h => by
    simp only [Tree.get, Option.some.injEq] at h
    subst h
    exact .here
  | n :: p, .file _, size, h => by simp [Tree.get] at h
  | n :: p, .link _ _, size, h => by simp [Tree.get] at h
  | n :: p, .dir es, size, h => by
    simp only [Tree.get] at h
    cases hf : es.find? fun e => decide (e.1 = n) with
    | none => rw [hf] at h; cases h
    | some e =>
      rw [hf] at h
      have hm := List.mem_of_find?_eq_some hf
      have hn := List.find?_some hf
      simp only [decide_eq_true_eq] at hn
      subst hn
      exact .under hm (get_fileAt p e.2 size h)

/-- Every proper prefix of the way to something is a directory. -/
theorem get_prefix_dir : ∀ (p q : List Name) (t s : Tree), q ≠ [] → t.get (p ++ q) = some s → ∃ es, t.get p = some (.dir es)
  | p, q, t, s, hq, h => by
    rw [get_append] at h
    cases hp : t.get p with
    | none => rw [hp] at h; cases h
    | some u =>
      rw [hp] at h
      cases q with
      | nil => exact absurd rfl hq
      | cons n q =>
        cases u with
        | dir es => exact ⟨es, rfl⟩
        | file _ => simp [Tree.get] at h
        | link _ _ => simp [Tree.get] at h

theorem resolve_nil (fs : Tree) (f : Nat) (cur : List Name) : resolve fs f cur [] = some cur := by cases f <;> rfl

theorem resolve_up (fs : Tree) (f : Nat) (cur : List Name) (r : List Comp) : resolve fs f cur (.up :: r) =
    match fs.get cur with
    | some (.dir _) => resolve fs f cur.dropLast r
    | _ => none := by
  cases f <;> rfl

theorem resolve_name (fs : Tree) (f : Nat) (cur : List Name) (n : Name) (r : List Comp) : resolve fs f cur (.name n :: r) =
    match fs.get (cur ++ [n]) with
    | none => none
    | some (.link abs to) =>
      match f with
      | 0 => none
      | f + 1 => resolve fs f (if abs then [] else cur) (to ++ r)
    | some _ => resolve fs f (cur ++ [n]) r := by
  cases f <;> rfl

theorem resolve_ind (fs : Tree) {motive : Nat → List Name → List Comp → Prop}
    (case1 : ∀ f cur, motive f cur [])
    (case2 : ∀ f cur r es, fs.get cur = some (.dir es) → motive f cur.dropLast r → motive f cur (.up :: r))
    (case3 : ∀ f cur r, (∀ es, fs.get cur = some (.dir es) → False) → motive f cur (.up :: r))
    (case4 : ∀ f cur n r, fs.get (cur ++ [n]) = none → motive f cur (.name n :: r))
    (case5 : ∀ cur n r abs to, fs.get (cur ++ [n]) = some (.link abs to) → motive 0 cur (.name n :: r))
    (case6 : ∀ cur n r abs to, fs.get (cur ++ [n]) = some (.link abs to) → ∀ f, motive f (if abs then [] else cur) (to ++ r) →
      motive (f + 1) cur (.name n :: r))
    (case7 : ∀ f cur n r s, (∀ abs to, s = .link abs to → False) → fs.get (cur ++ [n]) = some s → motive f (cur ++ [n]) r →
      motive f cur (.name n :: r)) :
    ∀ f cur a, motive f cur a := by
  intro f
  induction f with
  | zero =>
    intro cur a
    induction a generalizing cur with
    | nil => exact case1 0 cur
    | cons c r ih =>
      cases c with
      | up =>
        cases hg : fs.get cur with
        | none => exact case3 _ _ _ (fun es e => by rw [hg] at e; cases e)
        | some s =>
          cases s with
          | dir es => exact case2 _ _ _ es hg (ih _)
          | file _ => exact case3 _ _ _ (fun es e => by rw [hg] at e; cases e)
          | link _ _ => exact case3 _ _ _ (fun es e => by rw [hg] at e; cases e)
      | name n =>
        cases hg : fs.get (cur ++ [n]) with
        | none => exact case4 _ _ _ _ hg
        | some s =>
          cases s with
          | dir es => exact case7 _ _ _ _ _ (by intro a b e; cases e) hg (ih _)
          | file _ => exact case7 _ _ _ _ _ (by intro a b e; cases e) hg (ih _)
          | link _ _ => exact case5 _ _ _ _ _ hg
  | succ f ihf =>
    intro cur a
    induction a generalizing cur with
    | nil => exact case1 _ cur
    | cons c r ih =>
      cases c with
      | up =>
        cases hg : fs.get cur with
        | none => exact case3 _ _ _ (fun es e => by rw [hg] at e; cases e)
        | some s =>
          cases s with
          | dir es => exact case2 _ _ _ es hg (ih _)
          | file _ => exact case3 _ _ _ (fun es e => by rw [hg] at e; cases e)
          | link _ _ => exact case3 _ _ _ (fun es e => by rw [hg] at e; cases e)
      | name n =>
        cases hg : fs.get (cur ++ [n]) with
        | none => exact case4 _ _ _ _ hg
        | some s =>
          cases s with
          | dir es => exact case7 _ _ _ _ _ (by intro a b e; cases e) hg (ih _)
          | file _ => exact case7 _ _ _ _ _ (by intro a b e; cases e) hg (ih _)
          | link _ _ => exact case6 _ _ _ _ _ hg f (ihf _ _)

theorem resolve_plain (fs : Tree) : ∀ (p : List Name) (f : Nat) (cur : List Name), (∀ q, q ≠ [] → q <+: p → ∃ s, fs.get (cur ++ q) = some s ∧ ∀ a to, s ≠ .link a to) →
    resolve fs f cur (p.map .name) = some (cur ++ p)
  | [], f, cur, _ => by rw [List.map_nil, resolve_nil]; simp
  | n :: p, f, cur, h => by
    obtain ⟨s, hs, hl⟩ := h [n] (by simp) (by simp)
    have ih := resolve_plain fs p f (cur ++ [n]) (fun q hq hp => by
      obtain ⟨s, h1, h2⟩ := h (n :: q) (by simp) ((List.prefix_cons_inj n).mpr hp)
      exact ⟨s, by simpa using h1, h2⟩)
    rw [List.map_cons, resolve_name, hs]
    cases s with
    | link a to => exact absurd rfl (hl a to)
    | file _ => simp only; rw [ih]; simp
    | dir _ => simp only; rw [ih]; simp

theorem resolve_append (fs : Tree) (b : List Comp) : ∀ (f : Nat) (cur : List Name) (a : List Comp) (q : List Name),
    resolve fs f cur (a ++ b) = some q → ∃ f' m, resolve fs f cur a = some m ∧ resolve fs f' m b = some q := by
  intro f cur a
  induction f, cur, a using resolve_ind fs with
  | case1 f cur =>
    intro q h
    exact ⟨f, cur, by rw [resolve_nil], h⟩
  | case2 f cur r es hg ih =>
    intro q h
    rw [List.cons_append, resolve_up, hg] at h
    rw [resolve_up, hg]
    exact ih q h
  | case3 f cur r hg =>
    intro q h
    rw [List.cons_append, resolve_up] at h
    split at h
    · next es he => exact absurd he (hg es)
    · cases h
  | case4 f cur n r hg =>
    intro q h
    rw [List.cons_append, resolve_name, hg] at h
    cases h
  | case5 cur n r abs to hg =>
    intro q h
    rw [List.cons_append, resolve_name, hg] at h
    cases h
  | case6 cur n r abs to hg f ih =>
    intro q h
    rw [List.cons_append, resolve_name, hg] at h
    simp only at h
    rw [← List.append_assoc] at h
    obtain ⟨f', m, h1, h2⟩ := ih q h
    refine ⟨f', m, ?_, h2⟩
    rw [resolve_name, hg]
    exact h1
  | case7 f cur n r s hl hg ih =>
    intro q h
    rw [List.cons_append, resolve_name, hg] at h
    cases s with
    | link a to => exact absurd rfl (hl a to)
    | file _ =>
      obtain ⟨f', m, h1, h2⟩ := ih q h
      exact ⟨f', m, by rw [resolve_name, hg]; exact h1, h2⟩
    | dir _ =>
      obtain ⟨f', m, h1, h2⟩ := ih q h
      exact ⟨f', m, by rw [resolve_name, hg]; exact h1, h2⟩

theorem resolve_then (fs : Tree) (b : List Comp) : ∀ (f : Nat) (cur : List Name) (a : List Comp) (m q : List Name),
    resolve fs f cur a = some m → (∀ f', resolve fs f' m b = some q) → resolve fs f cur (a ++ b) = some q := by
  intro f cur a
  induction f, cur, a using resolve_ind fs with
  | case1 f cur =>
    intro m q h hb
    rw [resolve_nil] at h
    cases h
    exact hb f
  | case2 f cur r es hg ih =>
    intro m q h hb
    rw [resolve_up, hg] at h
    rw [List.cons_append, resolve_up, hg]
    exact ih m q h hb
  | case3 f cur r hg =>
    intro m q h hb
    rw [resolve_up] at h
    split at h
    · next es he => exact absurd he (hg es)
    · cases h
  | case4 f cur n r hg =>
    intro m q h hb
    rw [resolve_name, hg] at h
    cases h
  | case5 cur n r abs to hg =>
    intro m q h hb
    rw [resolve_name, hg] at h
    cases h
  | case6 cur n r abs to hg f ih =>
    intro m q h hb
    rw [resolve_name, hg] at h
    rw [List.cons_append, resolve_name, hg]
    simp only at h ⊢
    rw [← List.append_assoc]
    exact ih m q h hb
  | case7 f cur n r s hl hg ih =>
    intro m q h hb
    rw [resolve_name, hg] at h
    rw [List.cons_append, resolve_name, hg]
    cases s with
    | link a to => exact absurd rfl (hl a to)
    | file _ => exact ih m q h hb
    | dir _ => exact ih m q h hb

/-- A file of the project is where its path says. -/
theorem resolve_file {fs : Tree} {root : List Comp} {r : List Name} {t : Tree} (hr : resolve fs maxLinks [] root = some r) (ht : fs.get r = some t)
    (hd : Distinct t) {p : List Name} {size : Nat} (h : FileAt t p size) : resolve fs maxLinks [] (root ++ p.map .name) = some (r ++ p) := by
  have hg := fileAt_get hd h
  refine resolve_then fs _ _ _ _ _ _ hr (fun f' => resolve_plain fs p f' r (fun q hq hp => ?_))
  obtain ⟨q', rfl⟩ := hp
  rw [get_append, ht]
  simp only [Option.bind_some]
  by_cases hq' : q' = []
  · subst hq'
    rw [List.append_nil] at hg
    exact ⟨_, hg, by simp⟩
  · obtain ⟨es, he⟩ := get_prefix_dir q q' t _ hq' hg
    exact ⟨_, he, by simp⟩

theorem within_file {fs : Tree} {root : List Comp} {r : List Name} {t : Tree} (hr : resolve fs maxLinks [] root = some r) (ht : fs.get r = some t)
    (hd : Distinct t) {p : List Name} {size : Nat} (h : FileAt t p size) : within fs root (relative p) = true := by
  have e : (relative p).full root = root ++ p.map .name := by unfold Arg.full relative; simp
  unfold within
  split
  · rfl
  · rw [e, resolve_file hr ht hd h]
    simp only [hr]
    rw [List.isPrefixOf_iff_prefix]
    exact List.prefix_append _ _

/-! ### The scan -/

theorem wayOpen_iff (u : Rules) (p : List Name) : WayKept u.keep [] p ↔ WayOpen u p := by
  unfold WayKept WayOpen
  constructor
  · intro h q hq hp
    have := h q hq hp
    rw [List.nil_append] at this
    exact (keep_iff u q _).mp this
  · intro h q hq hp
    rw [List.nil_append]
    exact (keep_iff u q _).mpr (h q hq hp)

theorem mem_walk_root (u : Rules) (t : Tree) (p : List Name) (size : Nat) : (p, size) ∈ walk u.keep [] t ↔ FileAt t p size ∧ WayOpen u p := by
  rw [mem_walk]
  constructor
  · rintro ⟨q, h1, h2, h3⟩
    rw [List.nil_append] at h1
    subst h1
    exact ⟨h2, (wayOpen_iff u p).mp h3⟩
  · rintro ⟨h1, h2⟩
    exact ⟨p, rfl, h1, (wayOpen_iff u p).mpr h2⟩

section
variable {u : Rules} {fs : Tree} {root : List Comp} {r : List Name} {t : Tree}

theorem scan_eq (hr : resolve fs maxLinks [] root = some r) (ht : fs.get r = some t) : scan u fs root =
    (((walk u.keep [] t).filter fun e => verdict u fs root e == some true).map (·.1),
      ((walk u.keep [] t).filter fun e => verdict u fs root e == some false).length) := by
  unfold scan
  rw [hr]
  simp only [Option.bind_some, ht]

theorem verdict_true (hr : resolve fs maxLinks [] root = some r) (ht : fs.get r = some t) (hd : Distinct t) {p : List Name} {size : Nat}
    (h : FileAt t p size) : verdict u fs root (p, size) = some true ↔
      size ≤ 512 * 1024 ∧ ∃ n l, p.getLast? = some n ∧ HasLanguage u.low n l ∧ u.selected l = true := by
  unfold verdict
  simp only [within_file hr ht hd h]
  by_cases hs : maxFileSize < size
  · rw [if_pos hs]
    simp only [Option.some.injEq, Bool.false_eq_true, false_iff, not_and]
    intro h'
    exact absurd h' (by unfold maxFileSize at hs; omega)
  · rw [if_neg hs]
    have hs' : size ≤ 512 * 1024 := by unfold maxFileSize at hs; omega
    simp only [hs', true_and]
    cases hl : p.getLast? with
    | none => simp
    | some n =>
      simp only [Option.bind_some]
      cases hdt : detect u.low n with
      | none =>
        simp only [reduceCtorEq, false_iff]
        rintro ⟨n', l, h1, h2, _⟩
        cases h1
        rw [← detect_iff, hdt] at h2
        cases h2
      | some l =>
        constructor
        · intro h'
          refine ⟨n, l, rfl, (detect_iff u.low n l).mp hdt, ?_⟩
          by_cases hsel : u.selected l = true
          · exact hsel
          · simp only [hsel] at h'
            cases h'
        · rintro ⟨n', l', h1, h2, h3⟩
          cases h1
          rw [← detect_iff, hdt] at h2
          cases h2
          simp only [h3, if_true]

theorem verdict_false (hr : resolve fs maxLinks [] root = some r) (ht : fs.get r = some t) (hd : Distinct t) {p : List Name} {size : Nat}
    (h : FileAt t p size) : verdict u fs root (p, size) = some false ↔ 512 * 1024 < size := by
  unfold verdict
  simp only [within_file hr ht hd h]
  by_cases hs : maxFileSize < size
  · rw [if_pos hs]
    simp only [true_iff]
    unfold maxFileSize at hs
    exact hs
  · rw [if_neg hs]
    constructor
    · intro h'
      split at h'
      · cases h'
      · split at h' <;> cases h'
    · intro h'
      exact absurd h' (by unfold maxFileSize at hs; omega)

end

/-! ### Arguments -/

theorem hasDots_append : ∀ (a b : List Char), hasDots (a ++ '.' :: '.' :: b) = true
  | [], b => rfl
  | c :: a, b => by
    rw [List.cons_append]
    have ih := hasDots_append a b
    generalize a ++ '.' :: '.' :: b = s at ih ⊢
    unfold hasDots
    split
    · rfl
    · next heq =>
      cases heq
      exact ih
    · next heq => cases heq

theorem intercalate_up : ∀ (l : List Comp), Comp.up ∈ l → ∃ a b, List.intercalate ['/'] (l.map Comp.str) = a ++ '.' :: '.' :: b
  | [], h => by cases h
  | [c], h => by
    simp only [List.mem_singleton] at h
    subst h
    exact ⟨[], [], rfl⟩
  | c :: d :: l, h => by
    have e : List.intercalate ['/'] ((c :: d :: l).map Comp.str) = c.str ++ '/' :: List.intercalate ['/'] ((d :: l).map Comp.str) := by
      simp [List.intercalate, List.intersperse]
    rw [e]
    rcases List.mem_cons.mp h with h | h
    · subst h
      exact ⟨[], _, rfl⟩
    · obtain ⟨a, b, hab⟩ := intercalate_up (d :: l) h
      rw [hab]
      exact ⟨c.str ++ '/' :: a, b, by simp⟩

theorem up_hasDots {a : Arg} (h : Comp.up ∈ a.comps) : hasDots a.str = true := by
  obtain ⟨x, y, e⟩ := intercalate_up a.comps h
  unfold Arg.str
  rw [e, ← List.append_assoc]
  exact hasDots_append _ _

theorem noLinks_get : ∀ (p : List Name) (t s : Tree), NoLinks t → t.get p = some s → NoLinks s
  | [], t, s, h, e => by
    simp only [Tree.get, Option.some.injEq] at e
    subst e
    exact h
  | n :: p, .file _, s, h, e => by simp [Tree.get] at e
  | n :: p, .link _ _, s, h, e => by simp [Tree.get] at e
  | n :: p, .dir es, s, h, e => by
    simp only [Tree.get] at e
    cases hf : es.find? fun e => decide (e.1 = n) with
    | none => rw [hf] at e; cases e
    | some x =>
      rw [hf] at e
      cases h with
      | dir h => exact noLinks_get p x.2 s (h x (List.mem_of_find?_eq_some hf)) e

theorem names_of_no_up : ∀ (l : List Comp), Comp.up ∉ l → ∃ p : List Name, l = p.map .name
  | [], _ => ⟨[], rfl⟩
  | .up :: l, h => absurd (by simp) h
  | .name n :: l, h => by
    obtain ⟨p, hp⟩ := names_of_no_up l (fun e => h (by simp [e]))
    exact ⟨n :: p, by rw [hp]; rfl⟩

theorem resolve_no_links (fs : Tree) : ∀ (p : List Name) (f : Nat) (cur q : List Name), (∃ t, fs.get cur = some t ∧ NoLinks t) →
    resolve fs f cur (p.map .name) = some q → q = cur ++ p
  | [], f, cur, q, _, h => by
    rw [List.map_nil, resolve_nil] at h
    cases h
    simp
  | n :: p, f, cur, q, ⟨t, ht, hn⟩, h => by
    rw [List.map_cons, resolve_name] at h
    have hg : fs.get (cur ++ [n]) = t.get [n] := by rw [get_append, ht]; rfl
    cases hs : t.get [n] with
    | none =>
      rw [hs] at hg
      rw [hg] at h
      cases h
    | some s =>
      rw [hs] at hg
      have hns := noLinks_get [n] t s hn hs
      rw [hg] at h
      cases hns with
      | file =>
        have := resolve_no_links fs p f (cur ++ [n]) q ⟨_, hg, .file⟩ h
        rw [this]; simp
      | dir hl =>
        have := resolve_no_links fs p f (cur ++ [n]) q ⟨_, hg, .dir hl⟩ h
        rw [this]; simp

end NextPlaid.Scan
