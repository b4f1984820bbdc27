import Verif.Proofs.Include
import Mathlib.Data.List.Induction

namespace NextPlaid.Globs

open NextPlaid.Spec

theorem mem_cuts (rest : List Char) : ∀ (s : List Char), rest ∈ cuts s ↔ ∃ dir, s = dir ++ '/' :: rest := by
  intro s
  induction s with
  | nil => simp [cuts]
  | cons c cs ih =>
    have hcut : (∃ dir, c :: cs = dir ++ '/' :: rest) ↔ (c = '/' ∧ rest = cs) ∨ ∃ dir, cs = dir ++ '/' :: rest := by
      constructor
      · rintro ⟨dir, h⟩
        cases dir with
        | nil => simp at h; exact .inl ⟨h.1, h.2.symm⟩
        | cons d dir => simp at h; exact .inr ⟨dir, h.2⟩
      · rintro (⟨rfl, rfl⟩ | ⟨dir, rfl⟩)
        · exact ⟨[], rfl⟩
        · exact ⟨c :: dir, rfl⟩
    rw [hcut, cuts]
    split
    · rename_i h; simp [h, ih]
    · rename_i h; simp [h, ih]

theorem mem_endsOf (s rest : List Char) : rest ∈ endsOf s ↔ EndOf rest s := by
  simp only [endsOf, List.mem_cons, mem_cuts, EndOf]

/-- A described text is matched. -/
theorem describes_globset (p : List Char) : (tokens p).IsChain (fun a b => b = .dirs → a = .lit '/') →
    ((tokens p).head? ≠ some .dirs → ∀ s, Describes (tokens p) s → globset p s = true) ∧
    ((tokens p).head? = some .dirs → ∀ s, Describes (tokens p) s → globset ('/' :: p) ('/' :: s) = true) := by
  fun_induction tokens p with
  | case1 cs ih =>
    intro hc
    refine ⟨by simp, fun _ s hs => ?_⟩
    have hhead : (tokens cs).head? ≠ some .dirs := by
      cases ht : tokens cs with
      | nil => simp
      | cons t ts =>
        rw [ht] at hc
        intro h
        simp at h
        subst h
        have := (List.isChain_cons_cons.mp hc).1 rfl
        simp at this
    have ih1 := (ih hc.of_cons).1 hhead
    simp only [globset, List.any_eq_true]
    rcases hs with hs | ⟨u, s', rfl, hs⟩
    · exact ⟨s, (mem_endsOf _ _).mpr (.inl rfl), ih1 s hs⟩
    · exact ⟨s', (mem_endsOf _ _).mpr (.inr ⟨u, rfl⟩), ih1 s' hs⟩
  | case2 cs hcs ih =>
    intro hc
    refine ⟨fun _ s hs => ?_, by simp⟩
    have hhead : (tokens cs).head? ≠ some .dirs := by
      cases ht : tokens cs with
      | nil => simp
      | cons t ts =>
        rw [ht] at hc
        intro h
        simp at h
        subst h
        have := (List.isChain_cons_cons.mp hc).1 rfl
        simp at this
    obtain ⟨u, s', rfl, hs⟩ := hs
    have := (ih hc.of_cons).1 hhead s' hs
    rw [globset, List.any_eq_true]
    · refine ⟨s', by simp, ?_⟩
      rw [globset, List.any_eq_true]
      exact ⟨s', by simp, this⟩
  | case3 cs h1 h2 ih =>
    intro hc
    refine ⟨fun _ s hs => ?_, by simp⟩
    have hhead : (tokens cs).head? ≠ some .dirs := by
      cases ht : tokens cs with
      | nil => simp
      | cons t ts =>
        rw [ht] at hc
        intro h
        simp at h
        subst h
        have := (List.isChain_cons_cons.mp hc).1 rfl
        simp at this
    obtain ⟨u, s', rfl, _, hs⟩ := hs
    rw [globset, List.any_eq_true]
    exact ⟨s', by simp, (ih hc.of_cons).1 hhead s' hs⟩
  | case4 cs ih =>
    intro hc
    refine ⟨fun _ s hs => ?_, by simp⟩
    have hhead : (tokens cs).head? ≠ some .dirs := by
      cases ht : tokens cs with
      | nil => simp
      | cons t ts =>
        rw [ht] at hc
        intro h
        simp at h
        subst h
        have := (List.isChain_cons_cons.mp hc).1 rfl
        simp at this
    obtain ⟨c, s', rfl, _, hs⟩ := hs
    rw [globset]
    exact (ih hc.of_cons).1 hhead s' hs
  | case5 c cs h1 h2 h3 h4 ih =>
    intro hc
    refine ⟨fun _ s hs => ?_, by simp⟩
    obtain ⟨s', rfl, hs⟩ := hs
    have ih' := ih hc.of_cons
    by_cases hd : (tokens cs).head? = some .dirs
    · cases ht : tokens cs with
      | nil => rw [ht] at hd; simp at hd
      | cons t ts =>
        rw [ht] at hc hd
        simp at hd
        subst hd
        have := (List.isChain_cons_cons.mp hc).1 rfl
        simp at this
        subst this
        exact ih'.2 (by rw [ht]; rfl) s' hs
    · have hg := ih'.1 hd s' hs
      by_cases hr : c = '/' ∧ cs = ['*', '*']
      · obtain ⟨rfl, rfl⟩ := hr; simp [globset]
      · rw [globset]
        · simp [hg]
        · intro ha hb; exact hr ⟨ha, hb⟩
        · intro p' h; subst h
          intro hcs; subst hcs
          exact hd (by simp [tokens])
        · exact h3
        · exact h4
  | case6 => intro _; exact ⟨fun _ s hs => by simp [Describes] at hs; simp [globset, hs], by simp⟩

theorem globset_lit (c : Char) (q : List Char) (h1 : ¬ (c = '/' ∧ q = ['*', '*'])) (h2 : ∀ p, ¬ (c = '/' ∧ q = '*' :: '*' :: '/' :: p)) (h3 : c ≠ '*')
    (h4 : c ≠ '?') : (∀ d t, globset (c :: q) (d :: t) = (decide (c = d) && globset q t)) ∧ globset (c :: q) [] = false := by
  constructor
  · intro d t
    rw [globset]
    · exact fun a b => h1 ⟨a, b⟩
    · exact fun p a b => h2 p ⟨a, b⟩
    · exact h3
    · exact h4
  · rw [globset]
    · exact fun a b => h1 ⟨a, b⟩
    · exact fun p a b => h2 p ⟨a, b⟩
    · exact h3
    · exact h4

theorem globset_plain (q : List Char) (hq : Plain q) : ∀ s, globset q s = true ↔ s = q := by
  induction q with
  | nil => intro s; simp [globset]
  | cons c q ih =>
    intro s
    have hc := hq c (by simp)
    simp only [List.mem_cons, List.not_mem_nil, or_false, not_or] at hc
    have ih' := ih (fun d hd => hq d (by simp [hd]))
    have hstar : '*' ∉ q := fun h => absurd (hq '*' (by simp [h])) (by decide)
    have e := globset_lit c q (fun h => hstar (by rw [h.2]; simp)) (fun p h => hstar (by rw [h.2]; simp)) hc.1 hc.2.1
    cases s with
    | nil => simp [e.2]
    | cons d t =>
      simp only [e.1, Bool.and_eq_true, decide_eq_true_eq, ih', List.cons.injEq]
      exact ⟨fun h => ⟨h.1.symm, h.2⟩, fun h => ⟨h.1.symm, h.2⟩⟩

/-- Literal text before a component `**/`. -/
theorem globset_below (d q : List Char) (hd : Plain d) : ∀ s, globset (d ++ '/' :: '*' :: '*' :: '/' :: q) s = true ↔
    ∃ t rest, s = d ++ '/' :: t ∧ EndOf rest t ∧ globset q rest = true := by
  induction d with
  | nil =>
    intro s
    rw [List.nil_append]
    cases s with
    | nil => simp [globset]
    | cons e t =>
      by_cases he : e = '/'
      · subst he
        simp only [globset, List.any_eq_true, mem_endsOf]
        constructor
        · rintro ⟨r, h1, h2⟩; exact ⟨t, r, rfl, h1, h2⟩
        · rintro ⟨t', r, h0, h1, h2⟩; simp at h0; subst h0; exact ⟨r, h1, h2⟩
      · constructor
        · intro h
          rw [globset] at h
          · simp at h
          · intro t' ht; simp at ht; exact absurd ht.1 he
        · rintro ⟨t', r, h0, _⟩; simp at h0; exact absurd h0.1 he
  | cons c d ih =>
    intro s
    have hc := hd c (by simp)
    simp only [List.mem_cons, List.not_mem_nil, or_false, not_or] at hc
    have ih' := ih (fun e he => hd e (by simp [he]))
    have hstar : '*' ∉ d := fun h => absurd (hd '*' (by simp [h])) (by decide)
    have e := globset_lit c (d ++ '/' :: '*' :: '*' :: '/' :: q) (by
        rintro ⟨_, h⟩
        cases d with
        | nil => simp at h
        | cons d0 d => simp at h; exact hstar (by simp [h.1]))
      (by
        rintro p ⟨_, h⟩
        cases d with
        | nil => simp at h
        | cons d0 d => simp at h; exact hstar (by simp [h.1])) hc.1 hc.2.1
    rw [List.cons_append]
    cases s with
    | nil => simp [e.2]
    | cons x t =>
      simp only [e.1, Bool.and_eq_true, decide_eq_true_eq, ih']
      constructor
      · rintro ⟨rfl, t', r, rfl, h⟩; exact ⟨t', r, rfl, h⟩
      · rintro ⟨t', r, h0, h⟩; simp at h0; exact ⟨h0.1.symm, t', r, h0.2, h⟩

theorem globset_star (q s : List Char) (hq : Plain q) : globset ('*' :: q) s = true ↔ ∃ u, s = u ++ q := by
  rw [globset, List.any_eq_true]
  constructor
  · rintro ⟨t, h1, h2⟩
    obtain ⟨u, hu⟩ := (List.mem_tails _ _).mp h1
    rw [(globset_plain q hq t).mp h2] at hu
    exact ⟨u, hu.symm⟩
  · rintro ⟨u, rfl⟩
    exact ⟨q, (List.mem_tails _ _).mpr ⟨u, rfl⟩, (globset_plain q hq q).mpr rfl⟩

theorem describes_append (a : List Char) (ts : List Tok) (s : List Char) :
    Describes (a.map .lit ++ ts) s ↔ ∃ t, s = a ++ t ∧ Describes ts t := by
  induction a generalizing s with
  | nil => simp
  | cons c a ih =>
    simp only [List.map_cons, List.cons_append, Describes, ih]
    constructor
    · rintro ⟨_, rfl, t, rfl, h⟩; exact ⟨t, rfl, h⟩
    · rintro ⟨t, rfl, h⟩; exact ⟨_, rfl, t, rfl, h⟩

theorem tokens_append (a p : List Char) (h1 : '*' ∉ a) (h2 : '?' ∉ a) : tokens (a ++ p) = a.map .lit ++ tokens p := by
  induction a with
  | nil => rfl
  | cons c a ih =>
    have hc1 : c ≠ '*' := fun h => h1 (by simp [h])
    have hc2 : c ≠ '?' := fun h => h2 (by simp [h])
    rw [List.cons_append, tokens, ih (fun h => h1 (by simp [h])) (fun h => h2 (by simp [h]))]
    · rfl
    all_goals simp_all

theorem plain_not {a : List Char} (h : Plain a) : '*' ∉ a ∧ '?' ∉ a :=
  ⟨fun hm => absurd (h _ hm) (by decide), fun hm => absurd (h _ hm) (by decide)⟩

theorem tokens_star (s : List Char) (h : Plain s) : tokens ('*' :: s) = .run :: s.map .lit := by
  obtain ⟨h1, h2⟩ := plain_not h
  rw [tokens, tokens_literal s h1 h2]
  · intro cs hcs; subst hcs; simp at h1
  · intro cs hcs; subst hcs; simp at h1

theorem describes_lit (s t : List Char) : Describes (s.map .lit) t ↔ t = s := by
  have := describes_append s [] t
  simpa [Describes] using this

/-- A last component that ends with `s`. -/
theorem last_component (s rest : List Char) (hs : '/' ∉ s) :
    (∃ r, EndOf r rest ∧ ∃ u, r = u ++ s) ↔ ∃ r, EndOf r rest ∧ Describes (.run :: s.map .lit) r := by
  constructor
  · rintro ⟨r, hr, u, rfl⟩
    obtain ⟨w, x, hw, hx⟩ : ∃ w x, u = w ++ x ∧ '/' ∉ x ∧ (w = [] ∨ w.getLast? = some '/') := by
      clear hr
      induction u using List.reverseRecOn with
      | nil => exact ⟨[], [], rfl, by simp, .inl rfl⟩
      | append_singleton u c ih =>
        by_cases hc : c = '/'
        · exact ⟨u ++ [c], [], by simp, by simp, .inr (by simp [hc])⟩
        · obtain ⟨w, x, rfl, h1, h2⟩ := ih
          exact ⟨w, x ++ [c], by simp, by simpa [h1] using fun h => hc h.symm, h2⟩
    refine ⟨x ++ s, endOf_trans ((endOf_iff _ _).mpr ⟨w, by simp [hw], hx.2⟩) hr, x, s, rfl, hx.1, (describes_lit s s).mpr rfl⟩
  · rintro ⟨r, hr, u, s', rfl, _, h⟩
    rw [describes_lit] at h
    exact ⟨_, hr, u, by rw [h]⟩

/-- The usual patterns: matching from the start or after a `/` is what they describe. -/
theorem usual_iff {p : List Char} (h : Usual p) (path : List Char) :
    (∃ rest, EndOf rest path ∧ globset p rest = true) ↔ ∃ rest, EndOf rest path ∧ Describes (tokens p) rest := by
  cases h with
  | name s h =>
    obtain ⟨h1, h2⟩ := plain_not h
    simp only [globset_plain p h, tokens_literal p h1 h2, describes_lit]
  | ext s h hs =>
    simp only [globset_star s _ h, tokens_star s h]
    exact last_component s path hs
  | below d s hd h =>
    obtain ⟨h1, h2⟩ := plain_not hd
    obtain ⟨h3, h4⟩ := plain_not h
    have ht : tokens (d ++ '/' :: '*' :: '*' :: '/' :: s) = (d ++ ['/']).map .lit ++ (.dirs :: s.map .lit) := by
      have := tokens_append (d ++ ['/']) ('*' :: '*' :: '/' :: s) (by simp [h1]) (by simp [h2])
      rw [List.append_assoc, List.singleton_append] at this
      rw [this, tokens, tokens_literal s h3 h4]
    simp only [globset_below d s hd, globset_plain s h, ht, describes_append, Describes, describes_lit]
    constructor
    · rintro ⟨rest, hr, t, x, rfl, h5, rfl⟩
      refine ⟨_, hr, t, by simp, ?_⟩
      rcases h5 with rfl | ⟨u, rfl⟩
      · exact .inl rfl
      · exact .inr ⟨u, x, rfl, rfl⟩
    · rintro ⟨rest, hr, t, rfl, h5⟩
      refine ⟨_, hr, t, s, by simp, ?_, rfl⟩
      rcases h5 with rfl | ⟨u, x, rfl, rfl⟩
      · exact .inl rfl
      · exact .inr ⟨u, rfl⟩
  | belowExt d s hd h hs =>
    obtain ⟨h1, h2⟩ := plain_not hd
    have ht : tokens (d ++ '/' :: '*' :: '*' :: '/' :: '*' :: s) = (d ++ ['/']).map .lit ++ (.dirs :: .run :: s.map .lit) := by
      have := tokens_append (d ++ ['/']) ('*' :: '*' :: '/' :: '*' :: s) (by simp [h1]) (by simp [h2])
      rw [List.append_assoc, List.singleton_append] at this
      rw [this, tokens, tokens_star s h]
    simp only [globset_below d _ hd, globset_star s _ h, ht, describes_append]
    have key : ∀ t, (∃ r, EndOf r t ∧ ∃ u, r = u ++ s) ↔ Describes (.dirs :: .run :: s.map .lit) t := by
      intro t
      rw [last_component s t hs]
      constructor
      · rintro ⟨r, rfl | ⟨u, rfl⟩, h⟩
        · exact .inl h
        · exact .inr ⟨u, r, rfl, h⟩
      · rintro (h | ⟨u, r, rfl, h⟩)
        · exact ⟨t, .inl rfl, h⟩
        · exact ⟨r, .inr ⟨u, rfl⟩, h⟩
    constructor
    · rintro ⟨rest, hr, t, x, rfl, h5, u, rfl⟩
      exact ⟨_, hr, t, by simp, (key t).mp ⟨_, h5, u, rfl⟩⟩
    · rintro ⟨rest, hr, t, rfl, h5⟩
      obtain ⟨r, h6, u, rfl⟩ := (key t).mpr h5
      exact ⟨_, hr, t, u ++ s, by simp, h6, u, rfl⟩

theorem selects_other {p path : List Char} (h : ¬ ['/'] <+: p) : Selects p path ↔ ∃ rest, EndOf rest path ∧ Describes (tokens p) rest := by
  unfold Selects
  split
  · exact absurd (by simp) h
  · rfl

theorem endOf_dirs' (ts : List Tok) (dir : List Char) :
    (∃ rest, EndOf rest dir ∧ Describes (.dirs :: ts) rest) ↔ ∃ rest, EndOf rest dir ∧ Describes ts rest := by
  constructor
  · rintro ⟨rest, h1, h2 | ⟨u, s', rfl, h2⟩⟩
    · exact ⟨rest, h1, h2⟩
    · exact ⟨s', endOf_trans (.inr ⟨u, rfl⟩) h1, h2⟩
  · rintro ⟨rest, h1, h2⟩; exact ⟨rest, h1, .inl h2⟩

theorem includes_iff {p path : List Char} (h : ¬ ['/'] <+: p) :
    includes p path = true ↔ ∃ rest, EndOf rest path ∧ globset (withoutDirs p) rest = true := by
  have h' : ['/'].isPrefixOf p = false := by rw [Bool.eq_false_iff]; exact fun hp => h (List.isPrefixOf_iff_prefix.mp hp)
  simp only [includes, h', withoutDirs, anyDir, List.isPrefixOf_iff_prefix]
  by_cases hd : ['*', '*', '/'] <+: p
  · simp [hd, List.any_eq_true, mem_endsOf]
  · simp [hd, List.any_eq_true, mem_endsOf]

theorem selects_iff {p path : List Char} (h : ¬ ['/'] <+: p) :
    Selects p path ↔ ∃ rest, EndOf rest path ∧ Describes (tokens (withoutDirs p)) rest := by
  rw [selects_other h, withoutDirs]
  split
  · rename_i hd
    obtain ⟨q, rfl⟩ := hd
    exact endOf_dirs' (tokens q) path
  · rfl

end NextPlaid.Globs
