import Verif.Model.Include
import Verif.Spec.Include
import Verif.Proofs.Globs3

namespace NextPlaid.Globs

open NextPlaid.Spec

theorem splitAlts_text (a : List Char) (h1 : '{' ∉ a) (h2 : ',' ∉ a) : ∀ cur rest, splitAlts 0 cur (a ++ rest) = splitAlts 0 (cur ++ a) rest := by
  induction a with
  | nil => intro cur rest; simp
  | cons c a ih =>
    intro cur rest
    have hc1 : c ≠ '{' := fun h => h1 (by simp [h])
    have hc2 : c ≠ ',' := fun h => h2 (by simp [h])
    rw [List.cons_append, splitAlts, if_neg hc1, if_neg (fun h => hc2 h.1), ih (fun h => h1 (by simp [h])) (fun h => h2 (by simp [h]))]
    simp

theorem splitAlts_join (alts : List (List Char)) (h : ∀ a ∈ alts, '{' ∉ a ∧ '}' ∉ a ∧ ',' ∉ a) (hne : alts ≠ []) :
    splitAlts 0 [] (alts.intersperse [',']).flatten = (alts.dropLast, alts.getLast hne) := by
  induction alts with
  | nil => exact absurd rfl hne
  | cons a alts ih =>
    obtain ⟨h1, _, h2⟩ := h a (by simp)
    cases alts with
    | nil =>
      have := splitAlts_text a h1 h2 [] []
      simpa [splitAlts] using this
    | cons b alts =>
      have := ih (fun x hx => h x (by simp [hx])) (by simp)
      rw [List.intersperse_cons_cons, List.flatten_cons, List.flatten_cons, splitAlts_text a h1 h2, List.singleton_append, splitAlts, if_neg (by decide),
        if_pos ⟨rfl, rfl⟩, this]
      simp

theorem join_last (alts : List (List Char)) (h : alts.getLast? = some []) (h2 : alts ≠ [[]]) :
    (alts.intersperse [',']).flatten.getLast? = some ',' := by
  induction alts with
  | nil => simp at h
  | cons a alts ih =>
    cases alts with
    | nil => simp at h; exact absurd (by simp [h]) h2
    | cons b alts =>
      rw [List.intersperse_cons_cons, List.flatten_cons, List.flatten_cons]
      by_cases hb : (b :: alts) = [[]]
      · simp [hb]
      · have := ih (by simpa using h) hb
        rw [List.getLast?_append, List.getLast?_append, this]
        rfl

theorem altsOf_join (alts : List (List Char)) (hne : alts ≠ []) (h0 : alts ≠ [[]]) (h : ∀ a ∈ alts, '{' ∉ a ∧ '}' ∉ a ∧ ',' ∉ a) :
    altsOf (alts.intersperse [',']).flatten = alts := by
  unfold altsOf
  rw [splitAlts_join alts h hne]
  simp only
  rw [if_pos, List.dropLast_append_getLast]
  by_cases hl : alts.getLast hne = []
  · right
    apply join_last alts _ h0
    rw [List.getLast?_eq_some_getLast hne, hl]
  · exact .inl hl

theorem join_closed (alts : List (List Char)) (h : ∀ a ∈ alts, '{' ∉ a ∧ '}' ∉ a ∧ ',' ∉ a) : '}' ∉ (alts.intersperse [',']).flatten := by
  induction alts with
  | nil => simp
  | cons a alts ih =>
    cases alts with
    | nil => simpa using (h a (by simp)).2.1
    | cons b alts =>
      rw [List.intersperse_cons_cons, List.flatten_cons, List.flatten_cons]
      simp only [List.mem_append, not_or]
      exact ⟨(h a (by simp)).2.1, by decide, ih (fun x hx => h x (by simp [hx]))⟩

theorem takeWhile_stop {α : Type} {p : α → Bool} (u : List α) (c : α) (v : List α) (hu : ∀ x ∈ u, p x = true) (hc : p c = false) :
    (u ++ c :: v).takeWhile p = u ∧ (u ++ c :: v).dropWhile p = c :: v := by
  induction u with
  | nil => simp [hc]
  | cons d u ih =>
    have := ih (fun x hx => hu x (by simp [hx]))
    simp [hu d (by simp), this.1, this.2]

/-- The braces of a pattern are expanded to all choices, in order. -/
theorem expandN_choices : ∀ (segs : List Seg), (∀ s ∈ segs, s.Ok) → ∀ (pre : List Char) (n : Nat), '{' ∉ pre → '}' ∉ pre →
    (written segs).count '}' < n → expandN n (pre ++ written segs) = (choices segs).map (pre ++ ·) := by
  intro segs
  induction segs with
  | nil =>
    intro _ pre n h1 _ hn
    obtain ⟨n, rfl⟩ : ∃ m, n = m + 1 := ⟨n - 1, by omega⟩
    simp [written, choices, expandN, h1]
  | cons s segs ih =>
    intro hs pre n h1 h2 hn
    have ih' := ih (fun x hx => hs x (by simp [hx]))
    have hw : written (s :: segs) = s.render ++ written segs := by simp [written]
    cases s with
    | text t =>
      obtain ⟨ht1, ht2⟩ : '{' ∉ t ∧ '}' ∉ t := hs (.text t) (by simp)
      rw [hw, Seg.render, ← List.append_assoc, ih' (pre ++ t) n (by simp [h1, ht1]) (by simp [h2, ht2])]
      · simp [choices, List.map_map, Function.comp_def]
      · rw [hw] at hn; simp [Seg.render] at hn; omega
    | group alts =>
      obtain ⟨ha1, ha2, ha3⟩ : alts ≠ [] ∧ alts ≠ [[]] ∧ ∀ a ∈ alts, '{' ∉ a ∧ '}' ∉ a ∧ ',' ∉ a := hs (.group alts) (by simp)
      obtain ⟨n, rfl⟩ : ∃ m, n = m + 1 := ⟨n - 1, by omega⟩
      have hn' : (written segs).count '}' < n := by
        rw [hw] at hn
        simp only [Seg.render, List.count_append, List.count_cons, List.cons_append] at hn
        simp at hn
        omega
      obtain ⟨j, hj⟩ : ∃ j, j = (alts.intersperse [',']).flatten := ⟨_, rfl⟩
      have hjc : '}' ∉ j := hj ▸ join_closed alts ha3
      have hp : pre ++ written (.group alts :: segs) = pre ++ '{' :: (j ++ '}' :: written segs) := by
        rw [hw, Seg.render, ← hj]; simp
      have t1 := takeWhile_stop (p := fun c => decide (c ≠ '{')) pre '{' (j ++ '}' :: written segs)
        (fun x hx => by simp; exact fun h => h1 (h ▸ hx)) (by simp)
      have t2 := takeWhile_stop (p := fun c => decide (c ≠ '}')) j '}' (written segs)
        (fun x hx => by simp; exact fun h => hjc (h ▸ hx)) (by simp)
      rw [hp, expandN, if_neg (by simp), t1.1, t1.2, if_neg (by simp)]
      simp only [List.tail_cons]
      rw [t2.1, t2.2, List.tail_cons, hj, altsOf_join alts ha1 ha2 ha3]
      simp only [choices, List.map_flatMap, List.map_map]
      apply List.flatMap_congr
      intro a ha
      obtain ⟨hb1, hb2, _⟩ := ha3 a ha
      rw [ih' (pre ++ a) n (by simp [h1, hb1]) (by simp [h2, hb2]) hn']
      simp [Function.comp_def]

theorem expandBraces_choices (segs : List Seg) (h : ∀ s ∈ segs, s.Ok) : expandBraces (written segs) = choices segs := by
  have := expandN_choices segs h [] ((written segs).count '}' + 1) (by simp) (by simp) (by omega)
  simpa [expandBraces] using this

theorem splitAlts_chars : ∀ (cs : List Char) (depth : Nat) (cur : List Char) (c : Char), c ∉ cur → c ∉ cs →
    (∀ a ∈ (splitAlts depth cur cs).1, c ∉ a) ∧ c ∉ (splitAlts depth cur cs).2 := by
  intro cs
  induction cs with
  | nil => intro depth cur c h1 _; simp [splitAlts, h1]
  | cons d cs ih =>
    intro depth cur c h1 h2
    have hd : c ≠ d := fun h => h2 (by simp [h])
    have hcs : c ∉ cs := fun h => h2 (by simp [h])
    rw [splitAlts]
    split
    · exact ih _ _ c (by simp [h1, hd]) hcs
    · split
      · obtain ⟨h3, h4⟩ := ih depth [] c (by simp) hcs
        exact ⟨by simpa [h1] using h3, h4⟩
      · exact ih _ _ c (by simp [h1, hd]) hcs

theorem altsOf_chars (cs : List Char) (c : Char) (h : c ∉ cs) : ∀ a ∈ altsOf cs, c ∉ a := by
  obtain ⟨h1, h2⟩ := splitAlts_chars cs 0 [] c (by simp) h
  intro a ha
  simp only [altsOf] at ha
  split at ha
  · rcases List.mem_append.mp ha with ha | ha
    · exact h1 a ha
    · rw [List.mem_singleton.mp ha]; exact h2
  · exact h1 a ha

/-- The bound on the recursion does not matter. -/
theorem expandN_enough : ∀ (n m : Nat) (p : List Char), p.count '}' < n → p.count '}' < m → expandN n p = expandN m p := by
  intro n
  induction n with
  | zero => intro m p h; omega
  | succ n ih =>
    intro m p h1 h2
    obtain ⟨m, rfl⟩ : ∃ k, m = k + 1 := ⟨m - 1, by omega⟩
    rw [expandN, expandN]
    split
    · rfl
    split
    · rfl
    rename_i hopen hclose
    apply List.flatMap_congr
    intro a ha
    obtain ⟨u, v, hp, hu⟩ := List.eq_append_cons_of_mem (by simpa using hopen : '{' ∈ p)
    have t1 := takeWhile_stop (p := fun c => decide (c ≠ '{')) u '{' v (fun x hx => by simp; exact fun h => hu (h ▸ hx)) (by simp)
    rw [← hp] at t1
    rw [t1.2] at hclose ha
    rw [t1.1, t1.2]
    obtain ⟨j, w, hv, hj⟩ := List.eq_append_cons_of_mem (by simpa using hclose : '}' ∈ v)
    have t2 := takeWhile_stop (p := fun c => decide (c ≠ '}')) j '}' w (fun x hx => by simp; exact fun h => hj (h ▸ hx)) (by simp)
    rw [← hv] at t2
    simp only [List.tail_cons] at ha ⊢
    rw [t2.1] at ha
    rw [t2.2, List.tail_cons]
    have hca := List.count_eq_zero.mpr (altsOf_chars _ '}' hj a ha)
    have hcount : p.count '}' = (u ++ a ++ w).count '}' + 1 := by
      rw [hp, hv]
      simp only [List.count_append, List.count_cons, hca, List.count_eq_zero.mpr hj]
      simp; omega
    exact ih m _ (by omega) (by omega)

end NextPlaid.Globs
