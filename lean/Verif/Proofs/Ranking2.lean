import Verif.Proofs.Ranking
import Verif.Props.Fusion
import Mathlib.Data.List.TakeWhile
import Mathlib.Tactic.Positivity

/-! Lemmas for C55: the penalty, the boosts and the coherence of files. -/

namespace NextPlaid.Rank

open NextPlaid.Spec NextPlaid.Fusion

/-! ### Text -/

theorem containsText_iff (w : List Char) : ∀ q, containsText w q = true ↔ w <:+: q
  | [] => by simp [containsText]
  | c :: cs => by
    rw [containsText, Bool.or_eq_true, containsText_iff w cs, List.isPrefixOf_iff_prefix, List.infix_cons_iff]

theorem fileName_is (path : List Char) : IsFileName path (fileName path) := by
  have h := List.takeWhile_append_dropWhile (p := fun c : Char => decide (c ≠ '/')) (l := path.reverse)
  refine ⟨?_, ?_⟩
  · intro hm
    have := List.mem_takeWhile_imp (List.mem_reverse.mp hm)
    simp at this
  · have h' := congrArg List.reverse h
    rw [List.reverse_append, List.reverse_reverse] at h'
    cases hd : path.reverse.dropWhile (fun c : Char => decide (c ≠ '/')) with
    | nil => left; rw [hd] at h'; simpa [fileName] using h'.symm
    | cons c l =>
      right
      have hc : ¬ decide (c ≠ '/') = true := by
        have := List.head_dropWhile_not (fun c : Char => decide (c ≠ '/')) (l := path.reverse) (by rw [hd]; simp)
        simp only [hd, List.head_cons] at this
        simpa using this
      have hc : c = '/' := by simpa using hc
      refine ⟨l.reverse, ?_⟩
      rw [hd, hc] at h'
      simpa [fileName] using h'.symm

theorem fileName_unique {path a b : List Char} (ha : IsFileName path a) (hb : IsFileName path b) : a = b := by
  have key : ∀ (d a e b : List Char), '/' ∉ a → '/' ∉ b → d ++ '/' :: a = e ++ '/' :: b → a = b := by
    intro d a e b h1 h2 h
    have h := congrArg List.reverse h
    simp only [List.reverse_append, List.reverse_cons, List.append_assoc, List.singleton_append] at h
    have hx := congrArg (List.takeWhile (fun c : Char => decide (c ≠ '/'))) h
    have t : ∀ (x y : List Char), '/' ∉ x → List.takeWhile (fun c : Char => decide (c ≠ '/')) (x.reverse ++ '/' :: y) = x.reverse := by
      intro x y hx
      rw [List.takeWhile_append_of_pos]
      · simp
      · intro c hc
        simp only [ne_eq, decide_not, Bool.not_eq_eq_eq_not, Bool.not_true, decide_eq_false_iff_not]
        rintro rfl
        exact hx (List.mem_reverse.mp hc)
    rw [t a _ h1, t b _ h2] at hx
    exact List.reverse_injective hx
  obtain ⟨h1, h2⟩ := ha
  obtain ⟨h3, h4⟩ := hb
  rcases h2 with h2 | ⟨d, h2⟩ <;> rcases h4 with h4 | ⟨e, h4⟩
  · exact h2.symm.trans h4
  · exact absurd (show '/' ∈ a by rw [← h2, h4]; simp) h1
  · exact absurd (show '/' ∈ b by rw [← h4, h2]; simp) h3
  · exact key d a e b h1 h3 (h2.symm.trans h4)

theorem name_iff (path name : List Char) (hn : '/' ∉ name) : fileName path = name ↔ ('/' :: name) <:+ '/' :: path := by
  constructor
  · intro h
    obtain ⟨_, h2⟩ := fileName_is path
    rw [h] at h2
    rcases h2 with h2 | ⟨d, h2⟩
    · rw [h2]
    · exact ⟨'/' :: d, by rw [h2]; rfl⟩
  · rintro ⟨d, h⟩
    cases d with
    | nil =>
      simp only [List.nil_append, List.cons.injEq, true_and] at h
      exact fileName_unique (fileName_is path) ⟨hn, .inl h.symm⟩
    | cons c d =>
      simp only [List.cons_append, List.cons.injEq] at h
      exact fileName_unique (fileName_is path) ⟨hn, .inr ⟨d, h.2.symm⟩⟩

theorem barrel_iff (path : List Char) : barrels.contains (fileName path) = true ↔
    "/__init__.py".toList <:+ '/' :: path ∨ "/package-info.java".toList <:+ '/' :: path := by
  have h1 := name_iff path "__init__.py".toList (by decide)
  have h2 := name_iff path "package-info.java".toList (by decide)
  rw [show "/__init__.py".toList = '/' :: "__init__.py".toList by decide, show "/package-info.java".toList = '/' :: "package-info.java".toList by decide,
    ← h1, ← h2]
  simp only [barrels, List.contains_iff_mem, List.mem_cons, List.not_mem_nil, or_false]

/-- The part before the last dot. -/
theorem before_dot (name : List Char) : '.' ∈ name → ∃ ext, '.' ∉ ext ∧ name = (name.reverse.dropWhile (· ≠ '.')).tail.reverse ++ '.' :: ext := by
  intro hm
  have h := List.takeWhile_append_dropWhile (p := fun c : Char => decide (c ≠ '.')) (l := name.reverse)
  have h' := congrArg List.reverse h
  rw [List.reverse_append, List.reverse_reverse] at h'
  cases hd : name.reverse.dropWhile (fun c : Char => decide (c ≠ '.')) with
  | nil =>
    rw [List.dropWhile_eq_nil_iff] at hd
    have := hd '.' (List.mem_reverse.mpr hm)
    simp at this
  | cons c l =>
    have hc : c = '.' := by
      have := List.head_dropWhile_not (fun c : Char => decide (c ≠ '.')) (l := name.reverse) (by rw [hd]; simp)
      simp only [hd, List.head_cons] at this
      simpa using this
    refine ⟨(name.reverse.takeWhile fun c : Char => decide (c ≠ '.')).reverse, ?_, ?_⟩
    · intro hx
      have := List.mem_takeWhile_imp (List.mem_reverse.mp hx)
      simp at this
    · rw [hd, hc] at h'
      rw [List.tail_cons]
      simpa using h'.symm

theorem fileStem_is (path : List Char) (hn : fileName path ≠ ['.', '.']) : IsStem (fileName path) (fileStem path) := by
  unfold fileStem
  simp only [hn, false_or]
  generalize fileName path = name at hn
  split
  · next h =>
    right
    refine ⟨?_, rfl⟩
    intro s ext hs he
    obtain ⟨e, he1, he2⟩ := before_dot name (by rw [he]; simp)
    rw [h, List.nil_append] at he2
    rw [he2] at he
    cases s with
    | nil => exact hs rfl
    | cons c s =>
      simp only [List.cons_append, List.cons.injEq] at he
      exact he1 (by rw [he.2]; simp)
  · next h =>
    left
    refine ⟨h, ?_⟩
    by_cases hm : '.' ∈ name
    · exact before_dot name hm
    · exfalso
      apply h
      have : name.reverse.dropWhile (fun c : Char => decide (c ≠ '.')) = [] := by
        rw [List.dropWhile_eq_nil_iff]
        intro c hc
        simp only [ne_eq, decide_not, Bool.not_eq_eq_eq_not, Bool.not_true, decide_eq_false_iff_not]
        rintro rfl
        exact hm (List.mem_reverse.mp hc)
      rw [this]; rfl

section
variable {K : Type} [Field K] [LinearOrder K] [IsStrictOrderedRing K] (r : Rounding K) (g : Signals K)

omit [Field K] [LinearOrder K] [IsStrictOrderedRing K] in
theorem mem_variants (t v : List Char) : v ∈ variants g t ↔ Form g t v := by
  unfold variants Form
  by_cases hp : g.pluralSnake = true
  · simp only [hp, if_true, true_and, List.mem_cons, List.mem_append]
    have h1 : v ∈ (if t.filter (fun x => decide (x ≠ '_')) ≠ t then [t.filter fun x => decide (x ≠ '_')] else []) ∨ v = t ↔
        v = t.filter (fun x => decide (x ≠ '_')) ∨ v = t := by
      by_cases h : t.filter (fun x => decide (x ≠ '_')) = t
      · simp only [h, ne_eq, not_true_eq_false, if_false, List.not_mem_nil, false_or, or_self]
      · simp only [h, ne_eq, not_false_eq_true, if_true, List.mem_singleton]
    have h2 : v ∈ (if t.getLast? = some 's' ∧ 1 < t.length then [t.dropLast] else []) ↔ v ≠ [] ∧ t = v ++ ['s'] := by
      split
      · next h =>
        obtain ⟨h1, h2⟩ := h
        have ht : t = t.dropLast ++ ['s'] := (List.dropLast_append_getLast? 's' h1).symm
        simp only [List.mem_singleton]
        constructor
        · rintro rfl
          refine ⟨?_, ht⟩
          intro hnil
          rw [hnil] at ht
          rw [ht] at h2; simp at h2
        · rintro ⟨_, h3⟩
          rw [h3, List.dropLast_concat]
      · next h =>
        simp only [List.not_mem_nil, false_iff, not_and]
        rintro hv rfl
        apply h
        simpa using List.length_pos_iff.mpr hv
    rw [h2, ← or_assoc, ← or_assoc, or_comm (a := v = t), h1, or_comm (b := v = t)]
  · simp [hp]

omit [Field K] [LinearOrder K] [IsStrictOrderedRing K] in
theorem sameToken_iff (q t : List Char) : sameToken g q t = true ↔ SameWord g q t := by
  simp only [sameToken, List.any_eq_true, decide_eq_true_eq, mem_variants, SameWord]
  constructor
  · rintro ⟨v, h1, w, h2, rfl⟩; exact ⟨v, h2, h1⟩
  · rintro ⟨v, h1, h2⟩; exact ⟨v, h2, v, h1, rfl⟩

omit [Field K] [LinearOrder K] [IsStrictOrderedRing K] in
theorem prefixToken_iff (q t : List Char) : prefixToken g q t = true ↔ SameBeginning g q t := by
  simp only [prefixToken, List.any_eq_true, mem_variants, SameBeginning]
  constructor
  · rintro ⟨w, h1, v, h2, h3⟩
    refine ⟨v, w, h2, h1, ?_⟩
    split at h3
    · simp only [Bool.and_eq_true, decide_eq_true_eq, List.isPrefixOf_iff_prefix] at h3; exact .inr h3
    · simp only [Bool.and_eq_true, decide_eq_true_eq, List.isPrefixOf_iff_prefix] at h3; exact .inl h3
  · rintro ⟨v, w, h2, h1, h3⟩
    refine ⟨w, h1, v, h2, ?_⟩
    rcases h3 with ⟨h3, h4⟩ | ⟨h3, h4⟩
    · split
      · next h =>
        have : v = w := h4.eq_of_length_le h
        subst this
        simp [h3]
      · simp [h3, h4]
    · rw [if_pos h4.length_le]; simp [h3, h4]

/-! ### The penalty -/

theorem penalty_factors (file : List Char) :
    penalty r g file = (factors g (file.map fun c => if c = '\\' then '/' else c)).foldl (fun p x => r.rnd (p * x)) 1 := by
  simp only [penalty, factors, List.foldl_append]
  generalize (file.map fun c => if c = '\\' then '/' else c) = path
  have t : ∀ (b : Bool) (x p : K), times r b x p = List.foldl (fun p x => r.rnd (p * x)) p (if b then [x] else []) := by
    intro b x p; cases b <;> rfl
  rw [t, t, t, t, t]
  have h1 : (if barrels.contains (fileName path) = true then [g.moderate] else []) =
      if "/__init__.py".toList <:+ '/' :: path ∨ "/package-info.java".toList <:+ '/' :: path then [g.moderate] else [] := if_congr (barrel_iff path) rfl rfl
  have h2 : (if dts.isSuffixOf path = true then [g.mild] else []) = if ".d.ts".toList <:+ path then [g.mild] else [] :=
    if_congr (by rw [List.isSuffixOf_iff_suffix]; rfl) rfl rfl
  rw [h1, h2]

variable (hr : r.Lawful)
include hr

theorem factors_bounds (l : List K) (hl : ∀ x ∈ l, 0 ≤ x ∧ x ≤ 1) : ∀ p, 0 ≤ p → r.rnd p = p →
    0 ≤ l.foldl (fun p x => r.rnd (p * x)) p ∧ l.foldl (fun p x => r.rnd (p * x)) p ≤ p := by
  induction l with
  | nil => intro p h _; exact ⟨h, le_refl _⟩
  | cons x l ih =>
    intro p h0 h1
    obtain ⟨hx0, hx1⟩ := hl x (by simp)
    have a : r.rnd (p * x) ≤ p := by
      calc r.rnd (p * x) ≤ r.rnd p := hr.mono _ _ (mul_le_of_le_one_right h0 hx1)
        _ = p := h1
    have b : 0 ≤ r.rnd (p * x) := by
      rw [← hr.zero]; exact hr.mono _ _ (mul_nonneg h0 hx0)
    obtain ⟨c, d⟩ := ih (fun y hy => hl y (by simp [hy])) _ b (hr.idem _)
    exact ⟨c, d.trans a⟩

theorem penalty_bounds (h1 : 0 ≤ g.strong ∧ g.strong ≤ 1) (h2 : 0 ≤ g.moderate ∧ g.moderate ≤ 1) (h3 : 0 ≤ g.mild ∧ g.mild ≤ 1) (file : List Char) :
    0 ≤ penalty r g file ∧ penalty r g file ≤ 1 := by
  rw [penalty_factors]
  refine factors_bounds r hr _ ?_ 1 zero_le_one hr.one
  intro x hx
  simp only [factors, List.mem_append] at hx
  rcases hx with (((hx | hx) | hx) | hx) | hx <;> split at hx <;> simp only [List.mem_singleton, List.not_mem_nil] at hx <;> subst hx <;> assumption

/-! ### Scores that never fall -/

omit hr in
/-- Scores that are numbers of the format and not negative. -/
def Good (hits : List (Hit K)) : Prop := ∀ h ∈ hits, 0 ≤ h.score ∧ r.rnd h.score = h.score

omit hr in
/-- The same units with scores that are not lower. -/
def NotLower (hits hits' : List (Hit K)) : Prop :=
  ∀ (i : Nat) (h : Hit K), hits[i]? = some h → ∃ h' : Hit K, hits'[i]? = some h' ∧ h'.unit = h.unit ∧ h.score ≤ h'.score

omit hr in
theorem notLower_refl (hits : List (Hit K)) : NotLower hits hits := fun _ h hh => ⟨h, hh, rfl, le_refl _⟩

omit hr in
theorem notLower_trans {a b c : List (Hit K)} (h : NotLower a b) (h' : NotLower b c) : NotLower a c := by
  intro i x hx
  obtain ⟨y, h1, h2, h3⟩ := h i x hx
  obtain ⟨z, h4, h5, h6⟩ := h' i y h1
  exact ⟨z, h4, h5.trans h2, h3.trans h6⟩

theorem add_up {s d : K} (hs : 0 ≤ s) (he : r.rnd s = s) (hd : 0 ≤ d) : s ≤ r.rnd (s + d) ∧ 0 ≤ r.rnd (s + d) := by
  have : s ≤ r.rnd (s + d) := by
    calc s = r.rnd s := he.symm
      _ ≤ r.rnd (s + d) := hr.mono _ _ (le_add_of_nonneg_right hd)
  exact ⟨this, hs.trans this⟩

theorem rnd_nonneg {x : K} (h : 0 ≤ x) : 0 ≤ r.rnd x := by rw [← hr.zero]; exact hr.mono _ _ h

/-- A map that changes scores only by adding to them. -/
theorem map_up {hits : List (Hit K)} (hg : Good r hits) (f : Hit K → Hit K)
    (hf : ∀ h ∈ hits, f h = h ∨ ∃ d, 0 ≤ d ∧ f h = ⟨h.unit, r.rnd (h.score + d)⟩) : Good r (hits.map f) ∧ NotLower hits (hits.map f) := by
  have each : ∀ h ∈ hits, (f h).unit = h.unit ∧ h.score ≤ (f h).score ∧ 0 ≤ (f h).score ∧ r.rnd (f h).score = (f h).score := by
    intro h hh
    obtain ⟨h1, h2⟩ := hg h hh
    rcases hf h hh with he | ⟨d, hd, he⟩
    · rw [he]; exact ⟨rfl, le_refl _, h1, h2⟩
    · rw [he]
      obtain ⟨h3, h4⟩ := add_up r hr h1 h2 hd
      exact ⟨rfl, h3, h4, hr.idem _⟩
  constructor
  · intro x hx
    obtain ⟨h, hh, rfl⟩ := List.mem_map.mp hx
    exact (each h hh).2.2
  · intro i h hi
    obtain ⟨h1, h2, _⟩ := each h (List.mem_of_getElem? hi)
    exact ⟨f h, by rw [List.getElem?_map, hi]; rfl, h1, h2⟩

omit hr in
theorem maxScore_spec (hits : List (Hit K)) (hne : hits ≠ []) : IsGreatest (hits.map (·.score)) (maxScore hits) := by
  cases hits with
  | nil => exact absurd rfl hne
  | cons h hs =>
    have := Props.foldl_max_spec h.score (hs.map (·.score))
    rw [List.foldl_map] at this
    exact this

omit hr in
theorem maxSum_spec (ts : List (Tally K)) (hne : ts ≠ []) : IsGreatest (ts.map (·.sum)) (maxSum ts) := by
  cases ts with
  | nil => exact absurd rfl hne
  | cons h hs =>
    have := Props.foldl_max_spec h.sum (hs.map (·.sum))
    rw [List.foldl_map] at this
    exact this

theorem stemBoost_up (h1 : 0 ≤ g.stemFrac) (h2 : 0 ≤ g.prefixFrac) (q : List Char) {hits : List (Hit K)} (hg : Good r hits) :
    Good r (stemBoost r g q hits) ∧ NotLower hits (stemBoost r g q hits) := by
  unfold stemBoost
  split
  · exact ⟨hg, notLower_refl _⟩
  · next hpos =>
    simp only [not_or, not_le] at hpos
    refine map_up r hr hg _ ?_
    intro h _
    simp only [stemBoosted]
    split
    · exact .inr ⟨_, rnd_nonneg r hr (mul_nonneg hpos.1.le h1), rfl⟩
    · split
      · exact .inr ⟨_, rnd_nonneg r hr (mul_nonneg hpos.1.le h2), rfl⟩
      · exact .inl rfl

theorem defBoost_up (h1 : 0 ≤ g.defFrac) (q : List Char) {hits : List (Hit K)} (hg : Good r hits) :
    Good r (defBoost r g q hits) ∧ NotLower hits (defBoost r g q hits) := by
  unfold defBoost
  split
  · exact ⟨hg, notLower_refl _⟩
  · next hpos =>
    rw [not_le] at hpos
    refine map_up r hr hg _ ?_
    intro h _
    split
    · exact .inr ⟨_, rnd_nonneg r hr (mul_nonneg hpos.le h1), rfl⟩
    · exact .inl rfl

/-! ### Coherence -/

omit hr in
theorem lift_at (b m : K) (hits : List (Hit K)) (t : Tally K) (i : Nat) (h : Hit K) (hh : hits[i]? = some h) :
    (lift r b m hits t)[i]? = some (if t.top = i then ⟨h.unit, r.rnd (t.best + r.rnd (r.rnd (b * t.sum) / m))⟩ else h) := by
  simp only [lift, List.getElem?_modify, hh, Option.map_some]
  rfl

omit hr in
theorem foldl_lift_none (b m : K) : ∀ (ts : List (Tally K)) (hits : List (Hit K)) (i : Nat) (h : Hit K), hits[i]? = some h →
    (∀ t ∈ ts, t.top ≠ i) → (ts.foldl (lift r b m) hits)[i]? = some h
  | [], _, _, _, hh, _ => hh
  | t :: ts, hits, i, h, hh, hn => by
    rw [List.foldl_cons]
    refine foldl_lift_none b m ts _ i h ?_ fun u hu => hn u (by simp [hu])
    rw [lift_at r b m hits t i h hh, if_neg (hn t (by simp))]

omit hr in
theorem foldl_lift_some (b m : K) : ∀ (ts : List (Tally K)) (hits : List (Hit K)) (i : Nat) (h : Hit K) (t : Tally K), hits[i]? = some h →
    (ts.map (·.top)).Nodup → t ∈ ts → t.top = i →
    (ts.foldl (lift r b m) hits)[i]? = some ⟨h.unit, r.rnd (t.best + r.rnd (r.rnd (b * t.sum) / m))⟩
  | [], _, _, _, _, _, _, hm, _ => by cases hm
  | u :: ts, hits, i, h, t, hh, hn, hm, hi => by
    rw [List.foldl_cons]
    rw [List.map_cons, List.nodup_cons] at hn
    have hl := lift_at r b m hits u i h hh
    rcases List.mem_cons.mp hm with rfl | hmt
    · rw [if_pos hi] at hl
      refine foldl_lift_none r b m ts _ i _ hl ?_
      intro v hv hvi
      exact hn.1 (List.mem_map.mpr ⟨v, hv, hvi.trans hi.symm⟩)
    · have : u.top ≠ i := fun hu => hn.1 (List.mem_map.mpr ⟨t, hmt, hi.trans hu.symm⟩)
      rw [if_neg this] at hl
      exact foldl_lift_some b m ts _ i h t hl hn.2 hmt hi

omit hr in
theorem scoresOf_zipIdx (hits : List (Hit K)) (f : List Char) : scoresOf hits.zipIdx f = (hits.filter fun h => h.unit.file = f).map (·.score) := by
  unfold scoresOf
  conv_rhs => rw [← List.zipIdx_map_fst 0 hits, List.filter_map, List.map_map]
  rfl

omit hr in
theorem tally_sum (hits : List (Hit K)) (t : Tally K) (ht : t ∈ tallies r hits) : t.sum = fileTotal r hits t.file := by
  rw [(tallied r hits).sum t ht, scoresOf_zipIdx]; rfl

omit hr in
/-- The tallies point at the first best units. -/
theorem firstBest_iff (hits : List (Hit K)) (i : Nat) (h : Hit K) (hh : hits[i]? = some h) :
    FirstBest hits i h ↔ ∃ t ∈ tallies r hits, t.top = i := by
  have ht := tallied r hits
  constructor
  · rintro ⟨_, hb⟩
    obtain ⟨t, htm, htf⟩ := List.mem_map.mp (ht.complete (h, i) (List.mem_zipIdx_iff_getElem?.mpr hh))
    refine ⟨t, htm, ?_⟩
    obtain ⟨e, he, h1, h2, h3⟩ := ht.top t htm
    obtain ⟨h4, h5⟩ := hb e.2 e.1 (List.mem_zipIdx_iff_getElem?.mp he) (h2.trans htf)
    obtain ⟨h6, h7⟩ := ht.best t htm (h, i) (List.mem_zipIdx_iff_getElem?.mpr hh) htf.symm
    simp only at h6 h7 htf
    have heq : e.1.score = h.score := le_antisymm h4 (by rw [h3]; exact h6)
    have := h5 heq
    have := h7 (by rw [← heq, h3])
    omega
  · rintro ⟨t, htm, rfl⟩
    refine ⟨hh, ?_⟩
    obtain ⟨e, he, h1, h2, h3⟩ := ht.top t htm
    have he' := List.mem_zipIdx_iff_getElem?.mp he
    rw [h1, hh] at he'
    have heq : h = e.1 := Option.some.inj he'
    intro j x hj hf
    obtain ⟨h4, h5⟩ := ht.best t htm (x, j) (List.mem_zipIdx_iff_getElem?.mpr hj) (by rw [← h2, ← heq]; exact hf)
    rw [heq, h3]
    exact ⟨h4, h5⟩

omit hr in
theorem tally_of (hits : List (Hit K)) (h : Hit K) (t : Tally K) (ht : t ∈ tallies r hits) (hh : hits[t.top]? = some h) :
    t.best = h.score ∧ t.file = h.unit.file := by
  obtain ⟨e, he, h1, h2, h3⟩ := (tallied r hits).top t ht
  have he' := List.mem_zipIdx_iff_getElem?.mp he
  rw [h1, hh] at he'
  have heq : h = e.1 := Option.some.inj he'
  rw [heq]; exact ⟨h3.symm, h2.symm⟩

omit hr in
theorem tallies_ne (hits : List (Hit K)) (hne : hits ≠ []) : tallies r hits ≠ [] := by
  intro h
  obtain ⟨x, hx⟩ := List.exists_mem_of_ne_nil _ hne
  obtain ⟨i, hi⟩ := List.mem_iff_getElem?.mp hx
  have := (tallied r hits).complete (x, i) (List.mem_zipIdx_iff_getElem?.mpr hi)
  rw [h] at this
  cases this

omit hr in
theorem maxSum_total (hits : List (Hit K)) (hne : hits ≠ []) :
    IsGreatest (hits.map fun h => fileTotal r hits h.unit.file) (maxSum (tallies r hits)) := by
  obtain ⟨h1, h2⟩ := maxSum_spec _ (tallies_ne r hits hne)
  constructor
  · obtain ⟨t, ht, he⟩ := List.mem_map.mp h1
    obtain ⟨e, hm, _, h4, _⟩ := (tallied r hits).top t ht
    refine List.mem_map.mpr ⟨e.1, List.mem_of_getElem? (List.mem_zipIdx_iff_getElem?.mp hm), ?_⟩
    rw [← he, tally_sum r hits t ht, h4]
  · intro x hx
    obtain ⟨h, hh, rfl⟩ := List.mem_map.mp hx
    obtain ⟨i, hi⟩ := List.mem_iff_getElem?.mp hh
    obtain ⟨t, ht, he⟩ := List.mem_map.mp ((tallied r hits).complete (h, i) (List.mem_zipIdx_iff_getElem?.mpr hi))
    have := h2 t.sum (List.mem_map.mpr ⟨t, ht, rfl⟩)
    rw [tally_sum r hits t ht, he] at this
    exact this

omit hr in
/-- What coherence does. -/
theorem cohBoost_spec (o : List (Tally K) → List (Tally K)) (ho : ∀ l, (o l).Perm l) (hits : List (Hit K)) (i : Nat) (h : Hit K)
    (hh : hits[i]? = some h) (hpos : 0 < maxScore hits) (hsum : 0 < maxSum (tallies r hits)) :
    (FirstBest hits i h → (cohBoost r g o hits)[i]? = some ⟨h.unit, r.rnd (h.score +
      r.rnd (r.rnd (r.rnd (maxScore hits * g.cohFrac) * fileTotal r hits h.unit.file) / maxSum (tallies r hits)))⟩) ∧
    (¬ FirstBest hits i h → (cohBoost r g o hits)[i]? = some h) := by
  have hc : ¬ (maxScore hits ≤ 0 ∨ maxSum (tallies r hits) ≤ 0) := by
    rw [not_or, not_le, not_le]; exact ⟨hpos, hsum⟩
  unfold cohBoost
  rw [if_neg hc]
  constructor
  · intro hf
    obtain ⟨t, ht, hi⟩ := (firstBest_iff r hits i h hh).mp hf
    rw [foldl_lift_some r _ _ _ hits i h t hh ((((ho _).map _).nodup_iff).mpr (tops_nodup r hits)) ((ho _).mem_iff.mpr ht) hi]
    obtain ⟨h1, h2⟩ := tally_of r hits h t ht (by rw [hi]; exact hh)
    rw [tally_sum r hits t ht, h1, h2]
  · intro hf
    refine foldl_lift_none r _ _ _ hits i h hh ?_
    intro t ht hi
    exact hf ((firstBest_iff r hits i h hh).mpr ⟨t, (ho _).mem_iff.mp ht, hi⟩)

theorem roundedSum_nonneg : ∀ (l : List K), (∀ x ∈ l, 0 ≤ x) → 0 ≤ roundedSum r l
  | [], _ => le_refl _
  | s :: ss, h => by
    have key : ∀ (l : List K) (a : K), 0 ≤ a → (∀ x ∈ l, 0 ≤ x) → 0 ≤ l.foldl (fun a x => r.rnd (a + x)) a := by
      intro l
      induction l with
      | nil => intro a ha _; exact ha
      | cons x l ih =>
        intro a ha hl
        exact ih _ (rnd_nonneg r hr (add_nonneg ha (hl x (by simp)))) fun y hy => hl y (by simp [hy])
    exact key ss s (h s (by simp)) fun x hx => h x (by simp [hx])

theorem cohBoost_up (h1 : 0 ≤ g.cohFrac) (o : List (Tally K) → List (Tally K)) (ho : ∀ l, (o l).Perm l) {hits : List (Hit K)} (hg : Good r hits) :
    NotLower hits (cohBoost r g o hits) := by
  by_cases hc : maxScore hits ≤ 0 ∨ maxSum (tallies r hits) ≤ 0
  · unfold cohBoost; rw [if_pos hc]; exact notLower_refl _
  · have hc' := hc
    rw [not_or, not_le, not_le] at hc
    intro i h hh
    obtain ⟨a, b⟩ := cohBoost_spec r g o ho hits i h hh hc.1 hc.2
    by_cases hf : FirstBest hits i h
    · refine ⟨_, a hf, rfl, ?_⟩
      obtain ⟨h2, h3⟩ := hg h (List.mem_of_getElem? hh)
      refine (add_up r hr h2 h3 (rnd_nonneg r hr (div_nonneg (rnd_nonneg r hr (mul_nonneg (rnd_nonneg r hr (mul_nonneg hc.1.le h1)) ?_)) hc.2.le))).1
      refine roundedSum_nonneg r hr _ ?_
      intro x hx
      obtain ⟨y, hy, rfl⟩ := List.mem_map.mp hx
      exact (hg y (List.mem_filter.mp hy).1).1
    · exact ⟨h, b hf, rfl, le_refl _⟩

end

end NextPlaid.Rank
