import Verif.Proofs.Fusion
import Mathlib.Tactic.NormNum
import Mathlib.Tactic.Positivity
import Mathlib.Algebra.Order.Field.Rat

/-!
C28, C29, C30: combining semantic and keyword results, and filtered keyword search.
-/

namespace NextPlaid.Props
open NextPlaid.Spec NextPlaid.Fusion

/-- Exact arithmetic is an instance of the rounding laws. -/
def exact (K : Type) : Rounding K := ⟨fun x => x⟩

section
variable {K : Type} [Field K] [LinearOrder K] [IsStrictOrderedRing K]

theorem exact_lawful : (exact K).Lawful := ⟨fun _ _ h => h, fun _ => rfl, rfl, rfl⟩

variable (r : Rounding K) (hr : r.Lawful) (order : List (Int × K) → List (Int × K))
  (ho : ∀ m, (order m).Perm m)

include hr in
theorem rnd_rankScore (w : K) (n : Nat) : r.rnd (rankScore r w n) = rankScore r w n := hr.idem _

/-! ### C28 -/

include hr ho in
/-- C28: the fused result is a best-first, cut-to-`k` list over exactly the ids of the two rankings, each
once, where the score of an id is the (rounded) sum of `alpha / (60 + rank)` and `(1 - alpha) / (60 + rank)`
over the rankings that contain it. -/
theorem C28_rrf (sem kw : List Int) (hs : sem.Nodup) (hk : kw.Nodup) (alpha : K) (k : Nat) :
    ∃ all, TopOf k all (fuseRrf r order sem kw alpha k) ∧ (all.map Prod.fst).Nodup ∧
      ∀ id s, (id, s) ∈ all ↔ (id ∈ sem ∨ id ∈ kw) ∧
        s = r.rnd (rankShare r alpha sem id + rankShare r (r.rnd (1 - alpha)) kw id) := by
  have hn := addRanks_nodup r (r.rnd (1 - alpha)) kw _ 0 (addRanks_nodup r alpha sem [] 0 (by simp))
  refine ⟨_, topOf_sort k _ _ (ho _), hn, ?_⟩
  intro id s
  rw [← val_mem hn, addRanks_val r _ _ _ _ _ hk, addRanks_val r _ _ _ _ _ hs, val_nil]
  unfold rankShare
  change _ ↔ _ ∧ s = r.rnd ((if id ∈ sem then rankScore r alpha (sem.idxOf id) else 0) +
    (if id ∈ kw then rankScore r (r.rnd (1 - alpha)) (kw.idxOf id) else 0))
  by_cases h1 : id ∈ sem <;> by_cases h2 : id ∈ kw
  · simp [h1, h2, rnd_rankScore r hr, eq_comm]
  · simp [h1, h2, eq_comm]
  · simp [h1, h2, eq_comm]
  · simp [h1, h2]

include ho in
/-- C28: whatever the inputs, repeated ids included, each id of the union appears once, best first, at most
`k` of them. -/
theorem C28_ids (sem kw : List Int) (alpha : K) (k : Nat) :
    ∃ all, TopOf k all (fuseRrf r order sem kw alpha k) ∧ (all.map Prod.fst).Nodup ∧
      ∀ id, id ∈ all.map Prod.fst ↔ id ∈ sem ∨ id ∈ kw := by
  refine ⟨_, topOf_sort k _ _ (ho _),
    addRanks_nodup r (r.rnd (1 - alpha)) kw _ 0 (addRanks_nodup r alpha sem [] 0 (by simp)), ?_⟩
  intro id
  rw [addRanks_keys, addRanks_keys]
  simp

/-- C28: in exact arithmetic the score is `alpha / (61 + i) + (1 - alpha) / (61 + j)` for positions `i`, `j`
counted from 0. -/
theorem C28_exact_share (w : K) (ids : List Int) (id : Int) (h : id ∈ ids) :
    rankShare (exact K) w ids id = w / (60 + ((ids.idxOf id : K) + 1)) := by
  simp [rankShare, h, exact, add_assoc]

include hr in
/-- C28: the better rank never counts less. -/
theorem C28_better_rank (w : K) (hw : 0 ≤ w) (ids : List Int) (a b : Int) (ha : a ∈ ids) (hb : b ∈ ids)
    (h : ids.idxOf a ≤ ids.idxOf b) : rankShare r w ids b ≤ rankShare r w ids a := by
  unfold rankShare
  rw [if_pos ha, if_pos hb]
  apply hr.mono
  have h1 : (ids.idxOf a : K) ≤ (ids.idxOf b : K) := by exact_mod_cast h
  have h0 : (0 : K) ≤ (ids.idxOf a : K) := Nat.cast_nonneg _
  have e0 : (0 : K) ≤ r.rnd (ids.idxOf a : K) := hr.zero ▸ hr.mono _ _ h0
  have e1 : (1 : K) ≤ r.rnd (60 + r.rnd (ids.idxOf a : K)) := by
    have := hr.mono 1 (60 + r.rnd (ids.idxOf a : K)) (by linarith)
    rwa [hr.one] at this
  have e2 : (1 : K) ≤ r.rnd (r.rnd (60 + r.rnd (ids.idxOf a : K)) + 1) := by
    have := hr.mono 1 (r.rnd (60 + r.rnd (ids.idxOf a : K)) + 1) (by linarith)
    rwa [hr.one] at this
  have e3 : r.rnd (r.rnd (60 + r.rnd (ids.idxOf a : K)) + 1) ≤ r.rnd (r.rnd (60 + r.rnd (ids.idxOf b : K)) + 1) :=
    hr.mono _ _ (by linarith [hr.mono _ _ (show 60 + r.rnd (ids.idxOf a : K) ≤ 60 + r.rnd (ids.idxOf b : K) by
      linarith [hr.mono _ _ h1])])
  exact div_le_div_of_nonneg_left hw (by linarith) e3

include hr in
/-- C28: with `alpha = 1` only semantic ranks count, with `alpha = 0` only keyword ranks. -/
theorem C28_extremes (ids : List Int) (id : Int) :
    rankShare r (r.rnd (1 - 1)) ids id = 0 ∧ rankShare r 0 ids id = 0 := by
  unfold rankShare
  simp [hr.zero]

example : fuseRrf (exact ℚ) (fun m => m) [7, 5] [5, 9] (3/4) 2 = [(5, 3/4/62 + 1/4/61), (7, 3/4/61)] := by
  decide +kernel

/-! ### C29 -/

theorem foldl_max_spec (s : K) : ∀ ss : List K, (ss.foldl max s ∈ s :: ss) ∧ ∀ x ∈ s :: ss, x ≤ ss.foldl max s := by
  intro ss
  induction ss generalizing s with
  | nil => simp
  | cons t ss ih =>
    obtain ⟨h1, h2⟩ := ih (max s t)
    rw [List.foldl_cons]
    constructor
    · rcases List.mem_cons.1 h1 with h1 | h1
      · rw [h1]
        rcases max_choice s t with h | h <;> rw [h] <;> simp
      · simp [h1]
    · intro x hx
      have hb := h2 (max s t) List.mem_cons_self
      simp only [List.mem_cons] at hx
      rcases hx with rfl | rfl | hx
      · exact (le_max_left _ _).trans hb
      · exact (le_max_right _ _).trans hb
      · exact h2 x (List.mem_cons_of_mem _ hx)

theorem foldl_min_spec (s : K) : ∀ ss : List K, (ss.foldl min s ∈ s :: ss) ∧ ∀ x ∈ s :: ss, ss.foldl min s ≤ x := by
  intro ss
  induction ss generalizing s with
  | nil => simp
  | cons t ss ih =>
    obtain ⟨h1, h2⟩ := ih (min s t)
    rw [List.foldl_cons]
    constructor
    · rcases List.mem_cons.1 h1 with h1 | h1
      · rw [h1]
        rcases min_choice s t with h | h <;> rw [h] <;> simp
      · simp [h1]
    · intro x hx
      have hb := h2 (min s t) List.mem_cons_self
      simp only [List.mem_cons] at hx
      rcases hx with rfl | rfl | hx
      · exact hb.trans (min_le_left _ _)
      · exact hb.trans (min_le_right _ _)
      · exact h2 x (List.mem_cons_of_mem _ hx)

theorem IsRange.unique {l : List (Int × K)} {a b c d : K} (h : IsRange l a b) (h' : IsRange l c d) : a = c ∧ b = d := by
  obtain ⟨⟨p, hp, rfl⟩, ⟨q, hq, rfl⟩, h3⟩ := h
  obtain ⟨⟨p', hp', rfl⟩, ⟨q', hq', rfl⟩, h3'⟩ := h'
  exact ⟨le_antisymm (h3 p' hp').1 (h3' p hp).1, le_antisymm (h3' q hq).2 (h3 q' hq').2⟩

/-- The normalised list: every score relative to the range of its list. -/
theorem normalize_eq (l : List (Int × K)) (hl : l ≠ []) : ∃ lo hi, IsRange l lo hi ∧
    minMaxNormalize r (l.map Prod.fst) (l.map Prod.snd) = l.map fun p => (p.1, relative r lo hi p.2) := by
  rcases l with _ | ⟨⟨a, s⟩, l⟩
  · exact absurd rfl hl
  · obtain ⟨hmax1, hmax2⟩ := foldl_max_spec s (l.map Prod.snd)
    obtain ⟨hmin1, hmin2⟩ := foldl_min_spec s (l.map Prod.snd)
    rw [← List.map_cons (f := Prod.snd) (a := (a, s))] at hmax1 hmin1
    refine ⟨(l.map Prod.snd).foldl min s, (l.map Prod.snd).foldl max s, ⟨?_, ?_, ?_⟩, ?_⟩
    · exact List.mem_map.1 hmin1
    · exact List.mem_map.1 hmax1
    · intro p hp
      have : p.2 ∈ s :: l.map Prod.snd := by
        rw [← List.map_cons (f := Prod.snd) (a := (a, s))]
        exact List.mem_map_of_mem hp
      exact ⟨hmin2 _ this, hmax2 _ this⟩
    · have hz : ∀ l : List (Int × K), (l.map Prod.fst).zip (l.map Prod.snd) = l := by
        intro l
        induction l with
        | nil => rfl
        | cons p l ih => simp [ih]
      change (if r.rnd ((l.map Prod.snd).foldl max s - (l.map Prod.snd).foldl min s) = 0 then
          (((a, s) :: l).map Prod.fst).map fun id => (id, (1 : K))
        else ((((a, s) :: l).map Prod.fst).zip (((a, s) :: l).map Prod.snd)).map fun p =>
          (p.1, r.rnd (r.rnd (p.2 - (l.map Prod.snd).foldl min s) /
            r.rnd ((l.map Prod.snd).foldl max s - (l.map Prod.snd).foldl min s)))) = _
      unfold relative
      split
      · rw [List.map_map]
        rfl
      · rw [hz]

theorem normalize_keys (l : List (Int × K)) :
    (minMaxNormalize r (l.map Prod.fst) (l.map Prod.snd)).map Prod.fst = l.map Prod.fst := by
  by_cases hl : l = []
  · subst hl; rfl
  · obtain ⟨lo, hi, _, h⟩ := normalize_eq r l hl
    rw [h, List.map_map]
    rfl

include hr in
theorem normalize_share (w : K) (l : List (Int × K)) (hn : (l.map Prod.fst).Nodup) (id : Int) (x : K) :
    ScoreShare r w l id x ↔
      x = ((val (minMaxNormalize r (l.map Prod.fst) (l.map Prod.snd)) id).map fun s => r.rnd (w * s)).getD 0 := by
  have hkey := normalize_keys r l
  by_cases hm : id ∈ l.map Prod.fst
  · have hl : l ≠ [] := by rintro rfl; simp at hm
    obtain ⟨lo, hi, hrange, he⟩ := normalize_eq r l hl
    obtain ⟨⟨id', s⟩, hs, rfl⟩ := List.mem_map.1 hm
    have hv : val (minMaxNormalize r (l.map Prod.fst) (l.map Prod.snd)) id' = some (relative r lo hi s) := by
      rw [val_mem (by rw [hkey]; exact hn), he]
      exact List.mem_map.2 ⟨_, hs, rfl⟩
    simp only
    rw [hv]
    simp only [Option.map_some, Option.getD_some]
    constructor
    · rintro (⟨h, _⟩ | ⟨s', lo', hi', hs', hrange', rfl⟩)
      · exact absurd hm h
      · obtain ⟨rfl, rfl⟩ := IsRange.unique hrange hrange'
        have : (id', s') = (id', s) := List.inj_on_of_nodup_map hn hs' hs rfl
        cases this
        rfl
    · rintro rfl
      exact Or.inr ⟨s, lo, hi, hs, hrange, rfl⟩
  · have hv : val (minMaxNormalize r (l.map Prod.fst) (l.map Prod.snd)) id = none := by
      have := (val_isSome (minMaxNormalize r (l.map Prod.fst) (l.map Prod.snd)) id).not.2 (by rw [hkey]; exact hm)
      simpa using this
    rw [hv]
    constructor
    · rintro (⟨_, h⟩ | ⟨s, _, _, hs, _⟩)
      · exact h
      · exact absurd (List.mem_map.2 ⟨_, hs, rfl⟩) hm
    · intro h
      exact Or.inl ⟨hm, h⟩

include hr ho in
/-- C29: the fused result is a best-first, cut-to-`k` list over exactly the ids of the two result lists, each
once, where the score of an id is the (rounded) sum of its weighted relative scores. -/
theorem C29_relative (sem kw : List (Int × K)) (hs : (sem.map Prod.fst).Nodup) (hk : (kw.map Prod.fst).Nodup)
    (alpha : K) (k : Nat) :
    ∃ all, TopOf k all (fuseRelative r order (sem.map Prod.fst) (sem.map Prod.snd) (kw.map Prod.fst)
        (kw.map Prod.snd) alpha k) ∧ (all.map Prod.fst).Nodup ∧
      ∀ id s, (id, s) ∈ all ↔ (id ∈ sem.map Prod.fst ∨ id ∈ kw.map Prod.fst) ∧
        ∃ x y, ScoreShare r alpha sem id x ∧ ScoreShare r (r.rnd (1 - alpha)) kw id y ∧ s = r.rnd (x + y) := by
  have hn := addWeighted_nodup r (r.rnd (1 - alpha)) (minMaxNormalize r (kw.map Prod.fst) (kw.map Prod.snd)) _
    (addWeighted_nodup r alpha (minMaxNormalize r (sem.map Prod.fst) (sem.map Prod.snd)) [] (by simp))
  refine ⟨_, topOf_sort k _ _ (ho _), hn, ?_⟩
  intro id s
  simp only [normalize_share r hr _ _ hs, normalize_share r hr _ _ hk]
  rw [← val_mem hn, addWeighted_val r _ _ _ _ (by rw [normalize_keys]; exact hk),
    addWeighted_val r _ _ _ _ (by rw [normalize_keys]; exact hs), val_nil]
  have k1 := val_isSome (minMaxNormalize r (sem.map Prod.fst) (sem.map Prod.snd)) id
  have k2 := val_isSome (minMaxNormalize r (kw.map Prod.fst) (kw.map Prod.snd)) id
  rw [normalize_keys] at k1 k2
  rw [← k1, ← k2]
  rcases val (minMaxNormalize r (sem.map Prod.fst) (sem.map Prod.snd)) id with _ | a <;>
    rcases val (minMaxNormalize r (kw.map Prod.fst) (kw.map Prod.snd)) id with _ | b <;>
    simp [hr.idem, eq_comm]

include ho in
/-- C29: whatever the inputs, repeated ids included, each id of the union appears once, best first, at most
`k` of them. -/
theorem C29_ids (sem kw : List (Int × K)) (alpha : K) (k : Nat) :
    ∃ all, TopOf k all (fuseRelative r order (sem.map Prod.fst) (sem.map Prod.snd) (kw.map Prod.fst)
        (kw.map Prod.snd) alpha k) ∧ (all.map Prod.fst).Nodup ∧
      ∀ id, id ∈ all.map Prod.fst ↔ id ∈ sem.map Prod.fst ∨ id ∈ kw.map Prod.fst := by
  refine ⟨_, topOf_sort k _ _ (ho _), addWeighted_nodup r _ _ _ (addWeighted_nodup r _ _ _ (by simp)), ?_⟩
  intro id
  rw [addWeighted_keys, addWeighted_keys, normalize_keys, normalize_keys]
  simp

include hr in
/-- C29: relative scores lie between 0 and 1 and keep the order of the scores; the best score becomes 1, the
worst 0, and a list without spread becomes all ones. -/
theorem C29_relative_scores (l : List (Int × K)) (lo hi : K) (h : IsRange l lo hi) :
    (∀ p ∈ l, 0 ≤ relative r lo hi p.2 ∧ relative r lo hi p.2 ≤ 1) ∧
    (∀ p ∈ l, ∀ q ∈ l, p.2 ≤ q.2 → relative r lo hi p.2 ≤ relative r lo hi q.2) ∧
    relative r lo hi hi = 1 ∧ (r.rnd (hi - lo) ≠ 0 → relative r lo hi lo = 0) ∧
    (lo = hi → ∀ p ∈ l, relative r lo hi p.2 = 1) := by
  have hle : lo ≤ hi := by
    obtain ⟨⟨p, hp, rfl⟩, _, h3⟩ := h
    exact (h3 p hp).2
  have hnn : 0 ≤ r.rnd (hi - lo) := hr.zero ▸ hr.mono _ _ (sub_nonneg.2 hle)
  refine ⟨?_, ?_, ?_, ?_, ?_⟩
  · intro p hp
    have hb := h.2.2 p hp
    unfold relative
    split
    · exact ⟨zero_le_one, le_refl _⟩
    · rename_i hz
      have hpos : 0 < r.rnd (hi - lo) := lt_of_le_of_ne hnn (Ne.symm hz)
      constructor
      · rw [← hr.zero]
        apply hr.mono
        apply div_nonneg _ hnn
        rw [← hr.zero]
        exact hr.mono _ _ (sub_nonneg.2 hb.1)
      · rw [← hr.one]
        apply hr.mono
        rw [div_le_one hpos]
        exact hr.mono _ _ (by linarith)
  · intro p _ q _ hpq
    unfold relative
    split
    · exact le_refl _
    · apply hr.mono
      apply div_le_div_of_nonneg_right _ hnn
      exact hr.mono _ _ (by linarith)
  · unfold relative
    split
    · rfl
    · rename_i hz
      rw [div_self hz, hr.one]
  · intro hz
    unfold relative
    rw [if_neg hz, sub_self, hr.zero, zero_div, hr.zero]
  · rintro rfl p _
    unfold relative
    rw [sub_self, hr.zero, if_pos rfl]

include hr in
/-- C29: with `alpha = 1` only the semantic scores count, with `alpha = 0` only the keyword scores. -/
theorem C29_extremes (l : List (Int × K)) (id : Int) (x : K) :
    (ScoreShare r (r.rnd (1 - 1)) l id x → x = 0) ∧ (ScoreShare r 0 l id x → x = 0) := by
  constructor <;>
  · rintro (⟨_, h⟩ | ⟨s, lo, hi, _, _, h⟩)
    · exact h
    · rw [h]; simp [hr.zero]

example : fuseRelative (exact ℚ) (fun m => m) [7, 5, 3] [30, 20, 10] [5, 9] [2, 2] (1/2) 3 =
    [(5, 3/4), (7, 1/2), (9, 1/2)] := by decide +kernel

end

/-! ### C30 -/
section
variable {A B : Type} [LinearOrder A] [LinearOrder B]

theorem filter_chunks (found : List (Int × A)) (hf : (found.map Prod.fst).Nodup) :
    ∀ chunks : List (List Int), chunks.flatten.Nodup →
      (chunks.flatMap fun c => found.filter fun p => decide (p.1 ∈ c)).Perm
        (found.filter fun p => decide (p.1 ∈ chunks.flatten))
  | [], _ => by simp
  | c :: chunks, h => by
    rw [List.flatten_cons, List.nodup_append] at h
    have ih := filter_chunks found hf chunks h.2.1
    rw [List.flatMap_cons, List.flatten_cons]
    refine (ih.append_left _).trans ?_
    have hnd : found.Nodup := hf.of_map _
    refine (List.perm_ext_iff_of_nodup ?_ (hnd.filter _)).2 ?_
    · rw [List.nodup_append]
      refine ⟨hnd.filter _, hnd.filter _, ?_⟩
      rintro a ha b hb rfl
      simp only [List.mem_filter, decide_eq_true_eq] at ha hb
      exact h.2.2 a.1 ha.2 a.1 hb.2 rfl
    · intro a
      simp only [List.mem_append, List.mem_filter, decide_eq_true_eq]
      constructor
      · rintro (h | h)
        · exact ⟨h.1, Or.inl h.2⟩
        · exact ⟨h.1, Or.inr h.2⟩
      · rintro ⟨h1, h2 | h2⟩
        · exact Or.inl ⟨h1, h2⟩
        · exact Or.inr ⟨h1, h2⟩

/-- C30: `found` are the rows that match the keywords, one per document, with their scores; the database
answers a restricted query with some best-`k` list.  The filtered search gives a best-`k` list of all matches
inside the whole set of ids, however long it is. -/
theorem C30_chunked (found : List (Int × A)) (hf : (found.map Prod.fst).Nodup) (k : Nat)
    (select : List Int → List (Int × A))
    (hsel : ∀ ids, TopOf k (found.filter fun p => decide (p.1 ∈ ids)) (select ids))
    (toF32 : A → B) (hmono : ∀ a b, a ≤ b → toF32 a ≤ toF32 b) (subset : List Int) (hd : subset.Nodup) :
    TopOf k ((found.filter fun p => decide (p.1 ∈ subset)).map fun p => (p.1, toF32 p.2))
      (searchFiltered select toF32 k subset) := by
  unfold searchFiltered
  split
  · rename_i h
    subst h
    simp only [List.not_mem_nil, decide_false, List.filter_false, List.map_nil]
    exact ⟨[], by simp⟩
  · rw [List.map_flatMap]
    have hfl := Index.chunk_flatten subset ftsParamLimit (by decide)
    have hp := filter_chunks found hf
      ((List.range (Index.numChunksFor subset.length ftsParamLimit)).map (Index.chunkSlice subset ftsParamLimit))
      (by rw [hfl]; exact hd)
    rw [hfl, List.flatMap_map] at hp
    refine Spec.TopOf.perm ?_ (hp.map _)
    rw [List.map_flatMap]
    exact topOf_merge k _ _ _ (fun i _ => (hsel _).map toF32 hmono)

/-- C30: the scores are those one query with a filter of any size would give, and so are the ids when the
scores of the matches differ. -/
theorem C30_same_as_one_filter (found : List (Int × A)) (hf : (found.map Prod.fst).Nodup) (k : Nat)
    (select : List Int → List (Int × A))
    (hsel : ∀ ids, TopOf k (found.filter fun p => decide (p.1 ∈ ids)) (select ids))
    (toF32 : A → B) (hmono : ∀ a b, a ≤ b → toF32 a ≤ toF32 b) (subset : List Int) (hd : subset.Nodup) :
    (searchFiltered select toF32 k subset).map Prod.snd = (select subset).map (fun p => toF32 p.2) ∧
    (((found.filter fun p => decide (p.1 ∈ subset)).map fun p => toF32 p.2).Nodup →
      searchFiltered select toF32 k subset = (select subset).map fun p => (p.1, toF32 p.2)) := by
  have h1 := C30_chunked found hf k select hsel toF32 hmono subset hd
  have h2 := (hsel subset).map toF32 hmono
  constructor
  · have := h1.scores_unique h2
    rw [List.map_map] at this
    exact this
  · intro hn
    refine h1.unique h2 ?_
    rw [List.map_map]
    exact hn

/-- A database that answers restricted queries as C30 assumes. -/
def sortedSelect (k : Nat) (found : List (Int × A)) (ids : List Int) : List (Int × A) :=
  (sortPairs (found.filter fun p => decide (p.1 ∈ ids))).take k

/-- The hypotheses of C30 can be met, with any matches. -/
example (k : Nat) (found : List (Int × A)) (ids : List Int) :
    TopOf k (found.filter fun p => decide (p.1 ∈ ids)) (sortedSelect k found ids) :=
  topOf_sort k _ _ (List.Perm.refl _)

example : searchFiltered (sortedSelect 2 [(3, (5 : Int)), (950, 9), (4, 7), (1999, 1)]) (fun x => x) 2
    ((List.range 1000).map fun (i : Nat) => (i : Int)) = [(950, 9), (4, 7)] := by decide +kernel

/-- Why the ids must be distinct: an id given again more than 900 places later is returned twice, at the
expense of other documents (/repo/next-plaid/src/text_search.rs:1300-1331). -/
theorem C30_repeated_id_returned_twice :
    searchFiltered (sortedSelect 2 [(0, (9 : Int)), (1, 5)]) (fun x => x) 2
      (List.replicate 900 0 ++ [0, 1]) = [(0, 9), (0, 9)] := by decide +kernel

end
end NextPlaid.Props
