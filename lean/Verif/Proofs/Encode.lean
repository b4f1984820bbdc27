import Verif.Model.Encode
import Verif.Spec.Encode
import Mathlib.Data.List.Forall2
import Mathlib.Data.List.Nodup
import Mathlib.Algebra.BigOperators.Group.List.Basic
import Mathlib.Tactic.Linarith
import Mathlib.Tactic.Ring

/-! Batches hold every document once; the embeddings come back in the order of the input. -/

namespace NextPlaid.Encode

open NextPlaid.Spec

variable {T D E : Type}

/-! ### Pieces -/

theorem pieces_flatten {α : Type} (n : Nat) (l : List α) : (pieces n l).flatten = l := by
  fun_induction pieces n l with
  | case1 => rfl
  | case2 a l ih => rw [List.flatten_cons, ih, List.cons_append, List.take_append_drop]

theorem pieces_size {α : Type} (n : Nat) (l : List α) (p : List α) (h : p ∈ pieces n l) : p ≠ [] ∧ p.length ≤ max n 1 := by
  fun_induction pieces n l with
  | case1 => cases h
  | case2 a l ih =>
    rcases List.mem_cons.mp h with rfl | h
    · refine ⟨by simp, ?_⟩
      simp only [List.length_cons, List.length_take]; omega
    · exact ih h

theorem pieces_get {α : Type} (n : Nat) (hn : 0 < n) (l : List α) (j : Nat) :
    (pieces n l)[j]? = if j * n < l.length then some ((l.drop (j * n)).take n) else none := by
  fun_induction pieces n l generalizing j with
  | case1 => simp
  | case2 a l ih =>
    obtain ⟨m, rfl⟩ : ∃ m, n = m + 1 := ⟨n - 1, by omega⟩
    cases j with
    | zero => simp
    | succ j =>
      rw [List.getElem?_cons_succ, ih]
      have h1 : (j + 1) * (m + 1) = j * (m + 1) + m + 1 := by ring
      simp only [Nat.add_sub_cancel, List.length_drop, List.length_cons, List.drop_drop, h1, List.drop_succ_cons]
      rw [Nat.add_comm m (j * (m + 1))]
      by_cases h : j * (m + 1) < l.length - m
      · rw [if_pos h, if_pos (by omega)]
      · rw [if_neg h, if_neg (by omega)]

/-! ### Buckets -/

theorem filter_split {α : Type} (f : α → Nat) (l : List α) : ∀ k : Nat,
    ((List.range k).flatMap fun j => l.filter fun a => f a = j).Perm (l.filter fun a => f a < k)
  | 0 => by simp
  | k + 1 => by
    rw [List.range_succ, List.flatMap_append]
    refine (List.Perm.append_right _ (filter_split f l k)).trans ?_
    simp only [List.flatMap_cons, List.flatMap_nil, List.append_nil]
    induction l with
    | nil => simp
    | cons a l ih =>
      simp only [List.filter_cons, decide_eq_true_eq]
      by_cases h1 : f a < k
      · rw [if_pos h1, if_neg (by omega), if_pos (by omega)]; exact ih.cons a
      · by_cases h2 : f a = k
        · rw [if_neg h1, if_pos h2, if_pos (by omega)]
          exact List.perm_middle.trans (ih.cons a)
        · rw [if_neg h1, if_neg h2, if_neg (by omega)]; exact ih

theorem bucket_lt (ss : List Shape) (h : ss ≠ []) (n : Nat) : bucket ss n < ss.length := by
  have hl : 0 < ss.length := List.length_pos_of_ne_nil h
  unfold bucket
  cases hf : ss.findIdx? fun s => decide (n ≤ s.planned) with
  | none => simp; omega
  | some i =>
    obtain ⟨h1, _⟩ := List.findIdx?_eq_some_iff_getElem.mp hf
    simpa using h1

/-- The documents of all batches, with their places. -/
def placed (bs : List (Batch D)) : List (Nat × D) := bs.flatMap fun b => b.docs

theorem shapesFrom_ne (a b c d : Nat) : shapesFrom a b c d ≠ [] := by rw [shapesFrom]; simp

theorem shapes_ne (a b : Nat) : shapes a b ≠ [] := by
  simp only [shapes, ne_eq, List.reverse_eq_nil_iff]; exact shapesFrom_ne _ _ _ _

theorem batches_perm (e : Engine T D E) (docs : List D) : (placed (batches e docs)).Perm (docs.zipIdx.map fun p => (p.2, p.1)) := by
  unfold batches placed
  by_cases hd : e.dynamic = true
  · simp only [hd, if_true]
    set items := docs.zipIdx.map fun p => (p.2, p.1) with hitems
    set ss := shapes (max e.batchSize 1) e.docLen with hss
    have h1 : (List.flatMap (fun b : Batch D => b.docs) (ss.zipIdx.map fun s => (pieces (max s.1.docs 1)
        ((byLength e items).filter fun p => bucket ss (preparedLen e p.2) = s.2)).map fun l => (⟨some s.1.planned, l⟩ : Batch D)).flatten) =
        ss.zipIdx.flatMap fun s => (byLength e items).filter fun p => bucket ss (preparedLen e p.2) = s.2 := by
      rw [List.flatMap_def, List.map_flatten, List.flatten_flatten, List.flatMap_def]
      congr 1
      rw [List.map_map, List.map_map]
      apply List.map_congr_left
      intro s _
      simp only [Function.comp]
      rw [List.map_map]
      have : ((fun b : Batch D => b.docs) ∘ fun l => (⟨some s.1.planned, l⟩ : Batch D)) = id := rfl
      rw [this, List.map_id, pieces_flatten]
    rw [h1]
    have h2 : (ss.zipIdx.flatMap fun s => (byLength e items).filter fun p => bucket ss (preparedLen e p.2) = s.2) =
        (List.range ss.length).flatMap fun j => (byLength e items).filter fun p => bucket ss (preparedLen e p.2) = j := by
      have : List.range ss.length = ss.zipIdx.map Prod.snd := by rw [List.zipIdx_map_snd, List.range_eq_range']
      rw [this, List.flatMap_map]
    rw [h2]
    refine (filter_split _ _ _).trans ?_
    rw [List.filter_eq_self.mpr]
    · exact List.perm_insertionSort _ _
    · intro p _
      simpa using bucket_lt ss (shapes_ne _ _) _
  · simp only [hd, Bool.false_eq_true, if_false]
    rw [List.flatMap_map, List.flatMap_def]
    have : (List.map (fun a : List (Nat × D) => ({ planned := none, docs := a } : Batch D).docs) (pieces (max e.batchSize 1) (docs.zipIdx.map fun p => (p.2, p.1)))) =
        pieces (max e.batchSize 1) (docs.zipIdx.map fun p => (p.2, p.1)) := by simp
    rw [this, pieces_flatten]

/-! ### Back in order -/

theorem place_ok (n : Nat) : ∀ (l : List (Nat × E)) (out : List (Option E)), out.length = n → (∀ p ∈ l, p.1 < n) → (l.map Prod.fst).Nodup →
    ∃ out', place n l out = .ok out' ∧ out'.length = n ∧ (∀ p ∈ l, out'[p.1]? = some (some p.2)) ∧
      ∀ t, t ∉ l.map Prod.fst → out'[t]? = out[t]?
  | [], out, hl, _, _ => ⟨out, rfl, hl, by simp, by simp⟩
  | (t, x) :: l, out, hl, hb, hn => by
    have ht : t < n := hb (t, x) (by simp)
    rw [List.map_cons, List.nodup_cons] at hn
    obtain ⟨out', h1, h2, h3, h4⟩ := place_ok n l (out.set t (some x)) (by simpa using hl) (fun p hp => hb p (by simp [hp])) hn.2
    refine ⟨out', ?_, h2, ?_, ?_⟩
    · rw [place, if_neg (by omega), h1]
    · intro p hp
      rcases List.mem_cons.mp hp with rfl | hp
      · rw [h4 t hn.1, List.getElem?_set_self (by omega)]
      · exact h3 p hp
    · intro u hu
      simp only [List.map_cons, List.mem_cons, not_or] at hu
      rw [h4 u hu.2, List.getElem?_set_ne (by omega)]

theorem filled_ok : ∀ (l : List (Option E)), (∀ i < l.length, ∃ x, l[i]? = some (some x)) → ∃ es, filled l = .ok es ∧ l = es.map some
  | [], _ => ⟨[], rfl, rfl⟩
  | none :: l, h => by obtain ⟨x, hx⟩ := h 0 (by simp); simp at hx
  | some a :: l, h => by
    obtain ⟨es, h1, h2⟩ := filled_ok l fun i hi => by
      obtain ⟨x, hx⟩ := h (i + 1) (by simpa using hi)
      exact ⟨x, by simpa using hx⟩
    exact ⟨a :: es, by simp only [filled, h1]; rfl, by simp [h2]⟩

theorem restore_ok (idxs : List Nat) (enc : List E) (hp : idxs.Perm (List.range enc.length)) :
    ∃ es, restore idxs enc = .ok es ∧ es.length = enc.length ∧ ∀ p ∈ idxs.zip enc, es[p.1]? = some p.2 := by
  have hlen : idxs.length = enc.length := by simpa using hp.length_eq
  by_cases h0 : idxs = []
  · subst h0
    have : enc = [] := List.eq_nil_of_length_eq_zero (by simpa using hlen.symm)
    subst this
    exact ⟨[], by simp [restore], rfl, by simp⟩
  · have hfst : (idxs.zip enc).map Prod.fst = idxs := List.map_fst_zip (by omega)
    obtain ⟨out, h1, h2, h3, _⟩ := place_ok enc.length (idxs.zip enc) (List.replicate enc.length none) (by simp)
      (fun p hp' => by
        have : p.1 ∈ idxs := by rw [← hfst]; exact List.mem_map.mpr ⟨p, hp', rfl⟩
        simpa using hp.subset this)
      (by rw [hfst]; exact hp.nodup_iff.mpr List.nodup_range)
    obtain ⟨es, h5, h6⟩ := filled_ok out (by
      intro i hi
      have : i ∈ idxs := hp.symm.subset (by simpa using h2 ▸ hi)
      rw [← hfst] at this
      obtain ⟨p, hp', rfl⟩ := List.mem_map.mp this
      exact ⟨p.2, h3 p hp'⟩)
    refine ⟨es, ?_, ?_, ?_⟩
    · rw [restore, if_neg (by simp [h0, hlen]), h1]; exact h5
    · rw [← h2, h6, List.length_map]
    · intro p hp'
      have := h3 p hp'
      rw [h6, List.getElem?_map] at this
      simpa using this

/-! ### Running the batches -/

theorem runAll_each (e : Engine T D E) (Enc : D → E → Prop)
    (hrun : ∀ s p ds es, e.run s p ds = .ok es → OneEach Enc ds es) (c : Nat → Bool) :
    ∀ (bs : List (Batch D)) (i : Nat) (es : List E), runAll e c i bs = .ok es → List.Forall₂ (fun p x => Enc p.2 x) (placed bs) es
  | [], i, es, h => by
    rw [runAll] at h
    injection h with h; subst h
    exact .nil
  | b :: bs, i, es, h => by
    rw [runAll] at h
    split at h
    · cases h
    · cases h1 : e.run (i % e.sessions) b.planned (b.docs.map (·.2)) with
      | error f => rw [h1] at h; cases h
      | ok xs =>
        cases h2 : runAll e c (i + 1) bs with
        | error f => rw [h1, h2] at h; cases h
        | ok ys =>
          rw [h1, h2] at h
          have h : Except.ok (xs ++ ys) = Except.ok es := h
          injection h with h; subst h
          obtain ⟨hl, hx⟩ := hrun _ _ _ _ h1
          refine List.rel_append ?_ (runAll_each e Enc hrun c bs (i + 1) ys h2)
          rw [List.forall₂_iff_get]
          simp only [List.length_map] at hl
          refine ⟨hl.symm, fun j hj hj' => ?_⟩
          simp only [List.get_eq_getElem]
          exact hx j _ _ (by simp [hj]) (List.getElem?_eq_getElem hj')

theorem runAll_ok (e : Engine T D E) (c : Nat → Bool) (hc : ∀ i, c i = false) :
    ∀ (bs : List (Batch D)) (i : Nat), (∀ b ∈ bs, ∀ s, ∃ es, e.run s b.planned (b.docs.map (·.2)) = .ok es) → ∃ es, runAll e c i bs = .ok es
  | [], i, _ => ⟨[], rfl⟩
  | b :: bs, i, h => by
    obtain ⟨xs, h1⟩ := h b (by simp) (i % e.sessions)
    obtain ⟨ys, h2⟩ := runAll_ok e c hc bs (i + 1) fun b hb => h b (by simp [hb])
    exact ⟨xs ++ ys, by rw [runAll, hc, h1, h2]; rfl⟩

theorem placed_idxs (e : Engine T D E) (docs : List D) :
    ((batches e docs).flatMap fun b => b.docs.map (·.1)).Perm (List.range docs.length) := by
  have h := (batches_perm e docs).map Prod.fst
  have h1 : (placed (batches e docs)).map Prod.fst = (batches e docs).flatMap fun b => b.docs.map (·.1) := by
    simp [placed, List.map_flatMap]
  rw [h1] at h
  refine h.trans ?_
  rw [List.map_map]
  have : (Prod.fst ∘ fun p : D × Nat => (p.2, p.1)) = Prod.snd := rfl
  rw [this, List.zipIdx_map_snd, List.range_eq_range']

theorem placed_mem (e : Engine T D E) (docs : List D) {i : Nat} {d : D} (h : (i, d) ∈ placed (batches e docs)) : docs[i]? = some d := by
  have := (batches_perm e docs).subset h
  obtain ⟨p, hp, he⟩ := List.mem_map.mp this
  obtain ⟨x, j⟩ := p
  simp only [Prod.mk.injEq] at he
  obtain ⟨rfl, rfl⟩ := he
  exact List.mem_zipIdx_iff_getElem?.mp hp

theorem encodeBatches_each (e : Engine T D E) (Enc : D → E → Prop)
    (hrun : ∀ s p ds es, e.run s p ds = .ok es → OneEach Enc ds es) (c : Nat → Bool) (docs : List D) {encoded : List E}
    (h : runAll e c 0 (batches e docs) = .ok encoded) :
    ∃ es, encodeBatches e c (batches e docs) = .ok es ∧ OneEach Enc docs es := by
  have hf := runAll_each e Enc hrun c _ _ _ h
  have hlen : (placed (batches e docs)).length = docs.length := by simpa using (batches_perm e docs).length_eq
  have hidx : ((batches e docs).flatMap fun b => b.docs.map (·.1)) = (placed (batches e docs)).map Prod.fst := by
    simp [placed, List.map_flatMap]
  have hel : encoded.length = docs.length := by rw [← hlen, hf.length_eq]
  obtain ⟨es, h1, h2, h3⟩ := restore_ok ((batches e docs).flatMap fun b => b.docs.map (·.1)) encoded (by rw [hel]; exact placed_idxs e docs)
  refine ⟨es, ?_, by omega, ?_⟩
  · unfold encodeBatches
    rw [h]; exact h1
  · intro i d x hd hx
    have hi : i < docs.length := (List.getElem?_eq_some_iff.mp hd).1
    have hmem : i ∈ (placed (batches e docs)).map Prod.fst := by
      rw [← hidx]; exact (placed_idxs e docs).symm.subset (by simpa using hi)
    obtain ⟨⟨i', d'⟩, hp, rfl⟩ := List.mem_map.mp hmem
    have hd' := placed_mem e docs hp
    simp only at hd hd'
    rw [hd] at hd'; injection hd' with hd'; subst hd'
    obtain ⟨k, hk, hkp⟩ := List.getElem_of_mem hp
    rw [List.forall₂_iff_get] at hf
    have hk' : k < encoded.length := by omega
    have hE := hf.2 k hk hk'
    simp only [List.get_eq_getElem, hkp] at hE
    have hz := h3 (i', encoded[k]) (by
      rw [hidx]
      apply List.mem_of_getElem? (i := k)
      rw [List.getElem?_zip_eq_some]
      refine ⟨?_, List.getElem?_eq_getElem hk'⟩
      rw [List.getElem?_map, List.getElem?_eq_getElem hk, hkp]; rfl)
    simp only at hz hx
    rw [hx] at hz; injection hz with hz; subst hz
    exact hE

theorem mapM_each {A B : Type} (f : A → Res B) : ∀ (l : List A) (r : List B), l.mapM f = .ok r → OneEach (fun a b => f a = .ok b) l r
  | [], r, h => by
    rw [List.mapM_nil] at h
    injection h with h; subst h
    exact ⟨rfl, by simp⟩
  | a :: l, r, h => by
    rw [List.mapM_cons] at h
    cases h1 : f a with
    | error x => rw [h1] at h; cases h
    | ok b =>
      cases h2 : l.mapM f with
      | error x => rw [h1, h2] at h; cases h
      | ok bs =>
        rw [h1, h2] at h
        have h : Except.ok (b :: bs) = Except.ok r := h
        injection h with h; subst h
        obtain ⟨hl, hx⟩ := mapM_each f l bs h2
        refine ⟨by simp [hl], ?_⟩
        intro i x y hi hj
        cases i with
        | zero => simp only [List.getElem?_cons_zero, Option.some.injEq] at hi hj; subst hi hj; exact h1
        | succ i => exact hx i x y (by simpa using hi) (by simpa using hj)

theorem mapM_ok {A B : Type} (f : A → Res B) : ∀ (l : List A), (∀ a ∈ l, ∃ b, f a = .ok b) → ∃ r, l.mapM f = .ok r
  | [], _ => ⟨[], by rw [List.mapM_nil]; rfl⟩
  | a :: l, h => by
    obtain ⟨b, hb⟩ := h a (by simp)
    obtain ⟨bs, hbs⟩ := mapM_ok f l fun x hx => h x (by simp [hx])
    exact ⟨b :: bs, by rw [List.mapM_cons, hb, hbs]; rfl⟩

theorem OneEach_comp {A B C : Type} {R : A → B → Prop} {S : B → C → Prop} {as : List A} {bs : List B} {cs : List C} (h1 : OneEach R as bs)
    (h2 : OneEach S bs cs) : OneEach (fun a c => ∃ b, R a b ∧ S b c) as cs := by
  refine ⟨h2.1.trans h1.1, ?_⟩
  intro i a c ha hc
  have hi : i < bs.length := by rw [← h2.1]; exact (List.getElem?_eq_some_iff.mp hc).1
  exact ⟨bs[i], h1.2 i a _ ha (List.getElem?_eq_getElem hi), h2.2 i _ c (List.getElem?_eq_getElem hi) hc⟩

theorem OneEach_append {A B : Type} {R : A → B → Prop} {as as' : List A} {bs bs' : List B} (h1 : OneEach R as bs) (h2 : OneEach R as' bs') :
    OneEach R (as ++ as') (bs ++ bs') := by
  refine ⟨by simp [h1.1, h2.1], ?_⟩
  intro i a b ha hb
  by_cases hi : i < as.length
  · rw [List.getElem?_append_left hi] at ha
    rw [List.getElem?_append_left (by rw [h1.1]; exact hi)] at hb
    exact h1.2 i a b ha hb
  · rw [List.getElem?_append_right (by omega)] at ha
    rw [List.getElem?_append_right (by rw [h1.1]; omega)] at hb
    rw [h1.1] at hb
    exact h2.2 _ a b ha hb

theorem OneEach_flatten {A B : Type} {R : A → B → Prop} : ∀ {as : List (List A)} {bs : List (List B)}, OneEach (OneEach R) as bs →
    OneEach R as.flatten bs.flatten
  | [], [], _ => ⟨rfl, by simp⟩
  | [], _ :: _, h => by have := h.1; simp at this
  | _ :: _, [], h => by have := h.1; simp at this
  | a :: as, b :: bs, h => by
    rw [List.flatten_cons, List.flatten_cons]
    refine OneEach_append (h.2 0 a b rfl rfl) (OneEach_flatten ⟨by simpa using h.1, fun i x y hx hy => h.2 (i + 1) x y (by simpa using hx) (by simpa using hy)⟩)

/-! ### Shapes -/

theorem roundUp_ge (n : Nat) : n ≤ roundUp n := by unfold roundUp; split <;> omega

theorem next_le {planned maxLen : Nat} (h : min 128 planned < planned) : min (roundUp (max (planned / 2) 128)) maxLen < planned := by
  have : roundUp (max (planned / 2) 128) < planned := by
    unfold roundUp
    rw [if_neg (by omega)]
    omega
  omega

theorem shapesFrom_spec (budget maxLen minLen planned : Nat) (hp : 0 < planned) (hm : planned ≤ maxLen) (hb : maxLen ≤ budget) (hmin : 0 < minLen) :
    ∀ s ∈ shapesFrom budget maxLen minLen planned, 0 < s.planned ∧ s.planned ≤ planned ∧ s.docs = budget / s.planned ∧ s.docs * s.planned ≤ budget ∧ 1 ≤ s.docs := by
  fun_induction shapesFrom budget maxLen minLen planned with
  | case1 planned ih =>
    intro s hs
    have h1 : 1 ≤ budget / planned := (Nat.one_le_div_iff hp).mpr (by omega)
    have h2 := Nat.div_mul_le_self budget planned
    rcases List.mem_cons.mp hs with rfl | hs
    · simp only
      rw [Nat.max_eq_left h1]
      exact ⟨hp, le_refl _, rfl, h2, h1⟩
    · split at hs
      · cases hs
      · split at hs
        · have hpos : 0 < min (roundUp (max (planned / 2) minLen)) maxLen := by
            have := roundUp_ge (max (planned / 2) minLen); omega
          obtain ⟨a, b, c, d⟩ := ih (by assumption) hpos (by omega) s hs
          exact ⟨a, by omega, c, d⟩
        · cases hs

theorem shapes_spec (b n : Nat) : ∀ s ∈ shapes b n, 0 < s.planned ∧ s.planned ≤ max n 1 ∧ s.docs * s.planned ≤ max b 1 * max n 1 ∧ 1 ≤ s.docs := by
  intro s hs
  unfold shapes at hs
  simp only [List.mem_reverse] at hs
  have hr := roundUp_ge (max n 1)
  have hmin : min (roundUp (max n 1)) (max n 1) = max n 1 := by omega
  rw [hmin] at hs
  have hb : max n 1 ≤ max b 1 * max n 1 := Nat.le_mul_of_pos_left _ (by omega)
  obtain ⟨h1, h2, _, h4, h5⟩ := shapesFrom_spec _ _ _ _ (by omega) (le_refl _) hb (by omega) s hs
  exact ⟨h1, h2, h4, h5⟩

/-- The full length is among the shapes. -/
theorem shapes_full (b n : Nat) : ∃ s ∈ shapes b n, s.planned = max n 1 := by
  unfold shapes
  have hr := roundUp_ge (max n 1)
  have hmin : min (roundUp (max n 1)) (max n 1) = max n 1 := by omega
  simp only [List.mem_reverse, hmin]
  rw [shapesFrom]
  exact ⟨_, List.mem_cons_self, rfl⟩

theorem bucket_fits {ss : List Shape} {n : Nat} (h : ∃ s ∈ ss, n ≤ s.planned) {s : Shape} (hs : ss[bucket ss n]? = some s) : n ≤ s.planned := by
  unfold bucket at hs
  cases hf : ss.findIdx? fun s => decide (n ≤ s.planned) with
  | none =>
    obtain ⟨x, hx, hn⟩ := h
    have := List.findIdx?_eq_none_iff.mp hf x hx
    simp [hn] at this
  | some i =>
    rw [hf] at hs
    obtain ⟨h1, h2, _⟩ := List.findIdx?_eq_some_iff_getElem.mp hf
    simp only [Option.getD_some] at hs
    rw [List.getElem?_eq_getElem h1] at hs
    injection hs with hs; subst hs
    simpa using h2

theorem mem_batches_dynamic (e : Engine T D E) (hd : e.dynamic = true) (docs : List D) {b : Batch D} (hb : b ∈ batches e docs) :
    ∃ (j : Nat) (s : Shape), (shapes (max e.batchSize 1) e.docLen)[j]? = some s ∧ b.planned = some s.planned ∧ b.docs ≠ [] ∧
      b.docs.length ≤ max s.docs 1 ∧ ∀ p ∈ b.docs, bucket (shapes (max e.batchSize 1) e.docLen) (preparedLen e p.2) = j := by
  unfold batches at hb
  simp only [hd, if_true, List.mem_flatten, List.mem_map] at hb
  obtain ⟨l, ⟨⟨s, j⟩, hs, rfl⟩, hl⟩ := hb
  obtain ⟨p, hp, rfl⟩ := List.mem_map.mp hl
  obtain ⟨h1, h2⟩ := pieces_size _ _ _ hp
  refine ⟨j, s, List.mem_zipIdx_iff_getElem?.mp hs, rfl, h1, ?_, ?_⟩
  · simp only at h2 ⊢; omega
  · intro q hq
    have : q ∈ (pieces (max s.docs 1) ((byLength e (docs.zipIdx.map fun p => (p.2, p.1))).filter fun p =>
        bucket (shapes (max e.batchSize 1) e.docLen) (preparedLen e p.2) = j)).flatten := List.mem_flatten.mpr ⟨p, hp, hq⟩
    rw [pieces_flatten] at this
    simpa using (List.mem_filter.mp this).2

/-! ### The stream -/

theorem stream_keeps {W R : Type} (job : Nat → W → R) {q0 : List W} {n : Nat} {s : Workers W R}
    (h : Workers.Run job (Workers.begin q0 n) s) :
    s.busy.length = n ∧ ∃ done : List W, List.Forall₂ (fun w r => ∃ i < n, r = job i w) done s.out ∧
      (s.queue ++ (s.busy.filterMap id ++ done)).Perm q0 := by
  generalize hs0 : (Workers.begin q0 n : Workers W R) = s0 at h
  induction h with
  | refl =>
    subst hs0
    exact ⟨by simp [Workers.begin], [], .nil, by simp [Workers.begin, List.filterMap_replicate]⟩
  | @step b _ h st ih =>
    obtain ⟨hl, done, hd, hp⟩ := ih
    cases st with
    | @take w q i hq hi =>
      have hil : i < b.busy.length := (List.getElem?_eq_some_iff.mp hi).1
      refine ⟨by simpa using hl, done, hd, ?_⟩
      simp only
      refine List.Perm.trans ?_ hp
      rw [hq]
      have : ((b.busy.set i (some w)).filterMap id).Perm (w :: b.busy.filterMap id) := by
        rw [List.set_eq_take_append_cons_drop, if_pos hil, List.filterMap_append, List.filterMap_cons]
        have hb : b.busy = b.busy.take i ++ none :: b.busy.drop (i + 1) := by
          conv_lhs => rw [← List.take_append_drop i b.busy]
          rw [List.drop_eq_getElem_cons hil]
          congr 2
          rw [List.getElem?_eq_getElem hil] at hi
          injection hi
        conv_rhs => rw [hb]
        rw [List.filterMap_append, List.filterMap_cons]
        exact List.perm_middle
      exact (List.Perm.append_left _ (this.append_right _)).trans (List.perm_middle (a := w) (l₁ := q) (l₂ := b.busy.filterMap id ++ done))
    | @send w i hi =>
      have hil : i < b.busy.length := (List.getElem?_eq_some_iff.mp hi).1
      refine ⟨by simpa using hl, done ++ [w], ?_, ?_⟩
      · exact List.rel_append hd (.cons ⟨i, by omega, rfl⟩ .nil)
      · simp only
        refine List.Perm.trans ?_ hp
        have : (b.busy.filterMap id).Perm (w :: (b.busy.set i none).filterMap id) := by
          rw [List.set_eq_take_append_cons_drop, if_pos hil, List.filterMap_append, List.filterMap_cons]
          have hb : b.busy = b.busy.take i ++ some w :: b.busy.drop (i + 1) := by
            conv_lhs => rw [← List.take_append_drop i b.busy]
            rw [List.drop_eq_getElem_cons hil]
            congr 2
            rw [List.getElem?_eq_getElem hil] at hi
            injection hi
          conv_lhs => rw [hb]
          rw [List.filterMap_append, List.filterMap_cons]
          exact List.perm_middle
        refine List.Perm.append_left _ (List.Perm.trans ?_ (this.append_right done).symm)
        rw [← List.append_assoc, List.cons_append]
        exact List.perm_append_singleton w _

theorem stream_progress {W R : Type} (job : Nat → W → R) {s : Workers W R} (hn : 0 < s.busy.length) (h : ¬ s.Over) : ∃ s', Workers.Step job s s' := by
  by_cases hb : ∃ (i : Nat) (w : W), s.busy[i]? = some (some w)
  · obtain ⟨i, w, hi⟩ := hb
    exact ⟨_, .send i hi⟩
  · have hnone : ∀ b ∈ s.busy, b = none := by
      intro b hb'
      cases b with
      | none => rfl
      | some w =>
        obtain ⟨i, hi, he⟩ := List.getElem_of_mem hb'
        exact absurd ⟨i, w, by rw [List.getElem?_eq_getElem hi, he]⟩ hb
    cases hq : s.queue with
    | nil => exact absurd ⟨hq, hnone⟩ h
    | cons w q =>
      refine ⟨_, .take 0 hq ?_⟩
      rw [List.getElem?_eq_getElem hn, hnone _ (List.getElem_mem hn)]

/-! ### What the chunks of a stream hold -/

section Chunks

variable (direct : Nat → List T → Res (List E)) (Enc : T → E → Prop) (hdirect : ∀ s ts es, direct s ts = .ok es → OneEach Enc ts es)
  (batchSize sessions : Nat) (texts : List T) (done : List (Nat × Nat × List T)) (out : List (Res (Nat × Nat × List E)))
  (hd : List.Forall₂ (fun w r => ∃ i < sessions, r = streamJob direct i w) done out)

include hdirect hd

theorem chunks_at (hsub : ∀ w ∈ done, w ∈ workQueue batchSize texts) :
    ∀ p, Except.ok p ∈ out → ∀ j x, p.2.2[j]? = some x → ∃ t, texts[p.2.1 + j]? = some t ∧ Enc t x := by
  set n := max batchSize 1 with hn
  have hn0 : 0 < n := by omega
  -- each chunk of work
  have hwork : ∀ w ∈ done, ∃ k, w = (k, k * n, (texts.drop (k * n)).take n) ∧ k * n < texts.length := by
    intro w hw
    have := hsub w hw
    unfold workQueue at this
    obtain ⟨⟨p, k⟩, hpk, rfl⟩ := List.mem_map.mp this
    have h1 := List.mem_zipIdx_iff_getElem?.mp hpk
    simp only at h1
    rw [pieces_get _ hn0] at h1
    split at h1
    · injection h1 with h1
      exact ⟨k, by rw [h1], by assumption⟩
    · cases h1
  have hpart : ∀ w ∈ done, ∀ i p, streamJob direct i w = .ok p → p.1 = w.1 ∧ p.2.1 = w.2.1 ∧ OneEach Enc w.2.2 p.2.2 := by
    intro w _ i p h
    unfold streamJob at h
    cases h1 : direct i w.2.2 with
    | error f => rw [h1] at h; cases h
    | ok es =>
      rw [h1] at h
      have h : Except.ok (w.1, w.2.1, es) = Except.ok p := h
      injection h with h; subst h
      exact ⟨rfl, rfl, hdirect _ _ _ h1⟩
  have hat : ∀ w ∈ done, ∀ i p, streamJob direct i w = .ok p → ∀ j x, p.2.2[j]? = some x → ∃ t, texts[p.2.1 + j]? = some t ∧ Enc t x := by
    intro w hw i p h j x hx
    obtain ⟨h1, h2, h3, h4⟩ := hpart w hw i p h
    obtain ⟨k, hk, hkn⟩ := hwork w hw
    have hj : j < p.2.2.length := (List.getElem?_eq_some_iff.mp hx).1
    rw [h3] at hj
    have ha : w.2.2[j]? = some w.2.2[j] := List.getElem?_eq_getElem hj
    refine ⟨w.2.2[j], ?_, h4 j _ x ha hx⟩
    rw [← ha, h2, hk]
    simp only
    rw [hk] at hj
    simp only [List.length_take, List.length_drop] at hj
    rw [List.getElem?_take_of_lt (by omega), List.getElem?_drop]
  intro p hpm j x hx
  obtain ⟨k, hk, hke⟩ := List.getElem_of_mem hpm
  rw [List.forall₂_iff_get] at hd
  have hkd : k < done.length := by rw [hd.1]; exact hk
  obtain ⟨i, _, hi⟩ := hd.2 k hkd hk
  simp only [List.get_eq_getElem, hke] at hi
  exact hat done[k] (List.getElem_mem hkd) i p hi.symm j x hx

theorem chunks_cover (hp : done.Perm (workQueue batchSize texts)) (parts : List (Nat × Nat × List E)) (hparts : out = parts.map Except.ok) :
    (parts.map (·.1)).Perm (List.range parts.length) ∧ CoversOnce Enc texts (parts.map fun p => ⟨p.2.1, p.2.2⟩) := by
  set n := max batchSize 1 with hn
  have hn0 : 0 < n := by omega
  -- each chunk of work
  have hwork : ∀ w ∈ done, ∃ k, w = (k, k * n, (texts.drop (k * n)).take n) ∧ k * n < texts.length := by
    intro w hw
    have := hp.subset hw
    unfold workQueue at this
    obtain ⟨⟨p, k⟩, hpk, rfl⟩ := List.mem_map.mp this
    have h1 := List.mem_zipIdx_iff_getElem?.mp hpk
    simp only at h1
    rw [pieces_get _ hn0] at h1
    split at h1
    · injection h1 with h1
      exact ⟨k, by rw [h1], by assumption⟩
    · cases h1
  have hpart : ∀ w ∈ done, ∀ i p, streamJob direct i w = .ok p → p.1 = w.1 ∧ p.2.1 = w.2.1 ∧ OneEach Enc w.2.2 p.2.2 := by
    intro w _ i p h
    unfold streamJob at h
    cases h1 : direct i w.2.2 with
    | error f => rw [h1] at h; cases h
    | ok es =>
      rw [h1] at h
      have h : Except.ok (w.1, w.2.1, es) = Except.ok p := h
      injection h with h; subst h
      exact ⟨rfl, rfl, hdirect _ _ _ h1⟩
  have hat : ∀ w ∈ done, ∀ i p, streamJob direct i w = .ok p → ∀ j x, p.2.2[j]? = some x → ∃ t, texts[p.2.1 + j]? = some t ∧ Enc t x := by
    intro w hw i p h j x hx
    obtain ⟨h1, h2, h3, h4⟩ := hpart w hw i p h
    obtain ⟨k, hk, hkn⟩ := hwork w hw
    have hj : j < p.2.2.length := (List.getElem?_eq_some_iff.mp hx).1
    rw [h3] at hj
    have ha : w.2.2[j]? = some w.2.2[j] := List.getElem?_eq_getElem hj
    refine ⟨w.2.2[j], ?_, h4 j _ x ha hx⟩
    rw [← ha, h2, hk]
    simp only
    rw [hk] at hj
    simp only [List.length_take, List.length_drop] at hj
    rw [List.getElem?_take_of_lt (by omega), List.getElem?_drop]
  rw [hparts] at hd
  rw [List.forall₂_map_right_iff] at hd
  have hlen : done.length = parts.length := hd.length_eq
  have hget := (List.forall₂_iff_get.mp hd).2
  have hfst : parts.map (·.1) = done.map (·.1) := by
    apply List.ext_getElem (by simp [hlen])
    intro k h1 h2
    simp only [List.getElem_map]
    simp only [List.length_map] at h1 h2
    obtain ⟨i, _, hi⟩ := hget k h2 h1
    simp only [List.get_eq_getElem] at hi
    exact (hpart _ (List.getElem_mem h2) i _ hi.symm).1
  have hsizes : parts.map (fun p => p.2.2.length) = done.map (fun w => w.2.2.length) := by
    apply List.ext_getElem (by simp [hlen])
    intro k h1 h2
    simp only [List.getElem_map]
    simp only [List.length_map] at h1 h2
    obtain ⟨i, _, hi⟩ := hget k h2 h1
    simp only [List.get_eq_getElem] at hi
    exact (hpart _ (List.getElem_mem h2) i _ hi.symm).2.2.1
  refine ⟨?_, ?_, ?_, ?_⟩
  · rw [hfst, ← hlen]
    refine (hp.map _).trans ?_
    unfold workQueue
    rw [List.map_map]
    have : ((fun x : Nat × Nat × List T => x.1) ∘ fun p : List T × Nat => (p.2, p.2 * max batchSize 1, p.1)) = Prod.snd := rfl
    rw [this, List.zipIdx_map_snd]
    have hll := hp.length_eq
    unfold workQueue at hll
    simp only [List.length_map, List.length_zipIdx] at hll
    rw [hll, List.range_eq_range']
  · intro q hq j x hx
    obtain ⟨p, hpm, rfl⟩ := List.mem_map.mp hq
    obtain ⟨k, hk, rfl⟩ := List.getElem_of_mem hpm
    have hkd : k < done.length := by omega
    obtain ⟨i, _, hi⟩ := hget k hkd hk
    simp only [List.get_eq_getElem] at hi
    exact hat _ (List.getElem_mem hkd) i _ hi.symm j x hx
  · intro i hi
    have hk : (i / n) * n ≤ i := Nat.div_mul_le_self i n
    have hm : i < (i / n) * n + n := by
      have := Nat.lt_div_mul_add (a := i) hn0; simpa using this
    have hmem : (i / n, i / n * n, (texts.drop (i / n * n)).take n) ∈ workQueue batchSize texts := by
      unfold workQueue
      refine List.mem_map.mpr ⟨((texts.drop (i / n * n)).take n, i / n), ?_, rfl⟩
      rw [List.mem_zipIdx_iff_getElem?, pieces_get _ hn0]
      simp only
      rw [if_pos (by omega)]
    obtain ⟨k, hk1, hk2⟩ := List.getElem_of_mem (hp.symm.subset hmem)
    have hkp : k < parts.length := by omega
    obtain ⟨u, _, hu⟩ := hget k hk1 hkp
    simp only [List.get_eq_getElem] at hu
    obtain ⟨_, g2, g3, _⟩ := hpart _ (List.getElem_mem hk1) u _ hu.symm
    rw [hk2] at g2 g3
    simp only [List.length_take, List.length_drop] at g3 g2
    have hjl : i - i / n * n < parts[k].2.2.length := by rw [g3]; omega
    refine ⟨⟨parts[k].2.1, parts[k].2.2⟩, List.mem_map.mpr ⟨parts[k], List.getElem_mem hkp, rfl⟩, i - i / n * n, parts[k].2.2[i - i / n * n], ?_, List.getElem?_eq_getElem hjl⟩
    simp only [g2]; omega
  · rw [List.map_map]
    have : ((fun p : Part E => p.results.length) ∘ fun p : Nat × Nat × List E => (⟨p.2.1, p.2.2⟩ : Part E)) = fun p => p.2.2.length := rfl
    rw [this, hsizes, (hp.map _).sum_eq]
    unfold workQueue
    rw [List.map_map]
    have : ((fun w : Nat × Nat × List T => w.2.2.length) ∘ fun p : List T × Nat => (p.2, p.2 * max batchSize 1, p.1)) = List.length ∘ Prod.fst := rfl
    rw [this, ← List.map_map, List.zipIdx_map_fst, ← List.length_flatten, pieces_flatten]

end Chunks

end NextPlaid.Encode
