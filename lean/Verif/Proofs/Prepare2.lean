import Verif.Proofs.Prepare

/-! From prepared batches to embeddings. -/

namespace NextPlaid.Prepare

open NextPlaid.Spec

variable {K T : Type}

/-- The batch that these documents make. -/
def build (k : Kind) (pre len : Nat) (cs : List (List (Nat × Nat × Nat))) : Prepared :=
  ⟨cs.length, len, mk k (cs.flatMap (padded k pre len)) 0, cs.map fun c => (rowCells k pre c).map (·.1), cs.map fun c => finalLen k c.length⟩

/-- A token with its type, attended to. -/
def cell (x : Nat × Nat) : Nat × Nat × Nat := (x.1, 1, x.2)

/-- What a tokenised document is. -/
def TokDoc.Good (d : TokDoc) : Prop := d.ids ≠ [] ∧ d.types.length = d.ids.length

theorem docCells_length {d : TokDoc} (h : d.Good) : ((d.ids.zip d.types).map cell).length = d.ids.length := by
  rw [List.length_map, List.length_zip, h.2, Nat.min_self]

theorem docCells_reads {d : TokDoc} (h : d.Good) : AsCells (max d.ids.length 1, d.ids, fun _ => .ok 1, d.types) ((d.ids.zip d.types).map cell) := by
  have hl := docCells_length h
  have h1 : 1 ≤ d.ids.length := List.length_pos_of_ne_nil h.1
  refine ⟨by rw [hl]; simp only; omega, by omega, ?_⟩
  intro s c hc
  rw [List.getElem?_map] at hc
  cases hz : (d.ids.zip d.types)[s]? with
  | none => rw [hz] at hc; cases hc
  | some x =>
    rw [hz] at hc
    simp only [Option.map_some, Option.some.injEq] at hc
    subst hc
    have := List.getElem?_zip_eq_some.mp hz
    exact ⟨idx_ok this.1, rfl, idx_ok this.2⟩

theorem prepareDocs_ok (k : Kind) (pre : Nat) (hp : k.prefix = .ok pre) (hm : 3 ≤ k.maxLen) (docs : List TokDoc) (hd : ∀ d ∈ docs, d.Good) (pad : Option Nat) :
    prepareDocs k docs pad =
      .ok (build k pre (batchLen k (docs.map (·.ids.length)) pad) (docs.map fun d => (d.ids.zip d.types).map cell)) := by
  unfold prepareDocs
  rw [hp]
  show (rows k pre (batchLen k (docs.map (·.ids.length)) pad) 0 _ (blank k _, []) >>= _) = _
  set len := batchLen k (docs.map (·.ids.length)) pad with hlen
  have hf : List.Forall₂ AsCells (docs.map fun d => (max d.ids.length 1, d.ids, (fun _ => .ok 1 : Nat → Res Nat), d.types))
      (docs.map fun d => (d.ids.zip d.types).map cell) := by
    rw [List.forall₂_map_left_iff, List.forall₂_map_right_iff, List.forall₂_same]
    exact fun d hdm => docCells_reads (hd d hdm)
  have hb : blank k (docs.length * len) = mk k [] ((docs.map fun d => (d.ids.zip d.types).map cell).length * len) := by rw [blank_mk, List.length_map]
  rw [hb, rows_ok k pre len hm _ _ 0 [] [] hf (by simp) ?_]
  · show Except.ok _ = Except.ok _
    unfold build
    simp only [List.nil_append, List.length_map, List.map_map]
    congr 2
    apply List.map_congr_left
    intro d hdm
    simp only [Function.comp]
    have := docCells_length (hd d hdm)
    have h1 : 1 ≤ d.ids.length := List.length_pos_of_ne_nil (hd d hdm).1
    rw [this, Nat.max_eq_left h1]
  · intro c hc
    obtain ⟨d, hdm, rfl⟩ := List.mem_map.mp hc
    rw [finalLen_eq k pre _ hm, docCells_length (hd d hdm)]
    exact batchLen_ge k _ pad (by omega) (List.mem_map.mpr ⟨d, hdm, rfl⟩)

/-- The encoding of these tokens, padded on the right. -/
abbrev Pads (real : List (Nat × Nat)) (e : Encoding) : Prop := RightPadded real e.ids e.masks e.types

theorem realLen_pads {real : List (Nat × Nat)} {e : Encoding} (h : Pads real e) : realLen e.masks = real.length := by
  obtain ⟨hne, pi, pt, _, _, hm, _⟩ := h
  have h1 : 1 ≤ real.length := List.length_pos_of_ne_nil hne
  have ht : (List.replicate real.length 1 ++ List.replicate pi.length 0).takeWhile (fun x : Nat => decide (x ≠ 0)) = List.replicate real.length 1 := by
    rw [List.takeWhile_append_of_pos (by
      intro x hx
      rw [(List.mem_replicate.mp hx).2]; rfl)]
    cases pi with
    | nil => simp
    | cons a l => simp [List.replicate_succ]
  unfold realLen
  rw [hm, ht, List.length_replicate, Nat.max_eq_left h1]

theorem encCells_reads {real : List (Nat × Nat)} {e : Encoding} (h : Pads real e) : AsCells (realLen e.masks, e.ids, idx e.masks, e.types) (real.map cell) := by
  have hr := realLen_pads h
  obtain ⟨hne, pi, pt, h1, h2, h3, h4⟩ := h
  refine ⟨by rw [hr, List.length_map], by rw [List.length_map]; exact List.length_pos_of_ne_nil hne, ?_⟩
  intro s c hc
  rw [List.getElem?_map] at hc
  cases hz : real[s]? with
  | none => rw [hz] at hc; cases hc
  | some x =>
    rw [hz] at hc
    simp only [Option.map_some, Option.some.injEq] at hc
    subst hc
    have hs : s < real.length := (List.getElem?_eq_some_iff.mp hz).1
    refine ⟨idx_ok ?_, idx_ok ?_, idx_ok ?_⟩
    · show e.ids[s]? = some x.1
      rw [h1, List.getElem?_append_left (by simpa using hs), List.getElem?_map, hz]; rfl
    · show e.masks[s]? = some 1
      rw [h3, List.getElem?_append_left (by simpa using hs), List.getElem?_replicate, if_pos hs]
    · show e.types[s]? = some x.2
      rw [h2, List.getElem?_append_left (by simpa using hs), List.getElem?_map, hz]; rfl

theorem prepareEncodings_ok (k : Kind) (pre : Nat) (hp : k.prefix = .ok pre) (hm : 3 ≤ k.maxLen) (reals : List (List (Nat × Nat))) (encs : List Encoding)
    (he : List.Forall₂ Pads reals encs) :
    prepareEncodings k encs = .ok (build k pre (batchLen k (reals.map List.length) none) (reals.map (List.map cell))) := by
  have hlens : encs.map (fun e => realLen e.masks) = reals.map List.length := by
    induction he with
    | nil => rfl
    | cons h _ ih => rw [List.map_cons, List.map_cons, ih, realLen_pads h]
  have hsize : encs.length = reals.length := he.length_eq.symm
  unfold prepareEncodings
  rw [hp]
  show (rows k pre (batchLen k (encs.map fun e => realLen e.masks) none) 0 _ (blank k _, []) >>= _) = _
  rw [hlens]
  set len := batchLen k (reals.map List.length) none with hlen
  have hf : List.Forall₂ AsCells (encs.map fun e => (realLen e.masks, e.ids, idx e.masks, e.types)) (reals.map (List.map cell)) := by
    rw [List.forall₂_map_left_iff, List.forall₂_map_right_iff]
    exact he.flip.imp fun a b h => encCells_reads h
  have hb : blank k (encs.length * len) = mk k [] ((reals.map (List.map cell)).length * len) := by rw [blank_mk, List.length_map, hsize]
  rw [hb, rows_ok k pre len hm _ _ 0 [] [] hf (by simp) ?_]
  · show Except.ok _ = Except.ok _
    have hfin : encs.map (fun e => finalLen k (realLen e.masks)) = reals.map fun r => finalLen k r.length := by
      have := congrArg (List.map (finalLen k)) hlens
      simpa [List.map_map, Function.comp_def] using this
    unfold build
    simp only [List.nil_append, List.length_map, List.map_map, hfin, hsize]
    congr 2
    apply List.map_congr_left
    intro r _
    simp
  · intro c hc
    obtain ⟨r, hr, rfl⟩ := List.mem_map.mp hc
    rw [finalLen_eq k pre _ hm, List.length_map]
    exact batchLen_ge k _ none (by omega) (List.mem_map.mpr ⟨r, hr, rfl⟩)

/-! ### Forward passes -/

/-- What the forward pass attends to in the row of a document. -/
def seen (k : Kind) (pre : Nat) (real : List (Nat × Nat)) : List (Nat × Nat) :=
  (if k.expand then padded k pre k.maxLen (real.map cell) else rowCells k pre (real.map cell)).map fun x => (x.1, if k.useTypes then x.2.2 else 0)

theorem mem_sequence {α : Type} {m : Nat} {p x : α} {l : List α} (h : x ∈ sequence m p l) : x = p ∨ x ∈ l := by
  have hs : ∀ y ∈ shorten (m - 1) l, y ∈ l := by
    intro y hy
    unfold shorten at hy
    split at hy
    · exact hy
    · rcases List.mem_append.mp hy with hy | hy
      · exact List.mem_of_mem_take hy
      · exact List.mem_of_getLast? (Option.mem_toList.mp hy)
  unfold sequence at h
  cases hl : shorten (m - 1) l with
  | nil => rw [hl] at h; simp only [withPrefix, List.mem_singleton] at h; exact .inl h
  | cons a r =>
    rw [hl] at h hs
    simp only [withPrefix, List.mem_cons] at h
    rcases h with h | h | h
    · exact .inr (hs _ (by simp [h]))
    · exact .inl h
    · exact .inr (hs _ (List.mem_cons_of_mem _ h))

theorem rowCells_mask (k : Kind) (pre : Nat) (real : List (Nat × Nat)) : (rowCells k pre (real.map cell)).map (·.2.1) =
    List.replicate (rowCells k pre (real.map cell)).length 1 := by
  rw [List.eq_replicate_iff]
  refine ⟨by simp, ?_⟩
  intro b hb
  obtain ⟨x, hx, rfl⟩ := List.mem_map.mp hb
  rcases mem_sequence hx with rfl | h
  · rfl
  · obtain ⟨y, _, rfl⟩ := List.mem_map.mp h
    rfl

theorem mapM_eq {A B : Type} (f : A → Res B) (g : A → B) : ∀ l : List A, (∀ a ∈ l, f a = .ok (g a)) → l.mapM f = .ok (l.map g)
  | [], _ => rfl
  | a :: l, h => by
    rw [List.mapM_cons, h a (List.mem_cons_self ..)]
    show ((l.mapM f) >>= _) = _
    rw [mapM_eq f g l fun b hb => h b (List.mem_cons_of_mem _ hb)]
    rfl

theorem zipIdx_filter {A : Type} (f : A → Bool) (l : List A) : (l.zipIdx.filter fun t => f t.1).map (·.2) =
    (List.range l.length).filter fun j => (l[j]?.map f).getD false := by
  have h1 : (l.zipIdx.filter fun t => f t.1) = l.zipIdx.filter ((fun j => (l[j]?.map f).getD false) ∘ fun t => t.2) := by
    apply List.filter_congr
    intro t ht
    have := List.mem_zipIdx_iff_getElem?.mp ht
    simp [this]
  rw [h1, ← List.filter_map]
  congr 1
  rw [List.zipIdx_map_snd, List.range_eq_range']

theorem slice_ok {A : Type} {l : List A} {s n : Nat} (h : s + n ≤ l.length) : slice l s n = .ok ((l.drop s).take n) := by unfold slice; rw [if_pos h]

theorem room {size len dim i j : Nat} (hi : i < size) (hj : j < len) : i * len * dim + j * dim + dim ≤ size * len * dim := by
  have h1 : i * len + len ≤ size * len := by
    have := Nat.mul_le_mul_right len (show i + 1 ≤ size from hi)
    rwa [Nat.succ_mul] at this
  have h2 := Nat.mul_le_mul_right dim (show i * len + (j + 1) ≤ size * len by omega)
  rw [Nat.add_mul, Nat.succ_mul] at h2
  omega

theorem encodePrepared_each (k : Kind) (pass : Pass K) (V : List (Nat × Nat) → Nat → List K → Prop) (hpass : Attentive pass V) (skip : Nat → Bool) (pre len : Nat)
    (hm : 3 ≤ k.maxLen) (hexp : k.expand = true → len = k.maxLen) (reals : List (List (Nat × Nat)))
    (hlen : ∀ r ∈ reals, (rowCells k pre (r.map cell)).length ≤ len) :
    (∃ f, encodePrepared k pass skip (build k pre len (reals.map (List.map cell))) = .error f ∧ ∃ s l i m t, pass s l i m t = .error f) ∨
    ∃ es, encodePrepared k pass skip (build k pre len (reals.map (List.map cell))) = .ok es ∧
      OneEach (fun r e => Embeds V (fun t => !k.expand && skip t) (seen k pre r) e) reals es := by
  unfold encodePrepared
  by_cases h0 : reals = []
  · subst h0
    right
    exact ⟨[], by simp [build], rfl, by simp⟩
  rw [if_neg (by simpa [build] using h0)]
  set p := build k pre len (reals.map (List.map cell)) with hp
  have hsize : p.size = reals.length := by simp [hp, build]
  have hplen : p.len = len := rfl
  have hpad : ∀ c ∈ reals.map (List.map cell), (padded k pre len c).length = len := by
    intro c hc
    obtain ⟨r, hr, rfl⟩ := List.mem_map.mp hc
    exact padded_length k pre len _ (hlen r hr)
  cases hpa : pass p.size p.len p.arrays.ids p.arrays.mask (if k.useTypes then some p.arrays.types else none) with
  | error f => exact .inl ⟨f, rfl, _, _, _, _, _, hpa⟩
  | ok out =>
    right
    obtain ⟨dim, out⟩ := out
    obtain ⟨hout, hrows⟩ := hpass _ _ _ _ _ _ _ hpa
    rw [hsize, hplen] at hout
    have hrow : ∀ i r, reals[i]? = some r → ∀ j < (seen k pre r).length, V (seen k pre r) j ((out.drop ((i * len + j) * dim)).take dim) := by
      intro i r hr
      have hi : i < reals.length := (List.getElem?_eq_some_iff.mp hr).1
      have hri : (reals.map (List.map cell))[i]? = some (r.map cell) := by rw [List.getElem?_map, hr]; rfl
      have hget := rowOf_flatMap (padded k pre len) len _ hpad i _ hri
      have hall (f : Nat × Nat × Nat → Nat) : rowOf ((((reals.map (List.map cell)).flatMap (padded k pre len)).map f) ++ List.replicate 0 0) len i =
          (padded k pre len (r.map cell)).map f := by
        rw [List.replicate_zero, List.append_nil, rowOf_map, hget]
      have hcl := hlen r (List.mem_of_getElem? hr)
      have hseen : ∃ ys, padded k pre len (r.map cell) = (if k.expand then padded k pre k.maxLen (r.map cell) else rowCells k pre (r.map cell)) ++ ys ∧
          (if k.expand then padded k pre k.maxLen (r.map cell) else rowCells k pre (r.map cell)).map (·.2.1) =
            List.replicate (seen k pre r).length 1 ∧ ys.map (·.2.1) = List.replicate (len - (seen k pre r).length) 0 := by
        have hmask := rowCells_mask k pre r
        by_cases he : k.expand = true
        · have hl := hexp he
          refine ⟨[], ?_, ?_, ?_⟩
          · rw [if_pos he, hl, List.append_nil]
          · unfold seen
            rw [if_pos he, List.length_map, ← hl, padded_length k pre len _ hcl]
            unfold padded
            rw [List.map_append, hmask, List.map_replicate]
            simp only [he, if_true]
            rw [List.replicate_append_replicate, Nat.add_sub_cancel' hcl]
          · unfold seen
            rw [if_pos he, List.length_map, ← hl, padded_length k pre len _ hcl, Nat.sub_self]; rfl
        · refine ⟨List.replicate (len - (rowCells k pre (r.map cell)).length) (if k.expand then k.maskId else k.padId, if k.expand then 1 else 0, 0), ?_, ?_, ?_⟩
          · rw [if_neg he]; rfl
          · unfold seen
            rw [if_neg he, List.length_map, hmask]
          · unfold seen
            rw [List.length_map, List.map_replicate]
            simp only [if_neg he]
      obtain ⟨ys, hy1, hy2, hy3⟩ := hseen
      have hsl : (if k.expand then padded k pre k.maxLen (r.map cell) else rowCells k pre (r.map cell)).length = (seen k pre r).length := by
        unfold seen; rw [List.length_map]
      refine hrows i (by rw [hsize]; exact hi) (seen k pre r) ?_ ?_ ?_
      · show (rowOf p.arrays.ids len i).take _ = _
        have : p.arrays.ids = (((reals.map (List.map cell)).flatMap (padded k pre len)).map (·.1)) ++ List.replicate 0 0 := by simp [hp, build, mk]
        rw [this, hall, hy1, List.map_append, List.take_left' (by rw [List.length_map, hsl])]
        unfold seen
        rw [List.map_map]; rfl
      · have : p.arrays.types = (((reals.map (List.map cell)).flatMap (padded k pre len)).map (·.2.2)) ++ List.replicate 0 0 := by simp [hp, build, mk]
        by_cases hu : k.useTypes = true
        · rw [if_pos hu]
          show (rowOf p.arrays.types len i).take _ = _
          rw [this, hall, hy1, List.map_append, List.take_left' (by rw [List.length_map, hsl])]
          unfold seen
          rw [List.map_map]
          simp only [hu, if_true]; rfl
        · rw [if_neg hu]
          show List.replicate _ 0 = _
          symm
          rw [List.eq_replicate_iff]
          refine ⟨by simp, ?_⟩
          intro b hb
          obtain ⟨x, hx, rfl⟩ := List.mem_map.mp hb
          unfold seen at hx
          obtain ⟨y, _, rfl⟩ := List.mem_map.mp hx
          simp [hu]
      · show rowOf p.arrays.mask len i = _
        have : p.arrays.mask = (((reals.map (List.map cell)).flatMap (padded k pre len)).map (·.2.1)) ++ List.replicate 0 0 := by simp [hp, build, mk]
        rw [this, hall, hy1, List.map_append, hy2, hy3]; rfl
    -- the vectors that are cut out
    let vec := fun i j : Nat => (out.drop ((i * len + j) * dim)).take dim
    have hmul : ∀ i j : Nat, i * len * dim + j * dim = (i * len + j) * dim := fun i j => (Nat.add_mul _ _ _).symm
    have hcut : ∀ i r, reals[i]? = some r → cutRow k skip p dim out i =
        .ok (((List.range (seen k pre r).length).filter fun j => ((seen k pre r)[j]?.map fun t => !(!k.expand && skip t.1)).getD false).map (vec i)) := by
      intro i r hr
      have hi : i < reals.length := (List.getElem?_eq_some_iff.mp hr).1
      have hcl := hlen r (List.mem_of_getElem? hr)
      unfold cutRow
      by_cases he : k.expand = true
      · have hl := hexp he
        have hsl : (seen k pre r).length = len := by
          unfold seen; rw [if_pos he, List.length_map, ← hl, padded_length k pre len _ hcl]
        rw [if_pos he, mapM_eq _ (vec i) _ ?_]
        · rw [hplen, hsl]
          congr 2
          symm
          rw [List.filter_eq_self]
          intro j hj
          have : j < (seen k pre r).length := by rw [hsl]; simpa using hj
          rw [List.getElem?_eq_getElem this]
          simp [he]
        · intro j hj
          have hj : j < len := by simpa [hplen] using hj
          show slice out (i * len * dim + j * dim) dim = _
          rw [slice_ok (by rw [hout]; exact room hi hj), hmul]
      · have he' : k.expand = false := by simpa using he
        have hs : (seen k pre r).map (·.1) = (rowCells k pre (r.map cell)).map (·.1) := by
          unfold seen; rw [if_neg he, List.map_map]; rfl
        have hsl : (seen k pre r).length = (rowCells k pre (r.map cell)).length := by
          unfold seen; rw [if_neg he, List.length_map]
        have hn : idx p.lens i = .ok (seen k pre r).length := by
          apply idx_ok
          simp only [hp, build, List.map_map, List.getElem?_map, hr, Option.map_some, Function.comp]
          rw [hsl, finalLen_eq k pre _ hm]
        have ht : idx p.tokens i = .ok ((seen k pre r).map (·.1)) := by
          apply idx_ok
          simp only [hp, build, List.map_map, List.getElem?_map, hr, Option.map_some, Function.comp]
          rw [hs]
        rw [if_neg he, hn]
        show (idx p.tokens i >>= _) = _
        rw [ht]
        show ((List.range (seen k pre r).length).mapM (idx ((seen k pre r).map (·.1))) >>= _) = _
        rw [mapM_eq _ (fun j => (((seen k pre r).map (·.1))[j]?).getD 0) _ (by
          intro j hj
          have hj : j < ((seen k pre r).map (·.1)).length := by simpa using hj
          apply idx_ok
          rw [List.getElem?_eq_getElem hj]; rfl)]
        show (((((seen k pre r).map (·.1)).zipIdx.take (seen k pre r).length).filter fun t => !skip t.1).mapM fun t => slice out (i * len * dim + t.2 * dim) dim) = _
        rw [List.take_of_length_le (by simp), mapM_eq _ (fun t => vec i t.2) _ ?_]
        · have := zipIdx_filter (fun t => !skip t) ((seen k pre r).map (·.1))
          have h2 : ((((seen k pre r).map (·.1)).zipIdx.filter fun t => !skip t.1).map fun t => vec i t.2) =
              ((((seen k pre r).map (·.1)).zipIdx.filter fun t => !skip t.1).map (·.2)).map (vec i) := by rw [List.map_map]; rfl
          rw [h2, this, List.length_map]
          congr 3
          funext j
          rw [List.getElem?_map, he']
          cases (seen k pre r)[j]? <;> rfl
        · intro t htm
          have htm := List.mem_zipIdx_iff_getElem?.mp (List.mem_filter.mp htm).1
          have hj : t.2 < (seen k pre r).length := by
            have := (List.getElem?_eq_some_iff.mp htm).1
            simpa using this
          rw [slice_ok (by rw [hout]; exact room hi (by omega)), hmul]
    refine ⟨(List.range reals.length).map fun i =>
      (reals[i]?.map fun r => ((List.range (seen k pre r).length).filter fun j => ((seen k pre r)[j]?.map fun t => !(!k.expand && skip t.1)).getD false).map (vec i)).getD [],
      ?_, by simp, ?_⟩
    · show (List.range p.size).mapM (cutRow k skip p dim out) = _
      rw [hsize]
      apply mapM_eq
      intro i hi
      have hi : i < reals.length := by simpa using hi
      have hr := List.getElem?_eq_getElem hi
      rw [hcut i _ hr, hr]; rfl
    · intro i r e hr he
      have hi : i < reals.length := (List.getElem?_eq_some_iff.mp hr).1
      rw [List.getElem?_map, List.getElem?_range hi] at he
      simp only [Option.map_some, Option.some.injEq, hr, Option.getD_some] at he
      subst he
      refine ⟨by simp, ?_⟩
      intro n j v hj hv
      rw [List.getElem?_map, hj] at hv
      simp only [Option.map_some, Option.some.injEq] at hv
      subst hv
      have hj2 : j < (seen k pre r).length := by
        have := (List.mem_filter.mp (List.mem_of_getElem? hj)).1
        simpa using this
      exact hrow i r hr j hj2

end NextPlaid.Prepare
