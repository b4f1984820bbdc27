import Verif.Proofs.Search5
import Verif.Model.Codec
import Mathlib.Data.List.Induction

/-!
Proofs: documents decompressed together.
-/

namespace NextPlaid.Search

open NextPlaid.Index

variable {E : Env} {α : Type}

/-- A document's tokens, as read. -/
theorem docTokens_split {x : Loaded E} {i : Nat} {toks : List (Nat × E.Pk)} (h : x.docTokens i = .ok toks) :
    i < x.docLengths.length ∧ ∃ cs rs, codesOf x i = .ok cs ∧ residualsOf x i = .ok rs ∧ lengthOf x i = .ok toks.length ∧ toks = cs.zip rs ∧
      cs.length = rs.length := by
  unfold Loaded.docTokens at h
  split at h
  · cases h
  · rename_i hlt
    refine ⟨by omega, ?_⟩
    cases h1 : idx x.docOffsets i with
    | error e => rw [h1] at h; cases h
    | ok s =>
      cases h2 : idx x.docOffsets (i + 1) with
      | error e => rw [h1, h2] at h; cases h
      | ok e =>
        rw [h1, h2] at h
        cases h3 : slice x.codes s e with
        | error e => simp only [bind, Except.bind, h3] at h; cases h
        | ok cs =>
          cases h4 : slice x.residuals s e with
          | error e => simp only [bind, Except.bind, h3, h4] at h; cases h
          | ok rs =>
            simp only [bind, Except.bind, h3, h4, Except.ok.injEq] at h
            have len : ∀ {β : Type} {l : List β} {out : List β}, slice l s e = .ok out → out.length = e - s := by
              intro β l out hs
              unfold slice at hs
              split at hs
              · cases hs
              · rw [Except.ok.injEq] at hs
                rw [← hs, List.length_take, List.length_drop]
                omega
            refine ⟨cs, rs, ?_, ?_, ?_, h.symm, ?_⟩
            · unfold codesOf; rw [if_neg hlt, h1, h2]; exact h3
            · unfold residualsOf; rw [if_neg hlt, h1, h2]; exact h4
            · unfold lengthOf
              rw [if_neg hlt, h1, h2, ← h, List.length_zip, len h3, len h4, Nat.min_self]
              rfl
            · rw [len h3, len h4]

/-- What is read for an id: nothing beyond the last document. -/
theorem read_all {x : Loaded E} (htok : ∀ i, i < x.numDocuments → ∃ toks, x.docTokens i = .ok toks) : ∀ (ids : List Nat),
    ∃ tss : List (List (Nat × E.Pk)), tss.length = ids.length ∧
      (∀ k i : Nat, ids[k]? = some i → ∃ toks, tss[k]? = some toks ∧ (i < x.numDocuments → x.docTokens i = .ok toks) ∧ (x.numDocuments ≤ i → toks = [])) ∧
      ∃ css rss, ids.mapM (lengthOf x) = .ok (tss.map List.length) ∧ ids.mapM (codesOf x) = .ok css ∧ ids.mapM (residualsOf x) = .ok rss ∧
        css.flatten.zip rss.flatten = tss.flatten ∧ css.flatten.length = rss.flatten.length ∧ css = tss.map (fun l => l.map Prod.fst) := by
  intro ids
  induction ids with
  | nil => exact ⟨[], rfl, by simp, [], [], rfl, rfl, rfl, rfl, rfl, rfl⟩
  | cons i ids ih =>
    obtain ⟨tss, hl, hk, css, rss, h1, h2, h3, h4, h5, h6⟩ := ih
    have one : ∃ toks cs rs, codesOf x i = .ok cs ∧ residualsOf x i = .ok rs ∧ lengthOf x i = .ok toks.length ∧ toks = cs.zip rs ∧ cs.length = rs.length ∧
        (i < x.numDocuments → x.docTokens i = .ok toks) ∧ (x.numDocuments ≤ i → toks = []) := by
      by_cases hi : i < x.numDocuments
      · obtain ⟨toks, ht⟩ := htok i hi
        obtain ⟨_, cs, rs, g1, g2, g3, g4, g5⟩ := docTokens_split ht
        exact ⟨toks, cs, rs, g1, g2, g3, g4, g5, fun _ => ht, fun h => by omega⟩
      · have hle : x.docLengths.length ≤ i := by unfold Loaded.numDocuments at hi; omega
        refine ⟨[], [], [], ?_, ?_, ?_, rfl, rfl, fun h => (hi h).elim, fun _ => rfl⟩
        · unfold codesOf; rw [if_pos hle]
        · unfold residualsOf; rw [if_pos hle]
        · unfold lengthOf; rw [if_pos hle]; rfl
    obtain ⟨toks, cs, rs, g1, g2, g3, g4, g5, g6, g7⟩ := one
    refine ⟨toks :: tss, by simp [hl], ?_, cs :: css, rs :: rss, ?_, ?_, ?_, ?_, ?_, ?_⟩
    · intro k j hkj
      cases k with
      | zero =>
        simp only [List.getElem?_cons_zero, Option.some.injEq] at hkj
        subst hkj
        exact ⟨toks, rfl, g6, g7⟩
      | succ k =>
        rw [List.getElem?_cons_succ] at hkj
        obtain ⟨t, e1, e2⟩ := hk k j hkj
        exact ⟨t, by rw [List.getElem?_cons_succ]; exact e1, e2⟩
    · rw [List.mapM_cons, g3, h1]; rfl
    · rw [List.mapM_cons, g1, h2]; rfl
    · rw [List.mapM_cons, g2, h3]; rfl
    · rw [List.flatten_cons, List.flatten_cons, List.zip_append g5, h4, List.flatten_cons, g4]
    · simp only [List.flatten_cons, List.length_append, g5, h5]
    · rw [List.map_cons, ← h6, g4, List.map_fst_zip (by omega)]

theorem mapM_flatten {β γ : Type} {f : β → Res γ} : ∀ (tss : List (List β)) (vs : List (List γ)), tss.mapM (fun l => l.mapM f) = .ok vs →
    tss.flatten.mapM f = .ok vs.flatten := by
  intro tss
  induction tss with
  | nil => intro vs h; cases h; rfl
  | cons l tss ih =>
    intro vs h
    rw [List.mapM_cons] at h
    cases h1 : l.mapM f with
    | error e => rw [h1] at h; cases h
    | ok v =>
      cases h2 : tss.mapM (fun l => l.mapM f) with
      | error e => rw [h1, h2] at h; cases h
      | ok w =>
        rw [h1, h2] at h
        cases h
        rw [List.flatten_cons, List.mapM_append, h1, ih w h2]
        rfl

/-- Rows of each document, put one after another. -/
theorem decode_all {N : Num E α} {x : Loaded E} {f : Nat × E.Pk → Res N.V} (hf : ∀ toks, N.decode x.centroids x.quant toks = toks.mapM f) :
    ∀ (tss : List (List (Nat × E.Pk))), (∀ t ∈ tss, ∃ v, N.decode x.centroids x.quant t = .ok v) →
    ∃ vs : List (List N.V), tss.mapM (fun l => l.mapM f) = .ok vs ∧ vs.map List.length = tss.map List.length ∧
      ∀ (k : Nat) t, tss[k]? = some t → ∃ v, vs[k]? = some v ∧ N.decode x.centroids x.quant t = .ok v := by
  intro tss
  induction tss with
  | nil => intro _; exact ⟨[], rfl, rfl, by simp⟩
  | cons t tss ih =>
    intro h
    obtain ⟨vs, h1, h2, h3⟩ := ih (fun u hu => h u (List.mem_cons_of_mem _ hu))
    obtain ⟨v, hv⟩ := h t List.mem_cons_self
    have hv' := hv
    rw [hf] at hv'
    refine ⟨v :: vs, ?_, ?_, ?_⟩
    · rw [List.mapM_cons, hv', h1]; rfl
    · rw [List.map_cons, List.map_cons, h2, mapM_length hv']
    · intro k u hu
      cases k with
      | zero =>
        simp only [List.getElem?_cons_zero, Option.some.injEq] at hu
        subst hu
        exact ⟨v, rfl, hv⟩
      | succ k =>
        rw [List.getElem?_cons_succ] at hu ⊢
        exact h3 k u hu

theorem mapM_congr' {β γ : Type} {f g : β → Res γ} : ∀ {l : List β}, (∀ a ∈ l, f a = g a) → l.mapM f = l.mapM g := by
  intro l
  induction l with
  | nil => intro _; rfl
  | cons a l ih =>
    intro h
    rw [List.mapM_cons, List.mapM_cons, h a List.mem_cons_self, ih (fun b hb => h b (List.mem_cons_of_mem _ hb))]

theorem mapM_range {β γ : Type} (f : β → Res γ) (l : List β) (g : Nat → Res γ) (h : ∀ (i : Nat) b, l[i]? = some b → g i = f b) :
    (List.range l.length).mapM g = l.mapM f := by
  induction l using List.reverseRecOn with
  | nil => rfl
  | append_singleton l a ih =>
    rw [List.length_append, List.length_singleton, List.range_succ, List.mapM_append, List.mapM_append]
    have h1 : (List.range l.length).mapM g = l.mapM f := by
      apply ih
      intro i b hb
      have hi : i < l.length := (List.getElem?_eq_some_iff.mp hb).1
      apply h
      rw [List.getElem?_append_left hi]
      exact hb
    have h2 : g l.length = f a := h _ _ (by simp)
    rw [h1, List.mapM_cons, List.mapM_cons, h2]
    rfl

theorem mapM_then_map {β γ δ : Type} (f : β → Res γ) (k : γ → δ) : ∀ (l : List β),
    (do let r ← l.mapM f; return r.map k) = l.mapM (fun b => do let r ← f b; return k r) := by
  intro l
  induction l with
  | nil => rfl
  | cons a l ih =>
    rw [List.mapM_cons, List.mapM_cons, ← ih]
    cases f a with
    | error e => rfl
    | ok b =>
      cases l.mapM f with
      | error e => rfl
      | ok bs => rfl

/-- The codec decompresses token by token. -/
theorem decompress_rows {α : Type} [Add α] (zero : α) (normalize : List α → List α) (c : Codec.ResidualCodec α) {w lk}
    (hw : c.bucketWeights = some w) (hl : c.bucketWeightIndicesLookup = some lk) (toks : List (Nat × List Nat)) :
    Codec.decompress zero normalize c (toks.map Prod.snd) (toks.map Prod.fst) =
      toks.mapM (fun t => do let r ← Codec.decompressRow zero c w lk t.2 t.1; return normalize r) := by
  unfold Codec.decompress
  rw [hw, hl]
  simp only []
  rw [← mapM_then_map (fun t : Nat × List Nat => Codec.decompressRow zero c w lk t.2 t.1) normalize toks, List.length_map]
  rw [mapM_range (fun t : Nat × List Nat => Codec.decompressRow zero c w lk t.2 t.1) toks]
  intro i b hb
  have e1 : idx (toks.map Prod.fst) i = .ok b.1 := by unfold idx; rw [List.getElem?_map, hb]; rfl
  have e2 : idx (toks.map Prod.snd) i = .ok b.2 := by unfold idx; rw [List.getElem?_map, hb]; rfl
  rw [e1, e2]
  rfl

end NextPlaid.Search
