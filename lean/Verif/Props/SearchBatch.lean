import Verif.Proofs.Search12
import Verif.Props.Search

/-!
Property theorems C20, continued: several documents decompressed together.
-/

namespace NextPlaid.Props
open NextPlaid NextPlaid.Index NextPlaid.Spec NextPlaid.Search

variable {E : Env} {α : Type} [LinearOrder α]

/-- C20: documents decompressed together are the rows of the documents reconstructed one by one, in
the order asked for, with the number of rows of each.  An id of no document counts no rows, where
reconstruction refuses it.  `f` decompresses a token: the codec works row by row
(`Codec.decompress`). -/
theorem C20_batch (hE : E.Lawful) (N : Num E α) (d : Disk E) (raw) (hst : Stored d raw) (x) (hx : load d = .ok x)
    (f : Nat × E.Pk → Res N.V) (hf : ∀ toks, N.decode x.centroids x.quant toks = toks.mapM f)
    (hdec : ∀ i toks, x.docTokens i = .ok toks → ∃ v, N.decode x.centroids x.quant toks = .ok v) (ids : List Nat) :
    ∃ vs : List (List N.V), decompressDocuments N x ids = .ok (vs.flatten, vs.map List.length) ∧ vs.length = ids.length ∧
      ∀ k i : Nat, ids[k]? = some i →
        (i < x.numDocuments → ∃ v, vs[k]? = some v ∧ reconstruct N x [(i : Int)] = .ok [v]) ∧
        (x.numDocuments ≤ i → vs[k]? = some [] ∧ reconstruct N x [(i : Int)] = .error .err) := by
  have hs := stored_sound hE hst hx
  obtain ⟨tss, hl, hk, css, rss, h1, h2, h3, h4, _, _⟩ :=
    read_all (x := x) (fun i hi => by obtain ⟨t, ht, _⟩ := hs.tokens i hi; exact ⟨t, ht⟩) ids
  obtain ⟨vs, g1, g2, g3⟩ := decode_all (N := N) hf tss (by
    intro t ht
    obtain ⟨k, hkl, rfl⟩ := List.getElem_of_mem ht
    have hki : ids[k]? = some ids[k] := List.getElem?_eq_getElem (by omega)
    obtain ⟨toks, e1, e2, e3⟩ := hk k _ hki
    rw [List.getElem?_eq_getElem hkl, Option.some.injEq] at e1
    rw [e1]
    by_cases hi : ids[k] < x.numDocuments
    · exact hdec _ _ (e2 hi)
    · rw [e3 (by omega), hf]; exact ⟨[], rfl⟩)
  have hlen : vs.length = ids.length := by
    have := congrArg List.length g2
    rw [List.length_map, List.length_map] at this
    omega
  refine ⟨vs, ?_, hlen, ?_⟩
  · unfold decompressDocuments
    rw [h1]
    simp only [bind, Except.bind]
    by_cases h0 : (tss.map List.length).sum = 0
    · rw [if_pos h0, g2]
      rw [← g2] at h0
      have : vs.flatten = [] := by rw [← List.length_eq_zero_iff, List.length_flatten]; exact h0
      rw [this]
    · rw [if_neg h0, h2, h3]
      simp only []
      rw [h4, hf, mapM_flatten tss vs g1, g2]
  · intro k i hki
    obtain ⟨toks, e1, e2, e3⟩ := hk k i hki
    obtain ⟨v, e4, e5⟩ := g3 k toks e1
    constructor
    · intro hi
      refine ⟨v, e4, ?_⟩
      obtain ⟨ws, w1, w2, w3⟩ := C20_reconstruct hE N d raw hst x hx [(i : Int)] (by
        intro id hid
        rw [List.mem_singleton] at hid
        subst hid
        omega) (fun i toks h _ => hdec i toks h)
      obtain ⟨t, w, u1, u2, u3, u4⟩ := w3 0 (i : Int) rfl
      have ht : t = toks := by
        have := e2 hi
        simp only [Int.toNat_natCast] at u1
        rw [this] at u1
        exact (Except.ok.inj u1).symm
      subst ht
      have hw : w = v := by
        by_cases hn : t = []
        · rw [u3 hn]
          subst hn
          rw [hf] at e5
          exact Except.ok.inj e5
        · have := u4 hn
          rw [e5] at this
          exact (Except.ok.inj this).symm
      rw [w1]
      match ws, w2, u2 with
      | [a], _, u2 =>
        simp only [List.getElem?_cons_zero, Option.some.injEq] at u2
        rw [u2, hw]
    · intro hi
      refine ⟨?_, C20_bad_id_refused N x _ ⟨(i : Int), by simp, by omega⟩⟩
      have := e3 hi
      subst this
      rw [hf] at e5
      rw [e4]
      exact congrArg some (Except.ok.inj e5).symm

/-- C20: the codec does work row by row, so `C20_batch` applies to it: a token's row depends on its own
code and packed residual only. -/
theorem C20_codec_rows {β : Type} [Add β] (zero : β) (normalize : List β → List β) (c : Codec.ResidualCodec β) {w lk}
    (hw : c.bucketWeights = some w) (hl : c.bucketWeightIndicesLookup = some lk) :
    ∃ f : Nat × List Nat → Res (List β), ∀ toks : List (Nat × List Nat),
      Codec.decompress zero normalize c (toks.map Prod.snd) (toks.map Prod.fst) = toks.mapM f :=
  ⟨_, decompress_rows zero normalize c hw hl⟩

/-- A codec with weights, as opened. -/
example : ∃ c : Codec.ResidualCodec Int, Codec.newWithStore 4 2 [[10, 20]] (some [0]) (some [-1, 1]) = .ok c ∧
    c.bucketWeights = some [-1, 1] ∧ c.bucketWeightIndicesLookup.isSome = true := ⟨_, rfl, rfl, rfl⟩

/-- C20: the codes of documents are those of their tokens, in the order asked for; an id of no
document has none. -/
theorem C20_codes (hE : E.Lawful) (d : Disk E) (raw) (hst : Stored d raw) (x : Loaded E) (hx : load d = .ok x) (ids : List Nat) :
    ∃ css, documentCodes x ids = .ok css ∧ css.length = ids.length ∧
      ∀ k i : Nat, ids[k]? = some i →
        (i < x.numDocuments → ∃ toks, x.docTokens i = .ok toks ∧ css[k]? = some (toks.map Prod.fst)) ∧
        (x.numDocuments ≤ i → css[k]? = some []) := by
  have hs := stored_sound hE hst hx
  obtain ⟨tss, hl, hk, css, rss, h1, h2, h3, h4, _, h6⟩ :=
    read_all (x := x) (fun i hi => by obtain ⟨t, ht, _⟩ := hs.tokens i hi; exact ⟨t, ht⟩) ids
  refine ⟨css, h2, by rw [h6, List.length_map, hl], ?_⟩
  intro k i hki
  obtain ⟨toks, e1, e2, e3⟩ := hk k i hki
  have : css[k]? = some (toks.map Prod.fst) := by rw [h6, List.getElem?_map, e1]; rfl
  exact ⟨fun hi => ⟨toks, e2 hi, this⟩, fun hi => by rw [this, e3 hi]; rfl⟩

/-- A repeated id, the document without tokens, and an id of no document. -/
example : decompressDocuments toyNum toyLoaded [3, 9, 2, 0, 3] = .ok ([9, 4, 7, 8, 9, 4], [2, 0, 0, 2, 2]) ∧
    decompressDocuments toyNum toyLoaded [2, 4] = .ok ([], [0, 0]) ∧
    (∀ toks, toyNum.decode toyLoaded.centroids toyLoaded.quant toks = toks.mapM fun t => (.ok t.2 : Res Nat)) ∧
    (documentCodes toyLoaded [1, 7, 0]).toOption.map (List.map List.length) = some [1, 0, 2] := by
  refine ⟨rfl, rfl, ?_, rfl⟩
  intro toks
  show Except.ok _ = _
  induction toks with
  | nil => rfl
  | cons a l ih => rw [List.mapM_cons, ← ih]; rfl

end NextPlaid.Props
