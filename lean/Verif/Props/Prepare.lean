import Verif.Proofs.Prepare2
import Verif.Props.Encode
import Mathlib.Algebra.BigOperators.Group.List.Basic

/-!
C58: the embedding of a text depends on that text only: on its first tokens and its last one, with the prefix, whatever else is in the batch.
-/

namespace NextPlaid.Props

open NextPlaid.Spec NextPlaid.Prepare NextPlaid.Encode

variable {T K : Type}

/-- The tokens as the model sees them: without their types if it does not use types. -/
def typed (k : Kind) (tokens : List (Nat × Nat)) : List (Nat × Nat) := tokens.map fun t => (t.1, if k.useTypes then t.2 else 0)

/-- What the model reads of a document: at most `maxLen` tokens, with the prefix token in the second place. -/
def docTokens (k : Kind) (pre : Nat) (tokens : List (Nat × Nat)) : List (Nat × Nat) := sequence k.maxLen (pre, 0) (typed k tokens)

/-- What it reads of a query that is expanded: exactly `maxLen` tokens, the last ones mask tokens. -/
def expanded (k : Kind) (pre : Nat) (tokens : List (Nat × Nat)) : List (Nat × Nat) :=
  docTokens k pre tokens ++ List.replicate (k.maxLen - (docTokens k pre tokens).length) (k.maskId, 0)

theorem seen_eq (k : Kind) (pre : Nat) (tokens : List (Nat × Nat)) : seen k pre tokens = if k.expand then expanded k pre tokens else docTokens k pre tokens := by
  have h1 : (rowCells k pre (tokens.map cell)).map (fun x => (x.1, if k.useTypes then x.2.2 else 0)) = docTokens k pre tokens := by
    unfold rowCells docTokens typed
    rw [sequence_map, List.map_map]
    congr 1
    simp
  have h2 : (rowCells k pre (tokens.map cell)).length = (docTokens k pre tokens).length := by rw [← h1, List.length_map]
  unfold seen
  by_cases he : k.expand = true
  · rw [if_pos he, if_pos he]
    unfold padded expanded
    rw [List.map_append, h1, h2, List.map_replicate]
    simp [he]
  · rw [if_neg he, if_neg he, h1]

theorem rowFits (k : Kind) (pre : Nat) (hm : 3 ≤ k.maxLen) (lens : List Nat) (pad : Option Nat) {r : List (Nat × Nat)} (hr : r.length ∈ lens) :
    (rowCells k pre (r.map cell)).length ≤ batchLen k lens pad := by
  rw [finalLen_eq k pre _ hm, List.length_map]
  exact batchLen_ge k lens pad (by omega) hr

/-- One batch of tokenised documents. -/
theorem runDocs (k : Kind) (pass : Pass K) (V : List (Nat × Nat) → Nat → List K → Prop) (hpass : Attentive pass V) (skip : Nat → Bool) (pre : Nat)
    (hp : k.prefix = .ok pre) (hm : 3 ≤ k.maxLen) (pad : Option Nat) (docs : List TokDoc) (hd : ∀ d ∈ docs, d.Good) :
    (∃ f, (prepareDocs k docs pad >>= encodePrepared k pass skip) = .error f ∧ ∃ s l i m t, pass s l i m t = .error f) ∨
    ∃ es, (prepareDocs k docs pad >>= encodePrepared k pass skip) = .ok es ∧
      OneEach (fun d e => Embeds V (fun t => !k.expand && skip t) (seen k pre (d.ids.zip d.types)) e) docs es := by
  rw [prepareDocs_ok k pre hp hm docs hd pad]
  have hmap : docs.map (fun d => (d.ids.zip d.types).map cell) = (docs.map fun d => d.ids.zip d.types).map (List.map cell) := by rw [List.map_map]; rfl
  have hz : ∀ d ∈ docs, (d.ids.zip d.types).length = d.ids.length := fun d hdm => by rw [List.length_zip, (hd d hdm).2, Nat.min_self]
  rcases encodePrepared_each k pass V hpass skip pre (batchLen k (docs.map (·.ids.length)) pad) hm (batchLen_expand k _ pad)
    (docs.map fun d => d.ids.zip d.types) (by
      intro r hr
      obtain ⟨d, hdm, rfl⟩ := List.mem_map.mp hr
      exact rowFits k pre hm _ pad (by rw [hz d hdm]; exact List.mem_map.mpr ⟨d, hdm, rfl⟩)) with ⟨f, h1, h2⟩ | ⟨es, h1, h2⟩
  · exact .inl ⟨f, by rw [hmap]; exact h1, h2⟩
  · refine .inr ⟨es, by rw [hmap]; exact h1, by rw [h2.1, List.length_map], ?_⟩
    intro i d e hdi he
    exact h2.2 i _ e (by rw [List.getElem?_map, hdi]; rfl) he

theorem tokOne_pads {real : List (Nat × Nat)} {e : Encoding} (h : Pads real e) : tokOne e = .ok ⟨real.map (·.1), real.map (·.2)⟩ := by
  have hr := realLen_pads h
  obtain ⟨hne, pi, pt, h1, h2, _, _⟩ := h
  unfold tokOne sliceTo
  rw [hr, h1, h2, if_pos (by simp), if_pos (by simp)]
  show Except.ok _ = Except.ok _
  rw [List.take_left' (by simp), List.take_left' (by simp)]

theorem runAll_congr {D E : Type} (e e' : Engine T D E) (hs : e.sessions = e'.sessions) (c : Nat → Bool) : ∀ (bs : List (Batch D)) (i : Nat),
    (∀ b ∈ bs, ∀ s p, e.run s p (b.docs.map (·.2)) = e'.run s p (b.docs.map (·.2))) → runAll e c i bs = runAll e' c i bs
  | [], _, _ => rfl
  | b :: bs, i, h => by
    unfold runAll
    rw [h b (List.mem_cons_self ..), hs, runAll_congr e e' hs c bs (i + 1) fun b' hb => h b' (List.mem_cons_of_mem _ hb)]

/-- Only what the tokenizer gives is encoded. -/
theorem encodeDocs_congr {D E : Type} (e : Engine T D E) (run' : Nat → Option Nat → List D → Res (List E)) (c : Nat → Bool) (texts : List T)
    (h : ∀ s p ds, (∀ d ∈ ds, ∃ t, e.tok t = .ok d) → e.run s p ds = run' s p ds) :
    encodeDocs e c texts = encodeDocs { e with run := run' } c texts := by
  unfold encodeDocs tokenize
  show ((texts.mapM e.tok >>= _) >>= _) = ((texts.mapM e.tok >>= _) >>= _)
  cases h1 : texts.mapM e.tok with
  | error f => rfl
  | ok docs =>
    show encodeBatches e c (batches e docs) = encodeBatches { e with run := run' } c (batches e docs)
    unfold encodeBatches
    rw [runAll_congr e { e with run := run' } rfl c _ 0 ?_]
    intro b hb s p
    apply h
    intro d hd
    obtain ⟨x, hx, rfl⟩ := List.mem_map.mp hd
    have hg := (C56_batches e docs).2 b hb x hx
    have hone := mapM_each e.tok _ _ h1
    have hlt : x.1 < texts.length := by
      have := (List.getElem?_eq_some_iff.mp hg).1
      rw [hone.1] at this; exact this
    exact ⟨_, hone.2 x.1 _ _ (List.getElem?_eq_getElem hlt) hg⟩

/-- Documents in batches, as the indexing pipeline encodes them: whatever the batch size, batching mode, number of sessions and moment of a
cancellation, if the call succeeds then the embedding of each text has exactly one vector for each token the model reads of that text (the first
tokens, the prefix in the second place, and the last token) that is not filtered out, in order; it depends on nothing else in the batch. -/
theorem C58_documents (k : Kind) (hk : k.expand = false) (hm : 3 ≤ k.maxLen) (pre : Nat) (hp : k.prefix = .ok pre) (skip : Nat → Bool)
    (V : List (Nat × Nat) → Nat → List K → Prop) (pass : Nat → Pass K) (hpass : ∀ s, Attentive (pass s) V)
    (tokens : T → List (Nat × Nat)) (tok : T → Res Encoding) (htok : ∀ t e, tok t = .ok e → RightPadded (tokens t) e.ids e.masks e.types)
    (batchSize sessions : Nat) (dynamic : Bool) (cancelled : Nat → Bool) (texts : List T) (es : List (List (List K)))
    (h : encodeDocs (engine k pass skip tok batchSize sessions dynamic) cancelled texts = .ok es) :
    OneEach (fun t x => Embeds V skip (docTokens k pre (tokens t)) x) texts es := by
  classical
  set e := engine k pass skip tok batchSize sessions dynamic with he
  have hgood : ∀ t d, e.tok t = .ok d → d = ⟨(tokens t).map (·.1), (tokens t).map (·.2)⟩ ∧ d.Good := by
    intro t d htd
    have htd : (tok t >>= tokOne) = .ok d := htd
    cases h1 : tok t with
    | error f => rw [h1] at htd; cases htd
    | ok enc =>
      rw [h1] at htd
      have htd : tokOne enc = .ok d := htd
      rw [tokOne_pads (htok t enc h1)] at htd
      injection htd with htd
      subst htd
      exact ⟨rfl, by simpa [TokDoc.Good] using (htok t enc h1).1⟩
  rw [encodeDocs_congr e (fun s p ds => if ∀ d ∈ ds, d.Good then e.run s p ds else .error .err) cancelled texts (by
    intro s p ds hds
    rw [if_pos]
    intro d hd
    obtain ⟨t, ht⟩ := hds d hd
    exact (hgood t d ht).2)] at h
  have := C56_order _ (fun d x => Embeds V skip (docTokens k pre (d.ids.zip d.types)) x) (by
    intro s p ds es' hrun
    simp only at hrun
    split at hrun
    · rename_i hall
      rcases runDocs k (pass s) V (hpass s) skip pre hp hm p ds hall with ⟨f, hf, _⟩ | ⟨es2, h2, h3⟩
      · have hrun : (prepareDocs k ds p >>= encodePrepared k (pass s) skip) = .ok es' := hrun
        rw [hf] at hrun; cases hrun
      · have hrun : (prepareDocs k ds p >>= encodePrepared k (pass s) skip) = .ok es' := hrun
        rw [h2] at hrun; injection hrun with hrun; subst hrun
        simpa [seen_eq, hk] using h3
    · cases hrun) cancelled texts es h
  refine ⟨this.1, ?_⟩
  intro i t x ht hx
  obtain ⟨d, hd, hemb⟩ := this.2 i t x ht hx
  rw [(hgood t d hd).1] at hemb
  have hz : ((tokens t).map (·.1)).zip ((tokens t).map (·.2)) = tokens t := by
    rw [List.zip_map']; simp
  rwa [hz] at hemb

/-- One batch of texts through the tokenizer's own batching. -/
theorem runTexts (k : Kind) (pass : Pass K) (V : List (Nat × Nat) → Nat → List K → Prop) (hpass : Attentive pass V) (skip : Nat → Bool) (pre : Nat)
    (hp : k.prefix = .ok pre) (hm : 3 ≤ k.maxLen) (tokens : T → List (Nat × Nat)) (tok : List T → Res (List Encoding))
    (htok : ∀ ts es, tok ts = .ok es → OneEach (fun t (e : Encoding) => RightPadded (tokens t) e.ids e.masks e.types) ts es)
    (texts : List T) (es : List (List (List K))) (h : encodeBatch k pass skip tok texts = .ok es) :
    OneEach (fun t x => Embeds V (fun t => !k.expand && skip t) (seen k pre (tokens t)) x) texts es := by
  unfold encodeBatch at h
  split at h
  · rename_i h0
    injection h with h
    subst h0 h
    exact ⟨rfl, by simp⟩
  · cases h1 : tok texts with
    | error f => rw [h1] at h; cases h
    | ok encs =>
      rw [h1] at h
      have h : (prepareEncodings k encs >>= encodePrepared k pass skip) = .ok es := h
      have ho := htok texts encs h1
      have hf : List.Forall₂ Pads (texts.map tokens) encs := by
        rw [List.forall₂_iff_get]
        refine ⟨by rw [List.length_map, ho.1], ?_⟩
        intro i hi1 hi2
        have hi : i < texts.length := by simpa using hi1
        have := ho.2 i _ _ (List.getElem?_eq_getElem hi) (List.getElem?_eq_getElem hi2)
        simpa using this
      rw [prepareEncodings_ok k pre hp hm _ _ hf] at h
      have h : encodePrepared k pass skip _ = .ok es := h
      rcases encodePrepared_each k pass V hpass skip pre (batchLen k ((texts.map tokens).map List.length) none) hm (batchLen_expand k _ none)
        (texts.map tokens) (fun r hr => rowFits k pre hm _ none (List.mem_map.mpr ⟨r, hr, rfl⟩)) with ⟨f, h2, _⟩ | ⟨es2, h2, h3⟩
      · rw [h2] at h; cases h
      · rw [h2] at h; injection h with h; subst h
        refine ⟨by rw [h3.1, List.length_map], ?_⟩
        intro i t x ht hx
        exact h3.2 i _ x (by rw [List.getElem?_map, ht]; rfl) hx

/-- Documents, and queries that are not expanded, as `encode_documents` and `encode_queries` encode them: the same embeddings. -/
theorem C58_texts (k : Kind) (hk : k.expand = false) (hm : 3 ≤ k.maxLen) (pre : Nat) (hp : k.prefix = .ok pre) (skip : Nat → Bool)
    (V : List (Nat × Nat) → Nat → List K → Prop) (pass : Nat → Pass K) (hpass : ∀ s, Attentive (pass s) V)
    (tokens : T → List (Nat × Nat)) (tok : List T → Res (List Encoding))
    (htok : ∀ ts es, tok ts = .ok es → OneEach (fun t (e : Encoding) => RightPadded (tokens t) e.ids e.masks e.types) ts es)
    (batchSize sessions : Nat) (texts : List T) (es : List (List (List K)))
    (h : encodeSimple (fun s => encodeBatch k (pass s) skip tok) batchSize sessions texts = .ok es) :
    OneEach (fun t x => Embeds V skip (docTokens k pre (tokens t)) x) texts es := by
  refine C56_simple _ _ ?_ batchSize sessions texts es h
  intro s ts es' h1
  have := runTexts k (pass s) V (hpass s) skip pre hp hm tokens tok htok ts es' h1
  simpa [seen_eq, hk] using this

/-- An expanded query has one vector for each of exactly `query_length` tokens: its own tokens with the prefix, then mask tokens; none is filtered. -/
theorem C58_expanded (k : Kind) (hk : k.expand = true) (hm : 3 ≤ k.maxLen) (pre : Nat) (hp : k.prefix = .ok pre) (skip : Nat → Bool)
    (V : List (Nat × Nat) → Nat → List K → Prop) (pass : Nat → Pass K) (hpass : ∀ s, Attentive (pass s) V)
    (tokens : T → List (Nat × Nat)) (tok : List T → Res (List Encoding))
    (htok : ∀ ts es, tok ts = .ok es → OneEach (fun t (e : Encoding) => RightPadded (tokens t) e.ids e.masks e.types) ts es)
    (batchSize sessions : Nat) (texts : List T) (es : List (List (List K)))
    (h : encodeSimple (fun s => encodeBatch k (pass s) skip tok) batchSize sessions texts = .ok es) :
    OneEach (fun t x => Embeds V (fun _ => false) (expanded k pre (tokens t)) x ∧ x.length = k.maxLen) texts es := by
  refine C56_simple _ _ ?_ batchSize sessions texts es h
  intro s ts es' h1
  have := runTexts k (pass s) V (hpass s) skip pre hp hm tokens tok htok ts es' h1
  refine ⟨this.1, ?_⟩
  intro i t x ht hx
  have hemb := this.2 i t x ht hx
  simp only [seen_eq, hk, if_true, Bool.not_true, Bool.false_and] at hemb
  refine ⟨hemb, ?_⟩
  rw [hemb.1]
  have hlen : (expanded k pre (tokens t)).length = k.maxLen := by
    unfold expanded
    rw [List.length_append, List.length_replicate]
    have : (docTokens k pre (tokens t)).length ≤ k.maxLen := by
      unfold docTokens
      rw [sequence_length _ _ _ (by omega)]; omega
    omega
  rw [List.filter_eq_self.mpr, List.length_range, hlen]
  intro j hj
  have hj : j < (expanded k pre (tokens t)).length := by simpa using hj
  rw [List.getElem?_eq_getElem hj]; rfl

/-- Both ways of preparing a batch, from the tokenizer's own batch and from texts tokenised one by one, make the same batch. -/
theorem C58_same_batch (k : Kind) (hm : 3 ≤ k.maxLen) (pre : Nat) (hp : k.prefix = .ok pre) (tokens : List (List (Nat × Nat))) (encs : List Encoding)
    (he : OneEach (fun r (e : Encoding) => RightPadded r e.ids e.masks e.types) tokens encs) :
    ∃ docs, encs.mapM tokOne = .ok docs ∧ prepareDocs k docs none = prepareEncodings k encs ∧ ∃ p, prepareEncodings k encs = .ok p := by
  have hf : List.Forall₂ Pads tokens encs := by
    rw [List.forall₂_iff_get]
    refine ⟨he.1.symm, ?_⟩
    intro i hi1 hi2
    exact he.2 i _ _ (List.getElem?_eq_getElem hi1) (List.getElem?_eq_getElem hi2)
  have hmap : encs.mapM tokOne = .ok (tokens.map fun r => (⟨r.map (·.1), r.map (·.2)⟩ : TokDoc)) := by
    clear he
    induction hf with
    | nil => rfl
    | cons h _ ih =>
      rw [List.mapM_cons, tokOne_pads h]
      show ((List.mapM tokOne _) >>= _) = _
      rw [ih]; rfl
  have hne : ∀ r ∈ tokens, r ≠ [] := by
    clear he hmap
    induction hf with
    | nil => intro r hr; cases hr
    | cons h _ ih =>
      intro r hr
      rcases List.mem_cons.mp hr with rfl | hr
      · exact h.1
      · exact ih r hr
  refine ⟨_, hmap, ?_, _, prepareEncodings_ok k pre hp hm tokens encs hf⟩
  rw [prepareEncodings_ok k pre hp hm tokens encs hf, prepareDocs_ok k pre hp hm _ (by
    intro d hd
    obtain ⟨r, hr, rfl⟩ := List.mem_map.mp hd
    exact ⟨by simpa using hne r hr, by simp⟩)]
  have h1 : (tokens.map fun r => (⟨r.map (·.1), r.map (·.2)⟩ : TokDoc)).map (fun d => d.ids.length) = tokens.map List.length := by
    rw [List.map_map]; apply List.map_congr_left; intro r _; simp
  have h2 : (tokens.map fun r => (⟨r.map (·.1), r.map (·.2)⟩ : TokDoc)).map (fun d => (d.ids.zip d.types).map cell) = tokens.map (List.map cell) := by
    rw [List.map_map]; apply List.map_congr_left; intro r _
    simp only [Function.comp]
    rw [List.zip_map']; simp
  rw [h1, h2]

/-- Never more than `maxLen` tokens; the prefix always comes second, and the last token, the separator, stays the last one. -/
theorem C58_read (k : Kind) (hm : 3 ≤ k.maxLen) (pre : Nat) (tokens : List (Nat × Nat)) (h2 : 2 ≤ tokens.length) :
    (docTokens k pre tokens).length = min (tokens.length + 1) k.maxLen ∧ (docTokens k pre tokens)[1]? = some (pre, 0) ∧
    (docTokens k pre tokens).head? = (typed k tokens).head? ∧ (docTokens k pre tokens).getLast? = (typed k tokens).getLast? ∧
    (tokens.length < k.maxLen → docTokens k pre tokens = withPrefix (pre, 0) (typed k tokens)) ∧
    ∀ i, 1 ≤ i → i + 2 < k.maxLen → i + 1 < tokens.length → (docTokens k pre tokens)[i + 1]? = (typed k tokens)[i]? := by
  have hl : (typed k tokens).length = tokens.length := by simp [typed]
  unfold docTokens
  rw [sequence_length _ _ _ (by omega)]
  refine ⟨by omega, ?_⟩
  generalize typed k tokens = ts at *
  cases ts with
  | nil => simp at hl; omega
  | cons a ts =>
    have hne : ts ≠ [] := by rintro rfl; simp at hl; omega
    unfold sequence shorten
    by_cases hc : (a :: ts).length ≤ k.maxLen - 1
    · rw [if_pos hc]
      refine ⟨rfl, rfl, ?_, fun _ => rfl, ?_⟩
      · simp only [withPrefix]
        rw [List.getLast?_cons_cons, List.getLast?_cons_of_ne_nil hne, List.getLast?_cons_of_ne_nil hne]
      · intro i h1 _ _
        obtain ⟨j, rfl⟩ : ∃ j, i = j + 1 := ⟨i - 1, by omega⟩
        rfl
    · rw [if_neg hc]
      obtain ⟨m, hmm⟩ : ∃ m, k.maxLen - 1 - 1 = m + 1 := ⟨k.maxLen - 3, by omega⟩
      have hlast : (a :: ts).getLast? = some ((a :: ts).getLast (by simp)) := List.getLast?_eq_some_getLast (by simp)
      rw [hmm, List.take_succ_cons, hlast]
      refine ⟨rfl, rfl, ?_, fun h => absurd h (by simp only [List.length_cons] at hc hl; omega), ?_⟩
      · simp [withPrefix, List.getLast?_cons]
      · intro i h1 h3 h4
        obtain ⟨j, rfl⟩ : ∃ j, i = j + 1 := ⟨i - 1, by omega⟩
        simp only [withPrefix, List.cons_append, Option.toList_some]
        simp only [List.length_cons] at hl hc
        show (ts.take m ++ [_])[j]? = ts[j]?
        rw [List.getElem?_append_left (by rw [List.length_take]; omega), List.getElem?_take, if_pos (by omega)]

/-- If the tokenizer and the forward passes succeed and nobody cancels then encoding does: no batch is out of bounds. -/
theorem C58_succeeds (k : Kind) (hm : 3 ≤ k.maxLen) (pre : Nat) (hp : k.prefix = .ok pre) (skip : Nat → Bool)
    (V : List (Nat × Nat) → Nat → List K → Prop) (pass : Nat → Pass K) (hpass : ∀ s, Attentive (pass s) V)
    (hok : ∀ s size len ids mask types, ∃ out, pass s size len ids mask types = .ok out)
    (tokens : T → List (Nat × Nat)) (tok : T → Res Encoding) (htok : ∀ t, ∃ e, tok t = .ok e ∧ RightPadded (tokens t) e.ids e.masks e.types)
    (batchSize sessions : Nat) (dynamic : Bool) (texts : List T) :
    ∃ es, encodeDocs (engine k pass skip tok batchSize sessions dynamic) (fun _ => false) texts = .ok es := by
  classical
  set e := engine k pass skip tok batchSize sessions dynamic with he
  have hgood : ∀ t, ∃ d, e.tok t = .ok d ∧ d.Good := by
    intro t
    obtain ⟨enc, h1, h2⟩ := htok t
    refine ⟨⟨(tokens t).map (·.1), (tokens t).map (·.2)⟩, ?_, ?_⟩
    · show (tok t >>= tokOne) = _
      rw [h1]
      exact tokOne_pads h2
    · simpa [TokDoc.Good] using h2.1
  rw [encodeDocs_congr e (fun s p ds => if ∀ d ∈ ds, d.Good then e.run s p ds else .ok (ds.map fun _ => [])) (fun _ => false) texts (by
    intro s p ds hds
    rw [if_pos]
    intro d hd
    obtain ⟨t, ht⟩ := hds d hd
    obtain ⟨d', h1, h2⟩ := hgood t
    rw [ht] at h1; injection h1 with h1; subst h1; exact h2)]
  refine C56_succeeds _ (fun _ _ => True) ?_ texts (fun t _ => ⟨_, (hgood t).choose_spec.1⟩) ?_
  · intro s p ds es hrun
    simp only at hrun
    split at hrun
    · rename_i hall
      rcases runDocs k (pass s) V (hpass s) skip pre hp hm p ds hall with ⟨f, hf, _⟩ | ⟨es2, h2, h3⟩
      · have hrun : (prepareDocs k ds p >>= encodePrepared k (pass s) skip) = .ok es := hrun
        rw [hf] at hrun; cases hrun
      · have hrun : (prepareDocs k ds p >>= encodePrepared k (pass s) skip) = .ok es := hrun
        rw [h2] at hrun; injection hrun with hrun; subst hrun
        exact ⟨h3.1, fun _ _ _ _ _ => trivial⟩
    · injection hrun with hrun; subst hrun
      exact ⟨by simp, fun _ _ _ _ _ => trivial⟩
  · intro s p ds _
    simp only
    split
    · rename_i hall
      rcases runDocs k (pass s) V (hpass s) skip pre hp hm p ds hall with ⟨f, _, a, b, c, d, f', h⟩ | ⟨es2, h2, _⟩
      · obtain ⟨out, ho⟩ := hok s a b c d f'
        rw [ho] at h; cases h
      · exact ⟨es2, h2⟩
    · exact ⟨_, rfl⟩

/-- If vectors are exact then the embedding of a text is the same in every call: batched or not, whatever else is encoded with it. -/
theorem C58_batch_invariant (k : Kind) (hk : k.expand = false) (hm : 3 ≤ k.maxLen) (pre : Nat) (hp : k.prefix = .ok pre) (skip : Nat → Bool)
    (V : List (Nat × Nat) → Nat → List K → Prop) (hV : ∀ s j v v', V s j v → V s j v' → v = v') (pass : Nat → Pass K) (hpass : ∀ s, Attentive (pass s) V)
    (tokens : T → List (Nat × Nat)) (tok : T → Res Encoding) (htok : ∀ t e, tok t = .ok e → RightPadded (tokens t) e.ids e.masks e.types)
    (tokB : List T → Res (List Encoding))
    (htokB : ∀ ts es, tokB ts = .ok es → OneEach (fun t (e : Encoding) => RightPadded (tokens t) e.ids e.masks e.types) ts es)
    (batchSize sessions batchSize' sessions' : Nat) (dynamic : Bool) (cancelled : Nat → Bool) (texts texts' : List T) (es es' : List (List (List K)))
    (h : encodeDocs (engine k pass skip tok batchSize sessions dynamic) cancelled texts = .ok es)
    (h' : encodeSimple (fun s => encodeBatch k (pass s) skip tokB) batchSize' sessions' texts' = .ok es')
    (i i' : Nat) (t : T) (ht : texts[i]? = some t) (ht' : texts'[i']? = some t) : es[i]? = es'[i']? ∧ es[i]?.isSome := by
  have a := C58_documents k hk hm pre hp skip V pass hpass tokens tok htok batchSize sessions dynamic cancelled texts es h
  have b := C58_texts k hk hm pre hp skip V pass hpass tokens tokB htokB batchSize' sessions' texts' es' h'
  have hi : i < es.length := by rw [a.1]; exact (List.getElem?_eq_some_iff.mp ht).1
  have hi' : i' < es'.length := by rw [b.1]; exact (List.getElem?_eq_some_iff.mp ht').1
  have ha := a.2 i t _ ht (List.getElem?_eq_getElem hi)
  have hb := b.2 i' t _ ht' (List.getElem?_eq_getElem hi')
  rw [List.getElem?_eq_getElem hi, List.getElem?_eq_getElem hi']
  refine ⟨congrArg some (List.ext_getElem (by rw [ha.1, hb.1]) ?_), rfl⟩
  intro n h1 h2
  have hn : n < ((List.range (docTokens k pre (tokens t)).length).filter fun j => ((docTokens k pre (tokens t))[j]?.map fun t => !skip t.1).getD false).length := by
    rw [← ha.1]; exact h1
  exact hV _ _ _ _ (ha.2 n _ _ (List.getElem?_eq_getElem hn) (List.getElem?_eq_getElem h1)) (hb.2 n _ _ (List.getElem?_eq_getElem hn) (List.getElem?_eq_getElem h2))

/-! ### Examples and failures -/

/-- A forward pass whose vectors are the id and the sum of the ids attended to. -/
@[reducible] def toyPass : Pass Nat := fun size len ids mask _ =>
  .ok (2, (List.range size).flatMap fun i => (List.range len).flatMap fun j =>
    [((rowOf ids len i)[j]?).getD 0, (((rowOf ids len i).zip (rowOf mask len i)).map fun x => x.1 * x.2).sum])

@[reducible] def toyKind (maxLen : Nat) (expand : Bool) : Kind := ⟨some 50, none, maxLen, expand, 0, 9, false⟩

@[reducible] def toyEnc (n : Nat) : Encoding := ⟨List.range' 1 n ++ [99], List.replicate n 1 ++ [0], List.replicate (n + 1) 0⟩

/-- Documents of two, five and three tokens, in batches of two, of at most four tokens; token 2 is filtered out. -/
example : encodeDocs (engine (toyKind 4 false) (fun _ => toyPass) (· == 2) (fun n : Nat => .ok (toyEnc n)) 2 1 false) (fun _ => false) [2, 5, 3] =
    .ok [[[1, 53], [50, 53]], [[1, 58], [50, 58], [5, 58]], [[1, 56], [50, 56], [3, 56]]] := by decide +kernel

/-- An expanded query. -/
example : encodeSimple (fun _ => encodeBatch (toyKind 5 true) toyPass (· == 2) fun ns : List Nat => .ok (ns.map toyEnc)) 2 1 [2] =
    .ok [[[1, 71], [50, 71], [2, 71], [9, 71], [9, 71]]] := by decide +kernel

example : RightPadded [(1, 0), (2, 0)] (toyEnc 2).ids (toyEnc 2).masks (toyEnc 2).types := ⟨by simp, [99], [0], rfl, rfl, rfl, rfl⟩

/-- The toy pass is one of those the theorems are about. -/
theorem toyPass_attentive : Attentive toyPass fun s j v => ∃ t, s[j]? = some t ∧ v = [t.1, (s.map (·.1)).sum] := by
  intro size len ids mask types dim out h
  injection h with h
  injection h with h1 h2
  subst h1
  have hin : ∀ i, ((List.range len).flatMap fun j => [((rowOf ids len i)[j]?).getD 0, (((rowOf ids len i).zip (rowOf mask len i)).map fun x => x.1 * x.2).sum]).length = len * 2 := by
    intro i; rw [List.length_flatMap]; simp
  refine ⟨?_, ?_⟩
  · rw [← h2, List.length_flatMap]
    simp only [hin]
    simp [Nat.mul_assoc]
  · intro i hi real hids _ hmask j hj
    have hrow : rowOf out (len * 2) i = (List.range len).flatMap fun j =>
        [((rowOf ids len i)[j]?).getD 0, (((rowOf ids len i).zip (rowOf mask len i)).map fun x => x.1 * x.2).sum] := by
      rw [← h2]
      exact rowOf_flatMap _ _ _ (fun a _ => hin a) i i (List.getElem?_range hi)
    have hlen : real.length ≤ len := by
      have h3 := congrArg List.length hids
      rw [List.length_take, List.length_map] at h3
      unfold rowOf at h3
      rw [List.length_take] at h3
      omega
    have hcut : (out.drop ((i * len + j) * 2)).take 2 = rowOf (rowOf out (len * 2) i) 2 j := by
      unfold rowOf
      rw [List.drop_take, List.take_take, List.drop_drop, Nat.min_eq_left (by omega)]
      congr 2
      rw [Nat.add_mul, Nat.mul_assoc]
    have hrj : rowOf (rowOf out (len * 2) i) 2 j =
        [((rowOf ids len i)[j]?).getD 0, (((rowOf ids len i).zip (rowOf mask len i)).map fun x => x.1 * x.2).sum] := by
      rw [hrow]
      exact rowOf_flatMap (fun j => [((rowOf ids len i)[j]?).getD 0, (((rowOf ids len i).zip (rowOf mask len i)).map fun x => x.1 * x.2).sum]) 2
        (List.range len) (fun a _ => rfl) j j (List.getElem?_range (by omega))
    have hid : (rowOf ids len i)[j]? = some (real[j].1) := by
      have h3 : ((rowOf ids len i).take real.length)[j]? = (real.map (·.1))[j]? := by rw [hids]
      rw [List.getElem?_take, if_pos hj, List.getElem?_map, List.getElem?_eq_getElem hj] at h3
      exact h3
    refine ⟨real[j], List.getElem?_eq_getElem hj, ?_⟩
    rw [hcut, hrj, hid, hmask]
    have hsum : (((rowOf ids len i).zip (List.replicate real.length 1 ++ List.replicate (len - real.length) 0)).map fun x => x.1 * x.2).sum =
        (real.map (·.1)).sum := by
      have h3 : rowOf ids len i = real.map (·.1) ++ (rowOf ids len i).drop real.length := by rw [← hids, List.take_append_drop]
      rw [h3, List.zip_append (by simp), List.map_append, List.sum_append]
      have ha : (((real.map (·.1)).zip (List.replicate real.length 1)).map fun x => x.1 * x.2) = real.map (·.1) := by
        apply List.ext_getElem
        · simp
        · intro n _ _; simp
      have hb : ((((rowOf ids len i).drop real.length).zip (List.replicate (len - real.length) 0)).map fun x => x.1 * x.2).sum = 0 := by
        apply List.sum_eq_zero
        intro x hx
        obtain ⟨y, hy, rfl⟩ := List.mem_map.mp hx
        have := (List.of_mem_zip hy).2
        rw [(List.mem_replicate.mp this).2, Nat.mul_zero]
      rw [ha, hb, Nat.add_zero]
    rw [hsum]; rfl

/-- The hypotheses of `C58_documents` are met by the toy model, for texts of any length. -/
example (texts : List Nat) (es : List (List (List Nat)))
    (h : encodeDocs (engine (toyKind 4 false) (fun _ => toyPass) (· == 2) (fun n : Nat => .ok (toyEnc (n + 1))) 2 3 true) (fun _ => false) texts = .ok es) :
    OneEach (fun n x => Embeds (fun s j v => ∃ t, s[j]? = some t ∧ v = [t.1, (s.map (·.1)).sum]) (· == 2)
      (docTokens (toyKind 4 false) 50 ((List.range' 1 (n + 1)).map fun i => (i, 0))) x) texts es := by
  refine C58_documents _ rfl (by decide) 50 rfl _ _ _ (fun _ => toyPass_attentive) _ _ ?_ 2 3 true _ texts es h
  intro t e he
  injection he with he
  subst he
  refine ⟨by simp, [99], [0], ?_, ?_, ?_, rfl⟩
  · simp [Function.comp_def]
  · simp only [toyEnc, List.map_map]
    rw [List.replicate_succ' (n := t + 1)]
    congr 1
    symm
    rw [List.eq_replicate_iff]
    simp +contextual [eq_comm]
  · simp

/-- A document length of one or two is accepted, but then the last document of a batch that has two tokens or more makes the call panic: the
prefix and the separator are written beyond the end of its row. -/
theorem C58_short_panics (k : Kind) (hx : k.expand = false) (hm : k.maxLen = 1 ∨ k.maxLen = 2) (pre : Nat) (hp : k.prefix = .ok pre) (d : TokDoc)
    (h2 : 2 ≤ d.ids.length) (ht : d.types.length = d.ids.length) : prepareDocs k [d] none = .error .panic := by
  have hne : d.ids ≠ [] := by intro h; rw [h] at h2; simp at h2
  have hr := (docCells_reads (d := d) ⟨hne, ht⟩).2.2
  have hcl := docCells_length (d := d) ⟨hne, ht⟩
  have hmax : max d.ids.length 1 = d.ids.length := by omega
  have hcut : d.ids.length > k.maxLen - 1 := by omega
  have hlen : batchLen k [d.ids.length] none = k.maxLen := by
    unfold batchLen effective
    simp only [List.map_cons, List.map_nil, List.foldl_cons, List.foldl_nil, hx, if_pos hcut]
    simp
  obtain ⟨c0, hc0⟩ : ∃ c, ((d.ids.zip d.types).map cell)[0]? = some c := ⟨_, List.getElem?_eq_getElem (by omega)⟩
  obtain ⟨cl, hcl2⟩ : ∃ c, ((d.ids.zip d.types).map cell)[d.ids.length - 1]? = some c := ⟨_, List.getElem?_eq_getElem (by omega)⟩
  have hrow : row k pre k.maxLen (mk k [] k.maxLen) 0 d.ids.length d.ids (fun _ => .ok 1) d.types = .error .panic := by
    unfold row
    rcases hm with hm | hm
    · have e1 := copy_ok (k := k) hr (w := []) (n := 0) (toks := []) hc0
      have e2 : put (mk k ([] ++ [c0]) 0) 1 pre 1 0 = .error .panic := if_neg (by simp [mk])
      simp only [List.length_nil, Nat.zero_add] at e1
      simp only [hm, Nat.zero_mul, Nat.zero_add, e1, e2, bind, Except.bind]
    · have e1 := copy_ok (k := k) hr (w := []) (n := 1) (toks := []) hc0
      have e2 := put_mk k ([] ++ [c0]) 0 pre 1 0
      have e3 : copy d.ids (fun _ => .ok 1) d.types (mk k ([] ++ [c0] ++ [(pre, 1, 0)]) 0, [] ++ [c0.1] ++ [pre]) 2 (d.ids.length - 1) = .error .panic := by
        obtain ⟨h3, h4, h5⟩ := hr _ _ hcl2
        have h6 : put (mk k ([] ++ [c0] ++ [(pre, 1, 0)]) 0) 2 cl.1 1 cl.2.2 = .error .panic := if_neg (by simp [mk])
        simp only at h3 h5
        unfold copy
        simp only [h3, h5, h6, bind, Except.bind]
      simp only [List.length_nil, Nat.reduceAdd] at e1
      simp only [List.nil_append, List.length_cons, List.length_nil, Nat.zero_add] at e1 e2 e3
      rw [hm] at hcut
      simp only [hm, Nat.zero_mul, Nat.zero_add, e1, e2, bind, Except.bind, Nat.reduceSub, Nat.reduceAdd, copyLoop, hcut, if_true]
      simpa using e3
  unfold prepareDocs
  rw [hp]
  show (rows k pre (batchLen k [d.ids.length] none) 0 [(max d.ids.length 1, d.ids, fun _ => .ok 1, d.types)] (blank k (1 * batchLen k [d.ids.length] none), []) >>= _) = _
  rw [hlen, hmax, blank_mk, Nat.one_mul]
  unfold rows
  simp only [hrow, bind, Except.bind]

/-- A tokenizer that pads on the left: of a text that is shorter than another one of its batch only a padding token is read. -/
theorem C58_left_padding : (prepareEncodings (toyKind 8 false) [⟨[1, 2, 3, 4], [1, 1, 1, 1], [0, 0, 0, 0]⟩, ⟨[0, 0, 7, 8], [0, 0, 1, 1], [0, 0, 0, 0]⟩]).map (·.tokens) =
    .ok [[1, 50, 2, 3, 4], [0, 50]] := by decide +kernel

/-- A text without any token, as the empty text is for a tokenizer that adds no special tokens, makes the call panic. -/
theorem C58_no_token_panics (k : Kind) (pre : Nat) (hp : k.prefix = .ok pre) (encs : List Encoding) : prepareEncodings k (⟨[], [], []⟩ :: encs) = .error .panic := by
  unfold prepareEncodings
  rw [hp]
  rfl

end NextPlaid.Props
