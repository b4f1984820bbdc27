import Verif.Proofs.Encode

/-!
C56: encoding gives one embedding for each document, in the order of the documents, whatever the batches.
-/

namespace NextPlaid.Props

open NextPlaid.Spec NextPlaid.Encode

variable {T D E : Type}

/-- What is assumed of one forward pass: one result per document, in order, and each result is an embedding of its document.  `Enc d x` says
that `x` is an embedding of `d`; a document may have several, as rounding depends on the batch it is in. -/
def SoundPass (e : Engine T D E) (Enc : D → E → Prop) : Prop := ∀ s p ds es, e.run s p ds = .ok es → OneEach Enc ds es

/-- Whatever the batch size, dynamic batching, the number of sessions and the moment of a cancellation: if the call succeeds then there is
exactly one embedding for each text, in the order of the texts, and it is an embedding of that text. -/
theorem C56_order (e : Engine T D E) (Enc : D → E → Prop) (hrun : SoundPass e Enc) (cancelled : Nat → Bool) (texts : List T) (es : List E)
    (h : encodeDocs e cancelled texts = .ok es) : OneEach (fun t x => ∃ d, e.tok t = .ok d ∧ Enc d x) texts es := by
  unfold encodeDocs tokenize at h
  cases h1 : texts.mapM e.tok with
  | error f => rw [h1] at h; cases h
  | ok docs =>
    rw [h1] at h
    have h : encodeBatches e cancelled (batches e docs) = .ok es := h
    cases h2 : runAll e cancelled 0 (batches e docs) with
    | error f => unfold encodeBatches at h; rw [h2] at h; cases h
    | ok encoded =>
      obtain ⟨es', h3, h4⟩ := encodeBatches_each e Enc hrun cancelled docs h2
      rw [h] at h3; injection h3 with h3; subst h3
      exact OneEach_comp (mapM_each e.tok _ _ h1) h4

/-- And the call succeeds if the tokenizer and the forward passes do and nobody cancels: putting the embeddings back in order never fails. -/
theorem C56_succeeds (e : Engine T D E) (Enc : D → E → Prop) (hrun : SoundPass e Enc) (texts : List T)
    (htok : ∀ t ∈ texts, ∃ d, e.tok t = .ok d) (hok : ∀ s p ds, ds ≠ [] → ∃ es, e.run s p ds = .ok es) :
    ∃ es, encodeDocs e (fun _ => false) texts = .ok es := by
  obtain ⟨docs, h1⟩ := mapM_ok e.tok texts htok
  obtain ⟨encoded, h2⟩ := runAll_ok e (fun _ => false) (fun _ => rfl) (batches e docs) 0 fun b hb s => hok s _ _ (by
    intro hnil
    rw [List.map_eq_nil_iff] at hnil
    by_cases hd : e.dynamic = true
    · obtain ⟨_, _, _, _, h, _⟩ := mem_batches_dynamic e hd docs hb
      exact h hnil
    · unfold batches at hb
      simp only [hd, Bool.false_eq_true, if_false, List.mem_map] at hb
      obtain ⟨p, hp, rfl⟩ := hb
      exact (pieces_size _ _ _ hp).1 hnil)
  obtain ⟨es, h3, _⟩ := encodeBatches_each e Enc hrun (fun _ => false) docs h2
  exact ⟨es, by unfold encodeDocs tokenize; rw [h1]; exact h3⟩

/-- Every document is in exactly one batch, under the place it has in the input. -/
theorem C56_batches (e : Engine T D E) (docs : List D) :
    ((batches e docs).flatMap fun b => b.docs.map (·.1)).Perm (List.range docs.length) ∧
    ∀ b ∈ batches e docs, ∀ p ∈ b.docs, docs[p.1]? = some p.2 :=
  ⟨placed_idxs e docs, fun b hb p hp => placed_mem e docs (List.mem_flatMap.mpr ⟨b, hb, hp⟩)⟩

/-- With dynamic batching every document fits the length its batch is padded to, that length is at most the document length, and a batch
never holds more tokens, with padding, than a full batch of the longest documents. -/
theorem C56_fits (e : Engine T D E) (hd : e.dynamic = true) (docs : List D) :
    ∀ b ∈ batches e docs, ∃ len, b.planned = some len ∧ len ≤ max e.docLen 1 ∧ b.docs ≠ [] ∧
      b.docs.length * len ≤ max e.batchSize 1 * max e.docLen 1 ∧ ∀ p ∈ b.docs, min (e.len p.2) (e.docLen - 1) + 1 ≤ len := by
  intro b hb
  obtain ⟨j, s, h1, h2, h3, h4, h5⟩ := mem_batches_dynamic e hd docs hb
  obtain ⟨h6, h7, h8, h9⟩ := shapes_spec _ _ s (List.mem_of_getElem? h1)
  refine ⟨s.planned, h2, h7, h3, ?_, ?_⟩
  · rw [Nat.max_eq_left h9] at h4
    have := Nat.mul_le_mul_right s.planned h4
    have hm : max (max e.batchSize 1) 1 = max e.batchSize 1 := by omega
    rw [hm] at h8
    omega
  · intro p hp
    have hj := h5 p hp
    refine bucket_fits (ss := shapes (max e.batchSize 1) e.docLen) (n := preparedLen e p.2) ?_ (by rw [hj]; exact h1)
    obtain ⟨x, hx, hxl⟩ := shapes_full (max e.batchSize 1) e.docLen
    refine ⟨x, hx, ?_⟩
    rw [hxl]; unfold preparedLen; omega

/-- Without it the batches are pieces of the input, of at most the batch size. -/
theorem C56_fixed (e : Engine T D E) (hd : e.dynamic = false) (docs : List D) :
    (∀ b ∈ batches e docs, b.docs ≠ [] ∧ b.docs.length ≤ max e.batchSize 1) ∧
    (batches e docs).flatMap (fun b => b.docs.map (·.2)) = docs := by
  have he : batches e docs = (pieces (max e.batchSize 1) (docs.zipIdx.map fun p => (p.2, p.1))).map fun l => ⟨none, l⟩ := by
    unfold batches; simp [hd]
  rw [he]
  constructor
  · intro b hb
    obtain ⟨p, hp, rfl⟩ := List.mem_map.mp hb
    obtain ⟨h1, h2⟩ := pieces_size _ _ _ hp
    exact ⟨h1, by simp only at h2 ⊢; omega⟩
  · rw [List.flatMap_map, List.flatMap_def, ← List.map_flatten, pieces_flatten, List.map_map]
    have : ((fun x : Nat × D => x.2) ∘ fun p : D × Nat => (p.2, p.1)) = Prod.fst := rfl
    rw [this, List.zipIdx_map_fst]

/-- The calls that tokenise and encode in one go, for documents and queries: one result per text, in order, for one session and for several. -/
theorem C56_simple (direct : Nat → List T → Res (List E)) (Enc : T → E → Prop) (hdirect : ∀ s ts es, direct s ts = .ok es → OneEach Enc ts es)
    (batchSize sessions : Nat) (texts : List T) (es : List E) (h : encodeSimple direct batchSize sessions texts = .ok es) : OneEach Enc texts es := by
  unfold encodeSimple at h
  split at h
  · rename_i h0
    injection h with h; subst h0 h
    exact ⟨rfl, by simp⟩
  · split at h
    · cases h
    · cases h1 : ((pieces (max batchSize 1) texts).zipIdx).mapM (fun p => direct (p.2 % sessions) p.1) with
      | error f => rw [h1] at h; cases h
      | ok parts =>
        rw [h1] at h
        have h : Except.ok parts.flatten = Except.ok es := h
        injection h with h; subst h
        obtain ⟨h2, h3⟩ := mapM_each _ _ _ h1
        have h4 : OneEach (OneEach Enc) (pieces (max batchSize 1) texts) parts := by
          refine ⟨by simpa using h2, fun i a b ha hb => ?_⟩
          exact hdirect _ _ _ (h3 i (a, i) b (by rw [List.getElem?_zipIdx, ha]; simp) hb)
        have := OneEach_flatten h4
        rwa [pieces_flatten] at this

/-- The stream: whatever the sessions do in whatever order, when it is over the caller has one message for each chunk of texts, every chunk of
embeddings lies at the place of its texts, and if no chunk failed then every text has its embedding exactly once. -/
theorem C56_stream (direct : Nat → List T → Res (List E)) (Enc : T → E → Prop) (hdirect : ∀ s ts es, direct s ts = .ok es → OneEach Enc ts es)
    (batchSize sessions : Nat) (texts : List T) (s : Workers (Nat × Nat × List T) (Res (Nat × Nat × List E)))
    (hr : Workers.Run (streamJob direct) (Workers.begin (workQueue batchSize texts) sessions) s) (ho : s.Over) :
    (∀ p, Except.ok p ∈ s.out → ∀ j x, p.2.2[j]? = some x → ∃ t, texts[p.2.1 + j]? = some t ∧ Enc t x) ∧
    ∀ parts : List (Nat × Nat × List E), s.out = parts.map Except.ok →
      (parts.map (·.1)).Perm (List.range parts.length) ∧ CoversOnce Enc texts (parts.map fun p => ⟨p.2.1, p.2.2⟩) := by
  obtain ⟨hl, done, hd, hp⟩ := stream_keeps _ hr
  have hbusy : s.busy.filterMap id = [] := by
    rw [List.filterMap_eq_nil_iff]; intro b hb; rw [ho.2 b hb]; rfl
  rw [ho.1, hbusy, List.nil_append, List.nil_append] at hp
  exact ⟨chunks_at direct Enc hdirect batchSize sessions texts done s.out hd fun w hw => hp.subset hw,
    chunks_cover direct Enc hdirect batchSize sessions texts done s.out hd hp⟩

/-- The stream never stands still before it is over. -/
theorem C56_stream_progress (direct : Nat → List T → Res (List E)) (batchSize sessions : Nat) (hs : 0 < sessions) (texts : List T)
    (s : Workers (Nat × Nat × List T) (Res (Nat × Nat × List E)))
    (hr : Workers.Run (streamJob direct) (Workers.begin (workQueue batchSize texts) sessions) s) (ho : ¬ s.Over) :
    ∃ s', Workers.Step (streamJob direct) s s' :=
  stream_progress _ (by rw [(stream_keeps _ hr).1]; exact hs) ho

/-- The claim fails for a batch size of zero: with one session `encode_documents` and `encode_queries` panic on any text, while all other
paths take zero for one. -/
theorem C56_zero_batch (direct : Nat → List T → Res (List E)) (t : T) (texts : List T) :
    encodeSimple direct 0 1 (t :: texts) = .error .panic := by
  simp [encodeSimple]

/-! ### The hypotheses can be met -/

/-- A toy encoder of words by their length; the second field of the result is the length its batch was padded to. -/
@[reducible] def toyEngine (dynamic : Bool) : Engine Nat Nat (Nat × Option Nat) where
  tok t := .ok t
  len d := d
  run _ p ds := .ok (ds.map fun d => (d, p))
  batchSize := 2
  docLen := 300
  sessions := 3
  dynamic := dynamic

theorem toy_sound (b : Bool) : SoundPass (toyEngine b) fun d x => x.1 = d := by
  intro s p ds es h
  injection h with h; subst h
  refine ⟨by simp, ?_⟩
  intro i a x ha hx
  rw [List.getElem?_map, ha] at hx
  simp only [Option.map_some, Option.some.injEq] at hx
  rw [← hx]

example : shapes 2 300 = [⟨4, 128⟩, ⟨3, 160⟩, ⟨2, 300⟩] := by
  simp [shapes, shapesFrom, roundUp]

example : ∃ es, encodeDocs (toyEngine true) (fun _ => false) [290, 5, 150, 400, 7] = .ok es :=
  C56_succeeds (toyEngine true) _ (toy_sound true) _ (fun t _ => ⟨t, rfl⟩) fun _ _ _ _ => ⟨_, rfl⟩

example : encodeDocs (toyEngine false) (fun _ => false) [290, 5, 150] = .ok [(290, none), (5, none), (150, none)] := by
  simp [encodeDocs, tokenize, batches, pieces, encodeBatches, runAll, restore, place, filled, pure, bind, Except.bind, Except.pure, List.mapM_cons]

example : (batches (toyEngine true) [290, 5, 150, 400, 7]).length = 3 := by
  have : shapes 2 300 = [⟨4, 128⟩, ⟨3, 160⟩, ⟨2, 300⟩] := by simp [shapes, shapesFrom, roundUp]
  simp [batches, byLength, preparedLen, this, bucket, List.findIdx?_cons, pieces]

end NextPlaid.Props
