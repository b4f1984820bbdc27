import Verif.Props.Codec
import Verif.Proofs.Gpu2

/-!
C95: A GPU gives the codes and residuals that the CPU would.
-/

namespace NextPlaid.Props

open NextPlaid.Spec
open NextPlaid.Gpu

variable {γ α : Type}

/-- **C95, the GPU's codes and residuals.**  Whatever the limit of memory (up to 16 GiB, so whatever the batches), the order in which the threads of the
kernels run, and whichever calls of the driver fail: the GPU either gives every token a centroid with the best score, the first of them, and the token
minus that centroid, or it gives an error because a call failed.  It never reads or writes out of bounds. -/
theorem C95_gpu [LinearOrder α] (dev : Device γ α) (hs : Sound dev) (mem dim : Nat) (hm : mem ≤ 17179869184) (cents emb : List (List γ))
    (hz : Sized dim cents) (he : ∀ r ∈ emb, r.length = dim) :
    (∃ codes residuals, residualsCuda dev mem dim cents emb = .ok (codes, residuals) ∧
        Compressed (fun e c => dev.dot c e) dev.sub cents emb codes residuals ∧
        ∀ (i : Nat) (e : List γ) (k : Nat), emb[i]? = some e → codes[i]? = some k → AllFinite (cents.map fun c => dev.dot c e) →
          FirstBestAt (cents.map fun c => dev.dot c e) k) ∨
      (residualsCuda dev mem dim cents emb = .error .err ∧ ∃ b c, dev.ok b c = false) := by
  rcases residualsCuda_ok dev hs mem dim hm cents emb hz he with h | h
  · refine .inl ⟨_, _, h, cuda_compressed dev dim cents emb hz he, ?_⟩
    intro i e k hi hk hf
    rw [List.getElem?_map, hi] at hk
    cases hk
    exact gpuCode_first _ (by simpa using hz.ne) hf
  · exact .inr h

/-- **C95, the GPU's codes.**  The same for codes alone. -/
theorem C95_gpu_codes [LinearOrder α] (dev : Device γ α) (hs : Sound dev) (mem dim : Nat) (hm : mem ≤ 17179869184) (cents emb : List (List γ))
    (hz : Sized dim cents) (he : ∀ r ∈ emb, r.length = dim) :
    (∃ codes, compressCuda dev mem dim cents emb = .ok codes ∧ codes.length = emb.length ∧
        ∀ (i : Nat) (e : List γ), emb[i]? = some e → ∃ k < cents.length, codes[i]? = some k ∧
          (AllFinite (cents.map fun c => dev.dot c e) → FirstBestAt (cents.map fun c => dev.dot c e) k)) ∨
      (compressCuda dev mem dim cents emb = .error .err ∧ ∃ b c, dev.ok b c = false) := by
  rcases compressCuda_ok dev hs mem dim hm cents emb hz he with h | h
  · refine .inl ⟨_, h, by simp, ?_⟩
    intro i e hi
    exact ⟨codeOf dev.dot cents e, codeOf_lt dev.dot cents hz.ne e, by rw [List.getElem?_map, hi]; rfl,
      fun hf => gpuCode_first _ (by simpa using hz.ne) hf⟩
  · exact .inr h

/-- **C95, the CPU's codes and residuals.**  The CPU gives every token a centroid with the best score, the last of them, and the token minus it. -/
theorem C95_cpu [LinearOrder α] (memory : Nat) (score : List γ → List γ → Score α) (sub : γ → γ → γ) (dim : Nat) (cents emb : List (List γ))
    (hne : cents ≠ []) (hw : ∀ c ∈ cents, c.length = dim) (he : ∀ r ∈ emb, r.length = dim) :
    ∃ codes residuals, residualsCpu memory score sub cents emb = .ok (codes, residuals) ∧ Compressed score sub cents emb codes residuals ∧
      ∀ (i : Nat) (e : List γ) (k : Nat), emb[i]? = some e → codes[i]? = some k → AllFinite (cents.map (score e)) →
        LastBestAt (cents.map (score e)) k := by
  refine ⟨_, _, residualsCpu_ok memory score sub dim cents emb hne hw he, cpu_compressed score sub dim cents emb hne hw he, ?_⟩
  intro i e k hi hk hf
  rw [List.getElem?_map, hi] at hk
  cases hk
  exact cpuCode_last _ (by simpa using hne) hf

/-- What the compression of a machine gives when the GPU is not demanded. -/
theorem Toy.compressResiduals_ok [LinearOrder α] (m : Machine γ α) (hs : ∀ dev, m.device = some dev → Sound dev ∧ dev.sub = m.sub) (hf : m.forceGpu = false)
    (forceCpu : Bool) (dim : Nat) (cents emb : List (List γ)) (hz : Sized dim cents) (he : ∀ r ∈ emb, r.length = dim) :
    ∃ score codes residuals, (score = m.score ∨ ∃ dev, m.device = some dev ∧ score = fun e c => dev.dot c e) ∧
      compressResiduals m forceCpu dim cents emb = .ok (codes, residuals) ∧ Compressed score m.sub cents emb codes residuals := by
  have hcpu := residualsCpu_ok m.memory m.score m.sub dim cents emb hz.ne hz.width he
  have hcc := cpu_compressed m.score m.sub dim cents emb hz.ne hz.width he
  unfold compressResiduals
  cases forceCpu with
  | true => exact ⟨_, _, _, .inl rfl, hcpu, hcc⟩
  | false =>
    cases hd : m.device with
    | none =>
      refine ⟨_, _, _, .inl rfl, ?_, hcc⟩
      show noDevice m.forceGpu _ = _
      rw [hf]
      exact hcpu
    | some dev =>
      obtain ⟨hsd, hsub⟩ := hs dev hd
      rcases residualsCuda_ok dev hsd 4294967296 dim (by omega) cents emb hz he with h | ⟨h, -⟩
      · refine ⟨_, _, _, .inr ⟨dev, rfl, rfl⟩, ?_, hsub ▸ cuda_compressed dev dim cents emb hz he⟩
        show orCpu m.forceGpu _ _ = _
        rw [h]
        rfl
      · refine ⟨_, _, _, .inl rfl, ?_, hcc⟩
        show orCpu m.forceGpu _ _ = _
        rw [h, hf]
        exact hcpu

/-- **C95, a chunk.**  On any machine, with a device or without, whatever fails on the device and whether or not the caller asks for the CPU: documents of
the right width are encoded, with their lengths, and what is decoded from the chunk is, for every token and component, the component of a best centroid
plus the weight of the bucket in which the difference falls.  Best is by the scores of the CPU or those of the device. -/
theorem C95_chunk [LinearOrder α] [LinearOrder γ] [Add γ] (zero : γ) (normalize : List γ → List γ) (m : Machine γ α)
    (hs : ∀ dev, m.device = some dev → Sound dev ∧ dev.sub = m.sub) (hf : m.forceGpu = false) (forceCpu : Bool) (nbits dim : Nat)
    (cents : List (List γ)) (cutoffs weights : List γ) (codec : Codec.ResidualCodec γ)
    (hbuild : Codec.newWithStore nbits dim cents (some cutoffs) (some weights) = .ok codec)
    (hcut : cutoffs.length < 2 ^ nbits) (hw : weights.length = 2 ^ nbits) (halign : dim * nbits % 8 = 0) (hz : Sized dim cents)
    (docs : List (List (List γ))) (hd : ∀ doc ∈ docs, ∀ r ∈ doc, r.length = dim) :
    ∃ score ch out, (score = m.score ∨ ∃ dev, m.device = some dev ∧ score = fun e c => dev.dot c e) ∧
      encodeChunk m codec forceCpu docs = .ok ch ∧ ch.doclens = docs.map List.length ∧ ch.codes.length = docs.flatten.length ∧
      Codec.decompress zero normalize codec ch.residuals ch.codes = .ok out ∧ out.length = docs.flatten.length ∧
      ∀ (i : Nat) (e : List γ), docs.flatten[i]? = some e → ∃ k c raw, ch.codes[i]? = some k ∧ cents[k]? = some c ∧
        (AllFinite (cents.map (score e)) → BestAt (cents.map (score e)) k) ∧ out[i]? = some (normalize raw) ∧ raw.length = dim ∧
        ∀ (j : Nat) (x y : γ), e[j]? = some x → c[j]? = some y →
          ∃ w, weights[(cutoffs.filter fun t => decide (t < m.sub x y)).length]? = some w ∧ raw[j]? = some (y + w) := by
  have he : ∀ r ∈ docs.flatten, r.length = dim := by
    intro r hr
    obtain ⟨doc, hdoc, hr⟩ := List.mem_flatten.mp hr
    exact hd doc hdoc r hr
  have hcd : codec.dim = dim ∧ codec.centroids = cents := by
    unfold Codec.newWithStore at hbuild
    split at hbuild
    · cases hbuild
    · cases hbuild
      exact ⟨rfl, rfl⟩
  obtain ⟨score, codes, residuals, hscore, hres, hc⟩ := Toy.compressResiduals_ok m hs hf forceCpu dim cents docs.flatten hz he
  have hwid : ∀ r ∈ residuals, r.length = dim := by
    intro r hr
    obtain ⟨i, hi, rfl⟩ := List.getElem_of_mem hr
    have hi' : i < docs.flatten.length := by rw [← hc.residuals_len]; exact hi
    obtain ⟨k, c, r, -, -, h3, h4, -⟩ := hc.token i _ (List.getElem?_eq_getElem hi')
    rw [List.getElem?_eq_getElem hi] at h3
    cases h3
    rw [h4.1]
    exact he _ (List.getElem_mem hi')
  have hcodes : ∀ k ∈ codes, k < cents.length := by
    intro k hk
    obtain ⟨i, hi, rfl⟩ := List.getElem_of_mem hk
    have hi' : i < docs.flatten.length := by rw [← hc.codes_len]; exact hi
    obtain ⟨k, c, r, h1, h2, -⟩ := hc.token i _ (List.getElem?_eq_getElem hi')
    rw [List.getElem?_eq_getElem hi] at h1
    cases h1
    exact (List.getElem?_eq_some_iff.mp h2).1
  have hlen : codes.length = residuals.length := by rw [hc.codes_len, hc.residuals_len]
  obtain ⟨packed, out, hq, hdec, hol, htok⟩ := C01_codec_round_trip zero normalize nbits dim cents cutoffs weights codec hbuild hcut hw hz.width halign
    residuals hwid codes hlen hcodes
  refine ⟨score, { codes := codes, residuals := packed, doclens := docs.map List.length }, out, hscore, ?_, rfl, hc.codes_len, hdec,
    by rw [hol, hc.residuals_len], ?_⟩
  · unfold encodeChunk
    rw [hcd.1, hcd.2, assign_ok dim docs.flatten he]
    simp only [Bind.bind, Except.bind]
    rw [hres]
    simp only
    rw [hq]
    rfl
  · intro i e hi
    obtain ⟨k, c, r, h1, h2, h3, h4, h5⟩ := hc.token i e hi
    obtain ⟨hir, hir'⟩ := List.getElem?_eq_some_iff.mp h3
    obtain ⟨raw, c', ho, hraw, hc', hcomp⟩ := htok i hir
    have hci : i < codes.length := by omega
    have hk : codes[i] = k := by
      rw [List.getElem?_eq_getElem hci] at h1
      exact Option.some.inj h1
    rw [hk, h2] at hc'
    cases hc'
    refine ⟨k, c, raw, h1, h2, h5, ho, hraw, ?_⟩
    intro j x y hx hy
    have hj := h4.2 j x y hx hy
    rw [← hir'] at hj
    obtain ⟨hjl, hj'⟩ := List.getElem?_eq_some_iff.mp hj
    obtain ⟨cv, wv, g1, g2, g3⟩ := hcomp j hjl
    rw [hy] at g1
    cases g1
    rw [hj'] at g2
    exact ⟨wv, g2, g3⟩

/-- **C95, codes for an update.**  The same for codes alone: a machine on which the GPU is not demanded always gives them. -/
theorem C95_compress [LinearOrder α] (m : Machine γ α) (hs : ∀ dev, m.device = some dev → Sound dev) (hf : m.forceGpu = false)
    (dim : Nat) (cents emb : List (List γ)) (hz : Sized dim cents) (he : ∀ r ∈ emb, r.length = dim) :
    ∃ score codes, (score = m.score ∨ ∃ dev, m.device = some dev ∧ score = fun e c => dev.dot c e) ∧ compress m dim cents emb = .ok codes ∧
      codes.length = emb.length ∧ ∀ (i : Nat) (e : List γ), emb[i]? = some e → ∃ k < cents.length, codes[i]? = some k ∧
        (AllFinite (cents.map (score e)) → BestAt (cents.map (score e)) k) := by
  have hcpu := cpuCodes m.memory m.score cents emb hz.ne
  have hcc : ∀ (i : Nat) (e : List γ), emb[i]? = some e → ∃ k < cents.length,
      (emb.map fun e => Codec.argmaxRow (cents.map (m.score e)))[i]? = some k ∧
        (AllFinite (cents.map (m.score e)) → BestAt (cents.map (m.score e)) k) := by
    intro i e hi
    refine ⟨Codec.argmaxRow (cents.map (m.score e)), ?_, by rw [List.getElem?_map, hi]; rfl, fun h => cpuCode_best _ (by simpa using hz.ne) h⟩
    have := cpuCode_lt (cents.map (m.score e)) (by simpa using hz.ne)
    rwa [List.length_map] at this
  unfold compress
  cases hd : m.device with
  | none =>
    refine ⟨_, _, .inl rfl, ?_, by simp, hcc⟩
    show noDevice m.forceGpu _ = _
    rw [hf]
    exact hcpu
  | some dev =>
    rcases C95_gpu_codes dev (hs dev hd) 4294967296 dim (by omega) cents emb hz he with ⟨codes, h, hl, ht⟩ | ⟨h, -⟩
    · refine ⟨_, codes, .inr ⟨dev, rfl, rfl⟩, ?_, hl, ?_⟩
      · show orCpu m.forceGpu _ _ = _
        rw [h]
        rfl
      · intro i e hi
        obtain ⟨k, h1, h2, h3⟩ := ht i e hi
        exact ⟨k, h1, h2, fun h => (h3 h).1⟩
    · refine ⟨_, _, .inl rfl, ?_, by simp, hcc⟩
      show orCpu m.forceGpu _ _ = _
      rw [h, hf]
      exact hcpu

/-- **C95, a GPU that is demanded.**  With `NEXT_PLAID_FORCE_GPU` the CPU is never used in its place: the result is the GPU's, or the process panics, and
it does so only if there is no device or a call failed. -/
theorem C95_forced [LinearOrder α] (m : Machine γ α) (hs : ∀ dev, m.device = some dev → Sound dev) (hf : m.forceGpu = true)
    (dim : Nat) (cents emb : List (List γ)) (hz : Sized dim cents) (he : ∀ r ∈ emb, r.length = dim) :
    (∃ dev codes residuals, m.device = some dev ∧ residualsCuda dev 4294967296 dim cents emb = .ok (codes, residuals) ∧
        compressResiduals m false dim cents emb = .ok (codes, residuals) ∧
        Compressed (fun e c => dev.dot c e) dev.sub cents emb codes residuals) ∨
      (compressResiduals m false dim cents emb = .error .panic ∧ ∀ dev, m.device = some dev → ∃ b c, dev.ok b c = false) := by
  unfold compressResiduals
  cases hd : m.device with
  | none =>
    right
    refine ⟨?_, fun dev h => by cases h⟩
    show noDevice m.forceGpu _ = _
    rw [hf]
    rfl
  | some dev =>
    rcases residualsCuda_ok dev (hs dev hd) 4294967296 dim (by omega) cents emb hz he with h | ⟨h, hb⟩
    · refine .inl ⟨dev, _, _, rfl, h, ?_, cuda_compressed dev dim cents emb hz he⟩
      show orCpu m.forceGpu _ _ = _
      rw [h]
      rfl
    · right
      refine ⟨?_, ?_⟩
      · show orCpu m.forceGpu _ _ = _
        rw [h, hf]
        rfl
      · rintro dev' hd'
        cases hd'
        exact hb

theorem Toy.compressed_eq [LinearOrder α] {score : List γ → List γ → Score α} {sub : γ → γ → γ} {dim : Nat} {cents emb : List (List γ)}
    (hw : ∀ c ∈ cents, c.length = dim) (he : ∀ r ∈ emb, r.length = dim)
    (hone : ∀ e ∈ emb, AllFinite (cents.map (score e)) ∧ ∀ j k, BestAt (cents.map (score e)) j → BestAt (cents.map (score e)) k → j = k)
    {codes codes' : List Nat} {residuals residuals' : List (List γ)} (h : Compressed score sub cents emb codes residuals)
    (h' : Compressed score sub cents emb codes' residuals') : codes = codes' ∧ residuals = residuals' := by
  have key : ∀ i : Nat, codes[i]? = codes'[i]? ∧ residuals[i]? = residuals'[i]? := by
    intro i
    by_cases hi : i < emb.length
    · have hget := List.getElem?_eq_getElem hi
      obtain ⟨k, c, r, h1, h2, h3, h4, h5⟩ := h.token i _ hget
      obtain ⟨k', c', r', g1, g2, g3, g4, g5⟩ := h'.token i _ hget
      obtain ⟨hfin, huniq⟩ := hone _ (List.getElem_mem hi)
      have hk : k = k' := huniq k k' (h5 hfin) (g5 hfin)
      subst hk
      rw [h2] at g2
      cases g2
      refine ⟨by rw [h1, g1], ?_⟩
      rw [h3, g3]
      congr 1
      apply List.ext_getElem?
      intro j
      have hel := he _ (List.getElem_mem hi)
      have hcl := hw c (List.mem_of_getElem? h2)
      by_cases hj : j < emb[i].length
      · have hjc : j < c.length := by omega
        rw [h4.2 j _ _ (List.getElem?_eq_getElem hj) (List.getElem?_eq_getElem hjc),
          g4.2 j _ _ (List.getElem?_eq_getElem hj) (List.getElem?_eq_getElem hjc)]
      · rw [List.getElem?_eq_none (by rw [h4.1]; omega), List.getElem?_eq_none (by rw [g4.1]; omega)]
    · constructor
      · rw [List.getElem?_eq_none (by rw [h.codes_len]; omega), List.getElem?_eq_none (by rw [h'.codes_len]; omega)]
      · rw [List.getElem?_eq_none (by rw [h.residuals_len]; omega), List.getElem?_eq_none (by rw [h'.residuals_len]; omega)]
  exact ⟨List.ext_getElem? (fun i => (key i).1), List.ext_getElem? (fun i => (key i).2)⟩

/-- **C95, the same chunk everywhere.**  If every token has numbers for scores and one best centroid, then two machines that compute the same scores encode
the same chunk, whatever their memory, devices and failures, and wherever it is done. -/
theorem C95_same [LinearOrder α] [LinearOrder γ] (m m' : Machine γ α) (hscore : m'.score = m.score) (hsub : m'.sub = m.sub)
    (hs : ∀ dev, m.device = some dev → Sound dev ∧ dev.sub = m.sub ∧ ∀ c e, dev.dot c e = m.score e c)
    (hs' : ∀ dev, m'.device = some dev → Sound dev ∧ dev.sub = m.sub ∧ ∀ c e, dev.dot c e = m.score e c)
    (hf : m.forceGpu = false) (hf' : m'.forceGpu = false) (forceCpu forceCpu' : Bool) (codec : Codec.ResidualCodec γ)
    (hz : Sized codec.dim codec.centroids) (docs : List (List (List γ))) (hd : ∀ doc ∈ docs, ∀ r ∈ doc, r.length = codec.dim)
    (hone : ∀ doc ∈ docs, ∀ e ∈ doc, AllFinite (codec.centroids.map (m.score e)) ∧
      ∀ j k, BestAt (codec.centroids.map (m.score e)) j → BestAt (codec.centroids.map (m.score e)) k → j = k) :
    encodeChunk m codec forceCpu docs = encodeChunk m' codec forceCpu' docs := by
  have he : ∀ r ∈ docs.flatten, r.length = codec.dim := by
    intro r hr
    obtain ⟨doc, hdoc, hr⟩ := List.mem_flatten.mp hr
    exact hd doc hdoc r hr
  have ho : ∀ e ∈ docs.flatten, AllFinite (codec.centroids.map (m.score e)) ∧
      ∀ j k, BestAt (codec.centroids.map (m.score e)) j → BestAt (codec.centroids.map (m.score e)) k → j = k := by
    intro r hr
    obtain ⟨doc, hdoc, hr⟩ := List.mem_flatten.mp hr
    exact hone doc hdoc r hr
  obtain ⟨sc, codes, residuals, h1, h2, h3⟩ := Toy.compressResiduals_ok m (fun dev h => ⟨(hs dev h).1, (hs dev h).2.1⟩) hf forceCpu codec.dim
    codec.centroids docs.flatten hz he
  obtain ⟨sc', codes', residuals', h1', h2', h3'⟩ := Toy.compressResiduals_ok m' (fun dev h => ⟨(hs' dev h).1, (hs' dev h).2.1.trans hsub.symm⟩) hf'
    forceCpu' codec.dim codec.centroids docs.flatten hz he
  have e1 : sc = m.score := by
    rcases h1 with h | ⟨dev, hdev, h⟩
    · exact h
    · rw [h]
      funext e c
      exact (hs dev hdev).2.2 c e
  have e2 : sc' = m.score := by
    rcases h1' with h | ⟨dev, hdev, h⟩
    · exact h.trans hscore
    · rw [h]
      funext e c
      exact (hs' dev hdev).2.2 c e
  rw [e1] at h3
  rw [e2, hsub] at h3'
  obtain ⟨rfl, rfl⟩ := Toy.compressed_eq hz.width he ho h3 h3'
  unfold encodeChunk
  rw [assign_ok codec.dim docs.flatten he]
  simp only [Bind.bind, Except.bind]
  rw [h2, h2']

/-- **C95, the memory of the GPU.**  A batch with its centroids, scores, codes and residuals fits the limit if a batch of one token does. -/
theorem C95_memory (n k dim mem : Nat) (hfit : k * dim * 4 + (dim * 4 + k * 4 + 4 + dim * 4) ≤ mem) :
    k * dim * 4 + batchSizeResiduals n k dim mem * (dim * 4 + k * 4 + 4 + dim * 4) ≤ mem := by
  unfold batchSizeResiduals
  set per := dim * 4 + k * 4 + 4 + dim * 4 with hper
  set fixed := k * dim * 4 with hfixed
  have h1 : 1 ≤ (mem - fixed) / per := (Nat.one_le_div_iff (by omega)).mpr (by omega)
  have h2 : (mem - fixed) / per * per ≤ mem - fixed := Nat.div_mul_le_self _ _
  have h3 : min (max ((mem - fixed) / per) 1) n ≤ (mem - fixed) / per := by omega
  have h4 := Nat.mul_le_mul_right per h3
  omega

/-- **C95, the memory of the GPU for codes alone.** -/
theorem C95_memory_codes (n k dim mem : Nat) (hfit : k * dim * 4 + (dim * 4 + k * 4 + 4) ≤ mem) :
    k * dim * 4 + batchSize n k dim mem * (dim * 4 + k * 4 + 4) ≤ mem := by
  unfold batchSize
  set per := dim * 4 + k * 4 + 4 with hper
  set fixed := k * dim * 4 with hfixed
  have h1 : 1 ≤ (mem - fixed) / per := (Nat.one_le_div_iff (by omega)).mpr (by omega)
  have h2 : (mem - fixed) / per * per ≤ mem - fixed := Nat.div_mul_le_self _ _
  have h3 : min (max ((mem - fixed) / per) 1) n ≤ (mem - fixed) / per := by omega
  have h4 := Nat.mul_le_mul_right per h3
  omega

/-- **C95, refuted for ties.**  A token with two best centroids is given one by the GPU and the other by the CPU: the GPU takes the first, the CPU the
last.  So the index depends on the machine, even if all machines compute the same scores. -/
theorem C95_ties [LinearOrder α] (m : Machine γ α) (dev : Device γ α) (hdev : m.device = some dev) (hs : Sound dev) (hok : ∀ b c, dev.ok b c = true)
    (hdot : ∀ c e, dev.dot c e = m.score e c) (dim : Nat) (cents emb : List (List γ)) (hz : Sized dim cents) (he : ∀ r ∈ emb, r.length = dim)
    (i : Nat) (e : List γ) (hi : emb[i]? = some e) (hf : AllFinite (cents.map (m.score e))) (j k : Nat) (hjk : j < k)
    (hj : BestAt (cents.map (m.score e)) j) (hk : BestAt (cents.map (m.score e)) k) :
    ∃ gpu cpu a b, compressResiduals m false dim cents emb = .ok gpu ∧ compressResiduals m true dim cents emb = .ok cpu ∧
      gpu.1[i]? = some a ∧ cpu.1[i]? = some b ∧ a ≤ j ∧ k ≤ b := by
  have hfun : (fun c => dev.dot c e) = m.score e := funext fun c => hdot c e
  rcases C95_gpu dev hs 4294967296 dim (by omega) cents emb hz he with ⟨codes, residuals, h1, h2, h3⟩ | ⟨-, b, c, hb⟩
  · obtain ⟨codes', residuals', g1, g2, g3⟩ := C95_cpu m.memory m.score m.sub dim cents emb hz.ne hz.width he
    obtain ⟨a, -, -, ha, -⟩ := h2.token i e hi
    obtain ⟨b, -, -, hb, -⟩ := g2.token i e hi
    have hfirst := h3 i e a hi ha (by rw [hfun]; exact hf)
    rw [hfun] at hfirst
    have hlast := g3 i e b hi hb hf
    refine ⟨(codes, residuals), (codes', residuals'), a, b, ?_, g1, ha, hb, ?_, ?_⟩
    · unfold compressResiduals
      rw [hdev]
      show orCpu m.forceGpu _ _ = _
      rw [h1]
      rfl
    · by_contra hlt
      exact hfirst.2 j (by omega) hj
    · by_contra hlt
      exact hlast.2 k (by omega) hk
  · rw [hok] at hb
    cases hb

/-- **C95, refuted for NaN.**  If the score of a token with the first centroid is not a number, the GPU gives it the first centroid, whatever the other
scores: nothing is greater than NaN. -/
theorem C95_nan [LinearOrder α] (dev : Device γ α) (hs : Sound dev) (hok : ∀ b c, dev.ok b c = true) (dim : Nat) (cents emb : List (List γ))
    (hz : Sized dim cents) (he : ∀ r ∈ emb, r.length = dim) (i : Nat) (e c : List γ) (hi : emb[i]? = some e) (hc : cents[0]? = some c)
    (hnan : dev.dot c e = .nonfin 0) :
    ∃ codes residuals, residualsCuda dev 4294967296 dim cents emb = .ok (codes, residuals) ∧ codes[i]? = some 0 := by
  rcases residualsCuda_ok dev hs 4294967296 dim (by omega) cents emb hz he with h | ⟨-, b, c, hb⟩
  · refine ⟨_, _, h, ?_⟩
    rw [List.getElem?_map, hi]
    show some (gpuCode (cents.map fun c => dev.dot c e)) = some 0
    rw [gpuCode_nan _ (by rw [List.getElem?_map, hc]; exact congrArg some hnan)]
  · rw [hok] at hb
    cases hb

/-- **C95, documents of another width.**  A row whose width is neither that of the index nor one makes the encoding of the chunk panic. -/
theorem C95_wrong_width [LinearOrder α] [LinearOrder γ] (m : Machine γ α) (codec : Codec.ResidualCodec γ) (forceCpu : Bool) (docs : List (List (List γ)))
    (doc : List (List γ)) (hdoc : doc ∈ docs) (r : List γ) (hr : r ∈ doc) (h1 : r.length ≠ codec.dim) (h2 : r.length ≠ 1) :
    encodeChunk m codec forceCpu docs = .error .panic := by
  have key : ∀ l : List (List γ), r ∈ l → l.mapM (assignRow codec.dim) = .error .panic := by
    intro l
    induction l with
    | nil => intro h; cases h
    | cons x xs ih =>
      intro h
      rw [List.mapM_cons]
      have hx : (∃ y, assignRow codec.dim x = .ok y) ∨ assignRow codec.dim x = .error .panic := by
        unfold assignRow
        split
        · exact .inl ⟨_, rfl⟩
        · split
          · exact .inl ⟨_, rfl⟩
          · exact .inr rfl
      rcases List.mem_cons.mp h with rfl | h
      · have : assignRow codec.dim r = .error .panic := by
          unfold assignRow
          rw [if_neg h1]
          split
          · exact absurd rfl h2
          · rfl
        rw [this]
        rfl
      · rcases hx with ⟨y, hy⟩ | hx
        · rw [hy, ih h]
          rfl
        · rw [hx]
          rfl
  unfold encodeChunk
  rw [key docs.flatten (List.mem_flatten.mpr ⟨doc, hdoc, hr⟩)]
  rfl

/-- **C95, refuted for documents of width one.**  They are not refused: the chunk is that of a document whose number is repeated. -/
theorem C95_width_one [LinearOrder α] [LinearOrder γ] (m : Machine γ α) (codec : Codec.ResidualCodec γ) (forceCpu : Bool) (docs : List (List γ)) :
    encodeChunk m codec forceCpu (docs.map fun doc => doc.map fun x => [x]) =
      encodeChunk m codec forceCpu (docs.map fun doc => doc.map fun x => List.replicate codec.dim x) := by
  have hx : ∀ x : γ, assignRow codec.dim [x] = .ok (List.replicate codec.dim x) := by
    intro x
    unfold assignRow
    split
    · rename_i h
      rw [← h]
      rfl
    · rfl
  have hy : ∀ x : γ, assignRow codec.dim (List.replicate codec.dim x) = .ok (List.replicate codec.dim x) := by
    intro x
    unfold assignRow
    rw [if_pos (by simp)]
  have key : ∀ f : γ → List γ, (∀ x, assignRow codec.dim (f x) = .ok (List.replicate codec.dim x)) →
      (docs.map fun doc => doc.map f).flatten.mapM (assignRow codec.dim) = .ok (docs.flatten.map fun x => List.replicate codec.dim x) := by
    intro f hf
    rw [← List.map_flatten]
    generalize docs.flatten = l
    induction l with
    | nil => rfl
    | cons x xs ih =>
      rw [List.map_cons, List.mapM_cons, hf, ih]
      rfl
  unfold encodeChunk
  rw [key _ hx, key _ hy]
  have hl : (docs.map fun doc => doc.map fun x => [x]).map List.length = (docs.map fun doc => doc.map fun x => List.replicate codec.dim x).map List.length := by
    simp [Function.comp_def]
  rw [hl]

theorem Toy.ok_of {R : Type} {r : Res R} {x : R} (h : r.toOption = some x) : r = .ok x := by
  cases r with
  | error f => cases h
  | ok y => cases h; rfl

/-- **C95, refuted for embeddings narrower than the centroids.**  The GPU takes the width from the embeddings and reads the centroids with it: the answer
is no error, but the second centroid it subtracts is the second number of the first one. -/
theorem C95_narrow_on_gpu : ∃ (dev : Device Int Int) (cents emb : List (List Int)), Sound dev ∧ (∀ b c, dev.ok b c = true) ∧
    cents = [[0, 9], [5, 0]] ∧ emb = [[1]] ∧ residualsCuda dev 4294967296 1 cents emb = .ok ([1], [[1 - 9]]) :=
  ⟨{ dot := fun c e => .fin ((c.zipWith (· * ·) e).sum), sub := (· - ·), zero := 0, zeroScore := .fin 0, ok := fun _ _ => true, orderC := fun _ l => l,
     orderR := fun _ l => l }, _, _, ⟨fun _ _ => .refl _, fun _ _ => .refl _⟩, fun _ _ => rfl, rfl, rfl,
    Toy.ok_of (by decide +kernel)⟩

/-! ### The context of the process -/

theorem Toy.ctx_inv (evs : List Ev) (hev : Ev.clearCtx ∉ evs) : ∀ s : Ctx, (∀ t c, (t, some c) ∈ s.answers → s.ctx = some c) →
    ∀ t c, (t, some c) ∈ (s.run evs).answers → (s.run evs).ctx = some c := by
  induction evs with
  | nil => intro s h; exact h
  | cons ev evs ih =>
    intro s h
    refine ih (fun h => hev (List.mem_cons_of_mem _ h)) (s.step ev) ?_
    cases ev with
    | start t =>
      intro u c hu
      simp only [Ctx.step] at hu ⊢
      split at hu
      · rename_i hb
        rw [if_pos hb]
        rcases List.mem_cons.mp hu with hu | hu
        · cases hu
        · exact h u c hu
      · rename_i hb
        rw [if_neg hb]
        exact h u c hu
    | finish t o =>
      intro u c hu
      simp only [Ctx.step] at hu ⊢
      split at hu
      · rename_i hb
        rw [if_pos hb]
        unfold underLock at hu ⊢
        cases hc : s.ctx with
        | some d =>
          simp only [hc] at hu ⊢
          rcases List.mem_cons.mp hu with hu | hu
          · cases hu; rfl
          · rw [← hc]; exact h u c hu
        | none =>
          simp only [hc] at hu ⊢
          cases o with
          | ok =>
            simp only at hu ⊢
            rcases List.mem_cons.mp hu with hu | hu
            · cases hu; rfl
            · rw [h u c hu] at hc; cases hc
          | err =>
            rcases List.mem_cons.mp hu with hu | hu
            · cases hu
            · rw [h u c hu] at hc; cases hc
          | panic =>
            rcases List.mem_cons.mp hu with hu | hu
            · cases hu
            · rw [h u c hu] at hc; cases hc
      · rename_i hb
        rw [if_neg hb]
        exact h u c hu
    | mark => exact h
    | clearFlag => exact h
    | clearCtx => exact absurd (List.mem_cons_self ..) hev

/-- **C95, one context.**  However the calls of a process interleave and end, as long as the context is not cleared, all that are given a context are given
the same one. -/
theorem C95_one_context (evs : List Ev) (hev : Ev.clearCtx ∉ evs) (t u c d : Nat) (ht : (t, some c) ∈ (Ctx.run {} evs).answers)
    (hu : (u, some d) ∈ (Ctx.run {} evs).answers) : c = d := by
  have h := Toy.ctx_inv evs hev {} (fun t c h => by cases h)
  have := (h t c ht).symm.trans (h u d hu)
  exact Option.some.inj this

/-- **C95, a broken GPU is left alone.**  Once CUDA is marked broken, and until that is cleared, only calls that had started before are given a context;
all later ones go to the CPU. -/
theorem C95_broken (evs : List Ev) (hev : Ev.clearFlag ∉ evs) : ∀ s : Ctx, s.broken = true →
    (s.run evs).broken = true ∧ ∀ t c, (t, some c) ∈ (s.run evs).answers → (t, some c) ∈ s.answers ∨ s.waiting t = true := by
  induction evs with
  | nil => exact fun s h => ⟨h, fun t c h => .inl h⟩
  | cons ev evs ih =>
    intro s hb
    have hstep : (s.step ev).broken = true ∧ (∀ t c, (t, some c) ∈ (s.step ev).answers → (t, some c) ∈ s.answers ∨ s.waiting t = true) ∧
        ∀ t, (s.step ev).waiting t = true → s.waiting t = true := by
      cases ev with
      | start t =>
        simp only [Ctx.step, hb, if_true]
        refine ⟨trivial, ?_, fun _ h => h⟩
        intro u c hu
        rcases List.mem_cons.mp hu with hu | hu
        · cases hu
        · exact .inl hu
      | finish t o =>
        simp only [Ctx.step]
        split
        · rename_i hw
          unfold underLock
          split
          · refine ⟨hb, ?_, ?_⟩
            · intro u c hu
              rcases List.mem_cons.mp hu with hu | hu
              · cases hu; exact .inr hw
              · exact .inl hu
            · intro u hu
              simp only [Bool.and_eq_true] at hu
              exact hu.2
          · cases o with
            | ok =>
              refine ⟨hb, ?_, ?_⟩
              · intro u c hu
                rcases List.mem_cons.mp hu with hu | hu
                · cases hu; exact .inr hw
                · exact .inl hu
              · intro u hu
                simp only [Bool.and_eq_true] at hu
                exact hu.2
            | err =>
              refine ⟨rfl, ?_, ?_⟩
              · intro u c hu
                rcases List.mem_cons.mp hu with hu | hu
                · cases hu
                · exact .inl hu
              · intro u hu
                simp only [Bool.and_eq_true] at hu
                exact hu.2
            | panic =>
              refine ⟨rfl, ?_, ?_⟩
              · intro u c hu
                rcases List.mem_cons.mp hu with hu | hu
                · cases hu
                · exact .inl hu
              · intro u hu
                simp only [Bool.and_eq_true] at hu
                exact hu.2
        · exact ⟨hb, fun _ _ h => .inl h, fun _ h => h⟩
      | mark => exact ⟨rfl, fun _ _ h => .inl h, fun _ h => h⟩
      | clearFlag => exact absurd (List.mem_cons_self ..) hev
      | clearCtx => exact ⟨hb, fun _ _ h => .inl h, fun _ h => h⟩
    obtain ⟨h1, h2, h3⟩ := hstep
    obtain ⟨g1, g2⟩ := ih (fun h => hev (List.mem_cons_of_mem _ h)) (s.step ev) h1
    refine ⟨g1, fun t c ht => ?_⟩
    rcases g2 t c ht with h | h
    · exact h2 t c h
    · exact .inr (h3 t h)

/-- **C95, refuted for calls that overlap.**  The flag is read before the lock is taken and not again: a call that waits while another one fails tries to
initialise CUDA a second time, and may be given a context though CUDA is broken for all others from then on. -/
theorem C95_second_attempt : ∃ evs : List Ev, (Ctx.run {} evs).tries = 2 ∧ (Ctx.run {} evs).broken = true ∧ (1, some 1) ∈ (Ctx.run {} evs).answers ∧
    (0, none) ∈ (Ctx.run {} evs).answers ∧ (2, none) ∈ (Ctx.run {} evs).answers :=
  ⟨[.start 0, .start 1, .finish 0 .err, .finish 1 .ok, .start 2], by decide⟩

example : (Ctx.run {} [.start 0, .start 1, .finish 1 .ok, .mark, .finish 0 .err, .start 2]).answers = [(2, none), (0, some 0), (1, some 0)] := by decide

/-! ### The panic hook -/

/-- **C95, the panic hook is put back.**  Calls that follow one another leave the hook of the program as it was. -/
theorem C95_hook (ts : List Nat) : ∀ s : Hooks, (s.run (ts.flatMap hookCall)).hook = s.hook := by
  induction ts with
  | nil => exact fun s => rfl
  | cons t ts ih =>
    intro s
    have h : s.run ((t :: ts).flatMap hookCall) = (s.run (hookCall t)).run (ts.flatMap hookCall) := by
      simp only [Hooks.run, List.flatMap_cons, List.foldl_append]
    rw [h, ih]
    simp [Hooks.run, hookCall, Hooks.step]

/-- **C95, refuted for calls that overlap.**  Two calls, each doing its steps in order, can leave the process without any hook: panics are silent from then
on, and calls made later do not change that. -/
theorem C95_hook_lost : ∃ evs : List HookEv,
    evs.filter (fun ev => ev ∈ hookCall 0) = hookCall 0 ∧ evs.filter (fun ev => ev ∈ hookCall 1) = hookCall 1 ∧ evs.length = 6 ∧
      ∀ ts : List Nat, (Hooks.run {} (evs ++ ts.flatMap hookCall)).hook = .silent := by
  refine ⟨[.take 0, .silence 0, .take 1, .silence 1, .restore 0, .restore 1], by decide, by decide, rfl, ?_⟩
  intro ts
  have h : Hooks.run {} ([.take 0, .silence 0, .take 1, .silence 1, .restore 0, .restore 1] ++ ts.flatMap hookCall) =
      (Hooks.run {} [.take 0, .silence 0, .take 1, .silence 1, .restore 0, .restore 1]).run (ts.flatMap hookCall) := by
    simp only [Hooks.run, List.foldl_append]
  rw [h, C95_hook]
  rfl

/-! ### A concrete machine -/

namespace ToyGpu

def dot (e c : List Int) : Score Int := .fin ((e.zipWith (· * ·) c).sum)

/-- The writes of the kernels reach the memory in the opposite order; `bad` says which call fails. -/
def dev (bad : Nat → Nat → Bool) : Device Int Int :=
  { dot := fun c e => dot e c, sub := (· - ·), zero := 0, zeroScore := .fin 0, ok := fun b c => !bad b c, orderC := fun _ l => l.reverse,
    orderR := fun _ l => l.reverse }

theorem sound (bad : Nat → Nat → Bool) : Sound (dev bad) := ⟨fun _ l => l.reverse_perm, fun _ l => l.reverse_perm⟩

def gpu (bad : Nat → Nat → Bool) : Machine Int Int := { memory := 64, score := dot, sub := (· - ·), device := some (dev bad), forceGpu := false }

def cpu : Machine Int Int := { memory := 1000, score := dot, sub := (· - ·), device := none, forceGpu := false }

def cents : List (List Int) := [[4, 0], [0, 4], [-4, -4]]

def cutoffs : List Int := (List.range 15).map fun i => (Int.ofNat i) - 7

def weights : List Int := (List.range 16).map fun i => (Int.ofNat i) - 7

def docs : List (List (List Int)) := [[[5, 1], [1, 6]], [], [[-3, -5]]]

theorem sized : Sized 2 cents := ⟨by decide, by decide, by decide, by decide, by decide⟩

/-- Batches of two tokens; the first fits, and a failure in the second loses nothing but time. -/
example : residualsCuda (dev fun _ _ => false) 92 2 cents docs.flatten = .ok ([0, 1, 2], [[1, 1], [1, 2], [1, -1]]) := Toy.ok_of (by decide +kernel)
example : batchSizeResiduals 3 3 2 92 = 2 := by decide
example : residualsCuda (dev fun b c => b == 1 && c == 7) 92 2 cents docs.flatten = .error .err := by
  cases C95_gpu _ (sound _) 92 2 (by omega) cents docs.flatten sized (by decide) with
  | inr h => exact h.1
  | inl h =>
    obtain ⟨a, b, h, -⟩ := h
    have : (residualsCuda (dev fun b c => b == 1 && c == 7) 92 2 cents docs.flatten).toOption = none := by decide +kernel
    rw [h] at this
    cases this
example : compressCuda (dev fun _ _ => false) 92 2 cents docs.flatten = .ok [0, 1, 2] := Toy.ok_of (by decide +kernel)
example : compressResiduals (gpu fun b c => b == 0 && c == 7) false 2 cents docs.flatten = .ok ([0, 1, 2], [[1, 1], [1, 2], [1, -1]]) := Toy.ok_of (by decide +kernel)

/-- The hypotheses of the theorem about chunks. -/
example (codec : Codec.ResidualCodec Int) (hb : Codec.newWithStore 4 2 cents (some cutoffs) (some weights) = .ok codec) (bad : Nat → Nat → Bool) :=
  C95_chunk 0 id (gpu bad) (fun d h => by cases h; exact ⟨sound bad, rfl⟩) rfl false 4 2 cents cutoffs weights codec hb (by decide) (by decide) (by decide)
    sized docs (by decide)

example : (Codec.newWithStore 4 2 cents (some cutoffs) (some weights)).toOption.isSome = true := by decide +kernel

/-- The token (2, 2) is as near to the first centroid as to the second. -/
example : compressResiduals (gpu fun _ _ => false) false 2 cents [[2, 2]] = .ok ([0], [[-2, 2]]) ∧
    compressResiduals (gpu fun _ _ => false) true 2 cents [[2, 2]] = .ok ([1], [[2, -2]]) := ⟨Toy.ok_of (by decide +kernel), Toy.ok_of (by decide +kernel)⟩

theorem toy_one : ∀ doc ∈ docs, ∀ e ∈ doc, AllFinite (cents.map (dot e)) ∧
    ∀ j k, BestAt (cents.map (dot e)) j → BestAt (cents.map (dot e)) k → j = k := by
  have key : ∀ (l : List Int), l.Nodup → ∀ j k, BestAt (l.map Score.fin) j → BestAt (l.map Score.fin) k → j = k := by
    rintro l hl j k ⟨a, ha, hma⟩ ⟨b, hb, hmb⟩
    have hab : a = b := le_antisymm (hmb a (List.mem_of_getElem? ha)) (hma b (List.mem_of_getElem? hb))
    subst hab
    rw [List.getElem?_map] at ha hb
    obtain ⟨x, hx, hx'⟩ := Option.map_eq_some_iff.mp ha
    obtain ⟨y, hy, hy'⟩ := Option.map_eq_some_iff.mp hb
    cases hx'
    cases hy'
    exact (List.getElem?_inj (List.getElem?_eq_some_iff.mp hx).1 hl).mp (hx.trans hy.symm)
  intro doc hdoc e he
  have hm : cents.map (dot e) = (cents.map fun c => (e.zipWith (· * ·) c).sum).map Score.fin := by rw [List.map_map]; rfl
  rw [hm]
  refine ⟨?_, key _ ?_⟩
  · intro s hs
    obtain ⟨a, -, rfl⟩ := List.mem_map.mp hs
    exact ⟨a, rfl⟩
  · revert e doc
    decide

/-- The hypotheses of the theorem that all machines encode the same chunk. -/
example (bad bad' : Nat → Nat → Bool) (codec : Codec.ResidualCodec Int) (hd : codec.dim = 2) (hc : codec.centroids = cents) :
    encodeChunk (gpu bad) codec false docs = encodeChunk cpu codec false docs ∧ encodeChunk (gpu bad) codec false docs = encodeChunk (gpu bad') codec true docs :=
  ⟨C95_same (gpu bad) cpu rfl rfl (fun d h => by cases h; exact ⟨sound bad, rfl, fun _ _ => rfl⟩) (fun d h => by cases h) rfl rfl false false codec
      (by rw [hd, hc]; exact sized) docs (by rw [hd]; decide) (by rw [hc]; exact toy_one),
    C95_same (gpu bad) (gpu bad') rfl rfl (fun d h => by cases h; exact ⟨sound bad, rfl, fun _ _ => rfl⟩)
      (fun d h => by cases h; exact ⟨sound bad', rfl, fun _ _ => rfl⟩) rfl rfl false true codec
      (by rw [hd, hc]; exact sized) docs (by rw [hd]; decide) (by rw [hc]; exact toy_one)⟩

/-- A device with a NaN for the first centroid; the CPU takes the best of the numbers. -/
def nanDot (e c : List Int) : Score Int := if c = [4, 0] then .nonfin 0 else dot e c

example : residualsCuda { dev (fun _ _ => false) with dot := fun c e => nanDot e c } 4294967296 2 cents [[1, 6]] = .ok ([0], [[-3, 6]]) ∧
    residualsCpu 64 nanDot (· - ·) cents [[1, 6]] = .ok ([1], [[1, 2]]) := ⟨Toy.ok_of (by decide +kernel), Toy.ok_of (by decide +kernel)⟩

end ToyGpu

end NextPlaid.Props
