import Verif.Proofs.Merge
import Verif.Props.Npy

/-!
C22: the merged files are the concatenation of the chunks.
-/

namespace NextPlaid.Props
open NextPlaid.Spec NextPlaid.Npy NextPlaid.Merge

/-- What a merged file must contain: the header for `rows + padding` rows of `c` columns, every row of every
chunk in order, and the padding rows. -/
def MergedFile (k : Kind) (chunks : Nat → Option ChunkFile) (c n p : Nat) : List Nat :=
  k.header ((allRows chunks n).length + p) c ++ (allRows chunks n ++ List.replicate p (List.replicate (k.width c) 0)).flatten

theorem body_spec {k : Kind} (hk : k = codes ∨ k = residuals) {chunks : Nat → Option ChunkFile} {c n : Nat} (p : Nat)
    (h : SameWidth k chunks c) (hne : allRows chunks n ≠ []) : body k chunks n p = MergedFile k chunks c n p := by
  rw [body_eq]
  unfold MergedFile
  rcases hk with rfl | rfl
  · rfl
  · rw [ncolsOf_same h hne]
    rfl

theorem body_length {k : Kind} (hk : k = codes ∨ k = residuals) {chunks : Nat → Option ChunkFile} {c n : Nat} (p : Nat)
    (h : SameWidth k chunks c) (hne : allRows chunks n ≠ []) : (body k chunks n p).length =
      (k.header (totalRows (scanned chunks n) + p) (ncolsOf k chunks n)).length +
        (totalRows (scanned chunks n) + p) * k.width (ncolsOf k chunks n) := by
  have hw : k.width (ncolsOf k chunks n) = k.width c := by
    rcases hk with rfl | rfl
    · rfl
    · rw [ncolsOf_same h hne]; rfl
  rw [body_eq, List.length_append, totalRows_allRows, hw, flatten_lengthC _ (k.width c), List.length_append,
    List.length_replicate]
  intro r hr
  rcases List.mem_append.1 hr with hr | hr
  · exact allRows_width h r hr
  · rw [(List.mem_replicate.1 hr).2, List.length_replicate]

/-- Merging succeeds whenever there is something to merge. -/
theorem merge_total {k : Kind} (hk : k = codes ∨ k = residuals) (d : Dir) (n p : Nat) {c : Nat}
    (h : SameWidth k d.chunks c) (hc : k = residuals → 0 < c) (hne : allRows d.chunks n ≠ []) :
    ∃ d', merge k d n p = .ok d' := by
  have hrw : ∀ d2 : Dir, d2.chunks = d.chunks → ∃ d', rewrite k d2 n p = .ok d' := by
    intro d2 h2
    unfold rewrite
    rw [h2, if_neg (by rw [body_length hk p h hne]; simp)]
    exact ⟨_, rfl⟩
  unfold merge
  split
  · exact ⟨_, rfl⟩
  · rw [if_neg]
    · split
      · exact hrw d rfl
      · split
        · exact hrw _ rfl
        · exact ⟨_, rfl⟩
    · rintro (h0 | ⟨h1, h2⟩)
      · rw [totalRows_allRows] at h0
        exact hne (List.length_eq_zero_iff.1 h0)
      · rw [ncolsOf_same h hne, if_pos h1] at h2
        rcases hk with rfl | rfl
        · cases h1
        · have := hc rfl
          omega

/-- C22: merging from scratch yields exactly the rows of all chunks in order followed by the padding rows. -/
theorem C22_from_scratch {k : Kind} (hk : k = codes ∨ k = residuals) (d : Dir) (n p c : Nat)
    (h1 : d.merged = none) (h2 : d.manifest = none) (h : SameWidth k d.chunks c) (hc : k = residuals → 0 < c)
    (hne : allRows d.chunks n ≠ []) :
    ∃ d', merge k d n p = .ok d' ∧ d'.merged = some (MergedFile k d.chunks c n p) ∧ d'.chunks = d.chunks := by
  obtain ⟨d', hd⟩ := merge_total hk d n p h hc hne
  refine ⟨d', hd, ?_, ?_⟩
  · rw [lib_correct (LibHistory.start d h1 h2) n p hd, body_spec hk p h hne]
  · rcases merge_cases hd with ⟨_, rfl⟩ | ⟨_, _, _, h, _⟩
    · rfl
    · exact h

/-- Merging nothing is refused, whatever merged file was there before (unless the fast path takes it). -/
theorem C22_nothing_refused (k : Kind) (d : Dir) (n p : Nat) (hf : fastOk k d n p = false)
    (he : allRows d.chunks n = []) : merge k d n p = .error .err := by
  unfold merge
  rw [if_neg (by simp [hf]), if_pos (Or.inl (by rw [totalRows_allRows, he]; rfl))]

/-- C22: over the histories the library makes (every change of chunk files is followed by clearing the merged
files), every merge, whatever happened before and whatever the time stamps are, gives the file that merging
from scratch gives. -/
theorem C22_library_histories {k : Kind} (hk : k = codes ∨ k = residuals) (d : Dir) (hist : LibHistory k d)
    (n p c : Nat) (h : SameWidth k d.chunks c) (hc : k = residuals → 0 < c) (hne : allRows d.chunks n ≠ []) :
    ∃ d', merge k d n p = .ok d' ∧ d'.merged = some (MergedFile k d.chunks c n p) := by
  obtain ⟨d', hd⟩ := merge_total hk d n p h hc hne
  exact ⟨d', hd, by rw [lib_correct hist n p hd, body_spec hk p h hne]⟩

/-- C22, for arbitrary histories of chunk files appended, changed and removed behind the cache's back: if a
changed chunk file has a changed modification time or row count, re-merging gives the same file as merging from
scratch.  What is missing for the full statement is the hypothesis `hmeta`: when `metadata.json` has (within
one millisecond) the time stamp of the last merge, the chunks below `n` must be those of the last merge.  It is
necessary: see `C22_fast_path_stale`. -/
theorem C22_incremental_partial {k : Kind} (hk : k = codes ∨ k = residuals) {content} (d : Dir) (s) (hist : History k content d s)
    (n p c : Nat) (h : SameWidth k d.chunks c) (hc : k = residuals → 0 < c) (hne : allRows d.chunks n ≠ [])
    (hmeta : ∀ m, d.manifest = some m → |m.metaMtime - d.metaMtime| < 1000000 → ∀ i < n, d.chunks i = s i) :
    ∃ d', merge k d n p = .ok d' ∧ d'.merged = some (MergedFile k d.chunks c n p) := by
  obtain ⟨d', hd⟩ := merge_total hk d n p h hc hne
  refine ⟨d', hd, ?_⟩
  rw [merge_correct hist n p (fun m hm e1 e2 => hmeta m hm (by rw [abs_lt]; omega)) hd, body_spec hk p h hne]

/-- C22 with C21: the merged codes open as an array of all chunks' codes in order followed by `p` zeros. -/
theorem C22_codes_read_back (src : Nat → Option (Int × List Int)) (n p : Nat) (d : Dir)
    (hd : LibHistory codes d) (hch : d.chunks = fun i => (src i).map fun x => ⟨x.1, 0, x.2.map i64Bytes⟩)
    (hv : ∀ i x, src i = some x → ∀ v ∈ x.2, -2 ^ 63 ≤ v ∧ v < 2 ^ 63)
    (vals : List Int) (hvals : vals = ((List.range n).flatMap fun i => ((src i).map Prod.snd).getD []) ++ List.replicate p 0)
    (hlen : vals.length < 2 ^ 64) (hne : p < vals.length) :
    ∃ d' f off, merge codes d n p = .ok d' ∧ d'.merged = some f ∧ load1I64 f = .ok (vals.length, off) ∧
      ∀ i (h : i < vals.length), get1I64 f off i = .ok vals[i] := by
  have hall : allRows d.chunks n = ((List.range n).flatMap fun i => ((src i).map Prod.snd).getD []).map i64Bytes := by
    unfold allRows
    rw [List.map_flatMap]
    congr 1
    funext i
    rw [hch]
    simp only
    rcases src i with _ | x <;> rfl
  have hsame : SameWidth codes d.chunks 0 := by
    intro i f hf
    rw [hch] at hf
    simp only [Option.map_eq_some_iff] at hf
    obtain ⟨x, hx, rfl⟩ := hf
    refine ⟨rfl, fun r hr => ?_⟩
    obtain ⟨v, _, rfl⟩ := List.mem_map.1 hr
    exact i64Bytes_length v
  have hlen2 : vals.length = (allRows d.chunks n).length + p := by
    rw [hvals, hall, List.length_append, List.length_map, List.length_replicate]
  have hne' : allRows d.chunks n ≠ [] := by
    intro h0
    rw [h0] at hlen2
    simp at hlen2
    omega
  obtain ⟨d', hm, hf⟩ := C22_library_histories (Or.inl rfl) d hd n p 0 hsame (fun h => absurd (congrArg Kind.needCols h) (by decide)) hne'
  have hfile : MergedFile codes d.chunks 0 n p = codesFile vals := by
    unfold MergedFile codesFile
    rw [← hlen2]
    congr 1
    rw [hall, hvals, List.flatMap_append, List.flatten_append, ← List.flatMap_def]
    congr 1
    rw [List.flatMap_def, List.map_replicate]
    rfl
  rw [hfile] at hf
  have hb : ∀ v ∈ vals, -2 ^ 63 ≤ v ∧ v < 2 ^ 63 := by
    intro v hvm
    rw [hvals] at hvm
    rcases List.mem_append.1 hvm with hvm | hvm
    · obtain ⟨i, _, hi⟩ := List.mem_flatMap.1 hvm
      rcases hs : src i with _ | x
      · rw [hs] at hi; cases hi
      · rw [hs] at hi
        exact hv i x hs v hi
    · rw [(List.mem_replicate.1 hvm).2]
      decide
  obtain ⟨off, ho1, ho2⟩ := C21_values vals hlen hb
  exact ⟨d', codesFile vals, off, hm, hf, ho1, ho2⟩

/-- C22 with C21: the merged residuals open as a matrix whose rows are all chunks' rows in order followed by
`p` zero rows. -/
theorem C22_residuals_read_back (d : Dir) (hist : LibHistory residuals d) (n p c : Nat)
    (h : SameWidth residuals d.chunks c) (hc : 0 < c) (hc2 : c < 2 ^ 64) (hne : allRows d.chunks n ≠ [])
    (rows : List (List Nat)) (hrows : rows = allRows d.chunks n ++ List.replicate p (List.replicate c 0))
    (hlen : rows.length < 2 ^ 64) :
    ∃ d' f off, merge residuals d n p = .ok d' ∧ d'.merged = some f ∧ load2U8 f = .ok (rows.length, c, off) ∧
      ∀ i (h : i < rows.length), row2U8 f c off i = .ok rows[i] := by
  obtain ⟨d', hm, hf⟩ := C22_library_histories (Or.inr rfl) d hist n p c h (fun _ => hc) hne
  have hfile : MergedFile residuals d.chunks c n p = rowsFile rows c := by
    unfold MergedFile rowsFile
    rw [hrows, List.length_append, List.length_replicate]
    rfl
  rw [hfile] at hf
  obtain ⟨off, ho1, ho2⟩ := C21_rows rows c hlen hc2 (by
    intro r hr
    rw [hrows] at hr
    rcases List.mem_append.1 hr with hr | hr
    · exact allRows_width h r hr
    · rw [(List.mem_replicate.1 hr).2, List.length_replicate])
  exact ⟨d', _, off, hm, hf, ho1, ho2⟩

/-! ### Witnesses -/

def oneChunk (t : Int) (v : Int) : Nat → Option ChunkFile := fun i => if i = 0 then some ⟨t, 0, [i64Bytes v]⟩ else none

/-- The content function of the witnesses: the value of chunk 0 is its time stamp. -/
def stampContent : Nat → Int → Nat → List (List Nat) := fun _ t _ => [i64Bytes t]

theorem oneChunk_stamped (t : Int) : Stamped stampContent (oneChunk t t) := by
  intro i f hf
  unfold oneChunk at hf
  split at hf
  · cases hf; rfl
  · cases hf

def emptyDir (chunks : Nat → Option ChunkFile) : Dir := ⟨chunks, 1000000000, none, none⟩

/-- The statement of C22 without `hmeta` is false: a chunk is changed, its modification time changes with it,
`metadata.json` is not touched; the next merge returns the old file. -/
theorem C22_fast_path_stale : ∃ (d d' : Dir) (s : _), History codes stampContent d s ∧ SameWidth codes d.chunks 0 ∧
    allRows d.chunks 1 = [i64Bytes 2000] ∧ merge codes d 1 0 = .ok d' ∧
    d'.merged = some (codesFile [1000]) ∧ d'.merged ≠ some (MergedFile codes d.chunks 0 1 0) := by
  have h0 : History codes stampContent (emptyDir (oneChunk 1000 1000)) (oneChunk 1000 1000) :=
    History.start (emptyDir (oneChunk 1000 1000)) rfl rfl (oneChunk_stamped 1000)
  have hm : merge codes (emptyDir (oneChunk 1000 1000)) 1 0 = .ok
      { emptyDir (oneChunk 1000 1000) with
        merged := some (codesFile [1000]),
        manifest := some ⟨[(0, ⟨1, 1000⟩)], 0, 1, 1000000000, 1, 0⟩ } := by
    have h1 : fastOk codes (emptyDir (oneChunk 1000 1000)) 1 0 = false := rfl
    have h2 : needsRewrite codes (emptyDir (oneChunk 1000 1000)) 1 0 = true := rfl
    unfold merge
    rw [if_neg (by rw [h1]; decide), if_neg (by decide +kernel), if_pos h2]
    have hb : body codes (emptyDir (oneChunk 1000 1000)).chunks 1 0 = codesFile [1000] := by decide +kernel
    have hn : newManifest codes (emptyDir (oneChunk 1000 1000)) 1 0 = ⟨[(0, ⟨1, 1000⟩)], 0, 1, 1000000000, 1, 0⟩ := by
      decide +kernel
    unfold rewrite
    rw [if_neg (by decide +kernel), hb, hn]
  have h1 := History.merge 1 0 h0 hm
  have h2 := History.edit (oneChunk 2000 2000) 1000000000 h1 (oneChunk_stamped 2000)
  refine ⟨_, ⟨oneChunk 2000 2000, 1000000000, some (codesFile [1000]), some ⟨[(0, ⟨1, 1000⟩)], 0, 1, 1000000000, 1, 0⟩⟩, _, h2, ?_, ?_, ?_, rfl, ?_⟩
  · intro i f hf
    change oneChunk 2000 2000 i = some f at hf
    unfold oneChunk at hf
    split at hf
    · cases hf
      exact ⟨rfl, by decide⟩
    · cases hf
  · rfl
  · unfold merge
    rw [if_pos (by decide +kernel)]
  · change ¬ some (codesFile [1000]) = some (MergedFile codes (oneChunk 2000 2000) 0 1 0)
    decide +kernel

def twoChunks : Nat → Option ChunkFile :=
  fun i => if i = 0 then some ⟨1000, 0, [i64Bytes 7]⟩ else if i = 1 then some ⟨1001, 0, [i64Bytes 8]⟩ else none

/-- A merge interrupted between the rename of the merged file (line 1431) and saving the manifest (line 1474)
leaves the new file beside the old manifest.  If the added chunk is then removed without clearing, the check
`file_size < min_expected_size` (line 1447) accepts the longer file. -/
theorem C22_interrupted_stale : ∃ d' : Dir,
    merge codes { chunks := oneChunk 1000 7, metaMtime := 9000000000,
                  merged := some (MergedFile codes twoChunks 0 2 0),
                  manifest := some (newManifest codes (emptyDir (oneChunk 1000 7)) 1 0) } 1 0 = .ok d' ∧
      d'.merged = some (codesFile [7, 8]) ∧ MergedFile codes (oneChunk 1000 7) 0 1 0 = codesFile [7] := by
  refine ⟨⟨oneChunk 1000 7, 9000000000, some (MergedFile codes twoChunks 0 2 0), some ⟨[(0, ⟨1, 1000⟩)], 0, 1, 9000000000, 1, 0⟩⟩, ?_, ?_, ?_⟩
  · unfold merge
    rw [if_neg (by decide +kernel), if_neg (by decide +kernel), if_neg (by decide +kernel), if_neg (by decide +kernel)]
    rfl
  · change some (MergedFile codes twoChunks 0 2 0) = some (codesFile [7, 8])
    decide +kernel
  · decide +kernel

/-- The hypotheses of `C22_codes_read_back` are met: two chunks merged with one padding row. -/
example : ∃ d' f off, merge codes (emptyDir twoChunks) 2 1 = .ok d' ∧ d'.merged = some f ∧
    load1I64 f = .ok (3, off) ∧ get1I64 f off 1 = .ok 8 ∧ get1I64 f off 2 = .ok 0 := by
  obtain ⟨d', f, off, h1, h2, h3, h4⟩ := C22_codes_read_back
    (fun i => if i = 0 then some (1000, [7]) else if i = 1 then some (1001, [8]) else none) 2 1 (emptyDir twoChunks)
    (LibHistory.start _ rfl rfl) (by
      funext i
      change twoChunks i = _
      unfold twoChunks
      split
      · rfl
      · split <;> rfl) (by
      intro i x hx
      split at hx
      · cases hx; decide
      · split at hx
        · cases hx; decide
        · cases hx) [7, 8, 0] rfl (by decide) (by decide)
  exact ⟨d', f, off, h1, h2, h3, h4 1 (by decide), h4 2 (by decide)⟩

/-- An incremental history with reuse of the cached file: merge, `metadata.json` touched, merge again through
the slow path without rewriting. -/
example : ∃ d d' : Dir, ∃ s, History residuals (fun _ t _ => [[t.toNat, 9]]) d s ∧
    needsRewrite residuals d 1 0 = false ∧ fastOk residuals d 1 0 = false ∧ merge residuals d 1 0 = .ok d' ∧
    d'.merged = some (rowsFile [[5, 9]] 2) := by
  let ch : Nat → Option ChunkFile := fun i => if i = 0 then some ⟨5, 2, [[5, 9]]⟩ else none
  have hs : Stamped (fun _ t _ => [[t.toNat, 9]]) ch := by
    intro i f hf
    simp only [ch] at hf
    split at hf
    · cases hf; rfl
    · cases hf
  have h0 : History residuals (fun _ t _ => [[t.toNat, 9]]) (emptyDir ch) ch := History.start (emptyDir ch) rfl rfl hs
  have hm : merge residuals (emptyDir ch) 1 0 = .ok
      { emptyDir ch with
        merged := some (rowsFile [[5, 9]] 2),
        manifest := some ⟨[(0, ⟨1, 5⟩)], 0, 1, 1000000000, 1, 2⟩ } := by
    unfold merge
    rw [if_neg (by decide +kernel), if_neg (by decide +kernel), if_pos (by decide +kernel)]
    have hb : body residuals (emptyDir ch).chunks 1 0 = rowsFile [[5, 9]] 2 := by decide +kernel
    have hn : newManifest residuals (emptyDir ch) 1 0 = ⟨[(0, ⟨1, 5⟩)], 0, 1, 1000000000, 1, 2⟩ := by decide +kernel
    unfold rewrite
    rw [if_neg (by decide +kernel), hb, hn]
  have h2 := History.edit ch 9000000000 (History.merge 1 0 h0 hm) hs
  refine ⟨_, ⟨ch, 9000000000, some (rowsFile [[5, 9]] 2), some ⟨[(0, ⟨1, 5⟩)], 0, 1, 9000000000, 1, 2⟩⟩, _, h2,
    by decide +kernel, by decide +kernel, ?_, rfl⟩
  unfold merge
  rw [if_neg (by decide +kernel), if_neg (by decide +kernel), if_neg (by decide +kernel), if_neg (by decide +kernel)]
  have hn : newManifest residuals { emptyDir ch with metaMtime := 9000000000, merged := some (rowsFile [[5, 9]] 2), manifest := some ⟨[(0, ⟨1, 5⟩)], 0, 1, 1000000000, 1, 2⟩ } 1 0 = ⟨[(0, ⟨1, 5⟩)], 0, 1, 9000000000, 1, 2⟩ := by decide +kernel
  exact congrArg (fun m => Except.ok (Dir.mk ch 9000000000 (some (rowsFile [[5, 9]] 2)) (some m))) hn

end NextPlaid.Props
