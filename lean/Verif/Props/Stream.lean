import Verif.Proofs.StreamDocs

/-!
# C87: a stream of embeddings gives every document once, and then ends

The claim holds while no encoding panics, and for what a stream gives.  It fails in what a stream does not give: after a panic
documents are missing and the stream ends as if it were complete, a session in which an encoding has panicked gives nothing any
more, and dropping a stream early does not end the work but waits for all of it.
-/

namespace NextPlaid.Props

open NextPlaid.Spec NextPlaid.Stream

variable {T E E' : Type}

/-- The streams of documents, as the caller holds them. -/
abbrev DocStream (T E : Type) := Raw (Nat × Nat × List T) (Res (Given E))
abbrev PooledDocStream (T E E' : Type) := Pooled (Nat × Nat × List T) (Res (Given E)) (Res (Given E'))

section Raw

variable (direct : Nat → List T → Res (List E)) (Enc : T → E → Prop) (hdirect : ∀ s ts es, direct s ts = .ok es → OneEach Enc ts es)
  (batch : Nat) (poisoned : List Bool) (texts : List T) (es : List Event) (s : DocStream T E)
  (hr : (rawStream batch poisoned texts).run (job direct) es = some s)

include hdirect hr in
/-- Whatever panics, and at any moment: what the caller has is right. -/
theorem C87_right : RightSoFar Enc texts (oks s.got) := by
  obtain ⟨done, lost, ha⟩ := raw_acc hr
  obtain ⟨d, hd, hf⟩ := forall2_prefix ha.sent
  refine rightSoFar hdirect (sent_jobs hf) (List.Subperm.trans ?_ (acc_subperm ha))
  exact (hd.sublist.map _).subperm

include hdirect hr in
/-- No encoding panics, here or elsewhere: when the stream ends there was one message for each chunk, and if none of them was a
failure every document was given, once and at its place. -/
theorem C87_complete_partial (hd : ∀ i ts, direct i ts ≠ .error .panic) (hp : ∀ x ∈ poisoned, x = false) (hn : poisoned ≠ [])
    (he : ∀ i, .poison i ∉ es) (hc : s.closed = true) :
    s.got.length = chunks batch texts.length ∧ ∀ given, s.got = given.map Except.ok → AllGiven Enc texts given := by
  obtain ⟨done, lost, ha⟩ := raw_acc hr
  have hs := raw_sound hr hd hp he
  simp only [Raw.closed, Bool.and_eq_true, decide_eq_true_eq, List.isEmpty_iff] at hc
  obtain ⟨⟨ho, hch⟩, hov⟩ := hc
  have hperm := sound_all ha hs hn hov
  have hsent := ha.sent
  rw [hch, List.append_nil] at hsent
  have hj := sent_jobs hsent
  refine ⟨?_, fun given hg => ?_⟩
  · rw [← hj.length_eq, hperm.length_eq, workQueue_length]; rfl
  · exact (Encode.chunks_cover direct Enc hdirect batch _ texts _ s.got hj hperm given hg).2

include hr in
/-- Whatever panics: when the stream ends, the chunks that are missing are no more than the sessions that are poisoned, unless all
of them are. -/
theorem C87_accounts (hc : s.closed = true) :
    chunks batch texts.length ≤ s.got.length + s.poisoned.count true ∨ ∀ x ∈ s.poisoned, x = true := by
  obtain ⟨done, lost, ha⟩ := raw_acc hr
  simp only [Raw.closed, Bool.and_eq_true, decide_eq_true_eq, List.isEmpty_iff] at hc
  obtain ⟨⟨ho, hch⟩, hov⟩ := hc
  obtain ⟨h1, h2⟩ := acc_over ha hov
  have hcount := poisoned_count s.workers s.poisoned (by rw [ha.wl, ha.pl]) ha.bad
  rcases h2 with h2 | h2
  · left
    have hl := ha.perm.length_eq
    have hsl := ha.sent.length_eq
    rw [h1, h2, workQueue_length] at hl
    simp only [List.length_append, List.length_map, List.length_nil, hch, ha.dead] at hl hsl
    unfold chunks
    omega
  · right
    have hfull : s.poisoned.count true = s.poisoned.length := by
      apply Nat.le_antisymm List.count_le_length
      rw [ha.pl, ← h2, ha.dead]; exact hcount
    intro x hx
    exact (List.count_eq_length.mp hfull x hx).symm

include hr in
/-- The claim fails when an encoding panics: the chunk is missing in whatever the caller is given, and if all others are encoded
there is no failure among the messages either. -/
theorem C87_silent (k : Nat) (hk : ∀ i, direct i ((texts.drop (k * max batch 1)).take (max batch 1)) = .error .panic)
    (ho : ∀ i ts, direct i ts ≠ .error .panic → ∃ es, direct i ts = .ok es) :
    (∀ c ∈ oks s.got, c.1 ≠ k) ∧ s.got = (oks s.got).map Except.ok := by
  obtain ⟨done, lost, ha⟩ := raw_acc hr
  obtain ⟨d, hd, hf⟩ := forall2_prefix ha.sent
  have hsub : ∀ x ∈ d, x.2 ∈ Encode.workQueue batch texts := fun x hx =>
    (acc_subperm ha).subset (List.mem_map.mpr ⟨x, hd.subset hx, rfl⟩)
  clear hd
  generalize s.got = got at hf
  induction hf with
  | nil => exact ⟨by simp [oks], rfl⟩
  | @cons x r d got h1 h2 ih =>
    obtain ⟨i1, i2⟩ := ih fun y hy => hsub y (List.mem_cons_of_mem _ hy)
    obtain ⟨g1, g2, g3⟩ := workQueue_mem (hsub x List.mem_cons_self)
    obtain ⟨e1, e2⟩ := job_some h1.2
    have hnp : direct x.1 x.2.2.2 ≠ .error .panic := by
      intro hc
      rw [job_of_panic hc] at h1
      cases h1.2
    obtain ⟨xs, hxs⟩ := ho _ _ hnp
    have hx : r = .ok (x.2.1, x.2.2.1, xs) := by rw [e1]; unfold Encode.streamJob; rw [hxs]; rfl
    subst hx
    have hcons : oks (Except.ok (x.2.1, x.2.2.1, xs) :: got) = (x.2.1, x.2.2.1, xs) :: oks got := rfl
    rw [hcons]
    refine ⟨fun c hc => ?_, by rw [List.map_cons, ← i2]⟩
    rcases List.mem_cons.mp hc with rfl | hc
    · intro hck
      simp only at hck
      rw [g2, hck] at hxs
      rw [hk] at hxs
      cases hxs
    · exact i1 c hc

include hr in
/-- The claim fails for ever after: once all sessions are poisoned a stream gives nothing, not even a failure. -/
theorem C87_poisoned (hp : ∀ x ∈ poisoned, x = true) : s.got = [] := by
  rw [rawStream_eq] at hr
  exact (broken_run (broken_start _ _ fun x hx => hp x (threads_mem hx)) hr).nothing.2

include hr in
/-- With one session it takes one panic: if a stream ended short of a chunk, no later stream gives anything. -/
theorem C87_after_panic (h1 : poisoned.length = 1) (hc : s.closed = true) (hshort : s.got.length < chunks batch texts.length)
    (direct' : Nat → List T → Res (List E)) (batch' : Nat) (texts' : List T) (es' : List Event) (s' : DocStream T E)
    (hr' : (rawStream batch' s.poisoned texts').run (job direct') es' = some s') : s'.got = [] := by
  refine C87_poisoned direct' batch' s.poisoned texts' es' s' hr' ?_
  rcases C87_accounts direct batch poisoned texts es s hr hc with h | h
  · obtain ⟨done, lost, ha⟩ := raw_acc hr
    have hl : s.poisoned.length ≤ 1 := by rw [ha.pl]; unfold threads; split <;> simp [h1]
    have hcl : s.poisoned.count true ≤ s.poisoned.length := List.count_le_length
    have : s.poisoned.count true = s.poisoned.length := by omega
    intro x hx
    exact (List.count_eq_length.mp this x hx).symm
  · exact h

include hr in
/-- The claim about dropping fails: when the drop of a stream returns, at whatever moment it began, every chunk has been encoded
all the same. -/
theorem C87_drop_encodes_all (hd : ∀ i ts, direct i ts ≠ .error .panic) (hp : ∀ x ∈ poisoned, x = false) (hn : poisoned ≠ [])
    (he : ∀ i, .poison i ∉ es) (hg : s.owner = .gone) :
    s.got.length + s.chan.length = chunks batch texts.length := by
  obtain ⟨done, lost, ha⟩ := raw_acc hr
  have hs := raw_sound hr hd hp he
  have hperm := sound_all ha hs hn (ha.gone hg)
  have h1 := ha.sent.length_eq
  have h2 := hperm.length_eq
  rw [workQueue_length, List.length_map] at h2
  rw [List.length_append] at h1
  unfold chunks
  omega

include hr in
/-- A stream ends: no schedule has more steps of its own than this … -/
theorem C87_ends : (es.filter fun e => !e.outside).length ≤ 3 * chunks batch texts.length + poisoned.length + 2 := by
  rw [rawStream_eq] at hr
  have := left_run hr
  rw [left_start, workQueue_length] at this
  have hl : (threads texts poisoned).length ≤ poisoned.length := by unfold threads; split <;> simp
  unfold chunks
  omega

/-- … and until `next` returns `None`, or the drop has returned, a step other than the caller's wish to drop is possible. -/
theorem C87_goes (hn : s.closed = false) (hg : s.owner ≠ .gone) :
    ∃ e s', e ≠ .drop ∧ e.outside = false ∧ s.step (job direct) e = some s' := by
  by_cases hov : s.allOver = true
  · cases ho : s.owner with
    | gone => exact absurd ho hg
    | joining => exact ⟨.joined, { s with owner := .gone }, by simp, rfl, if_pos ⟨ho, hov⟩⟩
    | reading =>
      cases hc : s.chan with
      | nil => simp [Raw.closed, ho, hc, hov] at hn
      | cons r c => exact ⟨.recv, _, by simp, rfl, by simp only [Raw.step, ho, hc]; rfl⟩
  · obtain ⟨i, r, h | h⟩ := worker_goes (job direct) (s := s) (by simpa using hov)
    · exact ⟨.take i, _, by simp, rfl, h⟩
    · exact ⟨.finish i, _, by simp, rfl, h⟩

end Raw

/-! ### The stream of pooled embeddings -/

section Pooled

variable (direct : Nat → List T → Res (List E)) (pool1 : E → Option E') (Enc : T → E → Prop)
  (hdirect : ∀ s ts es, direct s ts = .ok es → OneEach Enc ts es)
  (batch : Nat) (poisoned : List Bool) (texts : List T) (es : List PEvent) (s : PooledDocStream T E E')
  (hr : (pooledStream batch poisoned texts).run (job direct) (poolChunk pool1) es = some s)

include hdirect hr in
/-- Whatever panics, and at any moment: what the caller has is right, and it is pooled. -/
theorem C87_pooled_right : RightSoFar (fun t x => ∃ e, Enc t e ∧ pool1 e = some x) texts (oks s.got) := by
  unfold pooledStream at hr
  rw [rawStream_eq] at hr
  obtain ⟨done, lost, pre, bad, ha⟩ := pacc_run (pacc_start _ _ _ _) hr
  have hpre : pre <+: s.raw.got ++ s.raw.chan := by
    rw [ha.kept, List.append_assoc]; exact List.prefix_append _ _
  obtain ⟨d, hd, hf⟩ := sent_pooled ha.raw.sent hpre ha.sent
  obtain ⟨d', hd', hf'⟩ := forall2_prefix hf
  refine rightSoFar (fun i ts xs h => pooledDirect_each hdirect pool1 i ts xs h) hf' (List.Subperm.trans ?_ (acc_subperm ha.raw))
  exact (hd'.sublist.trans (hd.sublist.map _)).subperm

include hdirect hr in
/-- Neither encoding nor pooling panics: when the stream ends there was one message for each chunk, and if none was a failure every
document was given, once, at its place and pooled. -/
theorem C87_pooled_complete_partial (hd : ∀ i ts, direct i ts ≠ .error .panic) (hq : ∀ e, pool1 e ≠ none) (hp : ∀ x ∈ poisoned, x = false)
    (hn : poisoned ≠ []) (he : ∀ i, .poison i ∉ es) (hc : s.closed = true) :
    s.got.length = chunks batch texts.length ∧
    ∀ given, s.got = given.map Except.ok → AllGiven (fun t x => ∃ e, Enc t e ∧ pool1 e = some x) texts given := by
  unfold pooledStream at hr
  rw [rawStream_eq] at hr
  obtain ⟨done, lost, pre, bad, ha⟩ := pacc_run (pacc_start _ _ _ _) hr
  have hs : Sound s.raw := psound_run (pacc_start _ _ _ _) (fun i w _ hn => hd i _ (job_none hn))
    (sound_start _ _ fun x hx => hp x (threads_mem hx)) hr he
  simp only [Pooled.closed, Bool.and_eq_true, decide_eq_true_eq, List.isEmpty_iff] at hc
  obtain ⟨⟨ho, hch⟩, hg⟩ := hc
  have hbad : bad = [] := by
    cases hb : bad with
    | nil => rfl
    | cons r l =>
      obtain ⟨c, -, e, -, hee⟩ := poolChunk_none (ha.one.2 r (by rw [hb]; exact List.mem_cons_self))
      exact absurd hee (hq e)
  have hnr : s.raw.owner ≠ .reading := by rw [hg]; simp
  obtain ⟨h1, h2⟩ := ha.over hnr hbad
  have hperm := sound_all ha.raw hs hn h2
  have hk := ha.kept
  rw [hbad, ha.free hnr] at hk
  simp only [Option.toList, List.append_nil] at hk
  obtain ⟨d, hd', hf⟩ := sent_pooled ha.raw.sent (by rw [hk, h1]; simp : pre <+: _) ha.sent
  rw [hch, List.append_nil] at hf
  have hdl : d = done := by
    refine hd'.eq_of_length ?_
    have e1 := ha.raw.sent.length_eq
    have e2 := ha.sent.length_eq
    have e3 := hf.length_eq
    rw [hk, h1, List.append_nil] at e1
    rw [hch, List.append_nil] at e2
    rw [List.length_map] at e3
    omega
  rw [hdl] at hf
  refine ⟨?_, fun given hgv => ?_⟩
  · rw [← hf.length_eq, hperm.length_eq, workQueue_length]; rfl
  · exact (Encode.chunks_cover _ _ (fun i ts xs h => pooledDirect_each hdirect pool1 i ts xs h) batch _ texts _ s.got hf hperm given hgv).2

include hr in
/-- The claim fails when the pooling of a document panics: nothing is given for its chunk, and if all is encoded there is no
failure among the messages either. -/
theorem C87_pool_silent (k : Nat)
    (hk : ∀ i xs, direct i ((texts.drop (k * max batch 1)).take (max batch 1)) = .ok xs → ∃ e ∈ xs, pool1 e = none)
    (ho : ∀ i ts, ∃ es, direct i ts = .ok es) :
    (∀ c ∈ oks s.got, c.1 ≠ k) ∧ s.got = (oks s.got).map Except.ok := by
  unfold pooledStream at hr
  rw [rawStream_eq] at hr
  obtain ⟨done, lost, pre, bad, ha⟩ := pacc_run (pacc_start _ _ _ _) hr
  obtain ⟨pre', hpre', hsent⟩ := forall2_prefix ha.sent
  have hpre : pre' <+: s.raw.got ++ s.raw.chan := by
    rw [ha.kept, List.append_assoc]; exact hpre'.trans (List.prefix_append _ _)
  have hsub : ∀ x ∈ done, x.2 ∈ Encode.workQueue batch texts := fun x hx => (acc_subperm ha.raw).subset (List.mem_map.mpr ⟨x, hx, rfl⟩)
  have hj := ha.raw.sent
  obtain ⟨rest, hrest⟩ := hpre
  rw [← hrest] at hj
  clear hrest ha hpre'
  generalize s.got = got at hsent
  induction hsent generalizing done with
  | nil => exact ⟨by simp [oks], rfl⟩
  | @cons r m pre got h1 h2 ih =>
    cases hj with
    | cons j1 j2 =>
      rename_i x done
      obtain ⟨i1, i2⟩ := ih done (fun y hy => hsub y (List.mem_cons_of_mem _ hy)) j2
      obtain ⟨g1, g2, g3⟩ := workQueue_mem (hsub x List.mem_cons_self)
      obtain ⟨e1, e2⟩ := job_some j1.2
      obtain ⟨xs, hxs⟩ := ho x.1 x.2.2.2
      have hx : r = .ok (x.2.1, x.2.2.1, xs) := by rw [e1]; unfold Encode.streamJob; rw [hxs]; rfl
      subst hx
      simp only [poolChunk] at h1
      cases hm : xs.mapM pool1 with
      | none => rw [hm] at h1; cases h1
      | some ys =>
        rw [hm] at h1
        injection h1 with h1; subst h1
        have hcons : oks (Except.ok (x.2.1, x.2.2.1, ys) :: got : List (Res (Given E'))) = (x.2.1, x.2.2.1, ys) :: oks got := rfl
        simp only at hcons ⊢
        rw [hcons]
        refine ⟨fun c hc => ?_, by rw [List.map_cons, ← i2]⟩
        rcases List.mem_cons.mp hc with rfl | hc
        · intro hck
          simp only at hck
          rw [g2, hck] at hxs
          obtain ⟨e, he, hen⟩ := hk _ _ hxs
          obtain ⟨h3, h4⟩ := mapM_option pool1 xs ys hm
          obtain ⟨j, hjl, hje⟩ := List.getElem_of_mem he
          have hjy : j < ys.length := by rw [h3]; exact hjl
          have := h4 j e ys[j] (by rw [List.getElem?_eq_getElem hjl, hje]) (List.getElem?_eq_getElem hjy)
          simp only [hen] at this; cases this
        · exact i1 c hc

include hr in
/-- The claim about dropping fails: when the drop returns, every chunk has been encoded and pooled all the same. -/
theorem C87_pooled_drop_encodes_all (hd : ∀ i ts, direct i ts ≠ .error .panic) (hq : ∀ e, pool1 e ≠ none) (hp : ∀ x ∈ poisoned, x = false)
    (hn : poisoned ≠ []) (he : ∀ i, .poison i ∉ es) (hg : s.owner = .gone) :
    s.got.length + s.chan.length = chunks batch texts.length := by
  unfold pooledStream at hr
  rw [rawStream_eq] at hr
  obtain ⟨done, lost, pre, bad, ha⟩ := pacc_run (pacc_start _ _ _ _) hr
  have hs : Sound s.raw := psound_run (pacc_start _ _ _ _) (fun i w _ hn => hd i _ (job_none hn))
    (sound_start _ _ fun x hx => hp x (threads_mem hx)) hr he
  have hbad : bad = [] := by
    cases hb : bad with
    | nil => rfl
    | cons r l =>
      obtain ⟨c, -, e, -, hee⟩ := poolChunk_none (ha.one.2 r (by rw [hb]; exact List.mem_cons_self))
      exact absurd hee (hq e)
  have hnr : s.raw.owner ≠ .reading := by rw [ha.gone hg]; simp
  obtain ⟨h1, h2⟩ := ha.over hnr hbad
  have hperm := sound_all ha.raw hs hn h2
  have hk := ha.kept
  rw [hbad, ha.free hnr] at hk
  simp only [Option.toList, List.append_nil] at hk
  have e1 := ha.raw.sent.length_eq
  have e2 := ha.sent.length_eq
  have e3 := hperm.length_eq
  rw [hk, h1, List.append_nil] at e1
  rw [List.length_append] at e2
  rw [workQueue_length, List.length_map] at e3
  unfold chunks
  omega

include hr in
/-- A stream of pooled embeddings ends too … -/
theorem C87_pooled_ends : (es.filter fun e => !e.outside).length ≤ 5 * chunks batch texts.length + poisoned.length + 4 := by
  unfold pooledStream at hr
  rw [rawStream_eq] at hr
  have := pleft_run (pacc_start _ _ _ _) hr
  rw [pleft_start, workQueue_length] at this
  have hl : (threads texts poisoned).length ≤ poisoned.length := by unfold threads; split <;> simp
  unfold chunks
  omega

/-- … and can go on until then. -/
theorem C87_pooled_goes (hn : s.closed = false) (hg : s.owner ≠ .gone) :
    ∃ e s', e ≠ .drop ∧ e.outside = false ∧ s.step (job direct) (poolChunk pool1) e = some s' :=
  pgoes _ _ hn hg

end Pooled

/-! ### The hypotheses can be met -/

namespace ToyStream

/-- A toy encoder: a document is a number, its embedding the double; the number 13 panics. -/
def direct (_ : Nat) (ts : List Nat) : Res (List Nat) := if 13 ∈ ts then .error .panic else .ok (ts.map (2 * ·))

/-- The same without the panic. -/
def calm (_ : Nat) (ts : List Nat) : Res (List Nat) := .ok (ts.map (2 * ·))

theorem calm_each : ∀ s ts es, calm s ts = .ok es → OneEach (fun t x => x = 2 * t) ts es := by
  intro s ts es h
  unfold calm at h
  injection h with h; subst h
  refine ⟨by simp, fun i a b ha hb => ?_⟩
  rw [List.getElem?_map, ha] at hb
  simpa using hb.symm

/-- Two sessions, five documents, two at a time. -/
def schedule : List Event := [.take 0, .take 1, .finish 1, .take 1, .recv, .finish 1, .finish 0, .recv, .take 0, .take 1, .recv]

def gotOf {W : Type} (s : Option (Raw W (Res (Given Nat)))) : Option (Bool × List (Given Nat)) := s.map fun s => (s.closed, oks s.got)

example : gotOf ((rawStream 2 [false, false] [1, 2, 3, 4, 5]).run (job calm) schedule) =
    some (true, [(1, 2, [6, 8]), (2, 4, [10]), (0, 0, [2, 4])]) := by decide +kernel

/-- The first chunk panics: two documents are missing and the stream ends; the session is poisoned. -/
example : gotOf ((rawStream 2 [false, false] [13, 2, 3, 4, 5]).run (job direct)
      [.take 0, .take 1, .finish 1, .take 1, .recv, .finish 1, .finish 0, .recv, .take 1]) =
    some (true, [(1, 2, [6, 8]), (2, 4, [10])]) := by decide +kernel

/-- The hypotheses of `C87_silent` for it. -/
example : (∀ i, direct i (([13, 2, 3, 4, 5].drop (0 * max 2 1)).take (max 2 1)) = .error .panic) ∧
    ∀ i ts, direct i ts ≠ .error .panic → ∃ es, direct i ts = .ok es := by
  refine ⟨fun i => rfl, fun i ts h => ?_⟩
  unfold direct at h ⊢
  split at h
  · exact absurd rfl h
  · rename_i hn; rw [if_neg hn]; exact ⟨_, rfl⟩

/-- With one session everything after the panic is missing, and so is everything a later stream should give. -/
example : gotOf ((rawStream 2 [false] [1, 2, 13, 4, 5]).run (job direct) [.take 0, .finish 0, .take 0, .finish 0, .recv]) =
    some (true, [(0, 0, [2, 4])]) := by decide +kernel

example : gotOf ((rawStream 2 [true] [1, 2, 3]).run (job direct) [.take 0, .finish 0]) = some (true, []) := by decide +kernel

/-- The stream is dropped before anything was read; the drop returns after all three chunks. -/
example : ((rawStream 2 [false] [1, 2, 3, 4, 5]).run (job calm)
      [.drop, .take 0, .finish 0, .take 0, .finish 0, .take 0, .finish 0, .take 0, .joined]).map
        (fun s => (decide (s.owner = .gone), s.got.length, s.chan.length)) = some (true, 0, 3) := by decide +kernel

/-- Pooling that panics on zero. -/
def pool1 (x : Nat) : Option Nat := if x = 0 then none else some (x + 1)

example : ((pooledStream 2 [false] [1, 2, 3]).run (job calm) (poolChunk pool1)
      [.take 0, .finish 0, .fetch, .pool, .take 0, .finish 0, .fetch, .take 0, .pool, .recv, .close, .join, .recv]).map
        (fun s => (s.closed, oks s.got)) = some (true, [(0, 0, [3, 5]), (1, 2, [7])]) := by decide +kernel

/-- The second document's pooling panics: the stream ends with nothing, although everything is encoded. -/
example : ((pooledStream 2 [false] [1, 0, 3]).run (job calm) (poolChunk pool1)
      [.take 0, .finish 0, .fetch, .pool, .take 0, .finish 0, .take 0, .join]).map
        (fun s => (s.closed, s.got.length, s.raw.chan.length)) = some (true, 0, 1) := by decide +kernel

end ToyStream

end NextPlaid.Props
