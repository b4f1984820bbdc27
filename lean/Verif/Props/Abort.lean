import Verif.Proofs.Abort

/-!
C84: an update that cannot be stored, or is interrupted, costs no stored document.
-/

namespace NextPlaid.Props

open NextPlaid.Abort

variable {V M : Type}

/-! ### What is stored -/

/-- Updates and deletions of a client that always gives documents of one width: every update ends well, and the index holds
what the same operations make of a plain list, whatever the thresholds, which may change from call to call. -/
theorem C84_history (w : Nat) (ops : List (Op V)) (h : AllOf w ops) :
    (performed Ix.empty ops).2 = true ∧ (performed Ix.empty ops).1.docs = listed [] ops ∧ Fit (performed Ix.empty ops).1 :=
  history ops Ix.empty ⟨[], [], [], rfl, Or.inl ⟨rfl, rfl, rfl⟩, Or.inl ⟨rfl, rfl, rfl⟩, rfl⟩ (fun h => absurd rfl h) h

/-- In a directory that is in order, documents of the width of the index are stored behind the others, under the ids that
are reported. -/
theorem C84_stores (s : Ix V) (new : List (Mat V)) (cfg : Cfg) (held : List Nat) (hf : Fit s) (hs : Something new)
    (hw : Suits s new) :
    (update s new cfg held).2 = true ∧ (update s new cfg held).1.docs = s.docs ++ given new ∧
      firstId s new cfg = s.docs.length ∧ Fit (update s new cfg held).1 :=
  ⟨(stores hf hs hw cfg held).1, (stores hf hs hw cfg held).2.1, firstId_eq hf new cfg, (stores hf hs hw cfg held).2.2.1⟩

/-- The same with the metadata: every document keeps its row and the new ones get theirs. -/
theorem C84_batch (s : Srv V M) (new : List (Mat V)) (items : List M) (cfg : Cfg) (held : List Nat) (hf : Fit s.ix)
    (hl : s.rows.length = s.ix.docs.length) (hn : items.length = new.length) (hs : Something new) (hw : Suits s.ix new) :
    let r := (batch s new items cfg held).1
    r.ix.docs.zip r.rows = s.ix.docs.zip s.rows ++ (given new).zip items ∧ r.rows.length = r.ix.docs.length ∧ Fit r.ix := by
  have h := batch_ok hl hf hs hw items cfg held
  refine ⟨?_, ?_, h.2.2.2⟩
  · rw [h.2.1, h.2.2.1, List.zip_append hl.symm]
  · rw [h.2.1, h.2.2.1]
    simp [hl, hn, given]

/-- What `POST documents` lets through suits the index. -/
theorem C84_checked (s : Ix V) (new : List (Mat V)) (cfg : Cfg) (held : List Nat) (hf : Fit s) (hs : Something new)
    (hc : widthsChecked s.dim new = true) :
    (update s new cfg held).2 = true ∧ (update s new cfg held).1.docs = s.docs ++ given new := by
  have hw : Suits s new := ⟨s.dim, by simpa [widthsChecked] using hc, fun _ => rfl⟩
  exact ⟨(stores hf hs hw cfg held).1, (stores hf hs hw cfg held).2.1⟩

/-! ### What is refused -/

/-- An update with a document of another width is refused and costs no document, except when documents of the buffer are
being indexed again (`C84_refused_loses`), and except for what `C84_poisons` says of the buffer. -/
theorem C84_refused_partial (s : Ix V) (new : List (Mat V)) (cfg : Cfg) (held : List Nat) (hf : Fit s) (hne : s.docs ≠ [])
    (hx : ∃ m ∈ new, Foreign s.dim m)
    (hmode : fromScratch s cfg = true ∨ buffered s = 0 ∨ new.length + buffered s < cfg.bufferSize) :
    (update s new cfg held).2 = false ∧ (update s new cfg held).1.docs = s.docs :=
  refused_docs hf hne hx cfg held hmode

/-- When the index is rebuilt from scratch, or the buffer has documents and is not full, it changes no file. -/
theorem C84_unchanged_partial (s : Ix V) (new : List (Mat V)) (cfg : Cfg) (held : List Nat) (hf : Fit s)
    (hne : s.docs ≠ []) (hx : ∃ m ∈ new, Foreign s.dim m)
    (hmode : fromScratch s cfg = true ∨ (0 < buffered s ∧ new.length + buffered s < cfg.bufferSize)) :
    update s new cfg held = (s, false) :=
  refused_unchanged hf hne hx cfg held hmode

/-- Disagreement: documents of another width that find the buffer empty are put in it before they are refused. -/
theorem C84_poisons (s : Ix V) (new : List (Mat V)) (w : Nat) (cfg : Cfg) (held : List Nat) (hf : Fit s)
    (hne : s.docs ≠ []) (hn : new ≠ []) (hc : ∀ m ∈ new, m.cols = w) (hw : w ≠ s.dim) (hw1 : w ≠ 1) (hd1 : s.dim ≠ 1)
    (hthr : s.thr = true) (hraw : s.rawRows = none) (hb : buffered s = 0) (hlt : new.length < cfg.bufferSize) :
    (update s new cfg held).2 = false ∧ (update s new cfg held).1.docs = s.docs ∧
      Poisoned new.length (update s new cfg held).1 :=
  poisons hf hne hn hc hw hw1 hd1 hthr hraw hb cfg held hlt

/-- From then on every update of the right width that does not fill the buffer is refused, and so are all after it. -/
theorem C84_poisoned_blocks (k : Nat) (s : Ix V) (h : Poisoned k s) (hne : s.docs ≠ []) (cs : List (Call V))
    (hc : ∀ c ∈ cs, c.new ≠ [] ∧ (∀ m ∈ c.new, m.cols = s.dim) ∧ c.new.length + k < c.cfg.bufferSize) :
    calls s cs = s ∧ ∀ c ∈ cs, (update s c.new c.cfg c.held).2 = false := by
  constructor
  · induction cs with
    | nil => rfl
    | cons c cs ih =>
      have h1 := hc c (by simp)
      rw [calls, blocks h hne h1.1 h1.2.1 c.cfg c.held h1.2.2]
      exact ih fun c' hc' => hc c' (by simp [hc'])
  · intro c hm
    have h1 := hc c hm
    rw [blocks h hne h1.1 h1.2.1 c.cfg c.held h1.2.2]

/-- And every update that fills the buffer is refused too, and deletes the last `k` documents of the index, each time
again. -/
theorem C84_poisoned_eats (k : Nat) (s : Ix V) (h : Poisoned k s) (cs : List (Call V))
    (hlt : cs.length * k < s.docs.length)
    (hc : ∀ c ∈ cs, Something c.new ∧ c.cfg.bufferSize ≤ c.new.length + k) :
    (calls s cs).docs = s.docs.take (s.docs.length - cs.length * k) :=
  (eats_all cs s h hlt hc).1

/-- Disagreement: an update with a document of another width that fills the buffer is refused, and the documents of the
buffer, stored by updates that ended well, are no longer in the index. -/
theorem C84_refused_loses :
    ∃ (s : Ix Nat) (new : List (Mat Nat)) (cfg : Cfg), Fit s ∧ s.docs = [[[1, 2]], [[3, 4]]] ∧
      (∃ m ∈ new, Foreign s.dim m) ∧ (update s new cfg []).2 = false ∧ (update s new cfg []).1.docs = [[[1, 2]]] := by
  refine ⟨⟨2, [[[1, 2]], [[3, 4]]], none, none, some (2, [[3, 4]]), some [1], some 1, true⟩,
    [⟨3, [[5, 6, 7]]⟩], ⟨0, 2⟩, ⟨[], [[[1, 2]]], [[[3, 4]]], rfl, Or.inl ⟨rfl, rfl, rfl⟩, Or.inr ⟨by simp, rfl, rfl⟩, rfl⟩,
    rfl, ⟨_, List.mem_singleton.mpr rfl, by decide, by decide⟩, by decide +kernel, by decide +kernel⟩

/-- Disagreement: documents of width one are not refused.  Each of their numbers is repeated over the width of the
index. -/
theorem C84_width_one (s : Ix V) (x : V) (cfg : Cfg) (hf : Fit s) (hne : s.docs ≠ []) (hd : s.dim ≠ 1)
    (hsc : fromScratch s cfg = false) (hb : 0 < buffered s ∧ 1 + buffered s < cfg.bufferSize) :
    (update s [⟨1, [[x]]⟩] cfg []).2 = true ∧
      (update s [⟨1, [[x]]⟩] cfg []).1.docs = s.docs ++ [[List.replicate s.dim x]] := by
  obtain ⟨raw, mid, buf, hdd, hr, hbb, hi, hcase⟩ := fit_cases hf [⟨1, [[x]]⟩] cfg []
  have hbl : buffered s = buf.length := by
    rw [buffered]
    rcases hbb with ⟨_, h, rfl⟩ | ⟨_, _, h⟩ <;> simp [h]
  rcases hcase with ⟨h1, _⟩ | ⟨_, h1, _⟩ | ⟨_, _, hp⟩
  · rw [h1] at hsc; cases hsc
  · simp only [List.length_cons, List.length_nil] at h1
    omega
  · obtain ⟨d, buf', rfl⟩ : ∃ d buf', buf = d :: buf' := List.exists_cons_of_length_pos (by omega)
    have hpl : ∀ ds : List (Doc V), placeAll s.dim (mats s.dim ds ++ [⟨1, [[x]]⟩]) =
        some (ds ++ [[List.replicate s.dim x]]) := by
      intro ds
      induction ds with
      | nil => simp [mats, placeAll, place, hd.symm]
      | cons e es ih =>
        have : mats s.dim (e :: es) ++ [⟨1, [[x]]⟩] = ⟨s.dim, e⟩ :: (mats s.dim es ++ [⟨1, [[x]]⟩]) := rfl
        rw [this, placeAll, ih]
        simp [place]
    have hst : stack (mats s.dim (d :: buf') ++ [⟨1, [[x]]⟩]) =
        some (s.dim, ((d :: buf') ++ [[List.replicate s.dim x]]).flatten) := by
      show (placeAll s.dim (mats s.dim (d :: buf') ++ [⟨1, [[x]]⟩])).map _ = _
      rw [hpl]; rfl
    have hone := hpl []
    simp only [mats, List.map_nil, List.nil_append] at hone
    rw [update, hp, planSmall]
    simp only [run, act, hst, Option.map_some, hone]
    exact ⟨trivial, trivial⟩

/-! ### What is interrupted -/

/-- A process stopped at any write of an update leaves the documents that were there, with all the new ones or none of
them, except when documents of the buffer are being indexed again (`C84_interrupted_loses`). -/
theorem C84_interrupted_partial (s : Ix V) (new : List (Mat V)) (cfg : Cfg) (held : List Nat) (n : Nat) (hf : Fit s)
    (hs : Something new) (hw : Suits s new)
    (hmode : fromScratch s cfg = true ∨ buffered s = 0 ∨ new.length + buffered s < cfg.bufferSize) :
    (stopped s new cfg held n).docs = s.docs ∨ (stopped s new cfg held n).docs = s.docs ++ given new :=
  stopped_docs hf hs hw cfg held n hmode

/-- Disagreement: a process stopped while it indexes the documents of the buffer again has lost them, for good: the
directory is in order without them. -/
theorem C84_interrupted_loses :
    ∃ (ops : List (Op Nat)) (new : List (Mat Nat)) (cfg : Cfg) (n : Nat), AllOf 2 ops ∧ (∀ m ∈ new, m.cols = 2) ∧
      (performed Ix.empty ops).1.docs = [[[1, 2]], [[3, 4]]] ∧
      (stopped (performed Ix.empty ops).1 new cfg [] n).docs = [[[1, 2]]] ∧
      Fit (stopped (performed Ix.empty ops).1 new cfg [] n) := by
  refine ⟨[.update ⟨[⟨2, [[1, 2]]⟩], ⟨0, 3⟩, []⟩, .update ⟨[⟨2, [[3, 4]]⟩], ⟨0, 3⟩, []⟩],
    [⟨2, [[5, 6]]⟩, ⟨2, [[7, 8]]⟩], ⟨0, 3⟩, 5, ?_, by simp, by decide +kernel, by decide +kernel, ?_⟩
  · intro c hc
    simp only [List.mem_cons, Op.update.injEq, List.not_mem_nil, or_false] at hc
    rcases hc with rfl | rfl <;> exact ⟨⟨_, List.mem_singleton.mpr rfl, by simp⟩, by simp⟩
  · have : stopped (performed Ix.empty [.update ⟨[⟨2, [[1, 2]]⟩], ⟨0, 3⟩, []⟩, .update ⟨[⟨2, [[3, 4]]⟩], ⟨0, 3⟩, []⟩]).1
        [⟨2, [[5, 6]]⟩, ⟨2, [[7, 8]]⟩] ⟨0, 3⟩ [] 5 = ⟨2, [[[1, 2]]], none, none, none, none, none, true⟩ := by
      decide +kernel
    rw [this]
    exact ⟨[], [[[1, 2]]], [], rfl, Or.inl ⟨rfl, rfl, rfl⟩, Or.inl ⟨rfl, rfl, rfl⟩, rfl⟩

/-- Disagreement: a server stopped between writing the buffer and storing the document.  All batches after that end well;
the document that was never reported as stored has taken the place of another one, and has its metadata. -/
theorem C84_interrupted_replaces :
    let cfg : Cfg := ⟨0, 3⟩
    let s1 := (batch ⟨Ix.empty, []⟩ [⟨2, [[1, 1]]⟩, ⟨2, [[2, 2]]⟩, ⟨2, [[3, 3]]⟩] ["a", "b", "c"] cfg []).1
    let s2 := batchStopped s1 [⟨2, [[9, 9]]⟩] cfg [] 3
    let s3 := batch s2 [⟨2, [[4, 4]]⟩] ["d"] cfg []
    let s4 := batch s3.1 [⟨2, [[5, 5]]⟩] ["e"] cfg []
    s1.ix.docs.zip s1.rows = [([[1, 1]], "a"), ([[2, 2]], "b"), ([[3, 3]], "c")] ∧ s3.2 = true ∧ s4.2 = true ∧
      s4.1.ix.docs.zip s4.1.rows =
        [([[1, 1]], "a"), ([[2, 2]], "b"), ([[9, 9]], "c"), ([[4, 4]], "d"), ([[5, 5]], "e")] := by
  decide +kernel

/-- Disagreement: a process stopped while it first writes the embeddings kept for rebuilds.  When all documents but the
first have been deleted, the next update gives that one the tokens of the deleted ones. -/
theorem C84_interrupted_revives :
    ∃ s1 s2 : Ix Nat, s1 = stopped Ix.empty [⟨2, [[1, 1]]⟩, ⟨2, [[2, 2]]⟩] ⟨9, 3⟩ [] 2 ∧
      s1.docs = [[[1, 1]], [[2, 2]]] ∧ s2 = delete s1 [1] ∧ s2.docs = [[[1, 1]]] ∧
      (update s2 [⟨2, [[3, 3]]⟩] ⟨9, 3⟩ []).2 = true ∧
      (update s2 [⟨2, [[3, 3]]⟩] ⟨9, 3⟩ []).1.docs = [[[1, 1], [2, 2]], [[3, 3]]] :=
  ⟨_, _, rfl, by decide +kernel, rfl, by decide +kernel, by decide +kernel, by decide +kernel⟩

/-! ### The hypotheses are met -/

/-- An index of two documents, one of them in the buffer. -/
def exTwo : Ix Nat := ⟨2, [[[1, 2]], [[3, 4]]], none, none, some (2, [[3, 4]]), some [1], some 1, true⟩

/-- An index of three documents without buffer. -/
def exThree : Ix Nat := ⟨2, [[[1, 2]], [[3, 4]], [[5, 6]]], none, none, none, none, none, true⟩

example : Fit exTwo ∧ Suits exTwo [⟨2, [[5, 6]]⟩] ∧ Something (V := Nat) [⟨2, [[5, 6]]⟩] ∧ exTwo.docs ≠ [] ∧
    0 < buffered exTwo ∧ 1 + buffered exTwo < 3 :=
  ⟨⟨[], [[[1, 2]]], [[[3, 4]]], rfl, Or.inl ⟨rfl, rfl, rfl⟩, Or.inr ⟨by simp, rfl, rfl⟩, rfl⟩,
    ⟨2, by simp, fun _ => rfl⟩, ⟨_, List.mem_singleton.mpr rfl, by simp⟩, by simp [exTwo], by decide, by decide⟩

example : Fit exThree ∧ buffered exThree = 0 ∧ exThree.thr = true ∧ exThree.rawRows = none ∧ exThree.docs ≠ [] :=
  ⟨⟨[], [[[1, 2]], [[3, 4]], [[5, 6]]], [], rfl, Or.inl ⟨rfl, rfl, rfl⟩, Or.inl ⟨rfl, rfl, rfl⟩, rfl⟩,
    rfl, rfl, rfl, by simp [exThree]⟩

example : Poisoned 1 (update exThree [⟨3, [[7, 8, 9]]⟩] ⟨0, 3⟩ []).1 :=
  ⟨3, [[[7, 8, 9]]], by decide, by decide, by decide, by decide, rfl, by decide +kernel, by decide +kernel, by decide +kernel,
    by decide +kernel, by decide +kernel⟩

example : (calls exThree [⟨[⟨3, [[7, 8, 9]]⟩], ⟨0, 3⟩, []⟩, ⟨[⟨2, [[1, 1]]⟩], ⟨0, 3⟩, []⟩,
    ⟨[⟨2, [[1, 1]]⟩, ⟨2, [[1, 1]]⟩], ⟨0, 3⟩, []⟩]).docs = [[[1, 2]], [[3, 4]]] := by decide +kernel

end NextPlaid.Props
