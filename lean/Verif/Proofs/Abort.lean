import Verif.Spec.Abort
import Verif.Proofs.IndexLists

namespace NextPlaid.Abort

open NextPlaid.Index (splitRows splitRows_eq cleanRows cleanRows_eq)

variable {V M : Type}

theorem placeAll_same {w : Nat} : ∀ {ms : List (Mat V)}, (∀ m ∈ ms, m.cols = w) → placeAll w ms = some (given ms)
  | [], _ => rfl
  | m :: ms, h => by
    have hm := h m (by simp)
    have := placeAll_same (w := w) (ms := ms) (fun x hx => h x (by simp [hx]))
    simp [placeAll, place, hm, this, given]

theorem placeAll_foreign {w : Nat} : ∀ {ms : List (Mat V)}, (∃ m ∈ ms, Foreign w m) → placeAll w ms = none
  | [], h => by simp at h
  | m :: ms, h => by
    rw [placeAll]
    by_cases hm : Foreign w m
    · simp [place, hm.1, hm.2]
    · have : ∃ x ∈ ms, Foreign w x := by
        obtain ⟨x, hx, hf⟩ := h
        rcases List.mem_cons.mp hx with rfl | hx
        · exact absurd hf hm
        · exact ⟨x, hx, hf⟩
      rw [placeAll_foreign this]
      split <;> rfl

def mats (w : Nat) (ds : List (Doc V)) : List (Mat V) := ds.map fun d => ⟨w, d⟩

@[simp] theorem given_mats (w : Nat) (ds : List (Doc V)) : given (mats w ds) = ds := by
  simp [given, mats, Function.comp_def]

theorem given_append (a b : List (Mat V)) : given (a ++ b) = given a ++ given b := by simp [given]

@[simp] theorem mats_length (w : Nat) (ds : List (Doc V)) : (mats w ds).length = ds.length := by simp [mats]

theorem mem_mats {w : Nat} {ds : List (Doc V)} {m : Mat V} (h : m ∈ mats w ds) : m.cols = w := by
  simp only [mats, List.mem_map] at h
  obtain ⟨d, _, rfl⟩ := h
  rfl

theorem Holds.load {w : Nat} {rows lens} {ds : List (Doc V)} (h : Holds w rows lens ds) :
    loadMats rows lens = mats w ds := by
  rcases h with ⟨rfl, rfl, rfl⟩ | ⟨_, rfl, rfl⟩
  · rfl
  · simp [loadMats, splitRows_eq, mats]

theorem le_tokens {m : Mat V} : ∀ {ms : List (Mat V)}, m ∈ ms → m.rows.length ≤ tokens ms
  | x :: ms, h => by
    have hx : tokens (x :: ms) = x.rows.length + tokens ms := by simp [tokens]
    rcases List.mem_cons.mp h with rfl | h
    · omega
    · have := le_tokens h
      omega

theorem tokens_ne {ms : List (Mat V)} (h : Something ms) : tokens ms ≠ 0 := by
  obtain ⟨m, hm, hr⟩ := h
  have := le_tokens hm
  have := List.length_pos_iff.mpr hr
  omega

theorem tokens_append (a b : List (Mat V)) : tokens (a ++ b) = tokens a + tokens b := by simp [tokens]

theorem stack_same {w : Nat} {ms : List (Mat V)} (hne : ms ≠ []) (h : ∀ m ∈ ms, m.cols = w) :
    stack ms = some (w, (given ms).flatten) := by
  cases ms with
  | nil => exact absurd rfl hne
  | cons m ms =>
    have hm : m.cols = w := h m (by simp)
    rw [stack, hm, placeAll_same h]; rfl

theorem lens_given (ms : List (Mat V)) : (ms.map fun m => m.rows.length) = (given ms).map List.length := by
  simp [given, Function.comp_def]

theorem remake_same {s : Ix V} {held : List Nat} {w : Nat} {ms : List (Mat V)} (hs : Something ms)
    (h : ∀ m ∈ ms, m.cols = w) :
    remake s held ms = some { s with dim := w, docs := given ms, thr := true } := by
  cases ms with
  | nil => obtain ⟨m, hm, _⟩ := hs; simp at hm
  | cons m ms =>
    have hm : m.cols = w := h m (by simp)
    have hheld : held.any (fun i => ((m :: ms)[i]?).any fun x => decide (x.cols ≠ w)) = false := by
      rw [List.any_eq_false]
      intro i _
      cases hi : (m :: ms)[i]? with
      | none => simp
      | some x => simp [h x (List.mem_of_getElem? hi)]
    rw [remake, hm, placeAll_same h]
    simp only [tokens_ne hs, if_false, hheld, Bool.false_eq_true]

/-! ### Updates that suit -/

/-- The form in which the three branches are used. -/
theorem fit_cases {s : Ix V} (hf : Fit s) (new : List (Mat V)) (cfg : Cfg) (held : List Nat) :
    ∃ raw mid buf, s.docs = raw ++ mid ++ buf ∧ Holds s.dim s.rawRows s.rawLens raw ∧
      Holds s.dim s.bufRows s.bufLens buf ∧ s.bufInfo.getD 0 = buf.length ∧
      ((fromScratch s cfg = true ∧ mid = [] ∧ buf = [] ∧
          plan s new cfg held = planScratch (mats s.dim s.docs ++ new) cfg held) ∨
       (fromScratch s cfg = false ∧ cfg.bufferSize ≤ new.length + buf.length ∧
          plan s new cfg held = planExpand s (mats s.dim buf ++ new)) ∨
       (fromScratch s cfg = false ∧ new.length + buf.length < cfg.bufferSize ∧
          plan s new cfg held = planSmall (mats s.dim buf ++ new) new)) := by
  obtain ⟨raw, mid, buf, hd, hr, hb, hi⟩ := hf
  refine ⟨raw, mid, buf, hd, hr, hb, hi, ?_⟩
  by_cases h1 : fromScratch s cfg = true
  · left
    have hl : raw.length = s.docs.length := by
      have := h1
      simp only [fromScratch, Bool.and_eq_true, decide_eq_true_eq, hr.load, mats_length] at this
      exact this.2
    rw [hd] at hl
    simp only [List.length_append] at hl
    have hm : mid = [] := List.length_eq_zero_iff.mp (by omega)
    have hbn : buf = [] := List.length_eq_zero_iff.mp (by omega)
    subst hm hbn
    refine ⟨h1, rfl, rfl, ?_⟩
    rw [plan, if_pos h1, hr.load, hd]; simp
  · right
    have h1' : fromScratch s cfg = false := by simpa using h1
    by_cases h2 : cfg.bufferSize ≤ new.length + buf.length
    · left
      refine ⟨h1', h2, ?_⟩
      rw [plan, if_neg h1, if_pos, hb.load]
      simp [expands, hb.load, h2]
    · right
      refine ⟨h1', by omega, ?_⟩
      rw [plan, if_neg h1, if_neg, hb.load]
      simp [expands, hb.load, h2]

theorem something_append {a b : List (Mat V)} (h : Something b) : Something (a ++ b) := by
  obtain ⟨m, hm, hr⟩ := h
  exact ⟨m, by simp [hm], hr⟩

theorem Something.ne {a : List (Mat V)} (h : Something a) : a ≠ [] := by
  obtain ⟨m, hm, _⟩ := h
  intro h0; simp [h0] at hm

theorem Holds.nil {w w' : Nat} {rows lens} (h : Holds (V := V) w rows lens []) : Holds w' rows lens [] := by
  rcases h with h | ⟨h, _⟩
  · exact Or.inl h
  · exact absurd rfl h

/-- An index without documents is built from scratch. -/
theorem empty_scratch {s : Ix V} {raw mid buf : List (Doc V)} (hd : s.docs = raw ++ mid ++ buf)
    (hr : Holds s.dim s.rawRows s.rawLens raw) (cfg : Cfg) (h : fromScratch s cfg = false) : s.docs ≠ [] := by
  intro h0
  rw [h0] at hd
  have : raw = [] := by
    have := congrArg List.length hd
    simp only [List.length_nil, List.length_append] at this
    exact List.length_eq_zero_iff.mp (by omega)
  simp [fromScratch, hr.load, h0, this] at h

/-- The docs of the update that suits. -/
theorem cols_all {w : Nat} {ds : List (Doc V)} {new : List (Mat V)} (h : ∀ m ∈ new, m.cols = w) :
    ∀ m ∈ mats w ds ++ new, m.cols = w := by
  intro m hm
  rcases List.mem_append.mp hm with hm | hm
  · exact mem_mats hm
  · exact h m hm

theorem run_scratch {s : Ix V} {w : Nat} {ms : List (Mat V)} (cfg : Cfg) (held : List Nat) (hs : Something ms)
    (h : ∀ m ∈ ms, m.cols = w) :
    run s (planScratch ms cfg held) =
      ((if ms.length ≤ cfg.scratch then
        { s with dim := w, docs := given ms, thr := true, rawRows := some (w, (given ms).flatten),
                 rawLens := some ((given ms).map List.length) }
       else { s with dim := w, docs := given ms, thr := true, rawRows := none, rawLens := none }), true) := by
  rw [planScratch]
  split
  · simp [run, act, remake_same hs h, stack_same hs.ne h, lens_given]
  · simp [run, act, remake_same hs h]

theorem run_small {s : Ix V} {w : Nat} {ms new : List (Mat V)} (hne : ms ≠ []) (h : ∀ m ∈ ms, m.cols = w)
    (hn : ∀ m ∈ new, m.cols = s.dim) :
    run s (planSmall ms new) =
      ({ s with bufRows := some (w, (given ms).flatten), bufLens := some ((given ms).map List.length),
                bufInfo := some ms.length, docs := s.docs ++ given new }, true) := by
  simp [planSmall, run, act, stack_same hne h, lens_given, placeAll_same hn]

theorem run_drop {s : Ix V} (rest : List (Step V)) :
    run s (planDrop s ++ rest) =
      run { s with docs := if 0 < s.bufInfo.getD 0 ∧ s.bufInfo.getD 0 ≤ s.docs.length then
              s.docs.take (s.docs.length - s.bufInfo.getD 0) else s.docs } rest := by
  rw [planDrop]
  split
  · simp [run, act]
  · simp

theorem dropped {s : Ix V} {raw mid buf : List (Doc V)} (hd : s.docs = raw ++ mid ++ buf)
    (hi : s.bufInfo.getD 0 = buf.length) :
    (if 0 < s.bufInfo.getD 0 ∧ s.bufInfo.getD 0 ≤ s.docs.length then
      s.docs.take (s.docs.length - s.bufInfo.getD 0) else s.docs) = raw ++ mid := by
  have hlen : s.docs.length = (raw ++ mid).length + buf.length := by rw [hd]; simp; omega
  split
  · rw [hi, hlen, Nat.add_sub_cancel, hd, List.take_left']; rfl
  · rename_i h
    have : buf.length = 0 := by omega
    have hb : buf = [] := List.length_eq_zero_iff.mp this
    rw [hd, hb]; simp

theorem run_expand {s : Ix V} {raw mid buf : List (Doc V)} {ms : List (Mat V)} (hd : s.docs = raw ++ mid ++ buf)
    (hi : s.bufInfo.getD 0 = buf.length) (h : ∀ m ∈ ms, m.cols = s.dim) :
    run s (planExpand s ms) =
      ({ s with docs := raw ++ mid ++ given ms, bufRows := none, bufLens := none, bufInfo := none }, true) := by
  rw [planExpand, run_drop, dropped hd hi]
  by_cases hc : (s.thr && decide (tokens ms ≠ 0)) = true
  · simp only [run, act, hc, if_true, placeAll_same h, Option.map_some]
  · simp only [run, act, hc, if_false, placeAll_same h, Option.map_some, Bool.false_eq_true]

theorem stores {s : Ix V} {new : List (Mat V)} (hf : Fit s) (hs : Something new) (hw : Suits s new) (cfg : Cfg)
    (held : List Nat) :
    (update s new cfg held).2 = true ∧ (update s new cfg held).1.docs = s.docs ++ given new ∧
      Fit (update s new cfg held).1 ∧ (∀ m ∈ new, m.cols = (update s new cfg held).1.dim) := by
  obtain ⟨w, hc, hdim⟩ := hw
  obtain ⟨raw, mid, buf, hd, hr, hb, hi, hcase⟩ := fit_cases hf new cfg held
  rw [update]
  rcases hcase with ⟨hsc, hm, hbn, hp⟩ | ⟨hsc, hle, hp⟩ | ⟨hsc, hlt, hp⟩
  · subst hm hbn
    have hall : ∀ m ∈ mats s.dim s.docs ++ new, m.cols = w := by
      by_cases h0 : s.docs = []
      · simpa [h0, mats] using hc
      · have := hdim h0
        subst this
        exact cols_all hc
    have hwr : Holds w s.bufRows s.bufLens ([] : List (Doc V)) := hb.nil
    rw [hp, run_scratch cfg held (something_append hs) hall]
    refine ⟨rfl, ?_, ?_, ?_⟩
    · split <;> simp [given_append]
    · split
      · refine ⟨given (mats s.dim s.docs ++ new), [], [], by simp, Or.inr ⟨by simp [given, hs.ne], rfl, rfl⟩, ?_, by simpa using hi⟩
        simpa using hwr
      · refine ⟨[], given (mats s.dim s.docs ++ new), [], by simp, Or.inl ⟨rfl, rfl, rfl⟩, ?_, by simpa using hi⟩
        simpa using hwr
    · split <;> exact hc
  all_goals
    have hne : s.docs ≠ [] := empty_scratch hd hr cfg hsc
    have := hdim hne
    subst this
  · rw [hp, run_expand hd hi (cols_all hc)]
    refine ⟨rfl, by simp [given_append, hd], ?_, hc⟩
    exact ⟨raw, mid ++ given (mats s.dim buf ++ new), [], by simp, hr, Or.inl ⟨rfl, rfl, rfl⟩, rfl⟩
  · rw [hp, run_small (by simp [hs.ne]) (cols_all hc) hc]
    refine ⟨rfl, rfl, ?_, hc⟩
    refine ⟨raw, mid, given (mats s.dim buf ++ new), by simp [given_append, hd], hr, Or.inr ⟨by simp [given, hs.ne], rfl, rfl⟩, by simp [given]⟩

theorem batch_ok {s : Srv V M} (hl : s.rows.length = s.ix.docs.length) {new : List (Mat V)} (hf : Fit s.ix)
    (hs : Something new) (hw : Suits s.ix new) (items : List M) (cfg : Cfg) (held : List Nat) :
    (batch s new items cfg held).2 = true ∧ (batch s new items cfg held).1.ix.docs = s.ix.docs ++ given new ∧
      (batch s new items cfg held).1.rows = s.rows ++ items ∧ Fit (batch s new items cfg held).1.ix := by
  have hr : repair s = s := by simp [repair, hl]
  have h := stores hf hs hw cfg held
  simp only [batch, hr, h.1, if_true]
  exact ⟨trivial, h.2.1, trivial, h.2.2.1⟩

/-! ### Deletions -/

theorem keepDocs_eq (ids : List Int) : ∀ (l : List (Doc V)) (b : Int), keepDocs ids b l = Index.removeFrom ids b l
  | [], _ => rfl
  | d :: ds, b => by rw [keepDocs, Index.removeFrom, keepDocs_eq ids ds (b + 1)]

theorem clean_holds {w : Nat} {rows lens} {ds : List (Doc V)} (ids : List Int) (b : Int) (h : Holds w rows lens ds) :
    Holds w (cleanPair ids b rows lens).1 (cleanPair ids b rows lens).2 (Index.removeFrom ids b ds) := by
  rcases h with ⟨rfl, rfl, rfl⟩ | ⟨_, rfl, rfl⟩
  · exact Or.inl ⟨rfl, rfl, rfl⟩
  · simp only [cleanPair, cleanRows_eq]
    by_cases h0 : Index.removeFrom ids b ds = []
    · simp only [h0, List.map_nil, if_true]
      exact Or.inl ⟨rfl, rfl, rfl⟩
    · rw [if_neg (by simpa using h0)]
      exact Or.inr ⟨h0, rfl, rfl⟩

theorem delete_fit {s : Ix V} (hf : Fit s) (ids : List Int) : Fit (delete s ids) := by
  obtain ⟨raw, mid, buf, hd, hr, hb, hi⟩ := hf
  have hbl : (s.bufLens.getD []).length = buf.length := by
    rcases hb with ⟨_, h, rfl⟩ | ⟨_, _, h⟩ <;> simp [h]
  have hfirst : (s.docs.length : Int) - ((s.bufLens.getD []).length : Int) = ((raw ++ mid).length : Int) := by
    rw [hbl, hd]; simp; omega
  refine ⟨Index.removeFrom ids 0 raw, Index.removeFrom ids (0 + raw.length) mid,
    Index.removeFrom ids ((raw ++ mid).length) buf, ?_, ?_, ?_, ?_⟩
  · simp only [delete, keepDocs_eq, hd]
    rw [Index.removeFrom_append, Index.removeFrom_append]
    simp
  · exact clean_holds ids 0 hr
  · simp only [delete, hfirst]
    exact clean_holds ids _ hb
  · have hc := clean_holds ids ((raw ++ mid).length : Int) hb
    simp only [delete, hfirst]
    rcases hb with ⟨h1, h2, h3⟩ | ⟨h0, h1, h2⟩
    · subst h3
      simpa [h1, h2, Index.removeFrom] using hi
    · simp only [h1, h2, Option.isSome_some, Bool.and_self, if_true]
      rw [h1, h2] at hc
      rcases hc with ⟨_, h4, h5⟩ | ⟨_, _, h4⟩
      · rw [h4, h5]; rfl
      · rw [h4]; simp

theorem removeFrom_zipIdx (ids : List Int) : ∀ (l : List (Doc V)) (n : Nat),
    Index.removeFrom ids n l = ((l.zipIdx n).filter fun p => decide ((p.2 : Int) ∉ ids)).map Prod.fst
  | [], _ => rfl
  | d :: ds, n => by
    have := removeFrom_zipIdx ids ds (n + 1)
    rw [Index.removeFrom, List.zipIdx_cons, List.filter_cons]
    by_cases h : (n : Int) ∈ ids
    · simp only [h, not_true_eq_false, decide_false, Bool.false_eq_true, if_true, if_false]
      exact_mod_cast this
    · simp only [h, not_false_eq_true, decide_true, if_true, if_false, List.map_cons]
      congr 1

theorem delete_docs (s : Ix V) (ids : List Int) :
    (delete s ids).docs = (s.docs.zipIdx.filter fun p => decide ((p.2 : Int) ∉ ids)).map Prod.fst := by
  simp only [delete, keepDocs_eq]
  exact removeFrom_zipIdx ids s.docs 0

theorem history {w : Nat} : ∀ (ops : List (Op V)) (s : Ix V), Fit s → (s.docs ≠ [] → s.dim = w) → AllOf w ops →
    (performed s ops).2 = true ∧ (performed s ops).1.docs = listed s.docs ops ∧ Fit (performed s ops).1
  | [], s, hf, _, _ => ⟨rfl, rfl, hf⟩
  | .update c :: ops, s, hf, hw, h => by
    obtain ⟨hs, hc⟩ := h c (by simp)
    have h1 := stores hf hs ⟨w, hc, fun h0 => (hw h0).symm⟩ c.cfg c.held
    obtain ⟨m, hm, _⟩ := hs
    have hdim : (update s c.new c.cfg c.held).1.dim = w := by rw [← h1.2.2.2 m hm, hc m hm]
    have ih := history ops _ h1.2.2.1 (fun _ => hdim) (fun c' hc' => h c' (by simp [hc']))
    refine ⟨?_, ?_, ih.2.2⟩
    · simp only [performed, h1.1, ih.1, Bool.and_self]
    · simp only [performed, listed]
      rw [ih.2.1, h1.2.1]
  | .delete ids :: ops, s, hf, hw, h => by
    have ih := history ops (delete s ids) (delete_fit hf ids)
      (fun h0 => hw (fun h1 => h0 (by rw [delete_docs, h1]; rfl)))
      (fun c' hc' => h c' (by simp [hc']))
    refine ⟨ih.1, ?_, ih.2.2⟩
    simp only [performed, listed]
    rw [ih.2.1, delete_docs]

theorem firstId_eq {s : Ix V} (hf : Fit s) (new : List (Mat V)) (cfg : Cfg) : firstId s new cfg = s.docs.length := by
  obtain ⟨raw, mid, buf, hd, hr, hb, hi⟩ := hf
  rw [firstId]
  split
  · rename_i h
    simp only [fromScratch, Bool.and_eq_true, decide_eq_true_eq] at h
    exact h.2
  · split
    · rw [hb.load, mats_length, planDrop]
      have hle : buf.length ≤ s.docs.length := by rw [hd]; simp; omega
      split
      · simp only [List.cons_ne_nil, if_false]
        omega
      · simp only [if_true]
        omega
    · rfl

/-! ### Updates that do not suit -/

theorem stack_foreign {m : Mat V} {ms : List (Mat V)} (h : ∃ x ∈ m :: ms, Foreign m.cols x) :
    stack (m :: ms) = none := by
  rw [stack, placeAll_foreign h]; rfl

theorem remake_foreign {s : Ix V} {held : List Nat} {m : Mat V} {ms : List (Mat V)}
    (h : ∃ x ∈ m :: ms, Foreign m.cols x) : remake s held (m :: ms) = none := by
  rw [remake, placeAll_foreign h]

theorem foreign_mem {w : Nat} {a b : List (Mat V)} (h : ∃ x ∈ b, Foreign w x) : ∃ x ∈ a ++ b, Foreign w x := by
  obtain ⟨x, hx, hf⟩ := h
  exact ⟨x, by simp [hx], hf⟩

theorem mats_append_cons {w : Nat} {ds : List (Doc V)} (h : ds ≠ []) (new : List (Mat V)) :
    ∃ m ms, mats w ds ++ new = m :: ms ∧ m.cols = w := by
  cases ds with
  | nil => exact absurd rfl h
  | cons d ds => exact ⟨⟨w, d⟩, mats w ds ++ new, rfl, rfl⟩

/-- From scratch, or into a buffer that has documents: nothing at all is changed. -/
theorem refused_unchanged {s : Ix V} {new : List (Mat V)} (hf : Fit s) (hne : s.docs ≠ [])
    (hx : ∃ m ∈ new, Foreign s.dim m) (cfg : Cfg) (held : List Nat)
    (hmode : fromScratch s cfg = true ∨ (0 < buffered s ∧ new.length + buffered s < cfg.bufferSize)) :
    update s new cfg held = (s, false) := by
  obtain ⟨raw, mid, buf, hd, hr, hb, hi, hcase⟩ := fit_cases hf new cfg held
  have hbl : buffered s = buf.length := by
    rw [buffered]
    rcases hb with ⟨_, h, rfl⟩ | ⟨_, _, h⟩ <;> simp [h]
  rw [update]
  rcases hcase with ⟨hsc, hm, hbn, hp⟩ | ⟨hsc, hle, hp⟩ | ⟨hsc, hlt, hp⟩
  · obtain ⟨m, ms, he, hmc⟩ := mats_append_cons (w := s.dim) hne new
    have := foreign_mem (a := mats s.dim s.docs) hx
    rw [he, ← hmc] at this
    rw [hp, planScratch, run, act, he, remake_foreign this]
  · rcases hmode with h | h
    · rw [hsc] at h; cases h
    · omega
  · rcases hmode with h | h
    · rw [hsc] at h; cases h
    · have hbne : buf ≠ [] := List.length_pos_iff.mp (by omega)
      obtain ⟨m, ms, he, hmc⟩ := mats_append_cons (w := s.dim) hbne new
      have := foreign_mem (a := mats s.dim buf) hx
      rw [he, ← hmc] at this
      rw [hp, planSmall, run, act, he, stack_foreign this]; rfl

/-- Nothing is stored, and no document is lost unless documents of the buffer are being indexed again. -/
theorem refused_docs {s : Ix V} {new : List (Mat V)} (hf : Fit s) (hne : s.docs ≠ [])
    (hx : ∃ m ∈ new, Foreign s.dim m) (cfg : Cfg) (held : List Nat)
    (hmode : fromScratch s cfg = true ∨ buffered s = 0 ∨ new.length + buffered s < cfg.bufferSize) :
    (update s new cfg held).2 = false ∧ (update s new cfg held).1.docs = s.docs := by
  obtain ⟨raw, mid, buf, hd, hr, hb, hi, hcase⟩ := fit_cases hf new cfg held
  have hbl : buffered s = buf.length := by
    rw [buffered]
    rcases hb with ⟨_, h, rfl⟩ | ⟨_, _, h⟩ <;> simp [h]
  rcases hcase with ⟨hsc, hm, hbn, hp⟩ | ⟨hsc, hle, hp⟩ | ⟨hsc, hlt, hp⟩
  · rw [refused_unchanged hf hne hx cfg held (Or.inl hsc)]; exact ⟨rfl, rfl⟩
  · have h0 : buf = [] := by
      rcases hmode with h | h | h
      · rw [hsc] at h; cases h
      · exact List.length_eq_zero_iff.mp (by omega)
      · omega
    subst h0
    have hdd := dropped hd hi
    rw [update, hp, planExpand, run_drop, hdd]
    have hdocs : s.docs = raw ++ mid := by rw [hd]; simp
    have hx' : placeAll s.dim (mats s.dim [] ++ new) = none := placeAll_foreign (by simpa [mats] using hx)
    by_cases hc : (s.thr && decide (tokens (mats s.dim [] ++ new) ≠ 0)) = true
    · simp only [run, act, hc, if_true, hx', Option.map_none]
      exact ⟨trivial, hdocs.symm⟩
    · simp only [run, act, hc, if_false, hx', Option.map_none, Bool.false_eq_true]
      exact ⟨trivial, hdocs.symm⟩
  · rw [update, hp, planSmall]
    cases hst : stack (mats s.dim buf ++ new) with
    | none => simp [run, act, hst]
    | some a => simp [run, act, hst, placeAll_foreign hx]

/-! ### Updates that are stopped -/

theorem stopped_docs {s : Ix V} {new : List (Mat V)} (hf : Fit s) (hs : Something new) (hw : Suits s new) (cfg : Cfg)
    (held : List Nat) (n : Nat)
    (hmode : fromScratch s cfg = true ∨ buffered s = 0 ∨ new.length + buffered s < cfg.bufferSize) :
    (stopped s new cfg held n).docs = s.docs ∨ (stopped s new cfg held n).docs = s.docs ++ given new := by
  obtain ⟨w, hc, hdim⟩ := hw
  obtain ⟨raw, mid, buf, hd, hr, hb, hi, hcase⟩ := fit_cases hf new cfg held
  have hbl : buffered s = buf.length := by
    rw [buffered]
    rcases hb with ⟨_, h, rfl⟩ | ⟨_, _, h⟩ <;> simp [h]
  rw [stopped]
  rcases hcase with ⟨hsc, hm, hbn, hp⟩ | ⟨hsc, hle, hp⟩ | ⟨hsc, hlt, hp⟩
  · have hall : ∀ m ∈ mats s.dim s.docs ++ new, m.cols = w := by
      by_cases h0 : s.docs = []
      · simpa [h0, mats] using hc
      · have := hdim h0
        subst this
        exact cols_all hc
    have hst := stack_same (something_append (a := mats s.dim s.docs) hs).ne hall
    rw [hp, planScratch]
    split
    · rcases n with _ | _ | _ | n <;>
        simp [run, act, remake_same (something_append hs) hall, hst, given_append]
    · rcases n with _ | _ | _ | n <;>
        simp [run, act, remake_same (something_append hs) hall, given_append]
  all_goals
    have hne : s.docs ≠ [] := empty_scratch hd hr cfg hsc
    have := hdim hne
    subst this
  · have h0 : buf = [] := by
      rcases hmode with h | h | h
      · rw [hsc] at h; cases h
      · exact List.length_eq_zero_iff.mp (by omega)
      · omega
    subst h0
    have hpd : planDrop s = [] := by rw [planDrop, hi]; simp
    rw [hp, planExpand, hpd]
    have hpl := placeAll_same (cols_all (ds := []) hc)
    have hce : (if (s.thr && decide (tokens (mats s.dim [] ++ new) ≠ 0)) = true then
        (placeAll s.dim (mats s.dim [] ++ new)).map fun _ => s else some s) = some s := by
      split
      · rw [hpl]; rfl
      · rfl
    have hac : act s (.centroids (mats s.dim [] ++ new)) = some s := hce
    have hg : given (mats s.dim [] ++ new) = given new := by simp [mats]
    have hrun : ∀ l, run s (.centroids (mats s.dim [] ++ new) :: l) = run s l := fun l => by rw [run, hac]
    rcases n with _ | n
    · exact Or.inl rfl
    · rw [List.nil_append, List.take_succ_cons, hrun]
      rcases n with _ | _ | _ | _ | n <;> simp [run, act, hpl, hg]
  · have hst := stack_same (w := s.dim) (something_append (a := mats s.dim buf) hs).ne (cols_all hc)
    rw [hp, planSmall]
    rcases n with _ | _ | _ | _ | n <;> simp [run, act, hst, placeAll_same hc]

/-! ### A poisoned buffer -/

theorem poisons {s : Ix V} {new : List (Mat V)} {w : Nat} (hf : Fit s) (hne : s.docs ≠ []) (hs : new ≠ [])
    (hc : ∀ m ∈ new, m.cols = w) (hw : w ≠ s.dim) (hw1 : w ≠ 1) (hd1 : s.dim ≠ 1) (hthr : s.thr = true)
    (hraw : s.rawRows = none) (hb0 : buffered s = 0) (cfg : Cfg) (held : List Nat) (hlt : new.length < cfg.bufferSize) :
    (update s new cfg held).2 = false ∧ (update s new cfg held).1.docs = s.docs ∧
      Poisoned new.length (update s new cfg held).1 := by
  obtain ⟨raw, mid, buf, hd, hr, hb, hi, hcase⟩ := fit_cases hf new cfg held
  have hbl : buffered s = buf.length := by
    rw [buffered]
    rcases hb with ⟨_, h, rfl⟩ | ⟨_, _, h⟩ <;> simp [h]
  have h0 : buf = [] := List.length_eq_zero_iff.mp (by omega)
  subst h0
  have hx : ∃ m ∈ new, Foreign s.dim m := by
    obtain ⟨m, hm⟩ := List.exists_mem_of_ne_nil _ hs
    exact ⟨m, hm, by rw [hc m hm]; exact hw, by rw [hc m hm]; exact hw1⟩
  rcases hcase with ⟨hsc, hm, _, hp⟩ | ⟨hsc, hle, hp⟩ | ⟨hsc, _, hp⟩
  · exfalso
    simp only [fromScratch, Bool.and_eq_true, decide_eq_true_eq, hraw, loadMats, List.length_nil] at hsc
    exact hne (List.length_eq_zero_iff.mp hsc.2.symm)
  · simp only [List.length_nil] at hle
    omega
  · have hst := stack_same hs hc
    rw [update, hp]
    simp only [mats, List.map_nil, List.nil_append, planSmall, run, act, hst, Option.map_some, placeAll_foreign hx,
      Option.map_none, lens_given]
    exact ⟨trivial, trivial, w, given new, hw, hw1, hd1, List.length_pos_iff.mpr hs, by simp [given], rfl, rfl, rfl, hraw, hthr⟩

theorem poisoned_load {k : Nat} {s : Ix V} (h : Poisoned k s) : ∃ w buf, w ≠ s.dim ∧ w ≠ 1 ∧ s.dim ≠ 1 ∧
    0 < k ∧ buf.length = k ∧ loadMats s.bufRows s.bufLens = mats w buf := by
  obtain ⟨w, buf, h1, h2, h3, h4, h5, h6, h7, _⟩ := h
  refine ⟨w, buf, h1, h2, h3, h4, h5, ?_⟩
  rw [h6, h7, loadMats, splitRows_eq]; rfl

theorem poisoned_not_scratch {k : Nat} {s : Ix V} (h : Poisoned k s) (hne : s.docs ≠ []) (cfg : Cfg) :
    fromScratch s cfg = false := by
  obtain ⟨w, buf, _, _, _, _, _, _, _, _, h8, _⟩ := h
  rw [fromScratch, h8]
  have : ¬ (0 = s.docs.length) := fun h => hne (List.length_eq_zero_iff.mp h.symm)
  simp [loadMats, this]

theorem blocks {k : Nat} {s : Ix V} (h : Poisoned k s) (hne : s.docs ≠ []) {new : List (Mat V)} (hn : new ≠ [])
    (hc : ∀ m ∈ new, m.cols = s.dim) (cfg : Cfg) (held : List Nat) (hlt : new.length + k < cfg.bufferSize) :
    update s new cfg held = (s, false) := by
  obtain ⟨w, buf, h1, h2, h3, h4, h5, hl⟩ := poisoned_load h
  have hbne : buf ≠ [] := List.length_pos_iff.mp (by omega)
  obtain ⟨m, ms, he, hmc⟩ := mats_append_cons (w := w) hbne new
  have hx : ∃ x ∈ m :: ms, Foreign m.cols x := by
    obtain ⟨y, hy⟩ := List.exists_mem_of_ne_nil _ hn
    refine ⟨y, by rw [← he]; simp [hy], ?_, ?_⟩
    · rw [hc y hy, hmc]; exact fun e => h1 e.symm
    · rw [hc y hy]; exact h3
  have hex : expands s new.length cfg = false := by
    simp [expands, hl, h5]; omega
  rw [update, plan, poisoned_not_scratch h hne, hex, hl, he]
  simp only [Bool.false_eq_true, if_false, planSmall, run, act, stack_foreign hx, Option.map_none]

theorem eats {k : Nat} {s : Ix V} (h : Poisoned k s) (hk : k ≤ s.docs.length) (hne : s.docs ≠ []) {new : List (Mat V)}
    (hs : Something new) (cfg : Cfg) (held : List Nat) (hle : cfg.bufferSize ≤ new.length + k) :
    update s new cfg held = ({ s with docs := s.docs.take (s.docs.length - k) }, false) := by
  obtain ⟨w, buf, h1, h2, h3, h4, h5, hl⟩ := poisoned_load h
  have hbne : buf ≠ [] := List.length_pos_iff.mp (by omega)
  have hns := poisoned_not_scratch h hne cfg
  obtain ⟨_, _, _, _, _, _, _, _, _, hinfo, _, hthr⟩ := h
  have hx : ∃ x ∈ mats w buf ++ new, Foreign s.dim x := by
    obtain ⟨d, hd⟩ := List.exists_mem_of_ne_nil _ hbne
    exact ⟨⟨w, d⟩, by simp only [mats, List.mem_append, List.mem_map]; exact Or.inl ⟨d, hd, rfl⟩, h1, h2⟩
  have hex : expands s new.length cfg = true := by
    simp [expands, hl, h5]; omega
  rw [update, plan, hns, hex, hl]
  simp only [Bool.false_eq_true, if_false, if_true]
  rw [planExpand, run_drop]
  have ht : tokens (mats w buf ++ new) ≠ 0 := tokens_ne (something_append hs)
  simp only [hinfo, Option.getD_some]
  rw [if_pos ⟨h4, hk⟩]
  simp only [run, act, hthr, Bool.true_and, ht, ne_eq, not_false_eq_true, decide_true, if_true, placeAll_foreign hx,
    Option.map_none]

theorem eats_all {k : Nat} : ∀ (cs : List (Call V)) (s : Ix V), Poisoned k s → cs.length * k < s.docs.length →
    (∀ c ∈ cs, Something c.new ∧ c.cfg.bufferSize ≤ c.new.length + k) →
    (calls s cs).docs = s.docs.take (s.docs.length - cs.length * k) ∧ Poisoned k (calls s cs)
  | [], s, h, _, _ => by simp [calls, h]
  | c :: cs, s, h, hlt, hc => by
    have hmul : (c :: cs).length * k = cs.length * k + k := by
      rw [List.length_cons, Nat.succ_mul]
    rw [hmul] at hlt
    have hne : s.docs ≠ [] := List.length_pos_iff.mp (by omega)
    have he := eats h (by omega) hne (hc c (by simp)).1 c.cfg c.held (hc c (by simp)).2
    have hp : Poisoned k { s with docs := s.docs.take (s.docs.length - k) } := h
    have hl : (s.docs.take (s.docs.length - k)).length = s.docs.length - k := by simp
    have ih := eats_all cs _ hp (by rw [hl]; omega) (fun c' hc' => hc c' (by simp [hc']))
    rw [calls, he]
    refine ⟨?_, ih.2⟩
    rw [ih.1, hl, List.take_take, hmul]
    congr 1
    omega

end NextPlaid.Abort
