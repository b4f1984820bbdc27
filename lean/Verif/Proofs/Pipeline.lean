import Verif.Model.Pipeline
import Verif.Proofs.Net
import Verif.Proofs.Encode

/-! What each thread of the pipeline does with all that it receives. -/

namespace NextPlaid.Pipeline

open NextPlaid.Net NextPlaid.Spec

variable {U T D E : Type}

theorem prefixSample_perm {α : Type} (n : Nat) (items : List α) : (prefixSample n items).Perm items := by
  unfold prefixSample
  simp only
  split
  · have h := (List.filter_append_perm (fun p : α × Nat => (List.range (min n items.length)).any fun j => j * (items.length / min n items.length) == p.2)
      items.zipIdx).map (·.1)
    rw [List.map_append, List.zipIdx_map_fst] at h
    exact h
  · exact List.Perm.refl _

theorem strided (k s len : Nat) (hs : 0 < s) (hk : k * s ≤ len) :
    ((List.range len).filter fun i => (List.range k).any fun j => j * s == i) = (List.range k).map fun j => j * s := by
  have hinj : ∀ a b : Nat, a < b → a * s < b * s := fun a b h => Nat.mul_lt_mul_of_pos_right h hs
  refine List.Perm.eq_of_pairwise (le := fun a b : Nat => a < b) (fun a b _ _ h1 h2 => absurd h1 (by omega)) ?_ ?_ ?_
  · exact List.pairwise_lt_range.filter _
  · rw [List.pairwise_map]
    exact List.pairwise_lt_range.imp fun h => hinj _ _ h
  · rw [List.perm_ext_iff_of_nodup (List.nodup_range.filter _)]
    · intro a
      simp only [List.mem_filter, List.mem_range, List.any_eq_true, beq_iff_eq, List.mem_map]
      constructor
      · rintro ⟨_, h⟩; exact h
      · rintro ⟨j, hj, rfl⟩
        exact ⟨lt_of_lt_of_le (hinj j k hj) hk, j, hj, rfl⟩
    · have : ((List.range k).map fun j => j * s).Pairwise (· ≠ ·) := by
        rw [List.pairwise_map]
        exact List.pairwise_lt_range.imp fun h => Nat.ne_of_lt (hinj _ _ h)
      exact this

theorem prefixSample_first {α : Type} (n : Nat) (items : List α) (hn : n < items.length) (j : Nat) (hj : j < n) :
    (prefixSample n items)[j]? = items[j * (items.length / n)]? := by
  have hmin : min n items.length = n := by omega
  have hs : 0 < items.length / n := Nat.div_pos (by omega) (by omega)
  have hk : n * (items.length / n) ≤ items.length := Nat.mul_div_le _ _
  have hfst : ((items.zipIdx.filter fun p => (List.range n).any fun j => j * (items.length / n) == p.2).map (·.2)) =
      (List.range n).map fun j => j * (items.length / n) := by
    have hf := List.filter_map (p := fun i => (List.range n).any fun j => j * (items.length / n) == i) (f := fun p : α × Nat => p.2) (l := items.zipIdx)
    rw [List.zipIdx_map_snd, ← List.range_eq_range', strided n _ items.length hs hk] at hf
    exact hf.symm
  have hlen : (items.zipIdx.filter fun p => (List.range n).any fun j => j * (items.length / n) == p.2).length = n := by
    have := congrArg List.length hfst
    simpa using this
  unfold prefixSample
  simp only [hmin]
  rw [if_pos ⟨by omega, hn⟩, List.getElem?_append_left (by rw [List.length_map, hlen]; exact hj), List.getElem?_map]
  have hj2 := congrArg (fun l => l[j]?) hfst
  simp only [List.getElem?_map, List.getElem?_range hj, Option.map_some] at hj2
  cases hx : (items.zipIdx.filter fun p => (List.range n).any fun j => j * (items.length / n) == p.2)[j]? with
  | none => rw [hx] at hj2; cases hj2
  | some x =>
    rw [hx] at hj2
    simp only [Option.map_some, Option.some.injEq] at hj2
    have hmem := (List.mem_filter.mp (List.mem_of_getElem? hx)).1
    rw [List.mem_zipIdx_iff_getElem?, hj2] at hmem
    rw [hmem]; rfl

theorem dedupLoop_spec [DecidableEq T] : ∀ (items : List (Item U T)) (texts : List T) (places : List Nat),
    ∃ more new, (dedupLoop items texts places).1 = texts ++ more ∧ (dedupLoop items texts places).2 = places ++ new ∧
      OneEach (fun it k => (texts ++ more)[k]? = some it.text) items new
  | [], texts, places => ⟨[], [], by simp [dedupLoop], by simp [dedupLoop], rfl, by simp⟩
  | it :: rest, texts, places => by
    cases hf : texts.idxOf? it.text with
    | some i =>
      obtain ⟨more, new, h1, h2, h3, h4⟩ := dedupLoop_spec rest texts (places ++ [i])
      have he : dedupLoop (it :: rest) texts places = dedupLoop rest texts (places ++ [i]) := by simp only [dedupLoop, hf]
      have hi : texts[i]? = some it.text := by
        unfold List.idxOf? at hf
        obtain ⟨ha, hb, _⟩ := List.findIdx?_eq_some_iff_getElem.mp hf
        rw [List.getElem?_eq_getElem ha]
        simpa using hb
      refine ⟨more, i :: new, by rw [he, h1], by rw [he, h2]; simp, by simp [h3], ?_⟩
      intro j a k ha hk
      cases j with
      | zero =>
        simp only [List.getElem?_cons_zero, Option.some.injEq] at ha hk
        subst ha hk
        rw [List.getElem?_append_left (List.getElem?_eq_some_iff.mp hi).1]; exact hi
      | succ j => exact h4 j a k (by simpa using ha) (by simpa using hk)
    | none =>
      obtain ⟨more, new, h1, h2, h3, h4⟩ := dedupLoop_spec rest (texts ++ [it.text]) (places ++ [texts.length])
      have he : dedupLoop (it :: rest) texts places = dedupLoop rest (texts ++ [it.text]) (places ++ [texts.length]) := by simp only [dedupLoop, hf]
      refine ⟨it.text :: more, texts.length :: new, by rw [he, h1]; simp, by rw [he, h2]; simp, by simp [h3], ?_⟩
      intro j a k ha hk
      cases j with
      | zero =>
        simp only [List.getElem?_cons_zero, Option.some.injEq] at ha hk
        subst ha hk
        simp
      | succ j =>
        have := h4 j a k (by simpa using ha) (by simpa using hk)
        simpa using this

theorem dedup_places [DecidableEq T] (items : List (Item U T)) :
    OneEach (fun it k => (dedupLoop items [] []).1[k]? = some it.text) items (dedupLoop items [] []).2 := by
  obtain ⟨more, new, h1, h2, h3⟩ := dedupLoop_spec items [] []
  rw [List.nil_append] at h1 h2
  rw [h1, h2]
  exact h3

/-- A texts is encoded once. -/
theorem dedup_nodup [DecidableEq T] : ∀ (items : List (Item U T)) (texts : List T) (places : List Nat), texts.Nodup → (dedupLoop items texts places).1.Nodup
  | [], texts, places, h => h
  | it :: rest, texts, places, h => by
    cases hf : texts.idxOf? it.text with
    | some i =>
      have he : dedupLoop (it :: rest) texts places = dedupLoop rest texts (places ++ [i]) := by simp only [dedupLoop, hf]
      rw [he]; exact dedup_nodup rest _ _ h
    | none =>
      have he : dedupLoop (it :: rest) texts places = dedupLoop rest (texts ++ [it.text]) (places ++ [texts.length]) := by simp only [dedupLoop, hf]
      rw [he]
      refine dedup_nodup rest _ _ ?_
      have hnot : it.text ∉ texts := List.idxOf?_eq_none_iff.mp hf
      rw [List.nodup_append]
      refine ⟨h, by simp, ?_⟩
      intro a ha b hb
      rw [List.mem_singleton] at hb; subst hb
      intro he; subst he; exact hnot ha

/-! ### The stages that send one message for each they receive -/

theorem mapStage_failed {M : Type} (f : Nat → M → Option M) : ∀ (ms : List M) (s : St U E), s.failed = true → feed (mapStage f) s ms = (s, [])
  | [], s, _ => rfl
  | m :: ms, s, h => by
    have hr : (mapStage f).recv s m = (s, []) := by simp [mapStage, h]
    simp only [feed, hr]
    rw [mapStage_failed f ms s h]; rfl

theorem mapStage_feed {M : Type} (f : Nat → M → Option M) : ∀ (ms : List M) (s : St U E), s.failed = false →
    ∃ k ≤ ms.length, List.Forall₂ (fun m m' => ∃ i, f i m = some m') (ms.take k) (feed (mapStage f) s ms).2 ∧
      ((feed (mapStage f) s ms).1.failed = false → k = ms.length)
  | [], s, _ => ⟨0, le_refl _, by simpa [feed, mapStage] using List.Forall₂.nil, fun _ => rfl⟩
  | m :: ms, s, h => by
    cases hf : f s.seen m with
    | none =>
      have hr : (mapStage f).recv s m = ({ s with failed := true }, []) := by simp [mapStage, h, hf]
      refine ⟨0, by omega, ?_, ?_⟩
      · simp only [feed, hr]
        rw [mapStage_failed f ms _ rfl]
        exact .nil
      · simp only [feed, hr]
        rw [mapStage_failed f ms _ rfl]
        intro h'; cases h'
    | some m' =>
      have hr : (mapStage f).recv s m = ({ s with seen := s.seen + 1 }, [m']) := by simp [mapStage, h, hf]
      obtain ⟨k, h1, h2, h3⟩ := mapStage_feed f ms { s with seen := s.seen + 1 } h
      refine ⟨k + 1, by simpa using h1, ?_, ?_⟩
      · simp only [feed, hr, List.take_succ_cons]
        exact .cons ⟨_, hf⟩ h2
      · simp only [feed, hr, List.length_cons]
        intro h'; rw [h3 h']

/-- Two such stages in a row. -/
theorem forall₂_take {A B : Type} {R : A → B → Prop} {as : List A} {bs : List B} (h : List.Forall₂ R as bs) (k : Nat) :
    List.Forall₂ R (as.take k) (bs.take k) := List.forall₂_take k h

/-! ### One chunk -/

/-- An embedding of a text, pooled. -/
def IsEmb (p : Setup U T D E) (Enc : D → E → Prop) (t : T) (x : E) : Prop := ∃ d y, p.engine.tok t = .ok d ∧ Enc d y ∧ x = p.pool y

/-- What the pool stage sends for a chunk. -/
def GoodChunk (p : Setup U T D E) (Enc : D → E → Prop) (c : List (Item U T)) (m : Msg U T D E) : Prop :=
  ∃ embs, m = .pooled (c.map (·.unit)) embs ∧ OneEach (fun it x => IsEmb p Enc it.text x) c embs

theorem chunk_good [DecidableEq T] (p : Setup U T D E) (Enc : D → E → Prop)
    (hrun : ∀ s q ds es, p.engine.run s q ds = .ok es → OneEach Enc ds es) (c : List (Item U T)) {m1 m2 m3 : Msg U T D E} {i j k : Nat}
    (h1 : tokenizeStep p i (prepareChunk c) = some m1) (h2 : encodeStep p j m1 = some m2) (h3 : poolStep p k m2 = some m3) : GoodChunk p Enc c m3 := by
  unfold prepareChunk tokenizeStep at h1
  simp only at h1
  cases ht : Encode.tokenize p.engine (dedupLoop c [] []).1 with
  | error f => rw [ht] at h1; cases h1
  | ok bs =>
    rw [ht] at h1
    simp only [Option.some.injEq] at h1
    subst h1
    unfold encodeStep at h2
    simp only at h2
    split at h2
    · cases h2
    · cases he : Encode.encodeBatches p.engine (p.cancelled j) bs with
      | error f => rw [he] at h2; cases h2
      | ok es =>
        rw [he] at h2
        simp only [Option.some.injEq] at h2
        subst h2
        unfold poolStep at h3
        simp only at h3
        cases hm : (dedupLoop c [] []).2.mapM (idx (es.map p.pool)) with
        | error f => rw [hm] at h3; cases h3
        | ok out =>
          rw [hm] at h3
          simp only [Option.some.injEq] at h3
          subst h3
          -- the embeddings of the unique texts
          have hes : OneEach (fun t x => ∃ d, p.engine.tok t = .ok d ∧ Enc d x) (dedupLoop c [] []).1 es := by
            unfold Encode.tokenize at ht
            cases h0 : (dedupLoop c [] []).1.mapM p.engine.tok with
            | error f => rw [h0] at ht; cases ht
            | ok docs =>
              rw [h0] at ht
              have ht : Except.ok (Encode.batches p.engine docs) = Except.ok bs := ht
              injection ht with ht; subst ht
              cases hra : Encode.runAll p.engine (p.cancelled j) 0 (Encode.batches p.engine docs) with
              | error f => unfold Encode.encodeBatches at he; rw [hra] at he; cases he
              | ok encoded =>
                obtain ⟨es', h5, h6⟩ := Encode.encodeBatches_each p.engine Enc hrun (p.cancelled j) docs hra
                rw [he] at h5; injection h5 with h5; subst h5
                exact Encode.OneEach_comp (Encode.mapM_each _ _ _ h0) h6
          refine ⟨out, rfl, ?_⟩
          have hcomp := Encode.OneEach_comp (dedup_places c) (Encode.mapM_each _ _ _ hm)
          refine ⟨hcomp.1, fun n it x hit hx => ?_⟩
          obtain ⟨q, hq1, hq2⟩ := hcomp.2 n it x hit hx
          unfold idx at hq2
          rw [List.getElem?_map] at hq2
          cases hq : es[q]? with
          | none => rw [hq] at hq2; cases hq2
          | some y =>
            rw [hq] at hq2
            simp only [Option.map_some, Except.ok.injEq] at hq2
            obtain ⟨d, hd1, hd2⟩ := hes.2 q _ y hq1 hq
            exact ⟨d, y, hd1, hd2, hq2.symm⟩

/-- The first three threads. -/
theorem front_good [DecidableEq T] (p : Setup U T D E) (Enc : D → E → Prop)
    (hrun : ∀ s q ds es, p.engine.run s q ds = .ok es → OneEach Enc ds es) (cs : List (List (Item U T))) (s1 s2 s3 : St U E)
    (h1 : s1.failed = false) (h2 : s2.failed = false) (h3 : s3.failed = false) :
    let a := feed (mapStage (tokenizeStep p)) s1 (cs.map prepareChunk)
    let b := feed (mapStage (encodeStep p)) s2 a.2
    let c := feed (mapStage (poolStep p)) s3 b.2
    ∃ k ≤ cs.length, List.Forall₂ (GoodChunk p Enc) (cs.take k) c.2 ∧ (a.1.failed = false → b.1.failed = false → c.1.failed = false → k = cs.length) := by
  intro a b c
  obtain ⟨k1, hk1, f1, g1⟩ := mapStage_feed (tokenizeStep p) (cs.map prepareChunk) s1 h1
  obtain ⟨k2, hk2, f2, g2⟩ := mapStage_feed (encodeStep p) a.2 s2 h2
  obtain ⟨k3, hk3, f3, g3⟩ := mapStage_feed (poolStep p) b.2 s3 h3
  have l1 := f1.length_eq
  have l2 := f2.length_eq
  have l3 := f3.length_eq
  simp only [List.length_map, List.length_take] at l1 l2 l3 hk1
  have ea : a.2.length = k1 := by show (feed (mapStage (tokenizeStep p)) s1 (cs.map prepareChunk)).2.length = k1; omega
  have eb : b.2.length = k2 := by show (feed (mapStage (encodeStep p)) s2 a.2).2.length = k2; omega
  have ec : c.2.length = k3 := by show (feed (mapStage (poolStep p)) s3 b.2).2.length = k3; omega
  refine ⟨k3, by omega, ?_, ?_⟩
  · rw [List.forall₂_iff_get]
    refine ⟨by simp only [List.length_take]; omega, ?_⟩
    intro i hi hi'
    simp only [List.length_take] at hi
    have ia : i < a.2.length := by omega
    have ib : i < b.2.length := by omega
    have q1 := (List.forall₂_iff_get.mp f1).2 i (by simp; omega) ia
    have q2 := (List.forall₂_iff_get.mp f2).2 i (by simp; omega) ib
    have q3 := (List.forall₂_iff_get.mp f3).2 i (by simp; omega) hi'
    simp only [List.get_eq_getElem, List.getElem_take, List.getElem_map] at q1 q2 q3 ⊢
    obtain ⟨i1, q1⟩ := q1
    obtain ⟨i2, q2⟩ := q2
    obtain ⟨i3, q3⟩ := q3
    exact chunk_good p Enc hrun _ q1 q2 q3
  · intro x y z
    have := g1 x; have := g2 y; have := g3 z
    simp only [List.length_map] at *
    omega

/-! ### The index stage and the metadata stage -/

/-- The rows a message is about. -/
def rowsIn : Msg U T D E → List (Nat × U)
  | .indexed units ids => ids.zip units
  | _ => []

/-- The units and embeddings that come to the index stage. -/
def unitsIn : Msg U T D E → List U
  | .pooled units _ => units
  | _ => []

def embsIn : Msg U T D E → List E
  | .pooled _ embs => embs
  | _ => []

/-- A message to the index stage. -/
def Pooled (m : Msg U T D E) : Prop := ∃ units embs, m = .pooled units embs ∧ units.length = embs.length

theorem index_failed (p : Setup U T D E) : ∀ (ms : List (Msg U T D E)) (s : St U E), s.failed = true → feed (indexStage p) s ms = (s, [])
  | [], s, h => by simp [feed, indexStage, h]
  | m :: ms, s, h => by
    have hr : (indexStage p).recv s m = (s, []) := by cases m <;> simp [indexStage, h]
    simp only [feed, hr]
    rw [index_failed p ms s h]; rfl

theorem flush_spec (p : Setup U T D E) (s : St U E) (hf : s.failed = false) (hl : s.pendUnits.length = s.pendEmbs.length) :
    ((flush p s).1.failed = true ∧ (flush p s).1.docs = s.docs ∧ (flush p s).2 = []) ∨
    ((flush p s).1.failed = false ∧ (flush p s).1.docs = s.docs ++ s.pendEmbs ∧ (flush p s).1.pendEmbs = [] ∧ (flush p s).1.pendUnits = [] ∧
      (flush p s).2.flatMap rowsIn = (List.range' s.docs.length s.pendEmbs.length).zip s.pendUnits) := by
  unfold flush
  split
  · rename_i h
    have hu : s.pendUnits = [] := List.eq_nil_of_length_eq_zero (by rw [hl, h]; rfl)
    right
    simp [h, hu, hf]
  · split
    · right; simp [hf, rowsIn]
    · left; simp

theorem zip_range'_take {α : Type} : ∀ (l : List α) (s n m : Nat), m ≤ n → n ≤ l.length →
    (List.range' s m).zip l ++ (List.range' (s + m) (n - m)).zip (l.drop m) = (List.range' s n).zip l
  | l, s, n, 0, _, _ => by simp
  | [], s, n, m + 1, h1, h2 => by simp at h2; omega
  | a :: l, s, 0, m + 1, h1, h2 => by omega
  | a :: l, s, n + 1, m + 1, h1, h2 => by
    have := zip_range'_take l (s + 1) n m (by omega) (by simpa using h2)
    simp only [List.range'_succ, List.zip_cons_cons, List.drop_succ_cons, List.cons_append]
    congr 1
    have e : s + 1 + m = s + (m + 1) := by omega
    rw [e] at this
    have e2 : n + 1 - (m + 1) = n - m := by omega
    rw [e2]; exact this

theorem update_feed (p : Setup U T D E) (hc : p.create = false) : ∀ (ms : List (Msg U T D E)) (s : St U E), s.failed = false →
    s.pendUnits.length = s.pendEmbs.length → (∀ m ∈ ms, Pooled m) →
    ∃ n ≤ (s.pendEmbs ++ ms.flatMap embsIn).length,
      (feed (indexStage p) s ms).1.docs = s.docs ++ (s.pendEmbs ++ ms.flatMap embsIn).take n ∧
      (feed (indexStage p) s ms).2.flatMap rowsIn = (List.range' s.docs.length n).zip (s.pendUnits ++ ms.flatMap unitsIn) ∧
      ((feed (indexStage p) s ms).1.failed = false → n = (s.pendEmbs ++ ms.flatMap embsIn).length)
  | [], s, hf, hl, _ => by
    have he : feed (indexStage p) s [] = flush p s := by simp [feed, indexStage, hf, hc]
    rw [he]
    simp only [List.flatMap_nil, List.append_nil]
    rcases flush_spec p s hf hl with ⟨h1, h2, h3⟩ | ⟨h1, h2, _, _, h5⟩
    · exact ⟨0, by omega, by simp [h2], by simp [h3], by rw [h1]; intro h; cases h⟩
    · exact ⟨s.pendEmbs.length, le_refl _, by simp [h2], h5, fun _ => rfl⟩
  | m :: ms, s, hf, hl, hm => by
    obtain ⟨units, embs, rfl, hlen⟩ := hm m (by simp)
    have hms : ∀ m ∈ ms, Pooled m := fun m h => hm m (by simp [h])
    set s' : St U E := { s with pendUnits := s.pendUnits ++ units, pendEmbs := s.pendEmbs ++ embs } with hs'
    have hl' : s'.pendUnits.length = s'.pendEmbs.length := by simp [hs', hl, hlen]
    simp only [List.flatMap_cons, embsIn, unitsIn]
    by_cases hlim : (s.pendEmbs ++ embs).length ≥ p.limit
    · have hr : (indexStage p).recv s (.pooled units embs) = flush p s' := by
        simp only [indexStage]; rw [if_neg (by simp [hf]), if_neg (by simp [hc]), if_pos hlim]
      simp only [feed, hr]
      rcases flush_spec p s' hf hl' with ⟨h1, h2, h3⟩ | ⟨h1, h2, h3, h4, h5⟩
      · rw [index_failed p ms _ h1, h3]
        refine ⟨0, by omega, by rw [h2]; simp [hs'], by simp, ?_⟩
        intro h; rw [h1] at h; cases h
      · obtain ⟨n, hn, g1, g2, g3⟩ := update_feed p hc ms (flush p s').1 h1 (by rw [h3, h4]; rfl) hms
        rw [h3] at hn g1 g3
        rw [h4] at g2
        simp only [List.nil_append] at hn g1 g2 g3
        refine ⟨(s.pendEmbs ++ embs).length + n, ?_, ?_, ?_, ?_⟩
        · simp only [List.length_append] at hn ⊢; omega
        · rw [g1, h2]
          have ht : List.take ((s.pendEmbs ++ embs).length + n) (s.pendEmbs ++ embs ++ ms.flatMap embsIn) =
              s.pendEmbs ++ embs ++ (ms.flatMap embsIn).take n := List.take_length_add_append _
          rw [List.append_assoc s.pendEmbs] at ht
          rw [ht]
          simp [hs']
        · rw [List.flatMap_append, g2, h5, h2]
          have hz := zip_range'_take (s.pendUnits ++ units ++ ms.flatMap unitsIn) s.docs.length ((s.pendEmbs ++ embs).length + n) (s.pendEmbs ++ embs).length
            (by omega) (by
              have : (ms.flatMap unitsIn).length = (ms.flatMap embsIn).length := by
                rw [List.length_flatMap, List.length_flatMap]
                congr 1
                apply List.map_congr_left
                intro m hmm
                obtain ⟨u, e, rfl, hue⟩ := hms m hmm
                exact hue
              simp only [List.length_append] at hn ⊢; omega)
          have hL : (s.pendEmbs ++ embs).length = (s.pendUnits ++ units).length := by simp [hl, hlen]
          rw [List.append_assoc] at hz
          rw [← hz]
          simp only [hs', List.length_append]
          congr 1
          · rw [← List.append_assoc]
            have : (List.range' s.docs.length (s.pendEmbs.length + embs.length)).zip (s.pendUnits ++ units ++ ms.flatMap unitsIn) =
                (List.range' s.docs.length (s.pendEmbs.length + embs.length)).zip (s.pendUnits ++ units) := by
              conv_lhs => rw [← List.append_nil (List.range' s.docs.length (s.pendEmbs.length + embs.length))]
              rw [List.zip_append (by simp; omega)]
              simp
            rw [this]
          · congr 1
            · congr 1; omega
            · rw [← List.append_assoc, List.drop_append, List.drop_of_length_le (by simp; omega)]
              simp [hl, hlen]
        · intro h; have := g3 h; simp only [List.length_append] at this ⊢; omega
    · have hr : (indexStage p).recv s (.pooled units embs) = (s', []) := by
        simp only [indexStage]; rw [if_neg (by simp [hf]), if_neg (by simp [hc]), if_neg hlim]
      simp only [feed, hr, List.nil_append]
      obtain ⟨n, hn, g1, g2, g3⟩ := update_feed p hc ms s' hf hl' hms
      simp only [hs', List.append_assoc] at hn g1 g2 g3
      exact ⟨n, hn, g1, g2, g3⟩

theorem create_feed (p : Setup U T D E) (hc : p.create = true) (hw : p.writeOk 0 = true) : ∀ (ms : List (Msg U T D E)) (s : St U E), s.failed = false →
    (s.seen = 0 → s.pendEmbs = [] ∧ s.docs = []) → (∀ m ∈ ms, Pooled m) →
      (feed (indexStage p) s ms).1.failed = false ∧
      (feed (indexStage p) s ms).1.docs = s.pendEmbs ++ ms.flatMap embsIn ∧
      (feed (indexStage p) s ms).2.flatMap rowsIn = (List.range' s.pendEmbs.length (ms.flatMap embsIn).length).zip (ms.flatMap unitsIn)
  | [], s, hf, h0, _ => by
    simp only [feed, indexStage, hf, hc, Bool.false_eq_true, if_false, if_true]
    split
    · rename_i hs
      simp [hf, (h0 hs).1, (h0 hs).2]
    · simp [hw, hf]
  | m :: ms, s, hf, h0, hm => by
    obtain ⟨units, embs, rfl, hlen⟩ := hm m (by simp)
    have hms : ∀ m ∈ ms, Pooled m := fun m h => hm m (by simp [h])
    have hr : (indexStage p).recv s (.pooled units embs) =
        ({ s with pendEmbs := s.pendEmbs ++ embs, seen := s.seen + 1 }, [.indexed units (List.range' s.pendEmbs.length embs.length)]) := by
      simp [indexStage, hf, hc]
    obtain ⟨g0, g1, g2⟩ := create_feed p hc hw ms { s with pendEmbs := s.pendEmbs ++ embs, seen := s.seen + 1 } hf (by intro h; simp at h) hms
    simp only [feed, hr, List.flatMap_cons, embsIn, unitsIn]
    refine ⟨g0, by rw [g1]; simp, ?_⟩
    rw [List.flatMap_append, g2]
    simp only [List.flatMap_cons, List.flatMap_nil, List.append_nil, rowsIn, List.length_append]
    rw [← List.range'_append_1, List.zip_append (by simp [hlen])]

theorem meta_feed (p : Setup U T D E) (hm : ∀ i, p.metaOk i = true) : ∀ (ms : List (Msg U T D E)) (s : St U E), s.failed = false →
    (feed (metaStage p) s ms).1.failed = false ∧ (feed (metaStage p) s ms).1.rows = s.rows ++ ms.flatMap rowsIn
  | [], s, hf => by simp [feed, metaStage, hf]
  | m :: ms, s, hf => by
    cases m with
    | indexed units ids =>
      have hr : (metaStage p).recv s (.indexed units ids) = ({ s with rows := s.rows ++ ids.zip units, seen := s.seen + 1 }, []) := by
        simp [metaStage, hf, hm]
      obtain ⟨g0, g1⟩ := meta_feed p hm ms { s with rows := s.rows ++ ids.zip units, seen := s.seen + 1 } hf
      simp only [feed, hr, List.flatMap_cons, rowsIn]
      exact ⟨g0, by rw [g1]; simp⟩
    | prepared a b c => exact meta_feed p hm ms s hf
    | tokenized a b c => exact meta_feed p hm ms s hf
    | raw a b c => exact meta_feed p hm ms s hf
    | pooled a b => exact meta_feed p hm ms s hf

/-! ### All threads together -/

theorem pooled_of_good {p : Setup U T D E} {Enc : D → E → Prop} {cs : List (List (Item U T))} {ms : List (Msg U T D E)}
    (h : List.Forall₂ (GoodChunk p Enc) cs ms) : (∀ m ∈ ms, Pooled m) ∧ ms.flatMap unitsIn = cs.flatten.map (·.unit) ∧
      OneEach (fun it x => IsEmb p Enc it.text x) cs.flatten (ms.flatMap embsIn) := by
  induction h with
  | nil => exact ⟨by simp, by simp, rfl, by simp⟩
  | @cons c m cs ms hg _ ih =>
    obtain ⟨embs, rfl, he⟩ := hg
    obtain ⟨h1, h2, h3⟩ := ih
    refine ⟨?_, ?_, ?_⟩
    · intro x hx
      rcases List.mem_cons.mp hx with rfl | hx
      · exact ⟨_, _, rfl, by simp [he.1]⟩
      · exact h1 x hx
    · simp [unitsIn, h2]
    · simp only [List.flatten_cons, List.flatMap_cons, embsIn]
      exact Encode.OneEach_append he h3

theorem OneEach_take {A B : Type} {R : A → B → Prop} {as : List A} {bs : List B} (h : OneEach R as bs) (n : Nat) : OneEach R (as.take n) (bs.take n) := by
  refine ⟨by simp [h.1], ?_⟩
  intro i a b ha hb
  rw [List.getElem?_take] at ha hb
  split at ha
  · rename_i hi
    rw [if_pos hi] at hb
    exact h.2 i a b ha hb
  · cases ha

theorem take_flatten {α : Type} : ∀ (l : List (List α)) (k : Nat), ∃ n ≤ l.flatten.length, (l.take k).flatten = l.flatten.take n
  | [], k => ⟨0, by simp, by simp⟩
  | a :: l, 0 => ⟨0, by simp, by simp⟩
  | a :: l, k + 1 => by
    obtain ⟨n, h1, h2⟩ := take_flatten l k
    refine ⟨a.length + n, by simp only [List.flatten_cons, List.length_append]; omega, ?_⟩
    simp [h2, List.take_append, List.take_of_length_le]

/-- The states at the end. -/
theorem finish [DecidableEq T] (p : Setup U T D E) (Enc : D → E → Prop)
    (hrun : ∀ s q ds es, p.engine.run s q ds = .ok es → OneEach Enc ds es) (hmeta : ∀ i, p.metaOk i = true)
    (caps : Fin 5 → Nat) (hcaps : ∀ i, 0 < caps i) (docs : List E) (rows : List (Nat × U)) (hcreate : p.create = true → docs = [] ∧ p.writeOk 0 = true)
    (items : List (Item U T)) (sent : Nat) {n : Nat} {cs : List (Cell (St U E) (Msg U T D E))} (hr : Run n (start p caps docs rows items sent) cs)
    (hf : Finished cs) :
    ∃ m ≤ items.length, ∃ new, docsOf cs = docs ++ new ∧ OneEach (fun it x => IsEmb p Enc it.text x) (items.take m) new ∧
      rowsOf cs = rows ++ (List.range' docs.length m).zip ((items.take m).map (·.unit)) ∧
      ((chunks p items).length ≤ sent → Succeeded cs → m = items.length) := by
  have hs := schedule ({} : St U E) (((chunks p items).take sent).map prepareChunk)
    [(mapStage (tokenizeStep p), caps 0, {}), (mapStage (encodeStep p), caps 1, {}), (mapStage (poolStep p), caps 2, {}),
      (indexStage p, caps 3, { docs := docs }), (metaStage p, caps 4, { rows := rows })]
    (by intro x hx; simp only [List.mem_cons, List.not_mem_nil, or_false] at hx; rcases hx with rfl | rfl | rfl | rfl | rfl <;> exact hcaps _) hr
  have hst := hs.2.2 hf
  simp only [inTurn] at hst
  obtain ⟨k, hk, hgood, hall⟩ := front_good p Enc hrun ((chunks p items).take sent) {} {} {} rfl rfl rfl
  set a := feed (mapStage (tokenizeStep p)) ({} : St U E) (((chunks p items).take sent).map prepareChunk) with ha
  set b := feed (mapStage (encodeStep p)) ({} : St U E) a.2 with hb
  set c := feed (mapStage (poolStep p)) ({} : St U E) b.2 with hc
  set d := feed (indexStage p) ({ docs := docs } : St U E) c.2 with hd
  obtain ⟨hp1, hp2, hp3⟩ := pooled_of_good hgood
  obtain ⟨hm0, hm1⟩ := meta_feed p hmeta d.2 { rows := rows } rfl
  have hlen : cs.length = 6 := by have := congrArg List.length hst; simpa using this
  have h4 : cs[4]?.map (·.state) = some d.1 := by rw [← List.getElem?_map, hst]; rfl
  have h5 : cs[5]?.map (·.state) = some (feed (metaStage p) ({ rows := rows } : St U E) d.2).1 := by rw [← List.getElem?_map, hst]; rfl
  have hdocs : docsOf cs = d.1.docs := by
    unfold docsOf
    cases h : cs[4]? with
    | none => rw [h] at h4; cases h4
    | some x => rw [h] at h4; simp only [Option.map_some, Option.some.injEq] at h4; simp [h4]
  have hrows : rowsOf cs = rows ++ d.2.flatMap rowsIn := by
    unfold rowsOf
    cases h : cs[5]? with
    | none => rw [h] at h5; cases h5
    | some x => rw [h] at h5; simp only [Option.map_some, Option.some.injEq] at h5; simp [h5, hm1]
  have hsucc : Succeeded cs → a.1.failed = false ∧ b.1.failed = false ∧ c.1.failed = false ∧ d.1.failed = false := by
    intro h
    have : ∀ s ∈ cs.map (·.state), s.failed = false := by
      intro s hs'
      obtain ⟨x, hx, rfl⟩ := List.mem_map.mp hs'
      exact h x hx
    rw [hst] at this
    exact ⟨this _ (by simp), this _ (by simp), this _ (by simp), this _ (by simp)⟩
  -- the units that came to the index stage
  obtain ⟨n1, hn1, he1⟩ := take_flatten ((chunks p items).take sent) k
  obtain ⟨n2, hn2, he2⟩ := take_flatten (chunks p items) sent
  have hfl : (chunks p items).flatten = items := Encode.pieces_flatten _ _
  rw [hfl] at hn2 he2
  have hunits : ((List.take k ((chunks p items).take sent))).flatten = items.take (min n1 n2) := by rw [he1, he2, List.take_take]
  have hfull : (chunks p items).length ≤ sent → k = ((chunks p items).take sent).length → items.take (min n1 n2) = items := by
    intro hsent hkl
    rw [← hunits, hkl, List.take_length, List.take_of_length_le hsent, hfl]
  rw [hunits] at hp2 hp3
  have hembs : (c.2.flatMap embsIn).length = min n1 n2 := by
    rw [hp3.1, List.length_take]; omega
  cases hcr : p.create with
  | true =>
    obtain ⟨hd0, hw0⟩ := hcreate hcr
    subst hd0
    obtain ⟨_, q1, q2⟩ := create_feed p hcr hw0 c.2 { docs := [] } rfl (fun _ => ⟨rfl, rfl⟩) hp1
    rw [← hd] at q1 q2
    refine ⟨min n1 n2, by omega, c.2.flatMap embsIn, by rw [hdocs, q1], hp3, ?_, ?_⟩
    · rw [hrows, q2, hp2, hembs]
    · intro hsent hok
      obtain ⟨x, y, z, _⟩ := hsucc hok
      have := congrArg List.length (hfull hsent (hall x y z))
      rw [List.length_take] at this; omega
  | false =>
    obtain ⟨n', hn', q1, q2, q3⟩ := update_feed p hcr c.2 { docs := docs } rfl rfl hp1
    rw [← hd] at q1 q2 q3
    simp only [List.nil_append] at q1 q2 q3 hn'
    refine ⟨n', by omega, (c.2.flatMap embsIn).take n', by rw [hdocs, q1], ?_, ?_, ?_⟩
    · have := OneEach_take hp3 n'
      rwa [List.take_take, Nat.min_eq_left (by omega)] at this
    · rw [hrows, q2, hp2]
      congr 1
      have : (items.take (min n1 n2)).map (·.unit) = (items.take n').map (·.unit) ++ ((items.take (min n1 n2)).drop n').map (·.unit) := by
        rw [← List.map_append]
        have : items.take n' = (items.take (min n1 n2)).take n' := by rw [List.take_take, Nat.min_eq_left (by omega)]
        rw [this, List.take_append_drop]
      rw [this]
      conv_lhs => rw [← List.append_nil (List.range' docs.length n')]
      rw [List.zip_append (by simp; omega)]
      simp
    · intro hsent hok
      obtain ⟨x, y, z, w⟩ := hsucc hok
      have := congrArg List.length (hfull hsent (hall x y z))
      rw [List.length_take] at this
      have := q3 w
      omega

end NextPlaid.Pipeline
