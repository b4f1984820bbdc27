import Verif.Proofs.Pipeline
import Verif.Spec.Pipeline

/-! When nothing fails nothing is lost; every run can be brought to its end. -/

namespace NextPlaid.Net

variable {S M : Type}

theorem run_trans {a b c : List (Cell S M)} {n m : Nat} (h1 : Run n a b) (h2 : Run m b c) : Run (n + m) a c := by
  induction h2 with
  | refl => exact h1
  | step h s ih => exact .step (ih h1) s

/-- From any state a run comes to its end. -/
theorem run_finishes {c : Cell S M} {cs : List (Cell S M)} (ht : Tidy (c :: cs)) (hc : c.closed = true) (hcap : ∀ d ∈ cs, 0 < d.cap) :
    ∃ n fin, Run n (c :: cs) fin ∧ Finished fin := by
  generalize hw : work (c :: cs) [] = w
  induction w using Nat.strong_induction_on generalizing c cs with
  | _ w ih =>
    rcases progress ht hc hcap with ⟨cs', hs⟩ | hf
    · obtain ⟨d, ds, rfl, hd⟩ := step_head hs rfl
      have hk := (step_keeps hs ht []).2
      have hcaps := caps_step hs
      simp only [List.map_cons, List.cons.injEq] at hcaps
      obtain ⟨n, fin, hr, hfin⟩ := ih (work (d :: ds) []) (by omega) (tidy_step hs ht) (hd.trans hc)
        (by
          intro x hx
          have : x.cap ∈ List.map (fun x => x.cap) cs := by rw [← hcaps.2]; exact List.mem_map.mpr ⟨x, hx, rfl⟩
          obtain ⟨y, hy, he⟩ := List.mem_map.mp this
          rw [← he]; exact hcap y hy) rfl
      exact ⟨1 + n, fin, run_trans (.step (.refl _) hs) hr, hfin⟩
    · exact ⟨0, _, .refl _, hf⟩

/-! ### A schedule in which each message goes all the way before the next one is sent -/

/-- What a thread does with some messages, while its channel stays open. -/
def feedOpen (st : Stage S M) (s : S) : List M → S × List M
  | [] => (s, [])
  | m :: ms => ((feedOpen st (st.recv s m).1 ms).1, (st.recv s m).2 ++ (feedOpen st (st.recv s m).1 ms).2)

/-- The threads after some messages. -/
def pump : List (Cell S M) → List M → List (Cell S M)
  | [], _ => []
  | d :: ds, ms => { d with state := (feedOpen d.stage d.state ms).1 } :: pump ds (feedOpen d.stage d.state ms).2

/-- A thread that waits for a message. -/
def Idle (d : Cell S M) : Prop := d.queue = [] ∧ d.hand = [] ∧ d.closed = false ∧ 0 < d.cap

theorem feedOpen_append (st : Stage S M) : ∀ (a b : List M) (s : S), feedOpen st s (a ++ b) =
    ((feedOpen st (feedOpen st s a).1 b).1, (feedOpen st s a).2 ++ (feedOpen st (feedOpen st s a).1 b).2)
  | [], b, s => rfl
  | m :: a, b, s => by
    simp only [List.cons_append, feedOpen]
    rw [feedOpen_append st a b]
    simp

theorem pump_append : ∀ (ds : List (Cell S M)) (a b : List M), pump ds (a ++ b) = pump (pump ds a) b
  | [], _, _ => rfl
  | d :: ds, a, b => by
    simp only [pump]
    rw [feedOpen_append, pump_append ds]

theorem pump_nil : ∀ (ds : List (Cell S M)), pump ds [] = ds
  | [] => rfl
  | d :: ds => by simp only [pump, feedOpen]; rw [pump_nil ds]

theorem pump_idle : ∀ (ds : List (Cell S M)) (ms : List M), (∀ d ∈ ds, Idle d) → ∀ d ∈ pump ds ms, Idle d
  | [], _, _ => by simp [pump]
  | d :: ds, ms, h => by
    intro x hx
    simp only [pump] at hx
    rcases List.mem_cons.mp hx with rfl | hx
    · exact h d (by simp)
    · exact pump_idle ds _ (fun y hy => h y (by simp [hy])) x hx

theorem run_later {n : Nat} {a b : List (Cell S M)} (c : Cell S M) (h : Run n a b) : Run n (c :: a) (c :: b) := by
  induction h with
  | refl => exact .refl _
  | step h s ih => exact .step ih (.later c s)

theorem pump_length : ∀ (ds : List (Cell S M)) (ms : List M), (pump ds ms).length = ds.length
  | [], _ => rfl
  | d :: ds, ms => by simp [pump, pump_length ds]

theorem run_drop : ∀ (ms : List M) (c : Cell S M), c.hand = ms → ∃ n, Run n [c] [{ c with hand := [] }]
  | [], c, hc => ⟨0, by rw [← hc]; exact .refl _⟩
  | m :: ms, c, hc => by
    obtain ⟨n, hr⟩ := run_drop ms { c with hand := ms } rfl
    exact ⟨1 + n, run_trans (.step (.refl _) (.drop hc)) hr⟩

theorem run_pump_aux : ∀ (k : Nat) (ms : List M) (ds : List (Cell S M)), ds.length = k → (∀ d ∈ ds, Idle d) → ∀ (c : Cell S M), c.hand = ms →
    ∃ n, Run n (c :: ds) ({ c with hand := [] } :: pump ds ms)
  | 0, ms, ds, hk, _, c, hc => by
    have : ds = [] := List.eq_nil_of_length_eq_zero hk
    subst this
    exact run_drop ms c hc
  | k + 1, [], ds, hk, h, c, hc => ⟨0, by rw [pump_nil, ← hc]; exact .refl _⟩
  | k + 1, m :: ms, ds, hk, h, c, hc => by
    cases ds with
    | nil => cases hk
    | cons d ds =>
      obtain ⟨hq, hh, ho, hcap⟩ := h d (by simp)
      have hds : ∀ x ∈ ds, Idle x := fun x hx => h x (by simp [hx])
      have hkd : ds.length = k := by simpa using hk
      -- send, receive, and let the others finish
      have s1 : Step (c :: d :: ds) ({ c with hand := ms } :: { d with queue := d.queue ++ [m] } :: ds) := .push ds hc (by rw [hq]; exact hcap)
      have s2 : Step ({ c with hand := ms } :: { d with queue := d.queue ++ [m] } :: ds)
          ({ c with hand := ms } :: { d with queue := [], state := (d.stage.recv d.state m).1, hand := (d.stage.recv d.state m).2 } :: ds) :=
        .later _ (.recv ds ho hh (by simp [hq]))
      obtain ⟨n1, r1⟩ := run_pump_aux k (d.stage.recv d.state m).2 ds hkd hds
        { d with queue := [], state := (d.stage.recv d.state m).1, hand := (d.stage.recv d.state m).2 } rfl
      have hidle : ∀ x ∈ ({ d with queue := [], state := (d.stage.recv d.state m).1, hand := [] } : Cell S M) :: pump ds (d.stage.recv d.state m).2, Idle x := by
        intro x hx
        rcases List.mem_cons.mp hx with rfl | hx
        · exact ⟨rfl, rfl, ho, hcap⟩
        · exact pump_idle ds _ hds x hx
      obtain ⟨n2, r2⟩ := run_pump_aux (k + 1) ms
        (({ d with queue := [], state := (d.stage.recv d.state m).1, hand := [] } : Cell S M) :: pump ds (d.stage.recv d.state m).2)
        (by simp [pump_length, hkd]) hidle { c with hand := ms } rfl
      have r3 := run_trans (.step (.step (.refl _) s1) s2) (run_trans (run_later _ r1) r2)
      have he : ({ c with hand := [] } : Cell S M) :: pump (d :: ds) (m :: ms) = { { c with hand := ms } with hand := [] } ::
          pump (({ d with queue := [], state := (d.stage.recv d.state m).1, hand := [] } : Cell S M) :: pump ds (d.stage.recv d.state m).2) ms := by
        simp only [pump, feedOpen]
        rw [pump_append]; simp only [hq, hh]
      rw [he]
      exact ⟨_, r3⟩

theorem run_pump (ds : List (Cell S M)) (h : ∀ d ∈ ds, Idle d) (ms : List M) (c : Cell S M) (hc : c.hand = ms) :
    ∃ n, Run n (c :: ds) ({ c with hand := [] } :: pump ds ms) := run_pump_aux _ ms ds rfl h c hc

theorem run_idle (s : S) (ms : List M) (l : List (Stage S M × Nat × S)) (hcap : ∀ x ∈ l, 0 < x.2.1) :
    ∃ n, Run n (source s ms :: l.map fun x => fresh x.1 x.2.1 x.2.2) (source s [] :: pump (l.map fun x => fresh x.1 x.2.1 x.2.2) ms) := by
  refine run_pump _ ?_ ms (source s ms) rfl
  intro d hd
  obtain ⟨x, hx, rfl⟩ := List.mem_map.mp hd
  exact ⟨rfl, rfl, rfl, hcap x hx⟩

end NextPlaid.Net

namespace NextPlaid.Pipeline

open NextPlaid.Net NextPlaid.Spec

variable {U T D E : Type}

/-- The threads before they begin. -/
abbrev parts (p : Setup U T D E) (caps : Fin 5 → Nat) (docs : List E) (rows : List (Nat × U)) : List (Stage (St U E) (Msg U T D E) × Nat × St U E) :=
  [(mapStage (tokenizeStep p), caps 0, {}), (mapStage (encodeStep p), caps 1, {}), (mapStage (poolStep p), caps 2, {}),
    (indexStage p, caps 3, { docs := docs }), (metaStage p, caps 4, { rows := rows })]

theorem parts_caps (p : Setup U T D E) (caps : Fin 5 → Nat) (docs : List E) (rows : List (Nat × U)) (hcaps : ∀ i, 0 < caps i) :
    ∀ x ∈ parts p caps docs rows, 0 < x.2.1 := by
  intro x hx
  simp only [parts, List.mem_cons, List.not_mem_nil, or_false] at hx
  rcases hx with rfl | rfl | rfl | rfl | rfl <;> exact hcaps _

theorem start_runs [DecidableEq T] (p : Setup U T D E) (caps : Fin 5 → Nat) (hcaps : ∀ i, 0 < caps i) (docs : List E) (rows : List (Nat × U))
    (items : List (Item U T)) (sent : Nat) : ∃ n cs, Run n (start p caps docs rows items sent) cs ∧ Finished cs := by
  apply run_finishes
  · exact tidy_start _ _ (parts p caps docs rows)
  · rfl
  · intro d hd
    simp only [List.mem_cons, List.not_mem_nil, or_false] at hd
    rcases hd with rfl | rfl | rfl | rfl | rfl <;> exact hcaps _

theorem start_states [DecidableEq T] (p : Setup U T D E) (caps : Fin 5 → Nat) (hcaps : ∀ i, 0 < caps i) (docs : List E) (rows : List (Nat × U))
    (items : List (Item U T)) (sent : Nat) {n : Nat} {cs : List (Cell (St U E) (Msg U T D E))} (hr : Run n (start p caps docs rows items sent) cs)
    (hf : Finished cs) :
    cs.map (·.state) = {} :: inTurn (parts p caps docs rows) (((chunks p items).take sent).map prepareChunk) :=
  (schedule ({} : St U E) (((chunks p items).take sent).map prepareChunk) (parts p caps docs rows) (parts_caps p caps docs rows hcaps) hr).2.2 hf

theorem docsOf_states {cs : List (Cell (St U E) (Msg U T D E))} {l : List (St U E)} (h : cs.map (·.state) = l) :
    docsOf cs = ((l.map (·.docs))[4]?).getD [] := by
  subst h
  unfold docsOf
  simp only [List.getElem?_map, Option.map_map]; rfl

theorem rowsOf_states {cs : List (Cell (St U E) (Msg U T D E))} {l : List (St U E)} (h : cs.map (·.state) = l) :
    rowsOf cs = ((l.map (·.rows))[5]?).getD [] := by
  subst h
  unfold rowsOf
  simp only [List.getElem?_map, Option.map_map]; rfl

theorem mapStage_ok {M : Type} (f : Nat → M → Option M) : ∀ (ms : List M) (s : St U E), s.failed = false → (∀ m ∈ ms, ∀ i, ∃ m', f i m = some m') →
    (feed (mapStage f) s ms).1.failed = false
  | [], s, h, _ => h
  | m :: ms, s, h, hm => by
    obtain ⟨m', hf⟩ := hm m (by simp) s.seen
    have hr : (mapStage f).recv s m = ({ s with seen := s.seen + 1 }, [m']) := by simp [mapStage, h, hf]
    simp only [feed, hr]
    exact mapStage_ok f ms _ h fun x hx => hm x (by simp [hx])

theorem index_ok (p : Setup U T D E) (hw : ∀ i, p.writeOk i = true) : ∀ (ms : List (Msg U T D E)) (s : St U E), s.failed = false →
    (feed (indexStage p) s ms).1.failed = false
  | [], s, h => by
    simp only [feed, indexStage, h, Bool.false_eq_true, if_false, flush, hw, if_true]
    split <;> split <;> simp [h]
  | m :: ms, s, h => by
    have hr : ((indexStage p).recv s m).1.failed = false := by
      cases m with
      | pooled units embs =>
        simp only [indexStage, h, Bool.false_eq_true, if_false, flush, hw, if_true]
        split
        · simp
        · split
          · split <;> simp
          · simp
      | _ => exact h
    simp only [feed]
    exact index_ok p hw ms _ hr

/-- Whatever a stage sends was sent for something it received. -/
theorem mapStage_mem {M : Type} (f : Nat → M → Option M) (ms : List M) (s : St U E) (h : s.failed = false) {m' : M}
    (hm : m' ∈ (feed (mapStage f) s ms).2) : ∃ m ∈ ms, ∃ i, f i m = some m' := by
  obtain ⟨k, _, h2, _⟩ := mapStage_feed f ms s h
  obtain ⟨j, hj, rfl⟩ := List.getElem_of_mem hm
  rw [List.forall₂_iff_get] at h2
  have hj' : j < (ms.take k).length := by rw [h2.1]; exact hj
  obtain ⟨i, hi⟩ := h2.2 j hj' hj
  exact ⟨(ms.take k)[j], List.mem_of_mem_take (List.getElem_mem hj'), i, hi⟩

theorem succeeds [DecidableEq T] (p : Setup U T D E) (Enc : D → E → Prop)
    (hrun : ∀ s q ds es, p.engine.run s q ds = .ok es → OneEach Enc ds es)
    (htok : ∀ t, ∃ d, p.engine.tok t = .ok d) (hok : ∀ s q ds, ds ≠ [] → ∃ es, p.engine.run s q ds = .ok es)
    (hint : ∀ i, p.interrupted i = false) (hcan : ∀ i j, p.cancelled i j = false) (hwrite : ∀ i, p.writeOk i = true)
    (hmeta : ∀ i, p.metaOk i = true)
    (caps : Fin 5 → Nat) (hcaps : ∀ i, 0 < caps i) (docs : List E) (rows : List (Nat × U))
    (items : List (Item U T)) (sent : Nat) {n : Nat} {cs : List (Cell (St U E) (Msg U T D E))} (hr : Run n (start p caps docs rows items sent) cs)
    (hf : Finished cs) : Succeeded cs := by
  have hst := start_states p caps hcaps docs rows items sent hr hf
  simp only [inTurn, parts] at hst
  -- tokenising
  have h1 : ∀ m ∈ ((chunks p items).take sent).map (prepareChunk (U := U) (T := T) (D := D) (E := E)), ∀ i, ∃ m', tokenizeStep p i m = some m' := by
    intro m hm i
    obtain ⟨c, _, rfl⟩ := List.mem_map.mp hm
    obtain ⟨docs, hd⟩ := Encode.mapM_ok p.engine.tok (dedupLoop c [] []).1 fun t _ => htok t
    refine ⟨.tokenized (c.map (·.unit)) (Encode.batches p.engine docs) (dedupLoop c [] []).2, ?_⟩
    simp only [prepareChunk, tokenizeStep, Encode.tokenize, hd]; rfl
  have h2 : ∀ m ∈ (feed (mapStage (tokenizeStep p)) ({} : St U E) (((chunks p items).take sent).map prepareChunk)).2, ∀ i, ∃ m', encodeStep p i m = some m' := by
    intro m hm i
    obtain ⟨m0, hm0, j, hj⟩ := mapStage_mem _ _ _ rfl hm
    obtain ⟨c, _, rfl⟩ := List.mem_map.mp hm0
    obtain ⟨docs, hd⟩ := Encode.mapM_ok p.engine.tok (dedupLoop c [] []).1 fun t _ => htok t
    simp only [prepareChunk, tokenizeStep, Encode.tokenize, hd] at hj
    have hj : some (Msg.tokenized (c.map (·.unit)) (Encode.batches p.engine docs) (dedupLoop c [] []).2) = some m := hj
    injection hj with hj; subst hj
    obtain ⟨encoded, he⟩ := Encode.runAll_ok p.engine (p.cancelled i) (hcan i) (Encode.batches p.engine docs) 0 fun b hb s => hok s _ _ (by
      intro hnil
      rw [List.map_eq_nil_iff] at hnil
      by_cases hd : p.engine.dynamic = true
      · obtain ⟨_, _, _, _, h, _⟩ := Encode.mem_batches_dynamic p.engine hd docs hb
        exact h hnil
      · unfold Encode.batches at hb
        simp only [hd, Bool.false_eq_true, if_false, List.mem_map] at hb
        obtain ⟨q, hq, rfl⟩ := hb
        exact (Encode.pieces_size _ _ _ hq).1 hnil)
    obtain ⟨es, h3, _⟩ := Encode.encodeBatches_each p.engine Enc hrun (p.cancelled i) docs he
    exact ⟨.raw (c.map (·.unit)) es (dedupLoop c [] []).2, by simp only [encodeStep, hint, Bool.false_eq_true, if_false, h3]⟩
  have h3 : ∀ m ∈ (feed (mapStage (encodeStep p)) ({} : St U E)
      (feed (mapStage (tokenizeStep p)) ({} : St U E) (((chunks p items).take sent).map prepareChunk)).2).2, ∀ i, ∃ m', poolStep p i m = some m' := by
    intro m hm i
    obtain ⟨m1, hm1, j, hj⟩ := mapStage_mem _ _ _ rfl hm
    obtain ⟨m0, hm0, j0, hj0⟩ := mapStage_mem _ _ _ rfl hm1
    obtain ⟨c, _, rfl⟩ := List.mem_map.mp hm0
    obtain ⟨docs, hd⟩ := Encode.mapM_ok p.engine.tok (dedupLoop c [] []).1 fun t _ => htok t
    simp only [prepareChunk, tokenizeStep, Encode.tokenize, hd] at hj0
    have hj0 : some (Msg.tokenized (c.map (·.unit)) (Encode.batches p.engine docs) (dedupLoop c [] []).2) = some m1 := hj0
    injection hj0 with hj0; subst hj0
    simp only [encodeStep, hint, Bool.false_eq_true, if_false] at hj
    cases he : Encode.encodeBatches p.engine (p.cancelled j) (Encode.batches p.engine docs) with
    | error f => rw [he] at hj; cases hj
    | ok es =>
      rw [he] at hj
      simp only [Option.some.injEq] at hj
      subst hj
      cases hra : Encode.runAll p.engine (p.cancelled j) 0 (Encode.batches p.engine docs) with
      | error f => unfold Encode.encodeBatches at he; rw [hra] at he; cases he
      | ok encoded =>
        obtain ⟨es', g1, g2⟩ := Encode.encodeBatches_each p.engine Enc hrun (p.cancelled j) docs hra
        rw [he] at g1; injection g1 with g1; subst g1
        have hlen : es.length = (dedupLoop c [] []).1.length := by rw [g2.1, (Encode.mapM_each _ _ _ hd).1]
        obtain ⟨out, ho⟩ := Encode.mapM_ok (idx (es.map p.pool)) (dedupLoop c [] []).2 (by
          intro k hk
          obtain ⟨q, hq, rfl⟩ := List.getElem_of_mem hk
          have hpl := dedup_places c
          have hqc : q < c.length := by rw [← hpl.1]; exact hq
          have := hpl.2 q c[q] _ (List.getElem?_eq_getElem hqc) (List.getElem?_eq_getElem hq)
          have hlt := (List.getElem?_eq_some_iff.mp this).1
          refine ⟨p.pool (es[(dedupLoop c [] []).2[q]]'(by omega)), ?_⟩
          unfold idx
          rw [List.getElem?_map, List.getElem?_eq_getElem (by omega)]; rfl)
        exact ⟨.pooled (c.map (·.unit)) out, by simp only [poolStep, ho]⟩
  intro c hc
  have hmem : c.state ∈ cs.map (·.state) := List.mem_map.mpr ⟨c, hc, rfl⟩
  rw [hst] at hmem
  simp only [List.mem_cons, List.not_mem_nil, or_false] at hmem
  rcases hmem with h | h | h | h | h | h <;> rw [h]
  · exact mapStage_ok _ _ _ rfl h1
  · exact mapStage_ok _ _ _ rfl h2
  · exact mapStage_ok _ _ _ rfl h3
  · exact index_ok p hwrite _ _ rfl
  · exact (meta_feed p hmeta _ _ rfl).1

end NextPlaid.Pipeline
