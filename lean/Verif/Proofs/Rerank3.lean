import Verif.Proofs.Rerank
import Verif.Proofs.Rerank2
import Mathlib.Data.List.Pairwise

/-!
Proofs for reranking: order, refusals.
-/

namespace NextPlaid.Rerank
open Single Spec

/-! ### Collecting -/

theorem collect_ok {A B : Type} {f : A → Except Refusal B} : ∀ {l : List A} {r : List B}, collect f l = .ok r → List.Forall₂ (fun a b => f a = .ok b) l r := by
  intro l
  induction l with
  | nil => intro r h; unfold collect at h; cases h; exact .nil
  | cons a l ih =>
    intro r h
    unfold collect at h
    split at h
    · cases h
    · rename_i b hb
      split at h
      · cases h
      · rename_i bs hbs
        cases h
        exact .cons hb (ih hbs)

theorem collect_of {A B : Type} {f : A → Except Refusal B} : ∀ {l : List A} {r : List B}, List.Forall₂ (fun a b => f a = .ok b) l r → collect f l = .ok r := by
  intro l r h
  induction h with
  | nil => rfl
  | cons hb _ ih => unfold collect; rw [hb]; simp only; rw [ih]

theorem collect_total {A B : Type} {f : A → Except Refusal B} : ∀ (l : List A), (∀ a ∈ l, ∃ b, f a = .ok b) → ∃ r, collect f l = .ok r := by
  intro l h
  induction l with
  | nil => exact ⟨[], rfl⟩
  | cons a l ih =>
    obtain ⟨b, hb⟩ := h a List.mem_cons_self
    obtain ⟨r, hr⟩ := ih (fun x hx => h x (List.mem_cons_of_mem _ hx))
    refine ⟨b :: r, ?_⟩
    unfold collect
    rw [hb]
    simp only
    rw [hr]

/-! ### Scores -/

theorem maxsim_ok {start : F32} (hs : IsZero start) {q d : Arr} (hne : d.rows ≠ []) {s : F32} (h : computeMaxsim start q d = .ok s) :
    F32.Plain s ∧ IsFloatMaxSim start q.rows d.rows s := addSims_ok hs hne F32.plain_zero h

theorem maxsim_close {start : F32} (hs : IsZero start) {q d : Arr} {dim : Nat} (hq : Usable q.rows dim) (hd : Usable d.rows dim)
    (hqu : Spec.Unit q.rows) (hdu : Spec.Unit d.rows) (hb : q.rows.length * dim * (q.rows.length + dim + 20) ≤ 2 ^ 25) :
    ∃ s m, computeMaxsim start q d = .ok s ∧ IsMaxSim q.rows d.rows m ∧ |s.val - m| ≤ rounding q.rows.length dim := by
  obtain ⟨s, h1, best, h2, h3⟩ := addSims_close hs hd.1 hd.2.1 (fun r hr f hf => ⟨((hd.2.2 r hr).2 f hf).2, hdu r hr f hf⟩)
    q.rows (.num 0) 0 q.rows.length 0 (by omega) hb (fun r hr => ⟨(hq.2.2 r hr).1, fun f hf => ⟨((hq.2.2 r hr).2 f hf).2, hqu r hr f hf⟩⟩) rfl
    (by simp [F32.val, rounding]) (by simp)
  rw [zero_add, Nat.zero_add] at h3
  exact ⟨s, best.sum, h1, ⟨best, h2, rfl⟩, h3⟩

theorem isMaxSim_unique {q d : List (List Nat)} {s t : ℚ} (h : IsMaxSim q d s) (h' : IsMaxSim q d t) : s = t := by
  obtain ⟨b, hb, rfl⟩ := h
  obtain ⟨c, hc, rfl⟩ := h'
  congr 1
  induction hb generalizing c with
  | nil => cases hc; rfl
  | cons h _ ih =>
    cases hc with
    | cons h' hc => rw [h.unique h', ih _ hc]

theorem bestSim_error {start : F32} {q : List Nat} : ∀ {ds : List (List Nat)} {m : F32} {e : Refusal}, bestSim start q ds m = .error e →
    ∃ d ∈ ds, (floatDot start q d).isFinite = false := by
  intro ds
  induction ds with
  | nil => intro m e h; cases h
  | cons d ds ih =>
    intro m e h
    unfold bestSim at h
    split at h
    · obtain ⟨d', h1, h2⟩ := ih h
      exact ⟨d', List.mem_cons_of_mem _ h1, h2⟩
    · rename_i hf
      rw [Bool.not_eq_true] at hf
      exact ⟨d, List.mem_cons_self, hf⟩

theorem addSims_error {start : F32} {doc : List (List Nat)} (hne : doc ≠ []) : ∀ {qs : List (List Nat)} {total : F32} {e : Refusal},
    addSims start doc qs total = .error e →
    (∃ q ∈ qs, ∃ d ∈ doc, (floatDot start q d).isFinite = false) ∨
    ∃ (k : Nat) (best : List F32),
      List.Forall₂ (fun q b => (∃ d ∈ doc, b = floatDot start q d) ∧ ∀ d ∈ doc, (floatDot start q d).val ≤ b.val) (qs.take k) best ∧
      (best.foldl F32.add total).isFinite = false := by
  intro qs
  induction qs with
  | nil => intro total e h; cases h
  | cons q qs ih =>
    intro total e h
    unfold addSims at h
    split at h
    · rename_i e' he
      obtain ⟨d, hd, hf⟩ := bestSim_error he
      exact Or.inl ⟨q, List.mem_cons_self, d, hd, hf⟩
    · rename_i m hm
      obtain ⟨h1, ⟨d, hd, h2⟩, h3⟩ := bestSim_first hne hm
      rw [if_pos (gt_negInf h1)] at h
      split at h
      · rcases ih h with ⟨q', hq', r⟩ | ⟨k, best, hb, hf⟩
        · exact Or.inl ⟨q', List.mem_cons_of_mem _ hq', r⟩
        · exact Or.inr ⟨k + 1, m :: best, .cons ⟨⟨d, hd, h2⟩, fun e he => (h3 e he).2⟩ hb, hf⟩
      · rename_i hf
        rw [Bool.not_eq_true] at hf
        exact Or.inr ⟨1, [m], .cons ⟨⟨d, hd, h2⟩, fun e he => (h3 e he).2⟩ .nil, hf⟩

theorem maxsim_error {start : F32} {q d : Arr} (hne : d.rows ≠ []) {e : Refusal} (h : computeMaxsim start q d = .error e) : Overflows start q.rows d.rows := by
  rcases addSims_error hne h with h | ⟨k, best, hb, hf⟩
  · exact Or.inl h
  · exact Or.inr ⟨k, _, ⟨best, hb, rfl⟩, hf⟩

/-! ### Sorting -/

/-- The order of the answer. -/
def Before (a b : Nat × F32) : Prop := b.2.val < a.2.val ∨ (a.2.val = b.2.val ∧ a.1 < b.1)

theorem notAfter_plain {a b : F32} (ha : F32.Plain a) (hb : F32.Plain b) : notAfter a b = true ↔ b.val ≤ a.val := by
  unfold notAfter
  rw [ha.1, hb.1]
  show (!F32.totalLt a b) = true ↔ _
  unfold F32.totalLt
  have : decide (a = .minusZero) = false := decide_eq_false ha.2.1
  rw [this]
  simp

theorem insert_before (x : Nat × F32) (hx : F32.Plain x.2) : ∀ (l : List (Nat × F32)), (∀ y ∈ l, F32.Plain y.2 ∧ x.1 < y.1) → l.Pairwise Before →
    (l.orderedInsert (fun a b => notAfter a.2 b.2 = true) x).Pairwise Before := by
  intro l
  induction l with
  | nil => intro _ _; simp
  | cons y l ih =>
    intro h hp
    rw [List.pairwise_cons] at hp
    rw [List.orderedInsert_cons]
    have hy := h y List.mem_cons_self
    split
    · rename_i hc
      rw [notAfter_plain hx hy.1] at hc
      rw [List.pairwise_cons]
      refine ⟨?_, List.pairwise_cons.mpr hp⟩
      intro z hz
      have hxz : z.2.val ≤ x.2.val := by
        rcases List.mem_cons.mp hz with rfl | hz
        · exact hc
        · rcases hp.1 z hz with h1 | h1
          · exact le_trans (le_of_lt h1) hc
          · rw [← h1.1]; exact hc
      rcases lt_or_eq_of_le hxz with h1 | h1
      · exact Or.inl h1
      · exact Or.inr ⟨h1.symm, (h z hz).2⟩
    · rename_i hc
      rw [notAfter_plain hx hy.1, not_le] at hc
      rw [List.pairwise_cons]
      refine ⟨?_, ih (fun z hz => h z (List.mem_cons_of_mem _ hz)) hp.2⟩
      intro z hz
      rw [List.mem_orderedInsert] at hz
      rcases hz with rfl | hz
      · exact Or.inl hc
      · exact hp.1 z hz

theorem sort_before : ∀ (l : List (Nat × F32)), (∀ y ∈ l, F32.Plain y.2) → (l.map Prod.fst).Pairwise (· < ·) →
    (l.insertionSort (fun a b => notAfter a.2 b.2 = true)).Pairwise Before := by
  intro l
  induction l with
  | nil => intro _ _; simp
  | cons x l ih =>
    intro h hp
    rw [List.map_cons, List.pairwise_cons] at hp
    rw [List.insertionSort_cons]
    apply insert_before x (h x List.mem_cons_self)
    · intro y hy
      rw [List.mem_insertionSort] at hy
      exact ⟨h y (List.mem_cons_of_mem _ hy), hp.1 _ (List.mem_map_of_mem hy)⟩
    · exact ih (fun y hy => h y (List.mem_cons_of_mem _ hy)) hp.2

/-! ### The whole request -/

/-- What is behind an answer. -/
structure Behind (start : F32) (query : Sent) (documents : List Sent) (q : Arr) (docs : List Arr) (scored : List (Nat × F32)) : Prop where
  nonempty : documents ≠ []
  hquery : strictArray query = some q
  hdocs : List.Forall₂ (fun s a => strictArray s = some a ∧ a.ncols = q.ncols) documents docs
  hscored : List.Forall₂ (fun (p : Arr × Nat) (r : Nat × F32) => r.1 = p.2 ∧ computeMaxsim start q p.1 = .ok r.2) docs.zipIdx scored

theorem oneDoc_ok {dim : Nat} {s : Sent} {a : Arr} : oneDoc dim s = .ok a ↔ strictArray s = some a ∧ a.ncols = dim := by
  unfold oneDoc
  cases h : strictArray s with
  | none => simp
  | some b =>
    simp only
    by_cases hd : b.ncols = dim
    · rw [if_neg (by simpa using hd)]
      constructor
      · intro h; cases h; exact ⟨rfl, hd⟩
      · rintro ⟨h, -⟩; cases h; rfl
    · rw [if_pos hd]
      constructor
      · intro h; cases h
      · rintro ⟨h, h2⟩; cases h; exact absurd h2 hd

theorem forall₂_imp {A B : Type} {R S : A → B → Prop} (h : ∀ a b, R a b → S a b) {l : List A} {r : List B} (hl : List.Forall₂ R l r) : List.Forall₂ S l r := by
  induction hl with
  | nil => exact .nil
  | cons h1 _ ih => exact .cons (h _ _ h1) ih

theorem rerank_ok {start : F32} {query : Sent} {documents : List Sent} {n : Nat} {rs : List (Nat × F32)} (h : rerank start query documents = .ok (n, rs)) :
    ∃ q docs scored, Behind start query documents q docs scored ∧ n = documents.length ∧ rs = scored.insertionSort (fun a b => notAfter a.2 b.2 = true) := by
  unfold rerank at h
  split at h
  · cases h
  · rename_i hne
    split at h
    · cases h
    · rename_i q hq
      split at h
      · cases h
      · rename_i docs hdocs
        have hd := collect_ok hdocs
        unfold scoreAndSort at h
        split at h
        · cases h
        · rename_i results hres
          split at hres
          · cases hres
          · rename_i scored hsc
            cases hres
            cases h
            refine ⟨q, docs, scored, ⟨?_, hq, ?_, ?_⟩, ?_, rfl⟩
            · intro he; rw [he] at hne; exact hne rfl
            · exact forall₂_imp (fun a b hab => oneDoc_ok.mp hab) hd
            · refine forall₂_imp ?_ (collect_ok hsc)
              intro p r hpr
              cases hc : computeMaxsim start q p.1 with
              | error e => rw [hc] at hpr; cases hpr
              | ok s => rw [hc] at hpr; cases hpr; exact ⟨rfl, rfl⟩
            · exact hd.length_eq.symm

theorem rerank_of {start : F32} {query : Sent} {documents : List Sent} {q : Arr} {docs : List Arr} {scored : List (Nat × F32)} (h : Behind start query documents q docs scored) :
    rerank start query documents = .ok (documents.length, scored.insertionSort (fun a b => notAfter a.2 b.2 = true)) := by
  unfold rerank
  rw [if_neg (by simpa [List.isEmpty_iff] using h.nonempty), h.hquery]
  simp only
  have hc : collect (oneDoc q.ncols) documents = .ok docs := collect_of (forall₂_imp (fun a b hab => oneDoc_ok.mpr hab) h.hdocs)
  rw [hc]
  simp only
  unfold scoreAndSort
  have : collect (fun p : Arr × Nat => (computeMaxsim start q p.1).map (fun s => (p.2, s))) docs.zipIdx = .ok scored := by
    apply collect_of
    refine forall₂_imp ?_ h.hscored
    intro p r hpr
    rw [hpr.2, ← hpr.1]
    rfl
  rw [this, h.hdocs.length_eq]

theorem scored_firsts {start : F32} {query : Sent} {documents : List Sent} {q : Arr} {docs : List Arr} {scored : List (Nat × F32)} (h : Behind start query documents q docs scored) :
    scored.map Prod.fst = List.range documents.length := by
  have h1 : scored.map Prod.fst = docs.zipIdx.map Prod.snd := by
    have := h.hscored
    clear h
    generalize docs.zipIdx = z at this
    induction this with
    | nil => rfl
    | cons h' _ ih => rw [List.map_cons, List.map_cons, ih, h'.1]
  rw [h1, h.hdocs.length_eq, List.zipIdx_map_snd, List.range_eq_range']

theorem forall₂_get {A B : Type} {R : A → B → Prop} {l : List A} {r : List B} (h : List.Forall₂ R l r) :
    ∀ (i : Nat) (b : B), r[i]? = some b → ∃ a, l[i]? = some a ∧ R a b := by
  induction h with
  | nil => intro i b h; simp at h
  | cons h1 _ ih =>
    intro i b h
    cases i with
    | zero => simp at h; subst h; exact ⟨_, by simp, h1⟩
    | succ i => simpa using ih i b (by simpa using h)

theorem forall₂_mem {A B : Type} {R : A → B → Prop} {l : List A} {r : List B} (h : List.Forall₂ R l r) : ∀ b ∈ r, ∃ a ∈ l, R a b := by
  intro b hb
  obtain ⟨i, hi⟩ := List.mem_iff_getElem?.mp hb
  obtain ⟨a, ha, hr⟩ := forall₂_get h i b hi
  exact ⟨a, List.mem_of_getElem? ha, hr⟩

/-- Each result belongs to a document of the request. -/
theorem scored_doc {start : F32} {query : Sent} {documents : List Sent} {q : Arr} {docs : List Arr} {scored : List (Nat × F32)} (h : Behind start query documents q docs scored)
    {r : Nat × F32} (hr : r ∈ scored) : ∃ s a, documents[r.1]? = some s ∧ strictArray s = some a ∧ a.ncols = q.ncols ∧ docs[r.1]? = some a ∧ computeMaxsim start q a = .ok r.2 := by
  obtain ⟨p, hp, h1, h2⟩ := forall₂_mem h.hscored r hr
  rw [List.mem_zipIdx_iff_getElem?] at hp
  obtain ⟨s, hs, h3, h4⟩ := forall₂_get h.hdocs p.2 p.1 hp
  rw [h1]
  exact ⟨s, p.1, hs, h3, h4, hp, h2⟩

theorem scored_plain {start : F32} (hz : IsZero start) {query : Sent} {documents : List Sent} (hw : ∀ d ∈ documents, Words32 d) {q : Arr} {docs : List Arr} {scored : List (Nat × F32)}
    (h : Behind start query documents q docs scored) : ∀ r ∈ scored, F32.Plain r.2 := by
  intro r hr
  obtain ⟨s, a, h1, h2, -, -, h3⟩ := scored_doc h hr
  exact (maxsim_ok hz (((strictArray_iff s (hw s (List.mem_of_getElem? h1)) a).mp h2).1.1) h3).1

/-- All the documents and the query are usable. -/
theorem collect_usable {query : Sent} {documents : List Sent} (hwq : Words32 query) (hw : ∀ d ∈ documents, Words32 d) {qe : List (List Nat)} {dim : Nat}
    (hq : Usable qe dim ∧ Carries query qe dim) (hd : ∀ d ∈ documents, ∃ e, Usable e dim ∧ Carries d e dim) :
    strictArray query = some ⟨dim, qe⟩ ∧ ∃ docs, List.Forall₂ (fun s a => strictArray s = Option.some a ∧ a.ncols = dim) documents docs := by
  refine ⟨(strictArray_iff query hwq ⟨dim, qe⟩).mpr hq, ?_⟩
  induction documents with
  | nil => exact ⟨[], .nil⟩
  | cons d documents ih =>
    obtain ⟨e, he⟩ := hd d List.mem_cons_self
    obtain ⟨docs, hdocs⟩ := ih (fun x hx => hw x (List.mem_cons_of_mem _ hx)) (fun x hx => hd x (List.mem_cons_of_mem _ hx))
    exact ⟨⟨dim, e⟩ :: docs, .cons ⟨(strictArray_iff d (hw d List.mem_cons_self) ⟨dim, e⟩).mpr he, rfl⟩ hdocs⟩

theorem scored_total {start : F32} {q : Arr} : ∀ (docs : List Arr) (k : Nat), (∀ a ∈ docs, ∃ s, computeMaxsim start q a = .ok s) →
    ∃ scored, List.Forall₂ (fun (p : Arr × Nat) (r : Nat × F32) => r.1 = p.2 ∧ computeMaxsim start q p.1 = .ok r.2) (docs.zipIdx k) scored := by
  intro docs
  induction docs with
  | nil => intro k _; exact ⟨[], .nil⟩
  | cons a docs ih =>
    intro k h
    obtain ⟨s, hs⟩ := h a List.mem_cons_self
    obtain ⟨scored, hsc⟩ := ih (k + 1) (fun x hx => h x (List.mem_cons_of_mem _ hx))
    rw [List.zipIdx_cons]
    exact ⟨(k, s) :: scored, .cons ⟨rfl, hs⟩ hsc⟩

theorem carries_unique {s : Sent} (hw : Words32 s) {e e' : List (List Nat)} {dim dim' : Nat} (h1 : Usable e dim) (h2 : Carries s e dim) (h3 : Usable e' dim') (h4 : Carries s e' dim') :
    e = e' ∧ dim = dim' := by
  have a := (strictArray_iff s hw ⟨dim, e⟩).mpr ⟨h1, h2⟩
  have b := (strictArray_iff s hw ⟨dim', e'⟩).mpr ⟨h3, h4⟩
  rw [a] at b
  cases b
  exact ⟨rfl, rfl⟩

end NextPlaid.Rerank
