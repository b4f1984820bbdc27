import Verif.Proofs.Rerank3

/-!
C61: reranking returns every document once, best first, with its MaxSim score.
-/

namespace NextPlaid.Props
open NextPlaid.Rerank NextPlaid.Single NextPlaid.Spec

/-! A small request: two query tokens, three documents, one of them in base64. -/

/-- The bits of 0, 1, -1, 1/2. -/
def rr0 : Nat := 0
def rr1 : Nat := 0x3F800000
def rrm : Nat := 0xBF800000
def rrh : Nat := 0x3F000000

example : F32.ofBits rr1 = .num 1 ∧ F32.ofBits rrm = .num (-1) ∧ F32.ofBits rrh = .num (1 / 2) := by decide +kernel

def rrQuery : Sent := ⟨some [[rr1, rr0], [rr0, rr1]], none, none⟩
def rrDocs : List Sent :=
  [⟨some [[rrm, rr0]], none, none⟩, ⟨none, some "AACAPwAAAD8=".toList, some (1, 2)⟩, ⟨some [[rrh, rr0], [rr0, rr1]], none, none⟩]

/-- It is answered: document 1 and document 2 both score 3/2 and stay in order, document 0 scores -1. -/
theorem rr_answer : rerank .minusZero rrQuery rrDocs = .ok (3, [(1, .num (3 / 2)), (2, .num (3 / 2)), (0, .num (-1))]) := by decide +kernel

theorem rr_words : Words32 rrQuery ∧ ∀ d ∈ rrDocs, Words32 d := by
  constructor
  · intro e he
    cases he
    decide
  · intro d hd e he
    simp only [rrDocs, List.mem_cons, List.not_mem_nil, or_false] at hd
    rcases hd with rfl | rfl | rfl
    · cases he; decide
    · cases he
    · cases he; decide

/-- The arithmetic of the model is on the numbers of `f32`: the value of every finite bit pattern is its own rounding, a sum or product of two finite values
is the exact one rounded once, with an error of at most 2^-24 of it (or 2^-150 near zero) as long as it is below 2^100. -/
theorem C61_arithmetic {a b : Nat} (ha : (F32.ofBits a).isFinite = true) (hb : (F32.ofBits b).isFinite = true) :
    (F32.ofBits a ≠ .minusZero → F32.round (number a) = F32.ofBits a) ∧
    (|number a + number b| ≤ 2 ^ 100 → (F32.add (F32.ofBits a) (F32.ofBits b)).isFinite = true ∧
      |(F32.add (F32.ofBits a) (F32.ofBits b)).val - (number a + number b)| ≤ |number a + number b| * 2 ^ (-24 : Int) + 2 ^ (-150 : Int)) ∧
    (|number a * number b| ≤ 2 ^ 100 → (F32.mul (F32.ofBits a) (F32.ofBits b)).isFinite = true ∧
      |(F32.mul (F32.ofBits a) (F32.ofBits b)).val - number a * number b| ≤ |number a * number b| * 2 ^ (-24 : Int) + 2 ^ (-150 : Int)) :=
  ⟨F32.round_ofBits ha, F32.add_spec ha hb, F32.mul_spec ha hb⟩

/-- The answer contains every document of the request exactly once, and their number. -/
theorem C61_each_once {start : F32} {query : Sent} {documents : List Sent} {n : Nat} {rs : List (Nat × F32)} (h : rerank start query documents = .ok (n, rs)) :
    n = documents.length ∧ (rs.map Prod.fst).Perm (List.range documents.length) := by
  obtain ⟨q, docs, scored, hb, hn, hr⟩ := rerank_ok h
  refine ⟨hn, ?_⟩
  rw [hr, ← scored_firsts hb]
  exact (List.perm_insertionSort _ _).map _

/-- The documents come with falling scores, and documents with the same score in the order of the request. -/
theorem C61_best_first {start : F32} (hz : IsZero start) {query : Sent} {documents : List Sent} (hw : ∀ d ∈ documents, Words32 d)
    {n : Nat} {rs : List (Nat × F32)} (h : rerank start query documents = .ok (n, rs)) :
    rs.Pairwise (fun a b => b.2.val < a.2.val ∨ (a.2.val = b.2.val ∧ a.1 < b.1)) := by
  obtain ⟨q, docs, scored, hb, hn, hr⟩ := rerank_ok h
  rw [hr]
  apply sort_before _ (scored_plain hz hw hb)
  rw [scored_firsts hb]
  exact List.pairwise_lt_range

/-- An answered request carries usable embeddings of one dimension, and each score is the MaxSim score of the document with this index in `f32` arithmetic:
a finite number, and never the negative zero. -/
theorem C61_scores {start : F32} (hz : IsZero start) {query : Sent} {documents : List Sent} (hwq : Words32 query) (hw : ∀ d ∈ documents, Words32 d)
    {n : Nat} {rs : List (Nat × F32)} (h : rerank start query documents = .ok (n, rs)) :
    ∃ qe dim, Usable qe dim ∧ Carries query qe dim ∧ ∀ (i : Nat) (s : F32), (i, s) ∈ rs →
      ∃ d e, documents[i]? = some d ∧ Usable e dim ∧ Carries d e dim ∧ IsFloatMaxSim start qe e s ∧ s.isFinite = true ∧ s ≠ .minusZero := by
  obtain ⟨q, docs, scored, hb, hn, hr⟩ := rerank_ok h
  obtain ⟨h1, h2⟩ := (strictArray_iff query hwq q).mp hb.hquery
  refine ⟨q.rows, q.ncols, h1, h2, ?_⟩
  intro i s his
  rw [hr, List.mem_insertionSort] at his
  obtain ⟨d, a, hd, ha, hc, -, hm⟩ := scored_doc hb his
  obtain ⟨h3, h4⟩ := (strictArray_iff d (hw d (List.mem_of_getElem? hd)) a).mp ha
  obtain ⟨hp, hf⟩ := maxsim_ok hz h3.1 hm
  rw [hc] at h3 h4
  exact ⟨d, a.rows, hd, h3, h4, hf, hp.1, hp.2.1⟩

/-- A request with documents, all usable and of the dimension of the query, is refused only if the arithmetic of some score leaves the finite numbers. -/
theorem C61_refused {start : F32} {query : Sent} {documents : List Sent} (hwq : Words32 query) (hw : ∀ d ∈ documents, Words32 d) (hne : documents ≠ [])
    {qe : List (List Nat)} {dim : Nat} (hq : Usable qe dim ∧ Carries query qe dim) (hd : ∀ d ∈ documents, ∃ e, Usable e dim ∧ Carries d e dim)
    {r : Refusal} (h : rerank start query documents = .error r) :
    ∃ d ∈ documents, ∃ e, Usable e dim ∧ Carries d e dim ∧ Overflows start qe e := by
  obtain ⟨h1, docs, h2⟩ := collect_usable hwq hw hq hd
  by_contra hno
  have hall : ∀ a ∈ docs, ∃ s, computeMaxsim start ⟨dim, qe⟩ a = .ok s := by
    intro a ha
    cases hc : computeMaxsim start ⟨dim, qe⟩ a with
    | ok s => exact ⟨s, rfl⟩
    | error e =>
      exfalso
      obtain ⟨d, hdm, h3, h4⟩ := forall₂_mem h2 a ha
      obtain ⟨h5, h6⟩ := (strictArray_iff d (hw d hdm) a).mp h3
      rw [h4] at h5 h6
      exact hno ⟨d, hdm, a.rows, h5, h6, maxsim_error h5.1 hc⟩
  obtain ⟨scored, hs⟩ := scored_total docs 0 hall
  have := rerank_of ⟨hne, h1, h2, hs⟩
  rw [this] at h
  cases h

/-- Normalised embeddings are always reranked, and each score is the exact MaxSim score up to rounding. -/
theorem C61_close {start : F32} (hz : IsZero start) {query : Sent} {documents : List Sent} (hwq : Words32 query) (hw : ∀ d ∈ documents, Words32 d) (hne : documents ≠ [])
    {qe : List (List Nat)} {dim : Nat} (hq : Usable qe dim ∧ Carries query qe dim) (hqu : Spec.Unit qe)
    (hd : ∀ d ∈ documents, ∃ e, Usable e dim ∧ Carries d e dim ∧ Spec.Unit e) (hsize : qe.length * dim * (qe.length + dim + 20) ≤ 2 ^ 25) :
    ∃ rs, rerank start query documents = .ok (documents.length, rs) ∧
      ∀ (i : Nat) (s : F32), (i, s) ∈ rs → ∀ d, documents[i]? = some d → ∀ e, Usable e dim → Carries d e dim → ∀ m, IsMaxSim qe e m →
        |s.val - m| ≤ rounding qe.length dim := by
  obtain ⟨h1, docs, h2⟩ := collect_usable hwq hw hq (fun d hdm => by obtain ⟨e, h1, h2, -⟩ := hd d hdm; exact ⟨e, h1, h2⟩)
  have hall : ∀ a ∈ docs, Usable a.rows dim ∧ Spec.Unit a.rows := by
    intro a ha
    obtain ⟨d, hdm, h3, h4⟩ := forall₂_mem h2 a ha
    obtain ⟨h5, h6⟩ := (strictArray_iff d (hw d hdm) a).mp h3
    obtain ⟨e, g1, g2, g3⟩ := hd d hdm
    rw [h4] at h5 h6
    rw [(carries_unique (hw d hdm) h5 h6 g1 g2).1]
    exact ⟨g1, g3⟩
  obtain ⟨scored, hs⟩ := scored_total docs 0 (fun a ha => by
    obtain ⟨s, m, hs, -⟩ := maxsim_close (q := ⟨dim, qe⟩) hz hq.1 (hall a ha).1 hqu (hall a ha).2 hsize
    exact ⟨s, hs⟩)
  have hb : Behind start query documents ⟨dim, qe⟩ docs scored := ⟨hne, h1, h2, hs⟩
  refine ⟨_, rerank_of hb, ?_⟩
  intro i s his d hdi e he hce m hm
  rw [List.mem_insertionSort] at his
  obtain ⟨d', a, hd', ha, hc, hai, hsc⟩ := scored_doc hb his
  rw [hdi] at hd'
  cases hd'
  have hdm := List.mem_of_getElem? hdi
  obtain ⟨h5, h6⟩ := (strictArray_iff d (hw d hdm) a).mp ha
  have hae := (carries_unique (hw d hdm) h5 h6 he hce).1
  have ham := List.mem_of_getElem? hai
  obtain ⟨s', m', g1, g2, g3⟩ := maxsim_close (q := ⟨dim, qe⟩) hz hq.1 (hall a ham).1 hqu (hall a ham).2 hsize
  rw [g1] at hsc
  cases hsc
  rw [hae] at g2
  rw [← isMaxSim_unique g2 hm]
  exact g3

/-- If the exact MaxSim score of one document is greater than that of another by more than twice the rounding, it comes first. -/
theorem C61_exact_order {start : F32} (hz : IsZero start) {query : Sent} {documents : List Sent} (hwq : Words32 query) (hw : ∀ d ∈ documents, Words32 d)
    {qe : List (List Nat)} {dim : Nat} (hq : Usable qe dim ∧ Carries query qe dim) (hqu : Spec.Unit qe)
    (hd : ∀ d ∈ documents, ∃ e, Usable e dim ∧ Carries d e dim ∧ Spec.Unit e) (hsize : qe.length * dim * (qe.length + dim + 20) ≤ 2 ^ 25)
    {i j : Nat} {di dj : Sent} (hi : documents[i]? = some di) (hj : documents[j]? = some dj) {ei ej : List (List Nat)} {mi mj : ℚ}
    (hei : Usable ei dim ∧ Carries di ei dim ∧ IsMaxSim qe ei mi) (hej : Usable ej dim ∧ Carries dj ej dim ∧ IsMaxSim qe ej mj)
    (hlt : mj + 2 * rounding qe.length dim < mi) :
    ∃ rs, rerank start query documents = .ok (documents.length, rs) ∧ ∃ (a b : Nat) (si sj : F32), a < b ∧ rs[a]? = some (i, si) ∧ rs[b]? = some (j, sj) := by
  have hne : documents ≠ [] := by intro h; rw [h] at hi; simp at hi
  obtain ⟨rs, hr, hc⟩ := C61_close hz hwq hw hne hq hqu hd hsize
  obtain ⟨-, hperm⟩ := C61_each_once hr
  have hsort := C61_best_first hz hw hr
  have find : ∀ (k : Nat) (d : Sent), documents[k]? = some d → ∃ (a : Nat) (s : F32), rs[a]? = some (k, s) := by
    intro k d hk
    obtain ⟨hlt, -⟩ := List.getElem?_eq_some_iff.mp hk
    have : k ∈ rs.map Prod.fst := hperm.mem_iff.mpr (List.mem_range.mpr hlt)
    obtain ⟨⟨k', s⟩, h1, rfl⟩ := List.mem_map.mp this
    obtain ⟨a, ha⟩ := List.mem_iff_getElem?.mp h1
    exact ⟨a, s, ha⟩
  obtain ⟨a, si, ha⟩ := find i di hi
  obtain ⟨b, sj, hb⟩ := find j dj hj
  have h1 := abs_le.mp (hc i si (List.mem_of_getElem? ha) di hi ei hei.1 hei.2.1 mi hei.2.2)
  have h2 := abs_le.mp (hc j sj (List.mem_of_getElem? hb) dj hj ej hej.1 hej.2.1 mj hej.2.2)
  have hval : sj.val < si.val := by linarith [h1.1, h2.2]
  refine ⟨rs, hr, a, b, si, sj, ?_, ha, hb⟩
  by_contra hab
  rcases Nat.lt_or_eq_of_le (Nat.le_of_not_lt hab) with hba | hba
  · obtain ⟨hbl, hbe⟩ := List.getElem?_eq_some_iff.mp hb
    obtain ⟨hal, hae⟩ := List.getElem?_eq_some_iff.mp ha
    have := List.pairwise_iff_getElem.mp hsort b a hbl hal hba
    rw [hbe, hae] at this
    rcases this with h | h
    · exact absurd h (not_lt.mpr (le_of_lt hval))
    · exact absurd h.1 (ne_of_lt hval)
  · rw [hba] at hb
    rw [hb] at ha
    cases ha
    exact lt_irrefl _ hval

/-- Base64 and back, for all bytes: the embeddings of the API and the binary values that the metadata returns. -/
theorem C61_base64 (bytes : List Nat) (h : ∀ b ∈ bytes, b < 256) : decode64 (encode64 bytes) = some bytes := decode_encode bytes h

/-- Only one text is accepted for the same bytes. -/
theorem C61_base64_unique {s t : List Char} {bytes : List Nat} (hs : decode64 s = some bytes) (ht : decode64 t = some bytes) : s = t := by
  rw [(encode_decode s bytes hs).1, (encode_decode t bytes ht).1]

/-- What the server writes as base64, with the shape beside it, carries the same embeddings as the arrays of numbers. -/
theorem C61_written {e : List (List Nat)} {dim : Nat} (h : Usable e dim) (hsize : e.length * dim * 4 < 2 ^ 64) :
    Carries ⟨none, some (encodeB64 e).1, some (encodeB64 e).2⟩ e dim ∧ Carries ⟨some e, none, none⟩ e dim := by
  refine ⟨Or.inl ⟨rfl, ?_, hsize⟩, Or.inr ⟨Or.inl rfl, rfl⟩⟩
  obtain ⟨h1, h2, h3⟩ := h
  cases e with
  | nil => exact absurd rfl h1
  | cons r e =>
    show some (_, if 0 < e.length + 1 then r.length else 0) = _
    rw [if_pos (by omega), (h3 r List.mem_cons_self).1]

/-- The format does not matter: two requests that carry the same embeddings get the same answer, whichever of the two formats is used where. -/
theorem C61_formats (start : F32) {query query' : Sent} {documents documents' : List Sent} (hwq : Words32 query) (hwq' : Words32 query')
    (hw : ∀ d ∈ documents, Words32 d) (hw' : ∀ d ∈ documents', Words32 d) (hq : SameContent query query') (hd : List.Forall₂ SameContent documents documents') :
    rerank start query documents = rerank start query' documents' := by
  have one : ∀ s s' : Sent, Words32 s → Words32 s' → SameContent s s' → strictArray s = strictArray s' := by
    intro s s' h h' ⟨e, dim, h1, h2, h3⟩
    rw [(strictArray_iff s h ⟨dim, e⟩).mpr ⟨h1, h2⟩, (strictArray_iff s' h' ⟨dim, e⟩).mpr ⟨h1, h3⟩]
  have hall : ∀ dim, collect (oneDoc dim) documents = collect (oneDoc dim) documents' := by
    intro dim
    induction hd with
    | nil => rfl
    | cons h _ ih =>
      have := one _ _ (hw _ List.mem_cons_self) (hw' _ List.mem_cons_self) h
      have ih := ih (fun x hx => hw x (List.mem_cons_of_mem _ hx)) (fun x hx => hw' x (List.mem_cons_of_mem _ hx))
      unfold collect
      rw [ih]
      unfold oneDoc
      rw [this]
  have hnil : documents.isEmpty = documents'.isEmpty := by cases hd <;> rfl
  unfold rerank
  rw [hnil, one query query' hwq hwq' hq]
  simp only [hall]

/-- This is not so for the other endpoints.  They take base64 without any token, refuse the same as arrays, take an infinite number in an array (as which the
JSON number 1e39 is read), and refuse the same as base64. -/
theorem C61_formats_differ_elsewhere :
    (lenientArray ⟨none, some (encodeB64 []).1, some (0, 4)⟩ = some ⟨4, []⟩ ∧ lenientArray ⟨some [], none, none⟩ = none) ∧
    (lenientArray ⟨some [[0x7F800000]], none, none⟩ = some ⟨1, [[0x7F800000]]⟩ ∧
      lenientArray ⟨none, some (encodeB64 [[0x7F800000]]).1, some (encodeB64 [[0x7F800000]]).2⟩ = none) := by decide +kernel

/-! The hypotheses are met by the small request. -/

theorem rr_usable : Usable [[rr1, rr0], [rr0, rr1]] 2 ∧ Usable [[rrm, rr0]] 2 ∧ Usable [[rr1, rrh]] 2 ∧ Usable [[rrh, rr0], [rr0, rr1]] 2 := by
  unfold Usable
  decide +kernel

theorem rr_carries : Carries rrQuery [[rr1, rr0], [rr0, rr1]] 2 ∧ ∀ d ∈ rrDocs, ∃ e, Usable e 2 ∧ Carries d e 2 ∧ Spec.Unit e := by
  refine ⟨Or.inr ⟨Or.inl rfl, rfl⟩, ?_⟩
  intro d hd
  simp only [rrDocs, List.mem_cons, List.not_mem_nil, or_false] at hd
  rcases hd with rfl | rfl | rfl
  · exact ⟨_, rr_usable.2.1, Or.inr ⟨Or.inl rfl, rfl⟩, by unfold Spec.Unit; decide +kernel⟩
  · exact ⟨_, rr_usable.2.2.1, Or.inl ⟨by decide +kernel, rfl, by decide⟩, by unfold Spec.Unit; decide +kernel⟩
  · exact ⟨_, rr_usable.2.2.2, Or.inr ⟨Or.inl rfl, rfl⟩, by unfold Spec.Unit; decide +kernel⟩

example := C61_each_once rr_answer
example := C61_best_first (Or.inr rfl) rr_words.2 rr_answer
example := C61_scores (Or.inr rfl) rr_words.1 rr_words.2 rr_answer
example := C61_close (start := .minusZero) (Or.inr rfl) rr_words.1 rr_words.2 (by decide) ⟨rr_usable.1, rr_carries.1⟩ (by unfold Spec.Unit; decide +kernel)
  rr_carries.2 (by decide)
/-- The bound on rounding is small: for 32 query tokens of 128 columns it is below 0.022, and the size is allowed. -/
example : rounding 32 128 < 22 / 1000 ∧ 32 * 128 * (32 + 128 + 20) ≤ 2 ^ 25 := by decide +kernel
/-- The exact scores of documents 1 and 0 of the small request are far enough apart. -/
theorem rr_exact : IsMaxSim [[rr1, rr0], [rr0, rr1]] [[rr1, rrh]] (3 / 2) ∧ IsMaxSim [[rr1, rr0], [rr0, rr1]] [[rrm, rr0]] (-1) := by
  have one : ∀ (q d : List Nat) (x : ℚ), exactDot q d = x → IsGreatest {y | ∃ e ∈ [d], y = exactDot q e} x := by
    rintro q d x rfl
    exact ⟨⟨d, by simp, rfl⟩, by rintro y ⟨e, he, rfl⟩; rw [List.mem_singleton.mp he]⟩
  exact ⟨⟨[1, 1 / 2], .cons (one _ _ _ (by decide +kernel)) (.cons (one _ _ _ (by decide +kernel)) .nil), by norm_num⟩,
    ⟨[-1, 0], .cons (one _ _ _ (by decide +kernel)) (.cons (one _ _ _ (by decide +kernel)) .nil), by norm_num⟩⟩
example := C61_exact_order (start := .minusZero) (Or.inr rfl) rr_words.1 rr_words.2 ⟨rr_usable.1, rr_carries.1⟩ (by unfold Spec.Unit; decide +kernel)
  rr_carries.2 (by decide) (i := 1) (j := 0) (di := _) (dj := _) rfl rfl ⟨rr_usable.2.2.1, Or.inl ⟨by decide +kernel, rfl, by decide⟩, rr_exact.1⟩
  ⟨rr_usable.2.1, Or.inr ⟨Or.inl rfl, rfl⟩, rr_exact.2⟩ (by decide +kernel)
example := C61_written rr_usable.1 (by decide)
/-- Overflow happens: the greatest number times itself. -/
example : rerank .minusZero ⟨some [[0x7F7FFFFF]], none, none⟩ [⟨some [[0x7F7FFFFF]], none, none⟩] = .error .badRequest := by decide +kernel
/-- Mismatched dimensions are refused with both dimensions. -/
example : rerank .minusZero rrQuery [⟨some [[rr1]], none, none⟩] = .error (.dimensionMismatch 2 1) := by decide +kernel
example : decode64 (encode64 [0, 255, 17, 42]) = some [0, 255, 17, 42] := C61_base64 _ (by decide)

end NextPlaid.Props
