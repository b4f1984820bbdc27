import Verif.Proofs.MaxSim
import Mathlib.Algebra.Order.Group.Int
import Mathlib.Algebra.BigOperators.Group.List.Basic

/-!
Property theorems C19 (late-interaction score).
-/

namespace NextPlaid.Props
open NextPlaid NextPlaid.MaxSim

/-- C19, vector maximum: on every instruction set and for every slice, including slices with NaN and
infinities, the vectorised maximum equals the scalar one. -/
theorem C19_simd_max_eq_scalar {α : Type} [LinearOrder α] (arch : Arch) (slice : List (Score α)) :
    simdMax arch slice = scalarMax slice := simdMax_eq arch slice

/-- C19, meaning of the maximum: for a non-empty slice of finite values it is the greatest of them. -/
theorem C19_simd_max_is_max {α : Type} [LinearOrder α] (arch : Arch) (vals : List α) (h : vals ≠ []) :
    ∃ m ∈ vals, simdMax arch (vals.map Score.fin) = .fin m ∧ ∀ v ∈ vals, v ≤ m := by
  rw [simdMax_eq]
  obtain ⟨h1, h2⟩ := scalarMax_spec (vals.map Score.fin) (by simpa using h)
  obtain ⟨m, hm, he⟩ := List.mem_map.1 h1
  refine ⟨m, hm, he.symm, ?_⟩
  intro v hv
  have := h2 _ (List.mem_map.2 ⟨v, hv, rfl⟩)
  rw [← he] at this
  simpa using this

/-- C19: the two paths of the score computation (below and above 256 pairs) agree for all inputs,
also with NaN or infinite similarities. -/
theorem C19_paths_agree {α ε : Type} [LinearOrder α] [Add α] [Zero α] (arch : Arch)
    (sim : ε → ε → Score α) (query doc : List ε) :
    maxsimScore arch sim query doc = maxsimScoreSimple sim query doc := by
  unfold maxsimScore
  split
  · rfl
  · unfold maxsimScoreSimple
    congr 1
    funext total q
    rw [simdMax_eq]
    have hfold : doc.foldl (fun m d => if isScoreBetter (sim q d) m then sim q d else m) negInf =
        (doc.map (sim q)).foldl (fun r x => if isScoreBetter x r then x else r) negInf := by
      rw [List.foldl_map]
    rw [hfold]
    obtain ⟨t1, t2, t3⟩ := tail_fold (doc.map (sim q)) negInf _ rfl
    generalize List.foldl (fun r x => if isScoreBetter x r = true then x else r) negInf
      (List.map (sim q) doc) = r at *
    by_cases hd : doc.map (sim q) = []
    · rcases t1 with h | h
      · rw [h, hd]; rfl
      · rw [hd] at h; simp at h
    · obtain ⟨s1, s2⟩ := scalarMax_spec _ hd
      cases hs : scalarMax (doc.map (sim q)) with
      | fin a =>
        have hr : Score.ge r (.fin a) := by rw [← hs]; exact t3 _ s1
        have hmem : r ∈ doc.map (sim q) := by
          rcases t1 with h | h
          · rw [h] at hr; exact absurd hr Score.not_ge_nonfin_fin
          · exact h
        have := s2 r hmem
        rw [hs] at this
        rw [ge_antisymm_fin rfl this hr]
      | nonfin t =>
        cases hr : r with
        | fin a =>
          have hmem : r ∈ doc.map (sim q) := by
            rcases t1 with h | h
            · rw [h] at hr; cases hr
            · exact h
          have := s2 r hmem
          rw [hs, hr] at this
          exact absurd this Score.not_ge_nonfin_fin
        | nonfin u => rfl

/-- C19: for finite similarities and a document with at least one token, the score is the sum, over
the query tokens, of the greatest similarity with any document token. -/
theorem C19_score_is_sum_of_maxima {α ε : Type} [LinearOrder α] [AddMonoid α] (arch : Arch)
    (s : ε → ε → α) (query doc : List ε) (hd : doc ≠ []) :
    ∃ ms : List α, ms.length = query.length ∧
      (∀ (i : Nat) (hi : i < query.length), ∃ m, ms[i]? = some m ∧
        (∃ d ∈ doc, m = s query[i] d) ∧ ∀ d ∈ doc, s query[i] d ≤ m) ∧
      maxsimScore arch (fun q d => .fin (s q d)) query doc = ms.sum := by
  rw [C19_paths_agree]
  have hmax : ∀ q : ε, ∃ m, (∃ d ∈ doc, m = s q d) ∧ (∀ d ∈ doc, s q d ≤ m) ∧
      doc.foldl (fun acc d => if isScoreBetter (Score.fin (s q d)) acc then Score.fin (s q d) else acc)
        negInf = .fin m := by
    intro q
    have hfold : doc.foldl (fun m d => if isScoreBetter (Score.fin (s q d)) m then Score.fin (s q d)
        else m) negInf =
        (doc.map fun d => Score.fin (s q d)).foldl (fun r x => if isScoreBetter x r then x else r)
          negInf := by
      rw [List.foldl_map]
    rw [hfold]
    obtain ⟨t1, t2, t3⟩ := tail_fold (doc.map fun d => Score.fin (s q d)) negInf _ rfl
    generalize List.foldl (fun r x => if isScoreBetter x r = true then x else r) negInf
      (List.map (fun d => Score.fin (s q d)) doc) = r at *
    have hmem : r ∈ doc.map fun d => Score.fin (s q d) := by
      rcases t1 with h | h
      · obtain ⟨d, hd'⟩ := List.exists_mem_of_ne_nil doc hd
        have := t3 _ (List.mem_map.2 ⟨d, hd', rfl⟩)
        rw [h] at this
        exact absurd this Score.not_ge_nonfin_fin
      · exact h
    obtain ⟨d, hd', he⟩ := List.mem_map.1 hmem
    refine ⟨s q d, ⟨d, hd', rfl⟩, ?_, he.symm⟩
    intro d' hd''
    have := t3 _ (List.mem_map.2 ⟨d', hd'', rfl⟩)
    rw [← he] at this
    simpa using this
  have gen : ∀ (query : List ε) (total : α), ∃ ms : List α, ms.length = query.length ∧
      (∀ (i : Nat) (hi : i < query.length), ∃ m, ms[i]? = some m ∧
        (∃ d ∈ doc, m = s query[i] d) ∧ ∀ d ∈ doc, s query[i] d ≤ m) ∧
      query.foldl (fun total q => addFinite total
        (doc.foldl (fun m d => if isScoreBetter (Score.fin (s q d)) m then Score.fin (s q d) else m)
          negInf)) total = total + ms.sum := by
    intro query
    induction query with
    | nil => intro total; exact ⟨[], rfl, fun i hi => by simp at hi, by simp⟩
    | cons q query ih =>
      intro total
      obtain ⟨m, h1, h2, h3⟩ := hmax q
      obtain ⟨ms, l, hi, he⟩ := ih (total + m)
      refine ⟨m :: ms, by simp [l], ?_, ?_⟩
      · intro i hil
        cases i with
        | zero => exact ⟨m, rfl, h1, h2⟩
        | succ i => simpa using hi i (by simpa using hil)
      · rw [List.foldl_cons, h3]
        show List.foldl _ (total + m) query = _
        rw [he, List.sum_cons, add_assoc]
  obtain ⟨ms, l, hi, he⟩ := gen query 0
  exact ⟨ms, l, hi, by rw [maxsimScoreSimple, he, zero_add]⟩

/-- C19: a document without tokens scores zero, for any query. -/
theorem C19_empty_document {α ε : Type} [LinearOrder α] [Add α] [Zero α] (arch : Arch)
    (sim : ε → ε → Score α) (query : List ε) : maxsimScore arch sim query [] = 0 := by
  rw [C19_paths_agree]
  unfold maxsimScoreSimple
  have : ∀ t : α, query.foldl (fun total q => addFinite total
      (([] : List ε).foldl (fun m d => if isScoreBetter (sim q d) m then sim q d else m) negInf)) t
      = t := by
    induction query with
    | nil => intro t; rfl
    | cons q query ih => intro t; rw [List.foldl_cons]; exact ih t
  exact this 0

/-- Non-vacuity of C19: the vector path (40 elements, tail after 4x8) and a two-token score. -/
example : simdMax (α := Int) .avx2 ((List.range 43).map fun i => .fin (((i : Int) * 7) % 43)) = .fin 42 := by
  decide +kernel

example : maxsimScore (α := Int) (ε := Int) .avx2 (fun q d => .fin (q * d)) [2, -1] [3, -4] = 6 + 4 := by
  decide

end NextPlaid.Props
