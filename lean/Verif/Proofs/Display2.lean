import Verif.Proofs.Display
import Mathlib.Data.List.Chain

/-! What is printed for ranges of lines. -/

namespace NextPlaid.Display

open NextPlaid.Spec
open NextPlaid.Units (Text lines trim slice)
open NextPlaid.Rank

/-! ### Cutting lines -/

theorem truncatePlain_cut (l : Text) : Cut l (truncatePlain l maxLineWidth) := by
  unfold Cut truncatePlain maxLineWidth
  split
  · exact .inl ⟨by assumption, rfl⟩
  · exact .inr ⟨by omega, rfl⟩

theorem visible_append : ∀ (p q : Text) (seq : Bool), Complete seq p → visible seq (p ++ q) = visible seq p ++ visible false q
  | [], q, seq, h => by
    obtain rfl : seq = false := h
    rfl
  | c :: cs, q, seq, h => by
    rw [List.cons_append]
    cases seq with
    | true =>
      simp only [Complete, if_true] at h
      simp only [visible, if_true]
      exact visible_append cs q _ h
    | false =>
      simp only [Complete, Bool.false_eq_true, if_false] at h
      simp only [visible, Bool.false_eq_true, if_false]
      split
      · rename_i hc
        rw [decide_eq_true hc] at h
        exact visible_append cs q _ h
      · rename_i hc
        rw [decide_eq_false hc] at h
        rw [visible_append cs q _ h, List.cons_append]

theorem visible_reset (t : Text) : visible false (reset ++ t) = visible false t := by
  simp [reset, visible]

theorem visible_plain : ∀ l : Text, Char.ofNat 27 ∉ l → visible false l = l
  | [], _ => rfl
  | c :: cs, h => by
    simp only [List.mem_cons, not_or] at h
    simp only [visible, Bool.false_eq_true, if_false]
    rw [if_neg (fun hc => h.1 hc.symm), visible_plain cs h.2]

/-- The visible part of a text cut by `truncate_ansi_string`. -/
theorem truncateAnsi_spec : ∀ (p : Text) (seq : Bool) (room : Nat), Complete seq p →
    Complete seq (truncateAnsi seq room p) ∧
    visible seq (truncateAnsi seq room p) =
      if (visible seq p).length ≤ room then visible seq p else (visible seq p).take room ++ ellipsis
  | [], seq, room, h => by simpa [truncateAnsi, visible] using h
  | c :: cs, true, room, h => by
    simp only [Complete, if_true] at h
    obtain ⟨h1, h2⟩ := truncateAnsi_spec cs (decide (c ≠ 'm')) room h
    simp only [truncateAnsi, visible, Complete, if_true]
    exact ⟨h1, h2⟩
  | c :: cs, false, room, h => by
    simp only [Complete, Bool.false_eq_true, if_false] at h
    simp only [truncateAnsi, visible, Bool.false_eq_true, if_false]
    split
    · rename_i hc
      rw [decide_eq_true hc] at h
      obtain ⟨h1, h2⟩ := truncateAnsi_spec cs true room h
      simp only [Complete, visible, Bool.false_eq_true, if_false]
      rw [decide_eq_true hc, if_pos hc]
      exact ⟨h1, h2⟩
    · rename_i hc
      rw [decide_eq_false hc] at h
      split
      · rename_i hr
        subst hr
        simp [reset, ellipsis, visible, Complete]
      · rename_i hr
        obtain ⟨h1, h2⟩ := truncateAnsi_spec cs false (room - 1) h
        simp only [Complete, visible, Bool.false_eq_true, if_false]
        rw [decide_eq_false hc, if_neg hc]
        refine ⟨h1, ?_⟩
        obtain ⟨k, rfl⟩ : ∃ k, room = k + 1 := ⟨room - 1, by omega⟩
        rw [h2]
        simp only [Nat.add_sub_cancel, List.length_cons, Nat.add_le_add_iff_right, List.take_succ_cons]
        split <;> rfl

theorem truncateAnsi_reads {l p : Text} (hv : visible false p = l) (hc : Complete false p) :
    Cut l (visible false (truncateAnsi false maxLineWidth p ++ reset)) := by
  obtain ⟨h1, h2⟩ := truncateAnsi_spec p false maxLineWidth hc
  rw [visible_append _ _ _ h1, h2, hv, show visible false reset = [] from rfl, List.append_nil]
  unfold Cut maxLineWidth
  split
  · exact .inl ⟨by assumption, rfl⟩
  · exact .inr ⟨by omega, rfl⟩

/-! ### Numbered lines -/

/-- The highlighter, if there is one, only adds colours. -/
def Faithful (paint : Option (List Text → List Text)) : Prop := ∀ f, paint = some f → OnlyColours f

theorem printLines_eq {paint : Option (List Text → List Text)} (hf : Faithful paint) (first : Nat) (ls : List Text) :
    ∃ ts : List Text, ts.length = ls.length ∧ printLines paint first ls = ts.zipIdx.map (fun p => .code (first + p.2 + 1) p.1) ∧
      ∀ (i : Nat) (l t : Text), ls[i]? = some l → ts[i]? = some t → Reads paint l t := by
  cases paint with
  | none =>
    refine ⟨ls.map fun l => truncatePlain l maxLineWidth, by simp, ?_, ?_⟩
    · simp [printLines, List.zipIdx_map, Function.comp_def]
    · intro i l t hl ht
      rw [List.getElem?_map, hl] at ht
      obtain rfl : truncatePlain l maxLineWidth = t := by simpa using ht
      exact truncatePlain_cut l
  | some f =>
    obtain ⟨h1, h2⟩ := hf f rfl ls
    refine ⟨(f ls).map fun p => truncateAnsi false maxLineWidth p ++ reset, by simpa using h1, ?_, ?_⟩
    · simp [printLines, List.zipIdx_map, Function.comp_def]
    · intro i l t hl ht hesc
      rw [List.getElem?_map] at ht
      cases hp : (f ls)[i]? with
      | none => rw [hp] at ht; simp at ht
      | some p =>
        rw [hp] at ht
        obtain rfl : truncateAnsi false maxLineWidth p ++ reset = t := by simpa using ht
        obtain ⟨hv, hc⟩ := h2 i l p hl hesc hp
        exact truncateAnsi_reads hv hc

theorem numbers_append (a b : List Out) : numbers (a ++ b) = numbers a ++ numbers b := by simp [numbers]

theorem numbers_zip (first : Nat) : ∀ (ts : List Text) (k : Nat),
    numbers ((ts.zipIdx k).map fun p => .code (first + p.2 + 1) p.1) = List.range' (first + k + 1) ts.length
  | [], k => by simp [numbers]
  | t :: ts, k => by
    have := numbers_zip first ts (k + 1)
    simp only [List.zipIdx_cons, List.map_cons, List.length_cons, List.range'_succ]
    unfold numbers at this ⊢
    rw [List.filterMap_cons]
    simp only
    rw [this]
    rfl

/-- The printed lines of a range. -/
structure Block (paint : Option (List Text → List Text)) (file : List Text) (a b : Nat) (out : List Out) : Prop where
  only : ∀ x ∈ out, ∃ n l t, x = .code n t ∧ a < n ∧ n ≤ b ∧ file[n - 1]? = some l ∧ Reads paint l t
  nums : numbers out = List.range' (a + 1) (b - a)
  noGap : out.IsChain fun x y => ∀ n t n' t', x = .code n t → y = .code n' t' → n' = n + 1
  last : ∀ x ∈ out.getLast?, ∀ n t, x = .code n t → n = b

theorem chain_zip (first : Nat) : ∀ (ts : List Text) (k : Nat),
    ((ts.zipIdx k).map fun p => Out.code (first + p.2 + 1) p.1).IsChain
      fun x y => ∀ n t n' t', x = .code n t → y = .code n' t' → n' = n + 1
  | [], k => by simp
  | [t], k => by simp
  | t :: t' :: ts, k => by
    have := chain_zip first (t' :: ts) (k + 1)
    simp only [List.zipIdx_cons, List.map_cons] at this ⊢
    rw [List.isChain_cons_cons]
    refine ⟨?_, this⟩
    intro n s n' s' h h'
    simp only [Out.code.injEq] at h h'
    omega

theorem printLines_block {paint : Option (List Text → List Text)} (hf : Faithful paint) {file : List Text} {a b : Nat}
    (hab : a ≤ b) (hb : b ≤ file.length) : Block paint file a b (printLines paint a ((file.drop a).take (b - a))) := by
  obtain ⟨ts, h1, h2, h3⟩ := printLines_eq hf a ((file.drop a).take (b - a))
  have hlen : ts.length = b - a := by rw [h1, List.length_take, List.length_drop]; omega
  rw [h2]
  refine ⟨?_, ?_, chain_zip a ts 0, ?_⟩
  · intro x hx
    obtain ⟨⟨t, i⟩, hti, rfl⟩ := List.mem_map.1 hx
    rw [List.mk_mem_zipIdx_iff_getElem?] at hti
    have hi : i < b - a := by rw [← hlen]; exact (List.getElem?_eq_some_iff.1 hti).1
    have hl : ((file.drop a).take (b - a))[i]? = some (file[a + i]'(by omega)) := by
      rw [List.getElem?_take_of_lt hi, List.getElem?_drop, List.getElem?_eq_getElem]
    exact ⟨_, file[a + i]'(by omega), t, rfl, by simp only; omega, by simp only; omega,
      by simp only [Nat.add_sub_cancel]; exact List.getElem?_eq_getElem _, h3 i _ t hl hti⟩
  · have := numbers_zip a ts 0
    rw [this, hlen]
  · intro x hx n t hxn
    rw [List.getLast?_map] at hx
    cases hz : ts.zipIdx.getLast? with
    | none => rw [hz] at hx; simp at hx
    | some q =>
      rw [hz] at hx
      have hq : q.2 = ts.length - 1 ∧ ts ≠ [] := by
        rw [List.getLast?_eq_getElem?, List.length_zipIdx, List.getElem?_zipIdx] at hz
        cases hg : ts[ts.length - 1]? with
        | none => rw [hg] at hz; simp at hz
        | some y =>
          rw [hg] at hz
          simp only [Option.map_some, Option.some.injEq] at hz
          refine ⟨by rw [← hz]; simp, ?_⟩
          rintro rfl; simp at hg
      have hpos : 0 < ts.length := List.length_pos_iff.2 hq.2
      simp only [Option.map_some, Option.mem_def, Option.some.injEq] at hx
      rw [hxn] at hx
      simp only [Out.code.injEq] at hx
      omega

/-! ### Ranges -/

theorem slice_ok {ls : List Text} {a b : Nat} (h : a ≤ b) (hb : b ≤ ls.length) :
    slice ls a b = .ok ((ls.drop a).take (b - a)) := by
  unfold slice; rw [if_pos ⟨h, hb⟩]

/-- What is printed for ranges that follow each other. -/
theorem printRanges_spec {paint : Option (List Text → List Text)} (hf : Faithful paint) {file : List Text} {z : Nat}
    (hz : z ≤ file.length) : ∀ (rs : List (Nat × Nat)) (a : Nat), Orderly a z rs →
    ∃ out, printRanges paint file z rs = .ok out ∧
      (∀ x ∈ out, x = .dots ∨ ∃ n l t, x = .code n t ∧ a + 1 ≤ n ∧ n ≤ z ∧ file[n - 1]? = some l ∧ Reads paint l t) ∧
      (numbers out).Pairwise (· < ·) ∧
      (out.IsChain fun x y => ∀ n t n' t', x = .code n t → y = .code n' t' → n' = n + 1) ∧
      (∀ x ∈ out.getLast?, ∀ n t, x = .code n t → n = z) ∧
      (∀ k, k ∈ numbers out ↔ Within rs k) ∧ numbers out = rs.flatMap fun r => List.range' (r.1 + 1) (r.2 - r.1)
  | [], a, _ => ⟨[], rfl, by simp, by simp [numbers], by simp, by simp, by simp [numbers, Within], by simp [numbers]⟩
  | r :: rest, a, h => by
    obtain ⟨hb, hp⟩ := h
    rw [List.pairwise_cons] at hp
    obtain ⟨hr1, hr2, hr3⟩ := hb r (by simp)
    obtain ⟨more, m1, m2, m3, m4, m5, m6, m7⟩ := printRanges_spec hf hz rest r.2
      ⟨fun x hx => ⟨hp.1 x hx, (hb x (by simp [hx])).2⟩, hp.2⟩
    rw [printRanges]
    split
    · rename_i hlen
      have h0 : r.2 = r.1 := by omega
      refine ⟨more, m1, ?_, m3, m4, m5, ?_, ?_⟩
      · intro x hx
        rcases m2 x hx with h | ⟨n, l, t, a1, a2, a3⟩
        · exact .inl h
        · exact .inr ⟨n, l, t, a1, by omega, a3⟩
      · intro k
        rw [m6]
        simp only [Within, List.mem_cons, exists_eq_or_imp]
        constructor
        · exact .inr
        · rintro (h | h)
          · omega
          · exact h
      · simp [m7, h0]
    · rename_i hlen
      rw [min_eq_left (by omega : r.1 ≤ file.length), min_eq_left (by omega : r.2 ≤ file.length)]
      rw [slice_ok hr2 (by omega), m1]
      obtain ⟨b1, b2, b3, b4⟩ := printLines_block hf (file := file) (a := r.1) (b := r.2) hr2 (by omega)
      have hdots : ∀ d : List Out, d = [] ∨ d = [.dots] → numbers d = [] := by
        rintro d (rfl | rfl) <;> simp [numbers]
      have hd : (if rest ≠ [] ∨ r.2 < z then [Out.dots] else []) = [] ∨ (if rest ≠ [] ∨ r.2 < z then [Out.dots] else []) = [.dots] := by
        split <;> simp
      have hnum : numbers (printLines paint r.1 ((file.drop r.1).take (r.2 - r.1)) ++
          (if rest ≠ [] ∨ r.2 < z then [Out.dots] else []) ++ more) =
          List.range' (r.1 + 1) (r.2 - r.1) ++ numbers more := by
        rw [numbers_append, numbers_append, hdots _ hd, b2, List.append_nil]
      refine ⟨_, rfl, ?_, ?_, ?_, ?_, ?_, ?_⟩
      · intro x hx
        rcases List.mem_append.1 hx with hx | hx
        · rcases List.mem_append.1 hx with hx | hx
          · obtain ⟨n, l, t, a1, a2, a3, a4⟩ := b1 x hx
            exact .inr ⟨n, l, t, a1, by omega, by omega, a4⟩
          · left
            split at hx <;> simp at hx
            exact hx
        · rcases m2 x hx with h | ⟨n, l, t, a1, a2, a3⟩
          · exact .inl h
          · exact .inr ⟨n, l, t, a1, by omega, a3⟩
      · rw [hnum, List.pairwise_append]
        refine ⟨List.pairwise_lt_range', m3, ?_⟩
        intro x hx y hy
        rw [List.mem_range'_1] at hx
        obtain ⟨s, hs, h1, _⟩ := (m6 y).1 hy
        have := hp.1 s hs
        omega
      · cases hrest : rest with
        | nil =>
          subst hrest
          obtain rfl : [] = more := by simpa [printRanges] using m1
          rw [List.append_nil]
          split
          · rw [List.isChain_append]
            exact ⟨b3, by simp, by simp⟩
          · simpa using b3
        | cons s ss =>
          rw [if_pos (.inl (by simp))]
          rw [List.append_assoc, List.isChain_append]
          refine ⟨b3, ?_, by simp⟩
          rw [List.singleton_append]
          cases more with
          | nil => simp
          | cons y ys =>
            rw [List.isChain_cons_cons]
            exact ⟨by simp, m4⟩
      · cases hrest : rest with
        | nil =>
          subst hrest
          obtain rfl : [] = more := by simpa [printRanges] using m1
          rw [List.append_nil]
          split
          · simp
          · rename_i hzz
            rw [List.append_nil]
            intro x hx n t hxn
            have := b4 x hx n t hxn
            simp only [ne_eq, not_true_eq_false, false_or, not_lt] at hzz
            omega
        | cons s ss =>
          rw [if_pos (.inl (by simp))]
          cases more with
          | nil => simp
          | cons y ys =>
            rw [List.getLast?_append]
            intro x hx n t hxn
            refine m5 x ?_ n t hxn
            cases hl : (y :: ys).getLast? with
            | none => simp at hl
            | some q => rw [hl] at hx; simpa using hx
      · intro k
        rw [hnum, List.mem_append, List.mem_range'_1, m6]
        simp only [Within, List.mem_cons, exists_eq_or_imp]
        constructor
        · rintro (h | h)
          · left; omega
          · exact .inr h
        · rintro (h | h)
          · left; omega
          · exact .inr h
      · rw [hnum, m7, List.flatMap_cons]

/-- Where `...` stands: between two ranges, or after the last one if it does not reach the end. -/
theorem printRanges_dots {paint : Option (List Text → List Text)} (hf : Faithful paint) {file : List Text} {z : Nat}
    (hz : z ≤ file.length) : ∀ (rs : List (Nat × Nat)) (a : Nat), Orderly a z rs → (∀ r ∈ rs.tail, r.1 < r.2) →
    ∀ out, printRanges paint file z rs = .ok out →
      (∀ i n t n' t', out[i]? = some (.code n t) → out[i + 1]? = some .dots → out[i + 2]? = some (.code n' t') →
        ∃ r s, [r, s] <:+: rs ∧ n = r.2 ∧ n' = s.1 + 1) ∧
      (∀ i n t, out[i]? = some (.code n t) → out[i + 1]? = some .dots → out.length = i + 2 → n < z)
  | [], a, _, _, out, ho => by
    obtain rfl : [] = out := by simpa [printRanges] using ho
    simp
  | r :: rest, a, h, ht, out, ho => by
    obtain ⟨hb, hp⟩ := h
    rw [List.pairwise_cons] at hp
    obtain ⟨hr1, hr2, hr3⟩ := hb r (by simp)
    have ho' : Orderly r.2 z rest := ⟨fun x hx => ⟨hp.1 x hx, (hb x (by simp [hx])).2⟩, hp.2⟩
    obtain ⟨more, m1, m2, m3, m4, m5, m6, m7⟩ := printRanges_spec hf hz rest r.2 ho'
    obtain ⟨ih1, ih2⟩ := printRanges_dots hf hz rest r.2 ho' (fun x hx => ht x (List.mem_of_mem_tail hx)) more m1
    simp only [List.tail_cons] at ht
    rw [printRanges] at ho
    split at ho
    · rename_i hlen
      obtain rfl : rest = [] := by
        cases rest with
        | nil => rfl
        | cons s ss =>
          have h1 := ht s (by simp)
          have h2 := hp.1 s (by simp)
          have h3 := (hb s (by simp)).2.2
          omega
      obtain rfl : [] = out := by simpa [printRanges] using ho
      simp
    · rename_i hlen
      rw [min_eq_left (by omega : r.1 ≤ file.length), min_eq_left (by omega : r.2 ≤ file.length),
        slice_ok hr2 (by omega), m1] at ho
      obtain ⟨b1, b2, b3, b4⟩ := printLines_block hf (file := file) (a := r.1) (b := r.2) hr2 (by omega)
      have hout : printLines paint r.1 ((file.drop r.1).take (r.2 - r.1)) ++
          ((if rest ≠ [] ∨ r.2 < z then [Out.dots] else []) ++ more) = out := by
        simpa [Except.bind] using ho
      clear ho
      generalize printLines paint r.1 ((file.drop r.1).take (r.2 - r.1)) = B at hout b1 b2 b3 b4
      have hnd : ∀ i : Nat, i < B.length → B[i]? ≠ some .dots := by
        intro i hi h
        obtain ⟨n, l, t, hc, _⟩ := b1 _ (List.mem_of_getElem? h)
        simp at hc
      have hlast : ∀ i n t, out[i]? = some (.code n t) → i + 1 = B.length → n = r.2 := by
        intro i n t hi hl
        rw [← hout, List.getElem?_append_left (by omega)] at hi
        refine b4 _ ?_ n t rfl
        rw [List.getLast?_eq_getElem?, show B.length - 1 = i by omega]
        exact hi
      by_cases hd : rest ≠ [] ∨ r.2 < z
      · rw [if_pos hd] at hout
        have hlow : ∀ i n t, out[i]? = some (.code n t) → out[i + 1]? = some .dots → i + 1 = B.length ∨ B.length + 1 ≤ i := by
          intro i n t h1 h2
          by_contra hc
          by_cases hi : i = B.length
          · subst hi
            rw [← hout, List.getElem?_append_right (by omega)] at h1
            simp at h1
          · have : i + 1 < B.length := by omega
            rw [← hout, List.getElem?_append_left this] at h2
            exact hnd _ this h2
        have hmore : ∀ j, out[B.length + 1 + j]? = more[j]? := by
          intro j
          rw [← hout, List.getElem?_append_right (by omega), show B.length + 1 + j - B.length = j + 1 by omega]
          simp
        constructor
        · intro i n t n' t' h1 h2 h3
          rcases hlow i n t h1 h2 with hl | hl
          · have hn := hlast i n t h1 hl
            have h4 := hmore 0
            rw [show B.length + 1 + 0 = i + 2 by omega, h3] at h4
            cases rest with
            | nil =>
              obtain rfl : [] = more := by simpa [printRanges] using m1
              simp at h4
            | cons s ss =>
              refine ⟨r, s, ⟨[], ss, by simp⟩, hn, ?_⟩
              cases more with
              | nil => simp at h4
              | cons y ys =>
                simp at h4
                subst h4
                have h5 := ht s (by simp)
                obtain ⟨k, hk⟩ : ∃ k, s.2 - s.1 = k + 1 := ⟨s.2 - s.1 - 1, by omega⟩
                rw [List.flatMap_cons, hk, List.range'_succ] at m7
                simp [numbers] at m7
                exact m7.1
          · obtain ⟨j, rfl⟩ : ∃ j, i = B.length + 1 + j := ⟨i - (B.length + 1), by omega⟩
            rw [hmore] at h1
            rw [show B.length + 1 + j + 1 = B.length + 1 + (j + 1) by omega, hmore] at h2
            rw [show B.length + 1 + j + 2 = B.length + 1 + (j + 2) by omega, hmore] at h3
            obtain ⟨r', s', h4, h5⟩ := ih1 j n t n' t' h1 h2 h3
            exact ⟨r', s', h4.trans (List.suffix_cons _ _).isInfix, h5⟩
        · intro i n t h1 h2 h3
          have hlen : out.length = B.length + 1 + more.length := by rw [← hout]; simp; omega
          rcases hlow i n t h1 h2 with hl | hl
          · rw [hlast i n t h1 hl]
            have hm : more = [] := List.eq_nil_of_length_eq_zero (by omega)
            rcases hd with hd | hd
            · exfalso
              cases rest with
              | nil => exact hd rfl
              | cons s ss =>
                have h5 := ht s (by simp)
                have := (m6 (s.1 + 1)).2 ⟨s, by simp, by omega, by omega⟩
                rw [hm] at this
                simp [numbers] at this
            · exact hd
          · obtain ⟨j, rfl⟩ : ∃ j, i = B.length + 1 + j := ⟨i - (B.length + 1), by omega⟩
            rw [hmore] at h1
            rw [show B.length + 1 + j + 1 = B.length + 1 + (j + 1) by omega, hmore] at h2
            exact ih2 j n t h1 h2 (by omega)
      · rw [if_neg hd] at hout
        simp only [not_or, not_not] at hd
        obtain rfl := hd.1
        obtain rfl : [] = more := by simpa [printRanges] using m1
        simp only [List.append_nil] at hout
        subst hout
        have : ∀ i : Nat, B[i]? ≠ some Out.dots := by
          intro i h
          obtain ⟨hi, _⟩ := List.getElem?_eq_some_iff.1 h
          exact hnd i hi h
        exact ⟨fun i n t n' t' _ h2 => absurd h2 (this _), fun i n t _ h2 => absurd h2 (this _)⟩

end NextPlaid.Display
