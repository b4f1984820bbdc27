import Verif.Spec.Rerank
import Verif.Proofs.Single
import Verif.Proofs.Npy
import Mathlib.Tactic.Linarith
import Mathlib.Tactic.Ring
import Mathlib.Tactic.NormNum
import Mathlib.Tactic.Positivity

/-!
Proofs for reranking: scores.
-/

namespace NextPlaid.Rerank
open Single Spec

theorem floatDot_eq (start : F32) (q d : List Nat) : dot start q d = floatDot start q d := rfl

theorem grid_fold (l : List F32) (hl : ∀ x ∈ l, F32.Grid x) : ∀ a, F32.Grid a → F32.Grid (l.foldl F32.add a) := by
  induction l with
  | nil => intro a ha; exact ha
  | cons x l ih =>
    intro a ha
    exact ih (fun y hy => hl y (List.mem_cons_of_mem _ hy)) _ (F32.grid_add ha (hl x List.mem_cons_self))

theorem grid_start {start : F32} (h : IsZero start) : F32.Grid start := by
  rcases h with h | h <;> subst h
  · exact F32.grid_zero
  · exact F32.grid_minus

theorem grid_dot {start : F32} (h : IsZero start) (q d : List Nat) : F32.Grid (dot start q d) := by
  unfold dot
  apply grid_fold _ _ _ (grid_start h)
  intro x hx
  rw [List.zipWith_eq_zipWith_take_min] at hx
  rw [← List.map_uncurry_zip_eq_zipWith] at hx
  obtain ⟨p, -, rfl⟩ := List.mem_map.mp hx
  exact F32.grid_mul _ _

/-! ### The best similarity -/

theorem gt_finite {a b : F32} (ha : a.isFinite = true) (hb : b.isFinite = true) : F32.gt a b = decide (b.val < a.val) := by
  cases a <;> cases b <;> simp only [F32.isFinite, Bool.false_eq_true] at ha hb <;> rfl

theorem gt_negInf {a : F32} (ha : a.isFinite = true) : F32.gt a (.inf true) = true := by
  cases a <;> simp only [F32.isFinite, Bool.false_eq_true] at ha <;> rfl

theorem bestSim_ok {start : F32} {q : List Nat} : ∀ {ds : List (List Nat)} {m r : F32}, m.isFinite = true → bestSim start q ds m = .ok r →
    r.isFinite = true ∧ m.val ≤ r.val ∧ (r = m ∨ ∃ d ∈ ds, r = dot start q d) ∧
    ∀ d ∈ ds, (dot start q d).isFinite = true ∧ (dot start q d).val ≤ r.val := by
  intro ds
  induction ds with
  | nil =>
    intro m r hm h
    unfold bestSim at h
    cases h
    exact ⟨hm, le_refl _, Or.inl rfl, by simp⟩
  | cons d ds ih =>
    intro m r hm h
    unfold bestSim at h
    split at h
    · rename_i hd
      by_cases hg : F32.gt (dot start q d) m = true
      · rw [if_pos hg] at h
        obtain ⟨h1, h2, h3, h4⟩ := ih hd h
        rw [gt_finite hd hm, decide_eq_true_eq] at hg
        refine ⟨h1, le_trans (le_of_lt hg) h2, ?_, ?_⟩
        · right
          rcases h3 with h3 | ⟨e, he, h3⟩
          · exact ⟨d, List.mem_cons_self, h3⟩
          · exact ⟨e, List.mem_cons_of_mem _ he, h3⟩
        · intro e he
          rcases List.mem_cons.mp he with rfl | he
          · exact ⟨hd, h2⟩
          · exact h4 e he
      · rw [if_neg hg] at h
        obtain ⟨h1, h2, h3, h4⟩ := ih hm h
        rw [gt_finite hd hm, decide_eq_true_eq, not_lt] at hg
        refine ⟨h1, h2, ?_, ?_⟩
        · rcases h3 with h3 | ⟨e, he, h3⟩
          · exact Or.inl h3
          · exact Or.inr ⟨e, List.mem_cons_of_mem _ he, h3⟩
        · intro e he
          rcases List.mem_cons.mp he with rfl | he
          · exact ⟨hd, le_trans hg h2⟩
          · exact h4 e he
    · cases h

theorem bestSim_first {start : F32} {q : List Nat} {ds : List (List Nat)} {r : F32} (hne : ds ≠ []) (h : bestSim start q ds (.inf true) = .ok r) :
    r.isFinite = true ∧ (∃ d ∈ ds, r = dot start q d) ∧ ∀ d ∈ ds, (dot start q d).isFinite = true ∧ (dot start q d).val ≤ r.val := by
  cases ds with
  | nil => exact absurd rfl hne
  | cons d ds =>
    unfold bestSim at h
    split at h
    · rename_i hd
      rw [if_pos (gt_negInf hd)] at h
      obtain ⟨h1, h2, h3, h4⟩ := bestSim_ok hd h
      refine ⟨h1, ?_, ?_⟩
      · rcases h3 with h3 | ⟨e, he, h3⟩
        · exact ⟨d, List.mem_cons_self, h3⟩
        · exact ⟨e, List.mem_cons_of_mem _ he, h3⟩
      · intro e he
        rcases List.mem_cons.mp he with rfl | he
        · exact ⟨hd, h2⟩
        · exact h4 e he
    · cases h

theorem bestSim_total {start : F32} {q : List Nat} : ∀ (ds : List (List Nat)) (m : F32), (∀ d ∈ ds, (dot start q d).isFinite = true) →
    ∃ r, bestSim start q ds m = .ok r := by
  intro ds
  induction ds with
  | nil => intro m _; exact ⟨m, rfl⟩
  | cons d ds ih =>
    intro m h
    unfold bestSim
    rw [if_pos (h d List.mem_cons_self)]
    exact ih _ (fun e he => h e (List.mem_cons_of_mem _ he))

/-! ### The sum -/

theorem addSims_ok {start : F32} (hs : IsZero start) {doc : List (List Nat)} (hne : doc ≠ []) : ∀ {qs : List (List Nat)} {total s : F32}, F32.Plain total →
    addSims start doc qs total = .ok s → F32.Plain s ∧ ∃ best : List F32,
      List.Forall₂ (fun q b => (∃ d ∈ doc, b = floatDot start q d) ∧ ∀ d ∈ doc, (floatDot start q d).val ≤ b.val) qs best ∧ s = best.foldl F32.add total := by
  intro qs
  induction qs with
  | nil =>
    intro total s ht h
    unfold addSims at h
    cases h
    exact ⟨ht, [], .nil, rfl⟩
  | cons q qs ih =>
    intro total s ht h
    unfold addSims at h
    split at h
    · cases h
    · rename_i m hm
      obtain ⟨h1, ⟨d, hd, h2⟩, h3⟩ := bestSim_first hne hm
      rw [if_pos (gt_negInf h1)] at h
      split at h
      · rename_i hf
        have hp := F32.plain_add ht (b := m) (by rw [h2]; exact grid_dot hs q d) hf
        obtain ⟨hps, best, hb, hsum⟩ := ih hp h
        exact ⟨hps, m :: best, .cons ⟨⟨d, hd, h2⟩, fun e he => (h3 e he).2⟩ hb, hsum⟩
      · cases h

/-! ### Rounding -/

theorem dot_close_aux (start : F32) : ∀ (q d : List Nat) (acc : F32) (i n : Nat) (P : ℚ), i + (List.zipWith (fun a b => number a * number b) q d).length ≤ n →
    n * (n + 10) ≤ 2 ^ 25 → acc.isFinite = true → |acc.val - P| ≤ ((i * (i + 10) : Nat) : ℚ) / 2 ^ 25 → |P| ≤ i →
    (∀ f ∈ q, (F32.ofBits f).isFinite = true ∧ |number f| ≤ 1) → (∀ f ∈ d, (F32.ofBits f).isFinite = true ∧ |number f| ≤ 1) →
    ((List.zipWith (fun a b => F32.mul (F32.ofBits a) (F32.ofBits b)) q d).foldl F32.add acc).isFinite = true ∧
    |((List.zipWith (fun a b => F32.mul (F32.ofBits a) (F32.ofBits b)) q d).foldl F32.add acc).val - (P + exactDot q d)| ≤ ((n * (n + 10) : Nat) : ℚ) / 2 ^ 25 ∧
    |P + exactDot q d| ≤ n := by
  intro q
  induction q with
  | nil =>
    intro d acc i n P hn hb hf ha hP hq hd
    simp only [exactDot, List.zipWith_nil_left, List.foldl_nil, List.sum_nil, add_zero, List.length_nil] at hn ⊢
    refine ⟨hf, le_trans ha ?_, le_trans hP (by exact_mod_cast hn)⟩
    apply div_le_div_of_nonneg_right _ (by positivity)
    exact_mod_cast Nat.mul_le_mul hn (Nat.add_le_add_right hn 10)
  | cons a q ih =>
    intro d acc i n P hn hb hf ha hP hq hd
    cases d with
    | nil =>
      simp only [exactDot, List.zipWith_nil_right, List.foldl_nil, List.sum_nil, add_zero, List.length_nil] at hn ⊢
      refine ⟨hf, le_trans ha ?_, le_trans hP (by exact_mod_cast hn)⟩
      apply div_le_div_of_nonneg_right _ (by positivity)
      exact_mod_cast Nat.mul_le_mul hn (Nat.add_le_add_right hn 10)
    | cons b d =>
      simp only [List.zipWith_cons_cons, List.length_cons, List.foldl_cons] at hn ⊢
      obtain ⟨fa, ua⟩ := hq a List.mem_cons_self
      obtain ⟨fb, ub⟩ := hd b List.mem_cons_self
      have hp : |number a * number b| ≤ 1 := by
        rw [abs_mul]
        exact mul_le_one₀ ua (abs_nonneg _) ub
      have hin : i + 1 ≤ n := by omega
      have hmul := F32.mul_spec fa fb (by
        show |number a * number b| ≤ 2 ^ 100
        exact le_trans hp (by norm_num))
      have hmul2 : |(F32.mul (F32.ofBits a) (F32.ofBits b)).val - number a * number b| ≤ F32.slack (number a * number b) := hmul.2
      set m := F32.mul (F32.ofBits a) (F32.ofBits b) with hm
      have hm1 : |m.val - number a * number b| ≤ 2 ^ (-24 : Int) + 2 ^ (-150 : Int) := by
        refine le_trans hmul2 ?_
        unfold F32.slack
        have := mul_le_mul_of_nonneg_right hp (show (0 : ℚ) ≤ 2 ^ (-24 : Int) by positivity)
        linarith
      have hiN : ((i * (i + 10) : Nat) : ℚ) / 2 ^ 25 ≤ 1 := by
        rw [div_le_one (by positivity)]
        have : i * (i + 10) ≤ n * (n + 10) := Nat.mul_le_mul (by omega) (by omega)
        exact_mod_cast le_trans this hb
      have h24 : (2 : ℚ) ^ (-24 : Int) = 1 / 16777216 := by norm_num
      have h150 : (2 : ℚ) ^ (-150 : Int) ≤ 1 / 16777216 / 16 := by norm_num
      have h150p : (0 : ℚ) ≤ 2 ^ (-150 : Int) := by positivity
      rw [h24] at hm1
      rw [abs_le] at hp ha hP hm1
      have hin' : (i : ℚ) + 1 ≤ 5793 := by
        have : i + 1 ≤ 5793 := by
          by_contra hc
          have h1 : 5793 * 5803 ≤ n * (n + 10) := Nat.mul_le_mul (by omega) (by omega)
          omega
        exact_mod_cast this
      have hsum : |acc.val + m.val| ≤ i + 3 := by
        rw [abs_le]
        constructor <;> linarith [ha.1, ha.2, hP.1, hP.2, hp.1, hp.2, hm1.1, hm1.2]
      have hadd := F32.add_spec hf hmul.1 (le_trans hsum (by linarith))
      have hs2 : F32.slack (acc.val + m.val) ≤ (i + 3) / 16777216 + 2 ^ (-150 : Int) := by
        unfold F32.slack
        rw [h24]
        linarith
      have ha2 := le_trans hadd.2 hs2
      rw [abs_le] at ha2
      have := ih d (F32.add acc m) (i + 1) n (P + number a * number b) (by omega) hb hadd.1 (by
        push_cast at ha ⊢
        rw [abs_le]
        have e : ((i : ℚ) + 1) * (i + 1 + 10) / 2 ^ 25 = (i : ℚ) * (i + 10) / 2 ^ 25 + (2 * i + 11) / 2 / 16777216 := by
          field_simp
          ring
        rw [e]
        constructor <;> linarith [ha.1, ha.2, ha2.1, ha2.2, hm1.1, hm1.2]) (by
        push_cast
        rw [abs_le]
        constructor <;> linarith [hP.1, hP.2, hp.1, hp.2]) (fun f hf => hq f (List.mem_cons_of_mem _ hf)) (fun f hf => hd f (List.mem_cons_of_mem _ hf))
      have e : P + number a * number b + exactDot q d = P + exactDot (a :: q) (b :: d) := by
        simp only [exactDot, List.zipWith_cons_cons, List.sum_cons]
        ring
      rw [e] at this
      exact this

theorem dot_close {start : F32} (hs : IsZero start) {q d : List Nat} {n : Nat} (hq : q.length ≤ n) (hb : n * (n + 10) ≤ 2 ^ 25)
    (hq1 : ∀ f ∈ q, (F32.ofBits f).isFinite = true ∧ |number f| ≤ 1) (hd1 : ∀ f ∈ d, (F32.ofBits f).isFinite = true ∧ |number f| ≤ 1) :
    (dot start q d).isFinite = true ∧ |(dot start q d).val - exactDot q d| ≤ ((n * (n + 10) : Nat) : ℚ) / 2 ^ 25 ∧ |exactDot q d| ≤ n := by
  have hz : start.isFinite = true ∧ start.val = 0 := by rcases hs with h | h <;> subst h <;> exact ⟨rfl, rfl⟩
  have := dot_close_aux start q d start 0 n 0 (by simp only [List.length_zipWith]; omega) hb hz.1 (by rw [hz.2]; simp) (by simp) hq1 hd1
  rw [zero_add] at this
  exact this

/-- A bound on one dot product. -/
theorem best_close {doc : List (List Nat)} {start : F32} {q : List Nat} {e : ℚ} (h : ∀ d ∈ doc, |(dot start q d).val - exactDot q d| ≤ e)
    {r : F32} (hr : ∃ d ∈ doc, r = dot start q d) (hmax : ∀ d ∈ doc, (dot start q d).val ≤ r.val)
    {b : ℚ} (hb : IsGreatest {x | ∃ d ∈ doc, x = exactDot q d} b) : |r.val - b| ≤ e := by
  obtain ⟨d, hd, hrd⟩ := hr
  obtain ⟨⟨d', hd', hbd⟩, hub⟩ := hb
  have h1 := hub ⟨d, hd, rfl⟩
  have h2 := hmax d' hd'
  have h3 := abs_le.mp (h d hd)
  have h4 := abs_le.mp (h d' hd')
  rw [hrd] at h2 ⊢
  rw [hbd] at h1 ⊢
  rw [abs_le]
  constructor <;> linarith [h3.1, h3.2, h4.1, h4.2]

theorem exists_greatest {doc : List (List Nat)} (hne : doc ≠ []) (f : List Nat → ℚ) : ∃ b, IsGreatest {x | ∃ d ∈ doc, x = f d} b := by
  induction doc with
  | nil => exact absurd rfl hne
  | cons d doc ih =>
    by_cases h : doc = []
    · subst h
      exact ⟨f d, ⟨d, by simp, rfl⟩, by rintro x ⟨e, he, rfl⟩; rw [List.mem_singleton.mp he]⟩
    · obtain ⟨b, ⟨d', hd', rfl⟩, hub⟩ := ih h
      rcases le_total (f d) (f d') with hl | hl
      · refine ⟨f d', ⟨d', List.mem_cons_of_mem _ hd', rfl⟩, ?_⟩
        rintro x ⟨e, he, rfl⟩
        rcases List.mem_cons.mp he with rfl | he
        · exact hl
        · exact hub ⟨e, he, rfl⟩
      · refine ⟨f d, ⟨d, List.mem_cons_self, rfl⟩, ?_⟩
        rintro x ⟨e, he, rfl⟩
        rcases List.mem_cons.mp he with rfl | he
        · exact le_refl _
        · exact le_trans (hub ⟨e, he, rfl⟩) hl

theorem addSims_close {start : F32} (hs : IsZero start) {doc : List (List Nat)} (hne : doc ≠ []) {dim : Nat} (hdim : 0 < dim)
    (hdoc : ∀ d ∈ doc, ∀ f ∈ d, (F32.ofBits f).isFinite = true ∧ |number f| ≤ 1) :
    ∀ (qs : List (List Nat)) (total : F32) (t n : Nat) (S : ℚ), t + qs.length ≤ n → n * dim * (n + dim + 20) ≤ 2 ^ 25 →
      (∀ q ∈ qs, q.length = dim ∧ ∀ f ∈ q, (F32.ofBits f).isFinite = true ∧ |number f| ≤ 1) →
      total.isFinite = true → |total.val - S| ≤ rounding t dim → |S| ≤ t * dim →
      ∃ s, addSims start doc qs total = .ok s ∧ ∃ best : List ℚ,
        List.Forall₂ (fun q b => IsGreatest {x | ∃ d ∈ doc, x = exactDot q d} b) qs best ∧ |s.val - (S + best.sum)| ≤ rounding (t + qs.length) dim := by
  intro qs
  induction qs with
  | nil =>
    intro total t n S _ _ _ hf h _
    exact ⟨total, rfl, [], .nil, by simpa using h⟩
  | cons q qs ih =>
    intro total t n S hn hb hq hf hS hSb
    obtain ⟨hql, hqf⟩ := hq q List.mem_cons_self
    have hn1 : t + 1 ≤ n := by simp only [List.length_cons] at hn; omega
    have hstep : (t + 1) * dim * (t + 1 + dim + 20) ≤ 2 ^ 25 :=
      le_trans (Nat.mul_le_mul (Nat.mul_le_mul_right _ hn1) (by omega)) hb
    have hdd : dim * (dim + 10) ≤ 2 ^ 25 := by
      refine le_trans (Nat.mul_le_mul ?_ (show dim + 10 ≤ t + 1 + dim + 20 by omega)) hstep
      exact Nat.le_mul_of_pos_left dim (by omega)
    have hdots : ∀ d ∈ doc, (dot start q d).isFinite = true ∧ |(dot start q d).val - exactDot q d| ≤ ((dim * (dim + 10) : Nat) : ℚ) / 2 ^ 25 ∧ |exactDot q d| ≤ dim :=
      fun d hd => dot_close hs (le_of_eq hql) hdd hqf (hdoc d hd)
    obtain ⟨m, hm⟩ := bestSim_total doc (.inf true) (fun d hd => (hdots d hd).1)
    obtain ⟨h1, h2, h3⟩ := bestSim_first hne hm
    obtain ⟨b, hgb⟩ := exists_greatest hne (exactDot q)
    have hclose := best_close (fun d hd => (hdots d hd).2.1) h2 (fun d hd => (h3 d hd).2) hgb
    have hbb : |b| ≤ dim := by
      obtain ⟨⟨d, hd, e⟩, -⟩ := hgb
      rw [e]
      exact (hdots d hd).2.2
    -- numbers
    have hrS : |total.val - S| + |m.val - b| ≤ 1 := by
      refine le_trans (add_le_add hS hclose) ?_
      unfold rounding
      rw [← add_div, div_le_one (by positivity)]
      have : t * dim * (t + dim + 20) + dim * (dim + 10) ≤ (t + 1) * dim * (t + 1 + dim + 20) := by nlinarith
      exact_mod_cast le_trans this hstep
    have hD : (1 : ℚ) ≤ dim := by exact_mod_cast hdim
    have hT : (0 : ℚ) ≤ t := by positivity
    have hTD : (0 : ℚ) ≤ t * dim := by positivity
    have hbig : ((t : ℚ) + 1) * dim ≤ 2 ^ 25 := by
      have : (t + 1) * dim ≤ 2 ^ 25 := le_trans (Nat.le_mul_of_pos_right _ (by omega)) hstep
      exact_mod_cast this
    have htot : |total.val + m.val| ≤ (t + 1) * dim + 1 := by
      have e : total.val + m.val = (total.val - S) + (m.val - b) + (S + b) := by ring
      have g1 := abs_add_le ((total.val - S) + (m.val - b)) (S + b)
      have g2 := abs_add_le (total.val - S) (m.val - b)
      have g3 := abs_add_le S b
      rw [e]
      linarith
    obtain ⟨hadd1, hadd2⟩ := F32.add_spec hf h1 (le_trans htot (by
      have : (2 : ℚ) ^ 25 + 1 ≤ 2 ^ 100 := by norm_num
      linarith))
    have hslack : F32.slack (total.val + m.val) ≤ ((t + 1) * dim + 1) / 2 ^ 24 + 1 / 2 ^ 25 := by
      unfold F32.slack
      have h24 : (2 : ℚ) ^ (-24 : Int) = 1 / 2 ^ 24 := by norm_num
      have h150 : (2 : ℚ) ^ (-150 : Int) ≤ 1 / 2 ^ 25 := by norm_num
      rw [h24]
      have := mul_le_mul_of_nonneg_right htot (show (0 : ℚ) ≤ 1 / 2 ^ 24 by positivity)
      linarith
    have hnew : |(F32.add total m).val - (S + b)| ≤ rounding (t + 1) dim := by
      have e : (F32.add total m).val - (S + b) = ((F32.add total m).val - (total.val + m.val)) + ((total.val - S) + (m.val - b)) := by ring
      have g1 := abs_add_le ((F32.add total m).val - (total.val + m.val)) ((total.val - S) + (m.val - b))
      have g2 := abs_add_le (total.val - S) (m.val - b)
      rw [e]
      have e2 : rounding (t + 1) dim = rounding t dim + ((dim * (dim + 10) : Nat) : ℚ) / 2 ^ 25 + dim * (2 * t + 11) / 2 ^ 25 := by
        unfold rounding
        push_cast
        field_simp
        ring
      rw [e2]
      have e3 : ((t : ℚ) + 1) * dim / 2 ^ 24 + 1 / 2 ^ 24 + 1 / 2 ^ 25 ≤ dim * (2 * t + 11) / 2 ^ 25 := by
        rw [show (1 : ℚ) / 2 ^ 24 = 2 / 2 ^ 25 by norm_num, show ((t : ℚ) + 1) * dim / 2 ^ 24 = 2 * ((t + 1) * dim) / 2 ^ 25 by field_simp, ← add_div, ← add_div]
        apply div_le_div_of_nonneg_right _ (by positivity)
        linarith
      have e4 : (((t : ℚ) + 1) * dim + 1) / 2 ^ 24 = (t + 1) * dim / 2 ^ 24 + 1 / 2 ^ 24 := by rw [add_div]
      rw [e4] at hslack
      linarith
    obtain ⟨s, hs1, best, hs2, hs3⟩ := ih (F32.add total m) (t + 1) n (S + b) (by simp only [List.length_cons] at hn; omega) hb
      (fun q' hq' => hq q' (List.mem_cons_of_mem _ hq')) hadd1 hnew (by
        push_cast
        refine le_trans (abs_add_le S b) ?_
        linarith)
    refine ⟨s, ?_, b :: best, .cons hgb hs2, ?_⟩
    · unfold addSims
      rw [hm]
      show (if F32.gt m (.inf true) = true then (if (F32.add total m).isFinite = true then addSims start doc qs (F32.add total m) else .error .badRequest) else _) = _
      rw [if_pos (gt_negInf h1), if_pos hadd1]
      exact hs1
    · rw [List.sum_cons, List.length_cons, ← add_assoc, show t + (qs.length + 1) = t + 1 + qs.length by omega]
      exact hs3

end NextPlaid.Rerank
