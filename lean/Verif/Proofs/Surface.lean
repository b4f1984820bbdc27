import Verif.Model.Surface

/-! Proofs about `Verif.Model.Surface`. -/

namespace NextPlaid.Proofs.Surface
open NextPlaid.Surface NextPlaid.Spec.Surface

/-! ### Routes -/

theorem fits_nil (p : List String) : fits [] p = true ↔ p = [] := by cases p <;> simp [fits]

theorem fits_lit (s : String) (r : List Seg) (p : List String) :
    fits (.lit s :: r) p = true ↔ ∃ ps, p = s :: ps ∧ fits r ps = true := by
  cases p with
  | nil => simp [fits]
  | cons a ps =>
    simp only [fits, Bool.and_eq_true, beq_iff_eq, List.cons.injEq]
    constructor
    · rintro ⟨rfl, h⟩; exact ⟨ps, ⟨rfl, rfl⟩, h⟩
    · rintro ⟨_, ⟨rfl, rfl⟩, h⟩; exact ⟨rfl, h⟩

theorem fits_name (r : List Seg) (p : List String) :
    fits (.name :: r) p = true ↔ ∃ n ps, p = n :: ps ∧ n ≠ "" ∧ fits r ps = true := by
  cases p with
  | nil => simp [fits]
  | cons a ps => simp [fits]

/-- Can one path fit both. -/
def overlap : List Seg → List Seg → Bool
  | [], [] => true
  | .lit a :: r, .lit b :: s => a == b && overlap r s
  | .name :: r, _ :: s => overlap r s
  | _ :: r, .name :: s => overlap r s
  | _, _ => false

theorem overlap_of_fits : ∀ (r s : List Seg) (p : List String), fits r p = true → fits s p = true → overlap r s = true
  | [], [], _, _, _ => rfl
  | [], x :: s, p, h, h' => by
    rw [fits_nil] at h; subst h; cases x <;> simp [fits] at h'
  | x :: r, [], p, h, h' => by
    rw [fits_nil] at h'; subst h'; cases x <;> simp [fits] at h
  | .lit a :: r, .lit b :: s, p, h, h' => by
    rw [fits_lit] at h h'
    obtain ⟨q, rfl, hq⟩ := h
    obtain ⟨q', e, hq'⟩ := h'
    cases e
    simp [overlap, overlap_of_fits r s q hq hq']
  | .name :: r, .lit b :: s, p, h, h' => by
    rw [fits_name] at h; rw [fits_lit] at h'
    obtain ⟨n, q, rfl, _, hq⟩ := h
    obtain ⟨q', e, hq'⟩ := h'
    cases e
    simpa [overlap] using overlap_of_fits r s q hq hq'
  | .name :: r, .name :: s, p, h, h' => by
    rw [fits_name] at h h'
    obtain ⟨n, q, rfl, _, hq⟩ := h
    obtain ⟨n', q', e, _, hq'⟩ := h'
    cases e
    simpa [overlap] using overlap_of_fits r s q hq hq'
  | .lit a :: r, .name :: s, p, h, h' => by
    rw [fits_lit] at h; rw [fits_name] at h'
    obtain ⟨q, rfl, hq⟩ := h
    obtain ⟨n', q', e, _, hq'⟩ := h'
    cases e
    simpa [overlap] using overlap_of_fits r s q hq hq'

theorem table_apart : ∀ r ∈ table, ∀ s ∈ table, r.method = s.method → overlap r.path s.path = true → r = s := by
  decide +kernel

theorem unique {r s : Route} {p : List String} (hr : r ∈ table) (hs : s ∈ table) (hm : r.method = s.method)
    (h : fits r.path p = true) (h' : fits s.path p = true) : r = s :=
  table_apart r hr s hs hm (overlap_of_fits _ _ _ h h')

theorem route_some {l : Line} {r : Route} (h : route l = some r) :
    r ∈ table ∧ r.method = l.method ∧ fits r.path l.path = true := by
  have h1 := List.mem_of_find?_eq_some h
  have h2 := List.find?_some h
  simp only [Bool.and_eq_true, beq_iff_eq] at h2
  exact ⟨h1, h2.1, h2.2⟩

theorem route_eq {l : Line} {r : Route} (hr : r ∈ table) (hm : r.method = l.method) (h : fits r.path l.path = true) :
    route l = some r := by
  rcases hf : route l with _ | s
  · rw [route, List.find?_eq_none] at hf
    exact absurd (hf r hr) (by simp [hm, h])
  · obtain ⟨h1, h2, h3⟩ := route_some hf
    rw [unique hr h1 (hm.trans h2.symm) h h3]

/-! ### Buckets -/

theorem later_none (a e : Nat) : ∀ (ts : List Nat) (oks : List Bool) (t : Nat), e < t → Ordered t ts →
    letThrough a e ts oks = 0
  | [], _, _, _, _ => by simp [letThrough]
  | t :: ts, [], _, _, _ => by simp [letThrough]
  | t :: ts, ok :: oks, u, h, ho => by
    simp only [letThrough]
    rw [later_none a e ts oks t (by have := ho.1; omega) ho.2]
    have := ho.1
    have hn : ¬ (ok = true ∧ a ≤ t ∧ t ≤ e) := by omega
    simp [hn]

theorem take_credit (c : Cfg) (b : Bucket) (t : Nat) :
    (take c b t).2.last = t ∧
    ((take c b t).1 = true → (take c b t).2.credit + interval c = min (c.burst * interval c) (b.credit + (t - b.last))) ∧
    ((take c b t).1 = false → (take c b t).2.credit = min (c.burst * interval c) (b.credit + (t - b.last))) := by
  simp only [take]
  split <;> rename_i h
  · exact ⟨rfl, fun _ => by simp only; omega, by simp⟩
  · exact ⟨rfl, by simp, fun _ => rfl⟩

theorem bound_inside (c : Cfg) (a e : Nat) : ∀ (ts : List Nat) (b : Bucket), a ≤ b.last → b.last ≤ e → Ordered b.last ts →
    letThrough a e ts (admitted c b ts) * interval c ≤ b.credit + (e - b.last)
  | [], b, _, _, _ => by simp [letThrough]
  | t :: ts, b, ha, he, ho => by
    obtain ⟨h1, h2, h3⟩ := take_credit c b t
    simp only [admitted, letThrough]
    have hbt := ho.1
    by_cases hte : t ≤ e
    · have ih := bound_inside c a e ts (take c b t).2 (by rw [h1]; omega) (by rw [h1]; exact hte) (by rw [h1]; exact ho.2)
      rw [h1] at ih
      rcases hk : (take c b t).1 with _ | _
      · have := h3 hk
        simp only [Bool.false_eq_true, false_and, if_false, Nat.zero_add]
        omega
      · have := h2 hk
        have hc : (true = true ∧ a ≤ t ∧ t ≤ e) := ⟨rfl, by omega, hte⟩
        rw [if_pos hc, Nat.add_mul]
        omega
    · rw [later_none a e ts _ t (by omega) ho.2]
      have hn : ¬ ((take c b t).1 = true ∧ a ≤ t ∧ t ≤ e) := by omega
      rw [if_neg hn]; omega

theorem bound (c : Cfg) (a e : Nat) (hae : a ≤ e) : ∀ (ts : List Nat) (b : Bucket), b.credit ≤ c.burst * interval c →
    Ordered b.last ts →
    letThrough a e ts (admitted c b ts) * interval c ≤ c.burst * interval c + (e - a)
  | [], b, _, _ => by simp [letThrough]
  | t :: ts, b, hb, ho => by
    obtain ⟨h1, h2, h3⟩ := take_credit c b t
    simp only [admitted, letThrough]
    have hle : (take c b t).2.credit ≤ c.burst * interval c := by
      rcases hk : (take c b t).1 with _ | _
      · have := h3 hk; omega
      · have := h2 hk; omega
    by_cases hta : t < a
    · have ih := bound c a e hae ts (take c b t).2 hle (by rw [h1]; exact ho.2)
      have hn : ¬ ((take c b t).1 = true ∧ a ≤ t ∧ t ≤ e) := by omega
      rw [if_neg hn, Nat.zero_add]; exact ih
    · by_cases hte : t ≤ e
      · have ih := bound_inside c a e ts (take c b t).2 (by rw [h1]; omega) (by rw [h1]; exact hte)
          (by rw [h1]; exact ho.2)
        rw [h1] at ih
        rcases hk : (take c b t).1 with _ | _
        · have := h3 hk
          simp only [Bool.false_eq_true, false_and, if_false, Nat.zero_add]
          omega
        · have := h2 hk
          have hc : (true = true ∧ a ≤ t ∧ t ≤ e) := ⟨rfl, by omega, hte⟩
          rw [if_pos hc, Nat.add_mul]
          omega
      · rw [later_none a e ts _ t (by omega) ho.2]
        have hn : ¬ ((take c b t).1 = true ∧ a ≤ t ∧ t ≤ e) := by omega
        rw [if_neg hn]; omega

theorem spaced_all (c : Cfg) (hc : 0 < c.burst) : ∀ (ts : List Nat) (b : Bucket) (t₀ : Nat), b.last ≤ t₀ →
    interval c ≤ b.credit + (t₀ - b.last) → Spaced (interval c) t₀ ts → ∀ ok ∈ admitted c b ts, ok = true
  | [], _, _, _, _, _ => by simp [admitted]
  | t :: ts, b, t₀, hl, hcr, hs => by
    obtain ⟨h1, h2, h3⟩ := take_credit c b t
    have hI : interval c ≤ c.burst * interval c := Nat.le_mul_of_pos_left _ hc
    have ht := hs.1
    have hok : (take c b t).1 = true := by
      unfold take
      rw [if_pos]
      omega
    have ih := spaced_all c hc ts (take c b t).2 (t + interval c) (by rw [h1]; omega) (by rw [h1]; omega) hs.2
    simp only [admitted, List.mem_cons]
    rintro ok (rfl | h)
    · exact hok
    · exact ih ok h

theorem burst_all (c : Cfg) : ∀ (ts : List Nat) (b : Bucket), ts.length * interval c ≤ b.credit →
    b.credit ≤ c.burst * interval c → ∀ ok ∈ admitted c b ts, ok = true
  | [], _, _, _ => by simp [admitted]
  | t :: ts, b, hl, hb => by
    obtain ⟨h1, h2, h3⟩ := take_credit c b t
    simp only [List.length_cons, Nat.add_mul, Nat.one_mul] at hl
    have hok : (take c b t).1 = true := by
      unfold take
      rw [if_pos]
      omega
    have := h2 hok
    have ih := burst_all c ts (take c b t).2 (by omega) (by omega)
    simp only [admitted, List.mem_cons]
    rintro ok (rfl | h)
    · exact hok
    · exact ih ok h

theorem admitted_length (c : Cfg) : ∀ (ts : List Nat) (b : Bucket), (admitted c b ts).length = ts.length
  | [], _ => rfl
  | t :: ts, b => by simp [admitted, admitted_length c ts]

theorem letThrough_all (a e : Nat) : ∀ (ts : List Nat) (oks : List Bool), oks.length = ts.length → (∀ t ∈ ts, a ≤ t ∧ t ≤ e) →
    (∀ ok ∈ oks, ok = true) → letThrough a e ts oks = ts.length
  | [], _, _, _, _ => by simp [letThrough]
  | t :: ts, [], h, _, _ => by simp at h
  | t :: ts, ok :: oks, h, ht, hok => by
    simp only [letThrough, List.length_cons]
    rw [letThrough_all a e ts oks (by simpa using h) (fun x hx => ht x (by simp [hx])) (fun x hx => hok x (by simp [hx]))]
    rw [if_pos ⟨hok ok (by simp), ht t (by simp)⟩]
    omega

/-- One a second, from `t`. -/
def eachSecond (t : Nat) : Nat → List Nat
  | 0 => []
  | n + 1 => t :: eachSecond (t + 1) n

theorem eachSecond_length (n : Nat) : ∀ t, (eachSecond t n).length = n := by
  induction n with
  | zero => intro; rfl
  | succ n ih => intro t; simp [eachSecond, ih]

theorem eachSecond_mem (n : Nat) : ∀ t, ∀ x ∈ eachSecond t n, t ≤ x ∧ x + 1 ≤ t + n := by
  induction n with
  | zero => intro t x h; simp [eachSecond] at h
  | succ n ih =>
    intro t x h
    simp only [eachSecond, List.mem_cons] at h
    rcases h with rfl | h
    · omega
    · have := ih (t + 1) x h; omega

theorem eachSecond_spaced (n : Nat) : ∀ t, Spaced 1 t (eachSecond t n) := by
  induction n with
  | zero => intro; trivial
  | succ n ih => intro t; exact ⟨Nat.le_refl _, ih (t + 1)⟩

theorem ordered_mono : ∀ (ts : List Nat) {t u : Nat}, t ≤ u → Ordered u ts → Ordered t ts
  | [], _, _, _, _ => trivial
  | _ :: _, _, _, h, ho => ⟨Nat.le_trans h ho.1, ho.2⟩

theorem spaced_ordered {g : Nat} : ∀ (ts : List Nat) (t : Nat), Spaced g t ts → Ordered t ts
  | [], _, _ => trivial
  | _ :: ts, _, h => ⟨h.1, ordered_mono ts (Nat.le_add_right _ _) (spaced_ordered ts _ h.2)⟩

/-- The requests of client `k` to limited routes. -/
def mine {K : Type} [DecidableEq K] (c : Cfg) (k : K) (x : K × Nat × Route) : Bool := decide (x.1 = k) && governed c x.2.2.group

theorem serve_mine {K : Type} [DecidableEq K] (c : Cfg) (k : K) : ∀ (reqs : List (K × Nat × Route)) (m : K → Bucket),
    (((reqs.zip (serveLines c m reqs)).filter fun x => mine c k x.1).map (·.2)) =
      admitted c (m k) ((reqs.filter (mine c k)).map fun x => x.2.1)
  | [], m => by simp [serveLines, admitted]
  | (j, t, r) :: rest, m => by
    by_cases hg : governed c r.group = true
    · have hs : serveLines c m ((j, t, r) :: rest) =
          (take c (m j) t).1 :: serveLines c (Function.update m j (take c (m j) t).2) rest := by
        simp [serveLines, hg]
      rw [hs, List.zip_cons_cons, List.filter_cons, List.filter_cons]
      have ih := serve_mine c k rest (Function.update m j (take c (m j) t).2)
      by_cases hj : j = k
      · subst hj
        have hm : mine c j (j, t, r) = true := by simp [mine, hg]
        rw [if_pos hm, if_pos hm, List.map_cons, List.map_cons, ih]
        simp [admitted]
      · have hm : ¬ mine c k (j, t, r) = true := by simp [mine, hj]
        rw [if_neg hm, if_neg hm, ih, Function.update_of_ne (Ne.symm hj)]
    · have hs : serveLines c m ((j, t, r) :: rest) = true :: serveLines c m rest := by
        simp [serveLines, hg]
      have hm : ¬ mine c k (j, t, r) = true := by simp [mine, hg]
      rw [hs, List.zip_cons_cons, List.filter_cons, List.filter_cons, if_neg hm, if_neg hm]
      exact serve_mine c k rest m

theorem serve_exempt {K : Type} [DecidableEq K] (c : Cfg) : ∀ (reqs : List (K × Nat × Route)) (m : K → Bucket),
    ∀ x ∈ reqs.zip (serveLines c m reqs), governed c x.1.2.2.group = false → x.2 = true
  | [], m => by simp [serveLines]
  | (j, t, r) :: rest, m => by
    by_cases hg : governed c r.group = true
    · have hs : serveLines c m ((j, t, r) :: rest) =
          (take c (m j) t).1 :: serveLines c (Function.update m j (take c (m j) t).2) rest := by
        simp [serveLines, hg]
      rw [hs, List.zip_cons_cons]
      intro x hx hf
      rcases List.mem_cons.1 hx with rfl | hx
      · simp [hg] at hf
      · exact serve_exempt c rest _ x hx hf
    · have hs : serveLines c m ((j, t, r) :: rest) = true :: serveLines c m rest := by
        simp [serveLines, hg]
      rw [hs, List.zip_cons_cons]
      intro x hx hf
      rcases List.mem_cons.1 hx with rfl | hx
      · rfl
      · exact serve_exempt c rest m x hx hf

/-! ### Concurrency -/

variable {σ : Type} [DecidableEq σ]

theorem inUse_append (c : Cfg) (slot : Route → σ) (rs : List Route) (r : Route) (x : σ) :
    inUse c slot (rs ++ [r]) x = inUse c slot rs x + if counted c r.group && slot r == x then 1 else 0 := by
  unfold inUse
  rw [List.filter_append, List.length_append]
  congr 1
  by_cases h : (counted c r.group && slot r == x) = true <;> simp [h]

theorem inUse_erase (c : Cfg) (slot : Route → σ) (rs : List Route) (i : Nat) (x : σ) :
    inUse c slot (rs.eraseIdx i) x ≤ inUse c slot rs x :=
  List.Sublist.length_le ((List.eraseIdx_sublist rs i).filter _)

/-- The invariant: no semaphore is overdrawn, and only counted requests wait. -/
structure Inv (c : Cfg) (slot : Route → σ) (s : Load σ) : Prop where
  use : ∀ x, inUse c slot s.running x ≤ c.concurrency
  wait : ∀ r ∈ s.waiting, counted c r.group = true

theorem act_inv {c : Cfg} {slot : Route → σ} {s s' : Load σ} {a : Act} (hi : Inv c slot s) (h : act c slot s a = some s') :
    Inv c slot s' := by
  cases a with
  | arrive r =>
    simp only [act] at h
    split at h <;> rename_i hc
    · cases h
      refine ⟨hi.use, ?_⟩
      intro q hq
      rcases List.mem_append.1 hq with hq | hq
      · exact hi.wait q hq
      · rw [List.mem_singleton.1 hq]; exact hc.1
    · cases h
      refine ⟨?_, hi.wait⟩
      intro x
      rw [inUse_append]
      have := hi.use x
      split
      · rename_i hx
        simp only [Bool.and_eq_true, beq_iff_eq] at hx
        have : inUse c slot s.running (slot r) < c.concurrency := by
          by_contra hn
          exact hc ⟨hx.1, by omega⟩
        rw [← hx.2]; omega
      · omega
  | answer i =>
    simp only [act] at h
    split at h
    · cases h
      exact ⟨fun x => Nat.le_trans (inUse_erase c slot _ i x) (hi.use x), hi.wait⟩
    · cases h
  | admit i =>
    simp only [act] at h
    rcases hw : s.waiting[i]? with _ | r
    · simp [hw] at h
    · simp only [hw] at h
      split at h
      · cases h
      · cases h
        rename_i hc
        refine ⟨?_, fun q hq => hi.wait q (List.mem_of_mem_eraseIdx hq)⟩
        intro x
        rw [inUse_append]
        have := hi.use x
        split
        · rename_i hx
          simp only [Bool.and_eq_true, beq_iff_eq] at hx
          rw [← hx.2]; omega
        · omega

theorem acts_inv {c : Cfg} {slot : Route → σ} : ∀ (as : List Act) {s s' : Load σ}, Inv c slot s → acts c slot s as = some s' →
    Inv c slot s'
  | [], _, _, hi, h => by cases h; exact hi
  | a :: as, s, s', hi, h => by
    simp only [acts] at h
    rcases ha : act c slot s a with _ | s₁
    · simp [ha] at h
    · rw [ha] at h
      exact acts_inv as (act_inv hi ha) h

theorem init_inv (c : Cfg) (slot : Route → σ) : Inv c slot ({} : Load σ) :=
  ⟨fun x => by simp [inUse], by simp⟩

theorem acts_append {c : Cfg} {slot : Route → σ} : ∀ (as bs : List Act) (s : Load σ),
    acts c slot s (as ++ bs) = (acts c slot s as).bind fun s' => acts c slot s' bs
  | [], _, _ => rfl
  | a :: as, bs, s => by
    simp only [List.cons_append, acts]
    rcases act c slot s a with _ | s₁
    · rfl
    · exact acts_append as bs s₁

theorem arrivals {c : Cfg} {slot : Route → σ} (r : Route) : ∀ (m : Nat) (s : Load σ),
    (counted c r.group = true → inUse c slot s.running (slot r) + m ≤ c.concurrency) →
    acts c slot s (List.replicate m (.arrive r)) = some { s with running := s.running ++ List.replicate m r }
  | 0, s, _ => by simp [acts]
  | m + 1, s, h => by
    rw [List.replicate_succ, acts]
    have hn : ¬ (counted c r.group = true ∧ c.concurrency ≤ inUse c slot s.running (slot r)) := by
      rintro ⟨h1, h2⟩
      have := h h1
      omega
    simp only [act, if_neg hn, Option.bind_some]
    rw [arrivals r m _ (by
      intro hc
      have := h hc
      rw [inUse_append]
      split <;> omega)]
    simp [List.replicate_succ]

theorem inUse_replicate_ne {c : Cfg} {slot : Route → σ} {r : Route} {x : σ} (h : slot r ≠ x) (m : Nat) :
    inUse c slot (List.replicate m r) x = 0 := by
  unfold inUse
  rw [List.length_eq_zero_iff, List.filter_eq_nil_iff]
  intro q hq
  rw [List.eq_of_mem_replicate hq]
  simp [h]

end NextPlaid.Proofs.Surface
