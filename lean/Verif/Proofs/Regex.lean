import Verif.Spec.Regex

namespace NextPlaid.Regex

open NextPlaid.Spec (Matches placeAfter Found)

variable {f : Flags}

/-- A match moves forward over some text. -/
theorem matches_forward : ∀ {r : Rx} {p q : Place}, Matches f r p q → ∃ u, p.2 = u ++ q.2 ∧ q = placeAfter p.1 u q.2 := by
  intro r
  induction r with
  | eps => rintro p q rfl; exact ⟨[], by simp [placeAfter]⟩
  | chr c => rintro p q ⟨d, ds, h, _, rfl⟩; exact ⟨[d], by simp [placeAfter, h]⟩
  | any => rintro p q ⟨d, ds, h, _, rfl⟩; exact ⟨[d], by simp [placeAfter, h]⟩
  | set neg cs => rintro p q ⟨d, ds, h, _, rfl⟩; exact ⟨[d], by simp [placeAfter, h]⟩
  | bol => rintro p q ⟨rfl, _⟩; exact ⟨[], by simp [placeAfter]⟩
  | eol => rintro p q ⟨rfl, _⟩; exact ⟨[], by simp [placeAfter]⟩
  | word => rintro p q ⟨rfl, _⟩; exact ⟨[], by simp [placeAfter]⟩
  | cat a b iha ihb =>
    rintro p q ⟨m, h1, h2⟩
    obtain ⟨u, hu, hu'⟩ := iha h1
    obtain ⟨v, hv, hv'⟩ := ihb h2
    refine ⟨u ++ v, by rw [hu, hv, List.append_assoc], ?_⟩
    rw [hv', hu']
    simp only [placeAfter, List.getLast?_append, Option.or_assoc]
  | alt a b iha ihb =>
    rintro p q (h | h)
    · exact iha h
    · exact ihb h
  | opt a ih =>
    rintro p q (rfl | h)
    · exact ⟨[], by simp [placeAfter]⟩
    · exact ih h
  | star a ih =>
    intro p q h
    induction h with
    | refl => exact ⟨[], by simp [placeAfter]⟩
    | tail _ h2 ih1 =>
      obtain ⟨u, hu, hu'⟩ := ih1
      obtain ⟨v, hv, hv'⟩ := ih h2
      refine ⟨u ++ v, by rw [hu, hv, List.append_assoc], ?_⟩
      rw [hv', hu']
      simp only [placeAfter, List.getLast?_append, Option.or_assoc]

theorem matches_le {r : Rx} {p q : Place} (h : Matches f r p q) : q.2.length ≤ p.2.length := by
  obtain ⟨u, hu, _⟩ := matches_forward h
  rw [hu]; simp

theorem matches_same {r : Rx} {p q : Place} (h : Matches f r p q) (hl : ¬ q.2.length < p.2.length) : q = p := by
  obtain ⟨u, hu, hq⟩ := matches_forward h
  have : u = [] := by
    have := congrArg List.length hu
    simp at this
    exact List.length_eq_zero_iff.mp (by omega)
  subst this
  rw [hq, ← show p.2 = q.2 by simpa using hu]
  simp [placeAfter]

theorem iter_iff {g : Place → List Place} {R : Place → Place → Prop} (hg : ∀ p q, q ∈ g p ↔ R p q)
    (hsame : ∀ p q, R p q → ¬ q.2.length < p.2.length → q = p) :
    ∀ (n : Nat) (p q : Place), p.2.length ≤ n → (q ∈ iter g n p ↔ Relation.ReflTransGen R p q) := by
  intro n
  induction n with
  | zero =>
    intro p q hp
    simp only [iter, List.mem_singleton]
    constructor
    · rintro rfl; exact .refl
    · intro h
      induction h with
      | refl => rfl
      | tail _ h2 ih => subst ih; exact hsame _ _ h2 (by omega)
  | succ n ih =>
    intro p q hp
    simp only [iter, List.mem_cons, List.mem_flatMap, List.mem_filter, decide_eq_true_eq]
    constructor
    · rintro (rfl | ⟨m, ⟨h1, h2⟩, h3⟩)
      · exact .refl
      · exact .head ((hg _ _).mp h1) ((ih m q (by omega)).mp h3)
    · intro h
      induction h using Relation.ReflTransGen.head_induction_on with
      | refl => exact .inl rfl
      | head h1 h2 ih1 =>
        rename_i a c
        by_cases hlt : c.2.length < a.2.length
        · exact .inr ⟨c, ⟨(hg _ _).mpr h1, hlt⟩, (ih c q (by omega)).mpr h2⟩
        · have := hsame _ _ h1 hlt
          subst this
          exact ih1 hp

theorem mem_eat {ok : Char → Bool} {p q : Place} : q ∈ eat ok p ↔ ∃ d ds, p.2 = d :: ds ∧ ok d = true ∧ q = (some d, ds) := by
  rcases p with ⟨b, _ | ⟨d, ds⟩⟩
  · simp [eat]
  · by_cases h : ok d
    · simp only [eat, h, if_true, List.mem_singleton, List.cons.injEq]
      exact ⟨fun hq => ⟨d, ds, ⟨rfl, rfl⟩, h, hq⟩, by rintro ⟨_, _, ⟨rfl, rfl⟩, _, hq⟩; exact hq⟩
    · simp [eat, h]

/-- The executable matcher finds exactly the matches. -/
theorem mem_ends : ∀ (r : Rx) (p q : Place), q ∈ ends f r p ↔ Matches f r p q := by
  intro r
  induction r with
  | eps => intro p q; simp [ends, Matches, eq_comm]
  | chr c => intro p q; simp [ends, Matches, mem_eat, Rx.accepts]
  | any => intro p q; simp [ends, Matches, mem_eat, Rx.accepts]
  | set neg cs =>
    intro p q
    simp only [ends, Matches, mem_eat, Rx.accepts]
    constructor
    · rintro ⟨d, ds, h1, h2, h3⟩
      refine ⟨d, ds, h1, ?_, h3⟩
      cases neg <;> simpa using h2
    · rintro ⟨d, ds, h1, h2, h3⟩
      refine ⟨d, ds, h1, ?_, h3⟩
      cases neg <;> simpa using h2
  | bol =>
    intro p q
    by_cases h : atStart f p
    · have h' := h; simp only [atStart, decide_eq_true_eq] at h'; simp only [ends, Matches, if_pos h, List.mem_singleton]
      exact ⟨fun hq => ⟨hq.symm, h'⟩, fun hq => hq.1.symm⟩
    · have h' := h; simp only [atStart, decide_eq_true_eq] at h'; simp [ends, Matches, h, h']
  | eol =>
    intro p q
    by_cases h : atEnd f p
    · have h' := h; simp only [atEnd, decide_eq_true_eq] at h'; simp only [ends, Matches, if_pos h, List.mem_singleton]
      exact ⟨fun hq => ⟨hq.symm, h'⟩, fun hq => hq.1.symm⟩
    · have h' := h; simp only [atEnd, decide_eq_true_eq] at h'; simp [ends, Matches, h, h']
  | word =>
    intro p q
    by_cases h : f.wordy p.1 = f.wordy p.2.head?
    · simp [ends, Matches, h]
    · have h' : (f.wordy p.1 != f.wordy p.2.head?) = true := bne_iff_ne.mpr h
      simp only [ends, Matches, if_pos h', List.mem_singleton]
      exact ⟨fun hq => ⟨hq.symm, h⟩, fun hq => hq.1.symm⟩
  | cat a b iha ihb => intro p q; simp [ends, Matches, iha, ihb]
  | alt a b iha ihb => intro p q; simp [ends, Matches, iha, ihb]
  | opt a ih => intro p q; simp [ends, Matches, ih, eq_comm]
  | star a ih =>
    intro p q
    exact iter_iff ih (fun _ _ h hl => matches_same h hl) _ p q (Nat.le_refl _)

theorem searchFrom_iff (r : Rx) : ∀ (text : List Char) (b : Option Char),
    searchFrom f r b text = true ↔ ∃ u v q, text = u ++ v ∧ Matches f r (placeAfter b u v) q := by
  have hne : ∀ p : Place, (!(ends f r p).isEmpty) = true ↔ ∃ q, Matches f r p q := by
    intro p
    simp only [Bool.not_eq_true', List.isEmpty_eq_false_iff_exists_mem, mem_ends]
  intro text
  induction text with
  | nil =>
    intro b
    simp only [searchFrom, hne]
    constructor
    · rintro ⟨q, h⟩; exact ⟨[], [], q, rfl, h⟩
    · rintro ⟨u, v, q, h, hm⟩
      obtain ⟨rfl, rfl⟩ := List.append_eq_nil_iff.mp h.symm
      exact ⟨q, hm⟩
  | cons c cs ih =>
    intro b
    simp only [searchFrom, Bool.or_eq_true, hne, ih]
    constructor
    · rintro (⟨q, h⟩ | ⟨u, v, q, h, hm⟩)
      · exact ⟨[], c :: cs, q, rfl, h⟩
      · refine ⟨c :: u, v, q, by simp [h], ?_⟩
        have : placeAfter b (c :: u) v = placeAfter (some c) u v := by
          cases hu : u.getLast? <;> simp [placeAfter, List.getLast?_cons, hu]
        rwa [this]
    · rintro ⟨u, v, q, h, hm⟩
      cases u with
      | nil => simp only [List.nil_append] at h; subst h; exact .inl ⟨q, hm⟩
      | cons d u =>
        simp only [List.cons_append, List.cons.injEq] at h
        obtain ⟨rfl, rfl⟩ := h
        refine .inr ⟨u, v, q, rfl, ?_⟩
        have : placeAfter b (c :: u) v = placeAfter (some c) u v := by
          cases hu : u.getLast? <;> simp [placeAfter, List.getLast?_cons, hu]
        rwa [← this]

/-- `is_match` says whether the expression matches somewhere. -/
theorem isMatch_iff (r : Rx) (text : List Char) : isMatch f r text = true ↔ Found f r text := searchFrom_iff r text none

theorem parseFrom_append (u v : List Char) : ∀ s, parseFrom s (u ++ v) = (parseFrom s u).bind fun s' => parseFrom s' v := by
  induction u with
  | nil => intro s; rfl
  | cons c u ih => intro s; simp only [List.cons_append, parseFrom]; cases step s c <;> simp [ih]

end NextPlaid.Regex
