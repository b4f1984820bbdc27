import Verif.Spec.Install
import Mathlib.Tactic.ByContra
import Mathlib.Data.List.Infix

namespace NextPlaid.Install

open NextPlaid.Spec

/-! ### Finding -/

theorem find_first {m : Text} (hm : m ≠ []) : ∀ {x r : Text}, ¬ m <:+: x ++ m.dropLast → find m (x ++ m ++ r) = some x.length := by
  intro x
  induction x with
  | nil =>
    intro r _
    cases m with
    | nil => exact absurd rfl hm
    | cons c cs => simp [find]
  | cons c cs ih =>
    intro r h
    have h1 : ¬ m <:+: cs ++ m.dropLast := fun h' => h (h'.trans (by rw [List.cons_append]; exact (List.suffix_cons _ _).isInfix))
    have h2 : m.isPrefixOf (c :: cs ++ m ++ r) = false := by
      rw [Bool.eq_false_iff]
      intro hp
      rw [List.isPrefixOf_iff_prefix] at hp
      apply h
      have hl : m.length ≤ (c :: cs ++ m.dropLast).length := by simp; omega
      have hp' : c :: cs ++ m.dropLast <+: c :: cs ++ m ++ r := by
        rw [List.append_assoc]
        refine (List.prefix_append_right_inj _).2 ?_
        exact (List.dropLast_prefix m).trans (List.prefix_append m r)
      exact (List.prefix_of_prefix_length_le hp hp' hl).isInfix
    have := ih (r := r) h1
    simp only [List.cons_append] at h2 ⊢
    rw [find, h2]
    simp only [Bool.false_eq_true, if_false, this, Option.map_some, List.length_cons]

theorem find_none {m : Text} : ∀ {t : Text}, ¬ m <:+: t → find m t = none := by
  intro t
  induction t with
  | nil => intro h; simp only [find]; rw [if_neg]; rintro rfl; exact h (List.infix_refl _)
  | cons c cs ih =>
    intro h
    have h1 : ¬ m <:+: cs := fun h' => h (h'.trans (List.suffix_cons _ _).isInfix)
    have h2 : m.isPrefixOf (c :: cs) = false := by
      rw [Bool.eq_false_iff]
      intro hp
      rw [List.isPrefixOf_iff_prefix] at hp
      exact h hp.isInfix
    rw [find, h2]
    simp [ih h1]

/-- An occurrence across the joint has a proper part on both sides. -/
theorem infix_append {m x y : Text} (h : m <:+: x ++ y) : m <:+: x ∨ m <:+: y ∨
    ∃ p q, p ≠ [] ∧ q ≠ [] ∧ m = p ++ q ∧ p <:+ x ∧ q <+: y := by
  obtain ⟨s, t, e⟩ := h
  rw [List.append_assoc, List.append_eq_append_iff] at e
  rcases e with ⟨a, rfl, e2⟩ | ⟨a, rfl, e2⟩
  · rw [List.append_eq_append_iff] at e2
    rcases e2 with ⟨b, rfl, rfl⟩ | ⟨b, rfl, rfl⟩
    · exact .inl ⟨s, b, by simp⟩
    · by_cases ha : a = []
      · subst ha; exact .inr (.inl ⟨[], t, by simp⟩)
      · by_cases hb : b = []
        · subst hb; exact .inl ⟨s, [], by simp⟩
        · exact .inr (.inr ⟨a, b, ha, hb, rfl, List.suffix_append _ _, List.prefix_append _ _⟩)
  · exact .inr (.inl ⟨a, t, by rw [e2, List.append_assoc]⟩)

/-- The text begins with a letter that stands in `m` at the front only. -/
theorem infix_front {m x y : Text} {c : Char} (hm : ∀ d ∈ m.tail, d ≠ c) (hy : y.head? = some c)
    (h : m <:+: x ++ y) : m <:+: x ∨ m <:+: y := by
  rcases infix_append h with h | h | ⟨p, q, hp, hq, rfl, _, hqy⟩
  · exact .inl h
  · exact .inr h
  · exfalso
    cases p with
    | nil => exact hp rfl
    | cons a p =>
      cases q with
      | nil => exact hq rfl
      | cons b q =>
        obtain ⟨z, rfl⟩ := hqy
        simp only [List.cons_append, List.head?_cons, Option.some.injEq] at hy
        exact hm b (by simp) hy

/-- The text begins with a letter that is not in `m`. -/
theorem infix_sep {m x y : Text} {c : Char} (hm : c ∉ m) (hne : m ≠ []) (h : m <:+: x ++ c :: y) : m <:+: x ∨ m <:+: y := by
  rcases infix_append h with h | h | ⟨p, q, hp, hq, rfl, _, hqy⟩
  · exact .inl h
  · rw [List.infix_cons_iff] at h
    rcases h with h | h
    · exfalso
      cases m with
      | nil => exact hne rfl
      | cons a m => rw [List.cons_prefix_cons] at h; exact hm (by simp [h.1])
    · exact .inr h
  · exfalso
    cases q with
    | nil => exact hq rfl
    | cons b q => rw [List.cons_prefix_cons] at hqy; exact hm (by simp [hqy.1])

theorem markers : startMarker = opening ∧ endMarker = closing := ⟨rfl, rfl⟩

theorem opening_tail : ∀ d ∈ opening.tail, d ≠ '<' := by decide +kernel
theorem closing_tail : ∀ d ∈ closing.tail, d ≠ '<' := by decide +kernel
theorem opening_nl : '\n' ∉ opening := by decide +kernel
theorem closing_nl : '\n' ∉ closing := by decide +kernel
theorem opening_ne : opening ≠ [] := by decide +kernel
theorem closing_ne : closing ≠ [] := by decide +kernel

theorem not_infix_dropLast {m : Text} (hm : m ≠ []) : ¬ m <:+: m.dropLast := by
  intro h
  have := h.length_le
  have : 0 < m.length := List.length_pos_of_ne_nil hm
  simp at *
  omega

theorem find_opening {b r : Text} (hb : ¬ opening <:+: b) : find opening (b ++ opening ++ r) = some b.length := by
  apply find_first opening_ne
  intro h
  rcases infix_front opening_tail (by decide +kernel) h with h | h
  · exact hb h
  · exact not_infix_dropLast opening_ne h

theorem closing_not_before {b s : Text} (hb : ¬ closing <:+: b) (hs : ¬ closing <:+: s) :
    ¬ closing <:+: b ++ opening ++ ['\n'] ++ s ++ ['\n'] := by
  intro h
  rw [List.append_assoc _ s, List.append_assoc _ ['\n']] at h
  rcases infix_sep closing_nl closing_ne h with h | h
  · rcases infix_front closing_tail (by decide +kernel) h with h | h
    · exact hb h
    · exact absurd h (by decide +kernel)
  · rcases infix_sep (y := []) closing_nl closing_ne h with h | h
    · exact hs h
    · exact absurd h (by decide +kernel)

theorem find_closing {b s r : Text} (hb : ¬ closing <:+: b) (hs : ¬ closing <:+: s) :
    find closing (b ++ opening ++ ['\n'] ++ s ++ ['\n'] ++ closing ++ r) = some (b ++ opening ++ ['\n'] ++ s ++ ['\n']).length := by
  apply find_first closing_ne
  intro h
  rcases infix_front closing_tail (by decide +kernel) h with h | h
  · exact closing_not_before hb hs h
  · exact not_infix_dropLast closing_ne h

theorem strip_plain {t : Text} (h : ¬ opening <:+: t) : strip t = none := by
  simp only [strip, markers.1, find_none h]

theorem strip_around {b s a : Text} (h : Unmarked b) (hs : Unmarked s) :
    strip (b ++ opening ++ ['\n'] ++ s ++ ['\n'] ++ closing ++ a) = some (b ++ a) := by
  have h1 : find opening (b ++ opening ++ ['\n'] ++ s ++ ['\n'] ++ closing ++ a) = some b.length := by
    have := find_opening (r := ['\n'] ++ s ++ ['\n'] ++ closing ++ a) h.1
    simpa using this
  have h2 := find_closing (r := a) h.2 hs.2
  simp only [strip, markers.1, markers.2, h1, h2]
  congr 2
  · simp
  · rw [← List.length_append, List.drop_left]

theorem plain_infix {t u : Text} (h : Unmarked t) (hu : u <:+: t) : Unmarked u := ⟨fun h' => h.1 (h'.trans hu), fun h' => h.2 (h'.trans hu)⟩

theorem plain_left {b a : Text} (h : Unmarked (b ++ a)) : Unmarked b := plain_infix h (List.prefix_append _ _).isInfix

theorem plain_sep {x y : Text} (hx : Unmarked x) (hy : Unmarked y) : Unmarked (x ++ '\n' :: y) := by
  constructor
  · intro h
    rcases infix_sep opening_nl opening_ne h with h | h
    · exact hx.1 h
    · exact hy.1 h
  · intro h
    rcases infix_sep closing_nl closing_ne h with h | h
    · exact hx.2 h
    · exact hy.2 h

theorem plain_nil : Unmarked [] := by constructor <;> decide +kernel

/-! ### Trimming -/

theorem dropWhile_split (white : Char → Bool) (t : Text) : ∃ l, t = l ++ t.dropWhile white ∧ (∀ c ∈ l, white c = true) ∧
    ∀ c ∈ (t.dropWhile white).head?, white c = false := by
  refine ⟨t.takeWhile white, (List.takeWhile_append_dropWhile).symm, ?_, ?_⟩
  · intro c hc; exact List.all_eq_true.1 List.all_takeWhile c hc
  · intro c hc
    have := List.head?_dropWhile_not white t
    rw [Option.mem_def] at hc
    rw [hc] at this
    simpa using this

theorem trim_core (white : Char → Bool) (t : Text) : Core white t (trim white t) := by
  obtain ⟨l, e1, h1, h2⟩ := dropWhile_split white t
  obtain ⟨r, e2, h3, h4⟩ := dropWhile_split white (t.dropWhile white).reverse
  have e3 : t.dropWhile white = trim white t ++ r.reverse := by
    have := congrArg List.reverse e2
    rw [List.reverse_reverse, List.reverse_append] at this
    exact this
  refine ⟨l, r.reverse, ?_, h1, ?_, ?_, ?_⟩
  · rw [List.append_assoc, ← e3]; exact e1
  · intro c hc; exact h3 c (by simpa using hc)
  · intro c hc
    apply h2 c
    rw [e3]
    rw [Option.mem_def] at hc ⊢
    rw [List.head?_append, hc]; rfl
  · intro c hc
    apply h4 c
    rw [trim, List.getLast?_reverse] at hc
    exact hc

theorem core_infix {white : Char → Bool} {t u : Text} (h : Core white t u) : u <:+: t := by
  obtain ⟨l, r, e, _⟩ := h
  exact ⟨l, r, e.symm⟩

theorem filter_white {white : Char → Bool} {l : Text} (h : ∀ c ∈ l, white c = true) : inked white l = [] := by
  rw [inked, List.filter_eq_nil_iff]
  intro c hc
  simp [h c hc]

theorem core_inked {white : Char → Bool} {t u : Text} (h : Core white t u) : inked white u = inked white t := by
  obtain ⟨l, r, e, hl, hr, _⟩ := h
  have h1 := filter_white hl
  have h2 := filter_white hr
  rw [e]
  unfold Spec.inked at *
  simp [List.filter_append, h1, h2]

/-! ### One deed and many -/

theorem deed {white : Char → Bool} {title : Text} (ht : Unmarked title) {n : Notes} {d : Deed} (hn : n.Unmarked) (hd : d.Unmarked) :
    ∃ n' : Notes, Becomes white title n d n' ∧ n'.Unmarked ∧ doDeed white title n.file d = n'.file := by
  cases d with
  | edit n' => exact ⟨n', .edit _ _, hd, rfl⟩
  | install s =>
    have sec : ∀ t : Text, t ++ section_ s = t ++ opening ++ ['\n'] ++ s ++ ['\n'] ++ closing ++ ['\n'] := by
      intro t; simp [section_, markers.1, markers.2]
    have pl : ∀ {t : Text}, Unmarked t → Unmarked (t ++ ['\n']) := fun h => plain_sep h plain_nil
    cases n with
    | absent =>
      have ht2 : Unmarked (title ++ ['\n', '\n']) := by have := plain_sep ht (plain_sep plain_nil plain_nil); simpa using this
      refine ⟨_, .first s, ⟨pl ht2, hd⟩, ?_⟩
      simp only [doDeed, addSection, Notes.file, Option.getD_none, strip_plain ht2.1, sec]
    | own t =>
      refine ⟨_, .append t s, ⟨pl hn, hd⟩, ?_⟩
      simp only [doDeed, addSection, Notes.file, Option.getD_some, Option.getD_none, strip_plain hn.1, sec]
    | around b s' a =>
      refine ⟨_, .renew b s' a s, ⟨pl hn.1, hd⟩, ?_⟩
      simp only [doDeed, addSection, Notes.file, Option.getD_some, strip_around (plain_left hn.1) hn.2, sec]
  | uninstall =>
    cases n with
    | absent => exact ⟨_, .nothing, trivial, rfl⟩
    | own t =>
      refine ⟨_, .none t, hn, ?_⟩
      simp only [doDeed, removeSection, Notes.file, strip_plain hn.1]
    | around b s a =>
      have hc := trim_core white (b ++ a)
      by_cases hg : trim white (b ++ a) = [] ∨ trim white (b ++ a) = title
      · refine ⟨.absent, .gone b s a _ hc hg, trivial, ?_⟩
        simp only [doDeed, removeSection, Notes.file, strip_around (plain_left hn.1) hn.2, if_pos hg]
      · have hg' := not_or.1 hg
        refine ⟨.own (trim white (b ++ a) ++ ['\n']), .left b s a _ hc hg'.1 hg'.2, plain_sep (plain_infix hn.1 (core_infix hc)) plain_nil, ?_⟩
        simp only [doDeed, removeSection, Notes.file, strip_around (plain_left hn.1) hn.2, if_neg hg]

theorem deeds {white : Char → Bool} {title : Text} (ht : Unmarked title) : ∀ (l : List Deed) {n : Notes}, n.Unmarked → (∀ d ∈ l, d.Unmarked) →
    ∃ n' : Notes, BecomeAll white title n l n' ∧ n'.Unmarked ∧ l.foldl (doDeed white title) n.file = n'.file
  | [], n, hn, _ => ⟨n, .nil n, hn, rfl⟩
  | d :: l, n, hn, hl => by
    obtain ⟨n1, h1, p1, e1⟩ := deed (white := white) ht hn (hl d (by simp))
    obtain ⟨n2, h2, p2, e2⟩ := deeds ht l p1 (fun d hd => hl d (by simp [hd]))
    exact ⟨n2, .cons _ _ _ _ _ h1 h2, p2, by rw [List.foldl_cons, e1, e2]⟩

end NextPlaid.Install
