import Verif.Spec.Imports
import Verif.Proofs.Facts2
import Verif.Proofs.Enhance
import Verif.Proofs.Qml

namespace NextPlaid.Imports

open FactsSpec ImportsSpec
open Facts
open Units (Text trim isWs containsText startsWith)
open NextPlaid.Text (splitWhite trimMatches)
open Spec (Laid)
open Scan (Language)

/-! ### Searching -/

theorem seekAll_eq (kinds : List String) (d : Nat) : ∀ cs : List Nd, seekAll kinds d cs = cs.findSome? (seek kinds d)
  | [] => by simp [seekAll]
  | c :: cs => by
    rw [seekAll, seekAll_eq kinds d cs, List.findSome?_cons]
    cases seek kinds d c <;> rfl

theorem seek_eq (kinds : List String) : ∀ (d : Nat) (n : Nd),
    seek kinds (d + 1) n = (writtenTo d n).find? fun m => kinds.contains m.kind
  | d, .mk i cs => by
    rw [seek]
    cases hk : kinds.contains i.kind with
    | true =>
      have : ∃ tl, writtenTo d (.mk i cs) = .mk i cs :: tl := by
        cases d with
        | zero => exact ⟨[], writtenTo_zero _⟩
        | succ e => exact ⟨_, writtenTo_succ e _⟩
      obtain ⟨tl, htl⟩ := this
      have hk' : kinds.contains (Nd.mk i cs).kind = true := hk
      simp only [if_true, htl, List.find?_cons, hk']
    | false =>
      have hk' : kinds.contains (Nd.mk i cs).kind = false := hk
      simp only [Bool.false_eq_true, if_false]
      rw [seekAll_eq]
      cases d with
      | zero =>
        rw [writtenTo_zero, List.find?_cons]
        simp only [hk', List.find?_nil]
        rw [List.findSome?_eq_none_iff]
        intro x _
        rw [seek]
      | succ e =>
        rw [writtenTo_succ, List.find?_cons]
        simp only [hk']
        rw [List.find?_flatMap]
        have ih : ∀ c ∈ cs, seek kinds (e + 1) c = (writtenTo e c).find? fun m => kinds.contains m.kind := fun c hc => seek_eq kinds e c
        have hgo : ∀ l : List Nd, (∀ c ∈ l, c ∈ cs) → l.findSome? (seek kinds (e + 1)) = l.findSome? fun a => (writtenTo e a).find? fun m => kinds.contains m.kind := by
          intro l
          induction l with
          | nil => intro _; rfl
          | cons a l ihl =>
            intro hl
            rw [List.findSome?_cons, List.findSome?_cons, ih a (hl a (by simp)), ihl fun c hc => hl c (by simp [hc])]
        exact hgo cs fun c hc => hc

theorem seek_iff {kinds : List String} {d : Nat} {n m : Nd} : seek kinds (d + 1) n = some m ↔ FirstIn kinds d n m := by
  rw [seek_eq, List.find?_eq_some_iff_append, FirstIn]
  constructor
  · rintro ⟨h, pre, post, e, hp⟩
    exact ⟨pre, post, e, by simpa using h, fun n hn => by simpa using hp n hn⟩
  · rintro ⟨pre, post, e, h, hp⟩
    exact ⟨by simpa using h, pre, post, e, fun n hn => by simpa using hp n hn⟩

/-! ### The visit -/

theorem visitAll_eq (u : Tables) (lang : Language) (D d : Nat) : ∀ cs : List Nd, visitAll u lang D d cs = cs.flatMap (visit u lang D d)
  | [] => by simp [visitAll]
  | c :: cs => by simp [visitAll, visitAll_eq u lang D d cs]

/-- Where the visit stops. -/
def Stop (lang : Language) (n : Nd) : Prop := n.kind ∈ importKinds lang ∧ goesOn lang n = false

theorem mem_visit {u : Tables} {lang : Language} {D : Nat} {x : Text} : ∀ (d : Nat) (n : Nd),
    x ∈ visit u lang D (d + 1) n ↔
      ∃ m, Reach (Stop lang) d n m ∧ m.kind ∈ importKinds lang ∧ importAt u lang D m = some x
  | d, .mk i cs => by
    have hreach : (∃ m, Reach (Stop lang) d (.mk i cs) m ∧ m.kind ∈ importKinds lang ∧ importAt u lang D m = some x) ↔
        (i.kind ∈ importKinds lang ∧ importAt u lang D (.mk i cs) = some x) ∨
        (¬ Stop lang (.mk i cs) ∧ x ∈ visitAll u lang D d cs) := by
      rw [visitAll_eq, List.mem_flatMap]
      constructor
      · rintro ⟨m, hr, hk, hx⟩
        cases hr with
        | here => exact .inl ⟨hk, hx⟩
        | down hn hc h =>
          rename_i e c
          exact .inr ⟨hn, c, hc, (mem_visit e c).2 ⟨m, h, hk, hx⟩⟩
      · rintro (⟨hk, hx⟩ | ⟨hn, c, hc, hx⟩)
        · exact ⟨_, .here, hk, hx⟩
        · cases d with
          | zero => simp [visit] at hx
          | succ e =>
            obtain ⟨m, hr, hk, hx⟩ := (mem_visit e c).1 hx
            exact ⟨m, .down hn hc hr, hk, hx⟩
    rw [hreach, visit]
    cases hk : (importKinds lang).contains i.kind with
    | false =>
      have hk' : i.kind ∉ importKinds lang := by simpa using hk
      have hs : ¬ Stop lang (.mk i cs) := fun h => hk' h.1
      simp only [Bool.false_eq_true, if_false, hs, not_false_eq_true, true_and, hk', false_and, false_or]
    | true =>
      have hk' : i.kind ∈ importKinds lang := by simpa using hk
      simp only [if_true, List.mem_append, Option.mem_toList, hk', true_and]
      cases hg : goesOn lang (.mk i cs) with
      | true =>
        have hs : ¬ Stop lang (.mk i cs) := by
          rintro ⟨_, h⟩
          rw [hg] at h; exact absurd h (by decide)
        simp [hs]
      | false =>
        have hs : Stop lang (.mk i cs) := ⟨hk', hg⟩
        simp [hs]

/-- A search that never stops reaches everything down to the depth. -/
theorem reach_all {stop : Nd → Prop} (h : ∀ n, ¬ stop n) : ∀ (d : Nat) (n m : Nd), Reach stop d n m ↔ m ∈ writtenTo d n
  | 0, n, m => by
    rw [writtenTo_zero, List.mem_singleton]
    constructor
    · intro hr
      cases hr
      rfl
    · rintro rfl; exact .here
  | d + 1, n, m => by
    rw [writtenTo_succ, List.mem_cons, List.mem_flatMap]
    constructor
    · intro hr
      cases hr with
      | here => exact .inl rfl
      | down _ hc hr => exact .inr ⟨_, hc, (reach_all h d _ m).1 hr⟩
    · rintro (rfl | ⟨c, hc, hm⟩)
      · exact .here
      · exact .down (h n) hc ((reach_all h d c m).2 hm)

theorem reach_congr {s t : Nd → Prop} (h : ∀ n, s n ↔ t n) {d : Nat} {n m : Nd} : Reach s d n m ↔ Reach t d n m := by
  have : s = t := funext fun n => propext (h n)
  rw [this]

theorem mem_fileImports {u : Tables} {lang : Language} {D : Nat} {root : Nd} {x : Text} :
    x ∈ fileImports u lang D root ↔
      ∃ m, Reach (Stop lang) D root m ∧ m.kind ∈ importKinds lang ∧ importAt u lang D m = some x := by
  rw [fileImports]
  split
  · next h =>
    constructor
    · intro hx; simp at hx
    · rintro ⟨m, _, hk, _⟩
      rw [h] at hk; simp at hk
  · rw [mem_sortDedup, mem_visit]

theorem fileImports_sorted (u : Tables) (lang : Language) (D : Nat) (root : Nd) : (fileImports u lang D root).Pairwise (· < ·) := by
  rw [fileImports]
  split
  · simp
  · exact sortDedup_sorted _

/-! ### Names -/

theorem nonEmpty_iff {t x : Text} : nonEmpty t = some x ↔ t = x ∧ x ≠ [] := by
  cases t with
  | nil =>
    rw [nonEmpty]
    constructor
    · intro h; exact absurd h (by simp)
    · rintro ⟨rfl, h⟩; exact absurd rfl h
  | cons c t =>
    rw [nonEmpty]
    constructor
    · intro h
      obtain rfl : c :: t = x := by simpa using h
      exact ⟨rfl, by simp⟩
    · rintro ⟨h, _⟩; rw [h]

theorem lastPart_of (sep : Char) (t : Text) : LastPart sep t ((t.reverse.takeWhile fun c => c != sep).reverse) := by
  refine ⟨?_, ?_⟩
  · intro h
    have := List.mem_takeWhile_imp (List.mem_reverse.1 h)
    simp at this
  · have e := List.takeWhile_append_dropWhile (p := fun c => c != sep) (l := t.reverse)
    cases hd : t.reverse.dropWhile (fun c => c != sep) with
    | nil =>
      left
      rw [hd, List.append_nil] at e
      rw [e, List.reverse_reverse]
    | cons c r =>
      right
      have hc : c = sep := by
        have := List.head?_dropWhile_not (fun c => c != sep) t.reverse
        rw [hd] at this
        simpa using this
      rw [hd, hc] at e
      have e' := congrArg List.reverse e
      rw [List.reverse_reverse, List.reverse_append, List.reverse_cons, List.append_assoc, List.singleton_append] at e'
      exact ⟨r.reverse, e'.symm⟩

theorem lastPart_unique {sep : Char} {t x y : Text} (hx : LastPart sep t x) (hy : LastPart sep t y) : x = y := by
  have key : ∀ x : Text, LastPart sep t x → x = (t.reverse.takeWhile fun c => c != sep).reverse := by
    rintro x ⟨h, rfl | ⟨r, rfl⟩⟩
    · have : t.reverse.takeWhile (fun c => c != sep) = t.reverse := by
        rw [List.takeWhile_eq_self_iff]
        intro c hc
        have : c ∈ t := List.mem_reverse.1 hc
        simp only [bne_iff_ne, ne_eq]
        rintro rfl
        exact h this
      rw [this, List.reverse_reverse]
    · rw [List.reverse_append, List.reverse_cons, List.append_assoc, List.takeWhile_append_of_pos]
      · simp
      · intro c hc
        have : c ∈ x := List.mem_reverse.1 hc
        simp only [bne_iff_ne, ne_eq]
        rintro rfl
        exact h this
  rw [key x hx, key y hy]

theorem afterSlash_iff {t x : Text} : afterSlash t = x ↔ LastPart '/' t x :=
  ⟨fun h => h ▸ lastPart_of '/' t, fun h => lastPart_unique (lastPart_of '/' t) h⟩

theorem afterDot_iff {t x : Text} : afterDot t = x ↔ LastPart '.' t x :=
  ⟨fun h => h ▸ lastPart_of '.' t, fun h => lastPart_unique (lastPart_of '.' t) h⟩

/-! ### Words -/

theorem splitWhite_trail {white : Char → Bool} {b : Text} (hb : ∀ c ∈ b, white c = true) : ∀ (t cur : Text),
    splitWhite white cur (t ++ b) = splitWhite white cur t
  | [], cur => by
    rw [List.nil_append]
    cases b with
    | nil => rfl
    | cons c b =>
      have e : splitWhite white [] b = [] := by
        have := Enhance.splitWhite_gap (white := white) (gap := b) (fun c hc => hb c (by simp [hc])) []
        rw [List.append_nil] at this
        rw [this]; rfl
      simp only [splitWhite, hb c (by simp), if_true, e]
  | c :: t, cur => by
    rw [List.cons_append, splitWhite, splitWhite, splitWhite_trail hb t [], splitWhite_trail hb t (cur ++ [c])]

theorem splitWhite_trim (t : Text) : splitWhite isWs [] (trim t) = splitWhite isWs [] t := by
  by_cases h : trim t = []
  · obtain ⟨a, h1, h2, h3⟩ := Qml.dropWhile_split t
    obtain ⟨b, h4, h5, h6⟩ := Qml.dropWhile_split (t.dropWhile isWs).reverse
    have e : t.dropWhile isWs = trim t ++ b.reverse := by
      have := congrArg List.reverse h4
      rw [List.reverse_reverse, List.reverse_append] at this
      exact this
    rw [h, List.nil_append] at e
    rw [h]
    conv_rhs => rw [h1, e, Enhance.splitWhite_gap h2]
    have := splitWhite_trail (white := isWs) (b := b.reverse) (fun c hc => h5 c (List.mem_reverse.1 hc)) [] []
    rw [List.nil_append] at this
    exact this.symm
  · obtain ⟨_, a, b, e, ha, hb, _, _⟩ := Qml.trim_trimmed h
    conv_rhs => rw [e]
    rw [List.append_assoc, Enhance.splitWhite_gap ha, splitWhite_trail hb]

theorem keywordLike_iff {w : Text} : keywordLike w = false ↔ NoKeyword w := by
  rw [keywordLike, NoKeyword, keywords]
  simp only [startsWith, List.mem_cons, List.not_mem_nil, or_false, forall_eq_or_imp, forall_eq, Bool.or_eq_false_iff]
  simp only [← Bool.not_eq_true, List.isPrefixOf_iff_prefix]
  tauto

theorem keyword_like {k : Text} (h : k ∈ keywords) : keywordLike k = true := by
  rw [keywords] at h
  simp only [List.mem_cons, List.not_mem_nil, or_false] at h
  rcases h with rfl | rfl | rfl | rfl <;> decide

/-- The words of the text, in order, of which the first that is no keyword is the path. -/
theorem importPath_word {u : Tables} {text : Text} {before : List Text} {w : Text} {after : List Text}
    (h : Laid isWs (before ++ w :: after) text) (hb : ∀ k ∈ before, k ∈ keywords) (hw : NoKeyword w) :
    importPath u text = trimMatches (fun c => !u.alnum c && c != '_' && c != '.') w := by
  have hs := Enhance.laid_split h
  rw [importPath, splitWhite_trim, hs]
  have : (before ++ w :: after).find? (fun w => !keywordLike w) = some w := by
    rw [List.find?_eq_some_iff_append]
    refine ⟨by rw [keywordLike_iff.2 hw]; rfl, before, after, rfl, fun k hk => ?_⟩
    rw [keyword_like (hb k hk)]; rfl
  rw [this]; rfl

theorem dropWhile_all {p : Char → Bool} : ∀ l : Text, (∀ c ∈ l, p c = true) → l.dropWhile p = []
  | [], _ => rfl
  | c :: l, h => by
    rw [List.dropWhile_cons_of_pos (h c (by simp))]
    exact dropWhile_all l fun x hx => h x (by simp [hx])

/-- Trimming takes what matches off both ends. -/
theorem trimMatches_of {p : Char → Bool} {a s b : Text} (ha : ∀ c ∈ a, p c = true) (hb : ∀ c ∈ b, p c = true)
    (h1 : ∀ c ∈ s.head?, p c = false) (h2 : ∀ c ∈ s.getLast?, p c = false) : trimMatches p (a ++ s ++ b) = s := by
  rw [trimMatches, List.append_assoc, List.dropWhile_append_of_pos ha]
  cases s with
  | nil =>
    rw [List.nil_append, dropWhile_all b hb]
    rfl
  | cons c s =>
    rw [List.cons_append, List.dropWhile_cons_of_neg (by rw [h1 c rfl]; simp), ← List.cons_append, List.reverse_append,
      List.dropWhile_append_of_pos (fun c hc => hb c (List.mem_reverse.1 hc))]
    have : (c :: s).reverse.dropWhile p = (c :: s).reverse := by
      cases hr : (c :: s).reverse with
      | nil => rfl
      | cons d l =>
        have hl : (c :: s).getLast? = some d := by
          rw [← List.head?_reverse, hr]; rfl
        rw [List.dropWhile_cons_of_neg]
        rw [h2 d hl]; simp
    rw [this, List.reverse_reverse]

/-- What trimming leaves at the end: the text without some characters that match. -/
theorem trimEnd_split {p : Char → Bool} (l : Text) : ∃ s b, l = s ++ b ∧ (∀ c ∈ b, p c = true) ∧ ∀ c ∈ s.getLast?, p c = false := by
  refine ⟨(l.reverse.dropWhile p).reverse, (l.reverse.takeWhile p).reverse, ?_, ?_, ?_⟩
  · rw [← List.reverse_append, List.takeWhile_append_dropWhile, List.reverse_reverse]
  · intro c hc
    exact List.mem_takeWhile_imp (List.mem_reverse.1 hc)
  · intro c hc
    rw [List.getLast?_reverse] at hc
    have := List.head?_dropWhile_not p l.reverse
    cases hd : l.reverse.dropWhile p with
    | nil => rw [hd] at hc; simp at hc
    | cons a r =>
      rw [hd] at hc this
      obtain rfl : a = c := by simpa using hc
      simpa using this

theorem beforeColons_plain : ∀ x : Text, (∀ c ∈ x, c ≠ ':') → beforeColons x = x
  | [], _ => rfl
  | [c], _ => rfl
  | c :: d :: t, h => by
    rw [beforeColons, if_neg (fun hc => h c (by simp) hc.1), beforeColons_plain (d :: t) fun y hy => h y (List.mem_cons_of_mem _ hy)]

theorem beforeColons_cut : ∀ (x r : Text), (∀ c ∈ x, c ≠ ':') → beforeColons (x ++ ':' :: ':' :: r) = x
  | [], r, _ => by simp [beforeColons]
  | [c], r, h => by
    have hc : c ≠ ':' := h c (by simp)
    simp [beforeColons, hc]
  | c :: d :: x, r, h => by
    have hc : c ≠ ':' := h c (by simp)
    have := beforeColons_cut (d :: x) r fun y hy => h y (List.mem_cons_of_mem _ hy)
    rw [List.cons_append] at this
    rw [List.cons_append, List.cons_append, beforeColons, if_neg (fun h => hc h.1), this]

/-- Up to the first `::` and the first full stop, when a full stop follows. -/
theorem first_dot : ∀ (x r : Text), (∀ c ∈ x, c ≠ ':' ∧ c ≠ '.') → (beforeColons (x ++ '.' :: r)).takeWhile (fun c => c != '.') = x
  | [], r, _ => by
    cases r with
    | nil => simp [beforeColons]
    | cons d r => simp [beforeColons]
  | [c], r, h => by
    have hc := h c (by simp)
    have ih := first_dot [] r (by simp)
    rw [List.nil_append] at ih
    rw [List.cons_append, List.nil_append, beforeColons, if_neg (fun h => hc.1 h.1), List.takeWhile_cons_of_pos (by simpa using hc.2), ih]
  | c :: d :: x, r, h => by
    have hc := h c (by simp)
    have ih := first_dot (d :: x) r fun y hy => h y (List.mem_cons_of_mem _ hy)
    rw [List.cons_append] at ih
    rw [List.cons_append, List.cons_append, beforeColons, if_neg (fun h => hc.1 h.1), List.takeWhile_cons_of_pos (by simpa using hc.2), ih]

theorem takeWhile_plain (x : Text) (h : ∀ c ∈ x, c ≠ '.') : x.takeWhile (fun c => c != '.') = x := by
  rw [List.takeWhile_eq_self_iff]
  intro c hc
  simpa using h c hc

/-- The first component of a path, whatever follows it. -/
theorem first_component {u : Tables} (hu : Sane u) {x rest : Text} (hx : x ≠ []) (hn : ∀ c ∈ x, NameChar u c)
    (hr : (∀ c ∈ rest, u.alnum c = false ∧ c ≠ '_' ∧ c ≠ '.') ∨ (∃ r, rest = '.' :: r) ∨ ∃ r, rest = ':' :: ':' :: r) :
    nonEmpty ((beforeColons (trimMatches (fun c => !u.alnum c && c != '_' && c != '.') (x ++ rest))).takeWhile fun c => c != '.') = some x := by
  have hkeep : ∀ c, NameChar u c → (!u.alnum c && c != '_' && c != '.') = false := by
    rintro c (h | h) <;> simp [h]
  have hcd : ∀ c ∈ x, c ≠ ':' ∧ c ≠ '.' := by
    intro c hc
    rcases hn c hc with h | h
    · constructor
      · rintro rfl; rw [hu.colon] at h; exact absurd h (by decide)
      · rintro rfl; rw [hu.dot] at h; exact absurd h (by decide)
    · subst h; decide
  have hhead : ∀ c ∈ x.head?, (!u.alnum c && c != '_' && c != '.') = false := fun c hc => hkeep c (hn c (List.mem_of_mem_head? hc))
  have hlast : ∀ c ∈ x.getLast?, (!u.alnum c && c != '_' && c != '.') = false := fun c hc => hkeep c (hn c (List.mem_of_mem_getLast? hc))
  have key : (beforeColons (trimMatches (fun c => !u.alnum c && c != '_' && c != '.') (x ++ rest))).takeWhile (fun c => c != '.') = x := by
    obtain ⟨s, b, e, hb, hs⟩ := trimEnd_split (p := fun c => !u.alnum c && c != '_' && c != '.') rest
    have ht : trimMatches (fun c => !u.alnum c && c != '_' && c != '.') (x ++ rest) = x ++ s := by
      rw [e, ← List.append_assoc]
      have := trimMatches_of (p := fun c => !u.alnum c && c != '_' && c != '.') (a := []) (s := x ++ s) (b := b) (by simp) hb
        (by
          cases x with
          | nil => exact absurd rfl hx
          | cons a l => exact hhead)
        (by
          cases s with
          | nil => rw [List.append_nil]; exact hlast
          | cons a l =>
            intro c hc
            refine hs c ?_
            rw [List.getLast?_append] at hc
            simpa using hc)
      rwa [List.nil_append] at this
    rw [ht]
    cases s with
    | nil =>
      rw [List.append_nil, beforeColons_plain x fun c hc => (hcd c hc).1, takeWhile_plain x fun c hc => (hcd c hc).2]
    | cons a l =>
      rcases hr with hj | ⟨r, rfl⟩ | ⟨r, rfl⟩
      · exfalso
        obtain ⟨d, hd⟩ : ∃ d, (a :: l).getLast? = some d := Option.isSome_iff_exists.1 (by simp)
        have h1 := hs d hd
        have h2 := hj d (by rw [e]; exact List.mem_append_left _ (List.mem_of_mem_getLast? hd))
        simp [h2] at h1
      · obtain ⟨rfl, _⟩ : '.' = a ∧ r = l ++ b := by simpa using e
        exact first_dot x l hcd
      · obtain ⟨rfl, e2⟩ : ':' = a ∧ ':' :: r = l ++ b := by simpa using e
        cases l with
        | nil =>
          exfalso
          have := hs ':' (by simp)
          rw [hu.colon] at this
          exact absurd this (by decide)
        | cons d l =>
          obtain ⟨rfl, _⟩ : ':' = d ∧ r = l ++ b := by simpa using e2
          rw [beforeColons_cut x l fun c hc => (hcd c hc).1, takeWhile_plain x fun c hc => (hcd c hc).2]
  rw [key]
  exact nonEmpty_iff.2 ⟨rfl, hx⟩

/-! ### Used modules -/

theorem visitUsedAll_eq (u : Tables) (lang : Language) (D d : Nat) : ∀ cs : List Nd,
    visitUsedAll u lang D d cs = cs.flatMap (visitUsed u lang D d)
  | [] => by simp [visitUsedAll]
  | c :: cs => by simp [visitUsedAll, visitUsedAll_eq u lang D d cs]

theorem mem_visitUsed {u : Tables} {lang : Language} {D : Nat} {x : Text} : ∀ (d : Nat) (n : Nd),
    x ∈ visitUsed u lang D (d + 1) n ↔ ∃ m ∈ writtenTo d n, usedAt u lang D m = some x
  | d, .mk i cs => by
    rw [visitUsed, List.mem_append, Option.mem_toList, visitUsedAll_eq, List.mem_flatMap]
    cases d with
    | zero =>
      rw [writtenTo_zero]
      simp [visitUsed]
    | succ e =>
      rw [writtenTo_succ]
      constructor
      · rintro (h | ⟨c, hc, h⟩)
        · exact ⟨_, List.mem_cons_self, h⟩
        · obtain ⟨m, hm, hx⟩ := (mem_visitUsed e c).1 h
          exact ⟨m, List.mem_cons_of_mem _ (List.mem_flatMap.2 ⟨c, hc, hm⟩), hx⟩
      · rintro ⟨m, hm, hx⟩
        rcases List.mem_cons.1 hm with rfl | hm
        · exact .inl hx
        · obtain ⟨c, hc, hm⟩ := List.mem_flatMap.1 hm
          exact .inr ⟨c, hc, (mem_visitUsed e c).2 ⟨m, hm, hx⟩⟩

theorem mem_usedModules {u : Tables} {lang : Language} {D : Nat} {root : Nd} {x : Text} :
    x ∈ usedModules u lang D root ↔ ∃ m ∈ writtenTo D root, usedAt u lang D m = some x := by
  rw [usedModules, mem_sortDedup, mem_visitUsed]

theorem baseName_iff {u : Tables} {t x : Text} : baseName u t = some x ↔
    x = trim t ∧ x ≠ "self".toList ∧ x ≠ "this".toList ∧ x ≠ "super".toList ∧ ∃ c cs, x = c :: cs ∧ u.alpha c = true := by
  rw [baseName]
  split
  · next h =>
    constructor
    · intro hx; exact absurd hx (by simp)
    · rintro ⟨rfl, _, _, _, c, cs, e, _⟩
      rw [h] at e; exact absurd e (by simp)
  · next c cs h =>
    split
    · next hc =>
      constructor
      · intro hx
        obtain rfl : c :: cs = x := by simpa using hx
        exact ⟨h.symm, hc.1, hc.2.1, hc.2.2.1, c, cs, rfl, hc.2.2.2⟩
      · rintro ⟨rfl, _⟩
        rw [h]
    · next hc =>
      constructor
      · intro hx; exact absurd hx (by simp)
      · rintro ⟨rfl, h1, h2, h3, d, ds, e, hd⟩
        rw [h] at e h1 h2 h3
        obtain ⟨rfl, rfl⟩ : c = d ∧ cs = ds := by simpa using e
        exact absurd ⟨h1, h2, h3, hd⟩ hc

theorem inField_iff {n m : Nd} {f : String} : n.byField f = some m ↔ InField f n m :=
  ⟨byField_some, fun ⟨_, _, hc, hf, hpre⟩ => byField_of hc hf hpre⟩

theorem containsText_iff (p : Text) : ∀ s : Text, containsText p s = true ↔ p <:+: s
  | [] => by
    rw [containsText]
    simp
  | c :: s => by
    rw [containsText, Bool.or_eq_true, containsText_iff p s, List.isPrefixOf_iff_prefix, List.infix_cons_iff]

theorem either_iff {n m : Nd} : (n.byField "object").or (n.byField "expression") = some m ↔
    InField "object" n m ∨ ((∀ c ∈ n.children, c.info.field ≠ some "object") ∧ InField "expression" n m) := by
  rw [Option.or_eq_some_iff, inField_iff, inField_iff]
  have : n.byField "object" = none ↔ ∀ c ∈ n.children, c.info.field ≠ some "object" := by
    rw [Nd.byField, List.find?_eq_none]
    simp
  rw [this]

theorem accessed_iff {lang : Language} {D : Nat} {n m : Nd} {k : String} (hk : k ∈ accessKinds lang) :
    baseOf lang D n = some m ↔ Accessed lang D n m := by
  have hfirst : n.first = some m ↔ ∃ post : List Nd, n.children = m :: post := by
    rw [Nd.first]
    cases n.children with
    | nil => simp
    | cons a l =>
      constructor
      · intro h; exact ⟨l, by rw [List.head?_cons] at h; cases h; rfl⟩
      · rintro ⟨post, h⟩; cases h; rfl
  cases lang <;> first
    | exact inField_iff
    | exact hfirst
    | exact seek_iff
    | (simp only [accessKinds, List.not_mem_nil] at hk; done)
    | skip
  · -- Java
    show (n.byField "object").or (n.byField "expression") = some m ↔
      InField "object" n m ∨ ((∀ c ∈ n.children, c.info.field ≠ some "object") ∧ InField "expression" n m)
    exact either_iff
  · show (n.byField "object").or (n.byField "expression") = some m ↔
      InField "object" n m ∨ ((∀ c ∈ n.children, c.info.field ≠ some "object") ∧ InField "expression" n m)
    exact either_iff
  · show n.firstNamed = some m ↔
      ∃ pre post : List Nd, n.children = pre ++ m :: post ∧ m.info.named = true ∧ ∀ c ∈ pre, c.info.named = false
    rw [Nd.firstNamed, List.find?_eq_some_iff_append]
    constructor
    · rintro ⟨h1, pre, post, h2, h3⟩
      exact ⟨pre, post, h2, h1, fun c hc => by simpa using h3 c hc⟩
    · rintro ⟨pre, post, h2, h1, h3⟩
      exact ⟨h1, pre, post, h2, fun c hc => by simpa using h3 c hc⟩

end NextPlaid.Imports
