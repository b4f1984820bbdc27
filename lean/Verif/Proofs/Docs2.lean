import Verif.Proofs.Docs

/-!
Lemmas about comments with an opening and a closing mark, and about Haskell, Lua, Elixir and Python.
-/

namespace NextPlaid.Docs

open Units (Text trim isWs startsWith)
open NextPlaid.Text (trimMatches)
open Imports (trimMatches_of trimEnd_split)
open DocsSpec

/-! ### Blocks -/

theorem endsWith_iff {t p : Text} : endsWith t p = true ↔ p <:+ t := List.isSuffixOf_iff_suffix

theorem ended_iff {m l : Text} (hm : Solid m) : endsWith (trim l) m = true ↔ Ended m l := by
  rw [endsWith_iff]
  constructor
  · rintro ⟨r, hr⟩
    obtain ⟨a, b, h1, ha, hb, _⟩ := trim_core l
    exact ⟨b, a ++ r, hb, by rw [h1, ← hr]; simp⟩
  · rintro ⟨w, r, hw, rfl⟩
    have hc := trim_core (r ++ m)
    obtain ⟨a, b, h1, ha, hb, h2, h3⟩ := hc
    have hb' : b = [] := by
      rcases List.eq_nil_or_concat b with h | ⟨b', c, rfl⟩
      · exact h
      · have hlast : (r ++ m).getLast? = some c := by rw [h1]; simp
        rw [List.getLast?_append_of_ne_nil _ hm.some] at hlast
        have := hm.last c hlast
        rw [hb c (by simp)] at this
        exact absurd this (by simp)
    subst hb'
    rw [List.append_nil] at h1
    have hcore : Core (r ++ m ++ w) (trim (r ++ m)) := ⟨a, w, by rw [h1.symm], ha, hw, h2, h3⟩
    rw [core_trim hcore]
    by_cases hlen : m.length ≤ (trim (r ++ m)).length
    · exact List.suffix_of_suffix_length_le (List.suffix_append r m) ⟨a, h1.symm⟩ hlen
    · exfalso
      have hs : trim (r ++ m) <:+ m := List.suffix_of_suffix_length_le ⟨a, h1.symm⟩ (List.suffix_append r m) (by omega)
      obtain ⟨x, hx⟩ := hs
      cases x with
      | nil => rw [List.nil_append] at hx; rw [hx] at hlen; omega
      | cons c x =>
        have hf := hm.first c (by rw [← hx]; rfl)
        have : c ∈ a := by
          have e : r ++ (c :: x) ++ trim (r ++ m) = a ++ trim (r ++ m) := by
            rw [List.append_assoc, hx, h1.symm]
          have := List.append_cancel_right e
          rw [← this]; simp
        rw [ha c this] at hf
        exact absurd hf (by simp)

theorem upTo_of {opens : Text → Bool} {first : Text} {up : List Text} (hf : opens first = true) : ∀ (rest acc : List Text),
    (∀ l ∈ rest, opens l = false) → upTo opens (rest.reverse ++ first :: up) acc = some (first :: (rest ++ acc)) := by
  intro rest
  induction rest using List.reverseRecOn with
  | nil => intro acc _; simp [upTo, hf]
  | append_singleton rest l ih =>
    intro acc h
    rw [List.reverse_append, List.reverse_singleton, List.singleton_append, List.cons_append, upTo, h l (by simp),
      if_neg (by simp), ih _ fun x hx => h x (by simp [hx])]
    simp

theorem upTo_some {opens : Text → Bool} : ∀ (up acc ls : List Text), upTo opens up acc = some ls →
    ∃ first rest up', up = rest.reverse ++ first :: up' ∧ ls = first :: (rest ++ acc) ∧ opens first = true ∧ ∀ l ∈ rest, opens l = false
  | [], acc, ls, h => by simp [upTo] at h
  | l :: up, acc, ls, h => by
    rw [upTo] at h
    split at h
    · next ho =>
      obtain rfl := (Option.some.inj h).symm
      exact ⟨l, [], up, by simp, by simp, ho, by simp⟩
    · next ho =>
      obtain ⟨first, rest, up', rfl, rfl, h1, h2⟩ := upTo_some up _ ls h
      refine ⟨first, rest ++ [l], up', by simp, by simp, h1, fun x hx => ?_⟩
      rcases List.mem_append.1 hx with hx | hx
      · exact h2 x hx
      · rw [List.mem_singleton.1 hx]; simpa using ho

theorem blockDoc_of {opens : Text → Bool} {close : Text} {clean : Text → Text} {first : Text} {rest up ts : List Text}
    (hf : opens first = true) (hr : ∀ l ∈ rest, opens l = false) (hc : ∀ l ∈ (first :: rest).getLast?, endsWith (trim l) close = true)
    (ht : (first :: rest).map clean = ts) :
    blockDoc opens close clean (rest.reverse ++ first :: up) = some ([' '].intercalate (ts.filter fun t => !t.isEmpty)) := by
  have h1 := upTo_of (up := up) hf rest [] hr
  cases he : rest.reverse ++ first :: up with
  | nil => simp at he
  | cons l l' =>
    have hl : l ∈ (first :: rest).getLast? := by
      rcases List.eq_nil_or_concat rest with rfl | ⟨r, c, rfl⟩
      · simp only [List.reverse_nil, List.nil_append, List.cons.injEq] at he
        rw [← he.1]; rfl
      · simp only [List.concat_eq_append, List.reverse_append, List.reverse_cons, List.reverse_nil, List.nil_append, List.cons_append,
          List.cons.injEq] at he
        rw [← he.1, List.concat_eq_append, ← List.cons_append, List.getLast?_append_of_ne_nil _ (by simp)]
        rfl
    rw [blockDoc, if_pos (hc l hl), ← he, h1, Option.map_some, List.append_nil, ht, joined]

/-! ### Lines of a block -/

theorem solid_star : Solid ['*'] := ⟨by simp, by decide, by decide⟩
theorem solid_open : Solid "/*".toList := ⟨by decide, by decide, by decide⟩
theorem solid_open2 : Solid "/**".toList := ⟨by decide, by decide, by decide⟩
theorem solid_close : Solid "*/".toList := ⟨by decide, by decide, by decide⟩
theorem solid_ml : Solid "(**".toList := ⟨by decide, by decide, by decide⟩
theorem solid_mlClose : Solid "*)".toList := ⟨by decide, by decide, by decide⟩

theorem not_white {c : Char} (h : isWs c = false) {w : Text} (hw : White w) : c ∉ w := fun hc => by
  rw [hw c hc] at h; exact absurd h (by simp)

theorem body_head {r t : Text} (h : Body r t) : ∀ c ∈ r.head?, c ≠ '*' ∧ c ≠ '/' := by
  obtain ⟨⟨a, b, rfl, ha, hb, _, _⟩, h2, _⟩ := h
  intro c hc
  have hw : ∀ {x : Text}, White x → c ∈ x → c ≠ '*' ∧ c ≠ '/' := by
    intro x hx hm
    exact ⟨fun e => not_white (c := '*') (by decide) hx (e ▸ hm), fun e => not_white (c := '/') (by decide) hx (e ▸ hm)⟩
  cases a with
  | cons x a => exact hw ha (by simp at hc; simp [hc])
  | nil =>
    cases t with
    | cons x t => exact h2 c (by simpa using hc)
    | nil => exact hw hb (by
        simp only [List.nil_append] at hc
        exact List.mem_of_mem_head? hc)

/-- A text with a core ends with a mark only if the core does, or the mark goes into the white space. -/
theorem core_suffix {r t p : Text} (h : Core r t) (hp : Solid p) (hw : ∀ c ∈ p, isWs c = false) (hs : p <:+ r) : p <:+ t := by
  obtain ⟨a, b, e, ha, hb, _, _⟩ := h
  obtain ⟨x, hx⟩ := hs
  have hb' : b = [] := by
    rcases List.eq_nil_or_concat b with h | ⟨b', c, rfl⟩
    · exact h
    · exfalso
      have hlast : r.getLast? = some c := by rw [e]; simp
      rw [← hx, List.getLast?_append_of_ne_nil _ hp.some] at hlast
      exact not_white (hp.last c hlast) hb (by simp)
  subst hb'
  rw [List.append_nil] at e
  by_cases hlen : p.length ≤ t.length
  · exact List.suffix_of_suffix_length_le ⟨x, hx⟩ ⟨a, e.symm⟩ hlen
  · exfalso
    obtain ⟨y, hy⟩ := List.suffix_of_suffix_length_le (⟨a, e.symm⟩ : t <:+ r) ⟨x, hx⟩ (by omega)
    cases y with
    | nil => rw [List.nil_append] at hy; rw [hy] at hlen; omega
    | cons c y =>
      have : x ++ (c :: y) ++ t = a ++ t := by rw [List.append_assoc, hy, hx, e]
      have := List.append_cancel_right this
      exact not_white (hw c (by rw [← hy]; simp)) ha (by rw [← this]; simp)

theorem core_prefix {r t p : Text} (h : Core r t) (hp : p ≠ []) (hw : ∀ c ∈ p, isWs c = false) (hs : p <+: r) : p <+: t := by
  obtain ⟨a, b, e, ha, hb, _, _⟩ := h
  obtain ⟨x, hx⟩ := hs
  cases p with
  | nil => exact absurd rfl hp
  | cons c p =>
    cases a with
    | cons d a =>
      exfalso
      rw [← hx] at e
      simp only [List.cons_append, List.cons.injEq] at e
      exact not_white (hw c (by simp)) ha (by simp [e.1])
    | nil =>
      rw [List.nil_append] at e
      by_cases hlen : (c :: p).length ≤ t.length
      · exact List.prefix_of_prefix_length_le ⟨x, hx⟩ ⟨b, e.symm⟩ hlen
      · exfalso
        obtain ⟨y, hy⟩ := List.prefix_of_prefix_length_le (⟨b, e.symm⟩ : t <+: r) ⟨x, hx⟩ (by omega)
        cases y with
        | nil => rw [List.append_nil] at hy; rw [hy] at hlen; omega
        | cons d y =>
          have : t ++ (d :: y ++ x) = t ++ b := by rw [← e, ← hx, ← hy]; simp
          have := List.append_cancel_left this
          exact not_white (hw d (by rw [← hy]; simp)) hb (by rw [← this]; simp)

theorem body_noEnd {r t : Text} (h : Body r t) : ¬ "*/".toList <:+ r := fun hs =>
  h.2.2 (core_suffix h.1 solid_close (by decide) hs)

theorem body_drop {r b t : Text} (hb : White b) (h : Body (r ++ b) t) : Body r t := ⟨core_drop hb h.1, h.2⟩

theorem dropStars {r : Text} (h : ∀ c ∈ r.head?, c ≠ '*' ∧ c ≠ '/') : r.dropWhile (fun c => c == '*') = r := by
  cases r with
  | nil => rfl
  | cons c r => rw [List.dropWhile_cons_of_neg]; simpa using (h c rfl).1

theorem noOpen {r : Text} (h : ∀ c ∈ r.head?, c ≠ '/') {p : Text} : ¬ ('/' :: p) <+: r := by
  rintro ⟨s, rfl⟩
  exact h '/' rfl rfl

theorem head_append {r b : Text} {P : Char → Prop} (h : ∀ c ∈ (r ++ b).head?, P c) : ∀ c ∈ r.head?, P c := by
  intro c hc
  cases r with
  | nil => simp at hc
  | cons x r => exact h c (by simpa using hc)

/-- What remains of a line after the opening marks. -/
theorem opened {m X : Text} (hm : m = "/**".toList ∨ m = "/*".toList) (hX : ∀ c ∈ X.head?, c ≠ '*' ∧ c ≠ '/') :
    (stripStart "/*".toList (stripStart "/**".toList (m ++ X))).dropWhile (fun c => c == '*') = X := by
  have h1 : ¬ "/**".toList <+: X := noOpen fun c hc => (hX c hc).2
  have h2 : ¬ "/*".toList <+: X := noOpen fun c hc => (hX c hc).2
  rcases hm with rfl | rfl
  · rw [stripStart_once (by decide) h1, stripStart_none (by decide) h2, dropStars hX]
  · have h3 : ¬ "/**".toList <+: "/*".toList ++ X := by
      rintro ⟨s, hs⟩
      have : '*' :: s = X := by simpa using hs
      subst this
      exact (hX '*' rfl).1 rfl
    rw [stripStart_none (by decide) h3, stripStart_once (by decide) h2, dropStars hX]

/-- What remains of a line after a star. -/
theorem starred {X : Text} (hX : ∀ c ∈ X.head?, c ≠ '*' ∧ c ≠ '/') :
    (stripStart "/*".toList (stripStart "/**".toList ('*' :: X))).dropWhile (fun c => c == '*') = X := by
  have h : ∀ {p : Text}, ¬ ('/' :: p) <+: '*' :: X := by
    intro p; exact noOpen (by simp)
  rw [stripStart_none (p := "/**".toList) (by decide) h, stripStart_none (p := "/*".toList) (by decide) h, List.dropWhile_cons_of_pos (by simp), dropStars hX]

theorem unmarked {X : Text} (hX : ∀ c ∈ X.head?, c ≠ '*' ∧ c ≠ '/') :
    (stripStart "/*".toList (stripStart "/**".toList X)).dropWhile (fun c => c == '*') = X := by
  have h : ∀ {p : Text}, ¬ ('/' :: p) <+: X := noOpen fun c hc => (hX c hc).2
  rw [stripStart_none (p := "/**".toList) (by decide) h, stripStart_none (p := "/*".toList) (by decide) h, dropStars hX]

theorem clean_opens {l t : Text} (h : Opens l t) : cleanC l = t := by
  obtain ⟨w, m, r, hw, hm, rfl, hb⟩ := h
  have hs : Solid m := by rcases hm with rfl | rfl; exacts [solid_open2, solid_open]
  obtain ⟨r', b, rfl, hbw, e⟩ := trim_marked (r := r) hw hs
  have hb' := body_drop hbw hb
  rw [cleanC, e, opened hm (body_head hb'), stripEnd_none (by decide) (body_noEnd hb')]
  exact core_trim hb'.1

theorem clean_goes {l t : Text} (h : Goes l t) : cleanC l = t := by
  obtain ⟨w, r, hw, rfl | rfl, hb⟩ := h
  · obtain ⟨r', b, rfl, hbw, e⟩ := trim_marked (w := w) (r := r) hw solid_star
    rw [List.append_assoc, List.singleton_append] at e
    have hb' := body_drop hbw hb
    rw [cleanC, e, List.singleton_append, starred (body_head hb'), stripEnd_none (by decide) (body_noEnd hb')]
    exact core_trim hb'.1
  · have ht : Body t t := by
      obtain ⟨⟨a, b, _, _, _, h1, h2⟩, h3, h4⟩ := hb
      exact ⟨⟨[], [], by simp, by simp [White], by simp [White], h1, h2⟩, h3, h4⟩
    rw [cleanC, core_trim hb.1, unmarked hb.2.1, stripEnd_none (by decide) hb.2.2]
    exact core_trim ht.1

theorem body_ne {r t : Text} (h : Body r t) (ht : t ≠ []) : r ≠ [] := by
  rintro rfl
  obtain ⟨⟨a, b, e, _⟩, _⟩ := h
  simp only [List.nil_eq, List.append_eq_nil_iff] at e
  exact ht e.1.2

/-- Trimming a line that ends with the closing mark. -/
theorem trim_closed {w m r w' : Text} (hw : White w) (hw' : White w') (hm : m = [] ∨ Solid m) (hr : m = [] → ∀ c ∈ r.head?, isWs c = false)
    (hrm : m = [] → r ≠ []) {p : Text} (hp : Solid p) : trim (w ++ m ++ r ++ p ++ w') = m ++ r ++ p := by
  refine core_trim ⟨w, w', by simp, hw, hw', ?_, ?_⟩
  · intro c hc
    rcases hm with rfl | hm
    · rw [List.nil_append, List.head?_append_of_ne_nil _ (hrm rfl)] at hc
      exact hr rfl c hc
    · rw [List.append_assoc, List.head?_append_of_ne_nil _ hm.some] at hc
      exact hm.first c hc
  · intro c hc
    rw [List.getLast?_append_of_ne_nil _ hp.some] at hc
    exact hp.last c hc

theorem head_of_append {r b : Text} (hr : r ≠ []) {P : Char → Prop} (h : ∀ c ∈ r.head?, P c) : ∀ c ∈ (r ++ b).head?, P c := by
  intro c hc
  rw [List.head?_append_of_ne_nil _ hr] at hc
  exact h c hc

theorem clean_closes_opens {l t : Text} (h : Closes Opens l t) : cleanC l = t := by
  obtain ⟨ht, l', w', hw', rfl, w, m, r, hw, hm, rfl, hb⟩ := h
  have hs : Solid m := by rcases hm with rfl | rfl; exacts [solid_open2, solid_open]
  have hr := body_ne hb ht
  rw [cleanC, trim_closed hw hw' (.inr hs) (fun e => absurd e hs.some) (fun e => absurd e hs.some) solid_close, List.append_assoc,
    opened hm (head_of_append hr (body_head hb)), stripEnd_once (by decide) (body_noEnd hb)]
  exact core_trim hb.1

theorem clean_closes_goes {l t : Text} (h : Closes Goes l t) : cleanC l = t := by
  obtain ⟨ht, l', w', hw', rfl, w, r, hw, hl, hb⟩ := h
  have hr := body_ne hb ht
  rcases hl with rfl | rfl
  · have e := trim_closed (m := ['*']) (r := r) hw hw' (.inr solid_star) (fun e => absurd e (by simp)) (fun e => absurd e (by simp)) solid_close
    rw [List.append_assoc w, List.singleton_append] at e
    rw [cleanC, e, List.cons_append, starred (head_of_append hr (body_head hb)), stripEnd_once (by decide) (body_noEnd hb)]
    exact core_trim hb.1
  · obtain ⟨⟨a, b, rfl, ha, hbw, h1, h2⟩, h3, h4⟩ := hb
    have hb' : Body (t ++ b) t := ⟨⟨[], b, by simp, by simp [White], hbw, h1, h2⟩, h3, h4⟩
    have e := trim_closed (w := a) (m := []) (r := t ++ b) (p := "*/".toList) ha hw' (.inl rfl) (fun _ => head_of_append ht h1)
      (fun _ => by simp [ht]) solid_close
    have e' : trim (a ++ t ++ b ++ "*/".toList ++ w') = t ++ b ++ "*/".toList := by
      rw [← List.nil_append (t ++ b), ← e]; simp
    rw [cleanC, e', unmarked (by
      rw [List.append_assoc]
      exact head_of_append ht h3), stripEnd_once (by decide) (body_noEnd hb')]
    exact core_trim hb'.1

theorem clean_bare {l : Text} (h : BareClose l) : cleanC l = ['/'] := by
  obtain ⟨w, k, w', hw, hw', rfl⟩ := h
  have e : trim (w ++ List.replicate (k + 1) '*' ++ '/' :: w') = List.replicate (k + 1) '*' ++ ['/'] := by
    refine core_trim ⟨w, w', by simp, hw, hw', ?_, ?_⟩
    · intro c hc
      have : c = '*' := by simpa [List.replicate_succ] using hc.symm
      subst this; decide
    · intro c hc
      rw [List.getLast?_append_of_ne_nil _ (by simp)] at hc
      have : c = '/' := by simpa using hc.symm
      subst this; decide
  have h : ∀ {p : Text}, ¬ ('/' :: p) <+: List.replicate (k + 1) '*' ++ ['/'] := by
    intro p; exact noOpen (by simp [List.replicate_succ])
  have hd : (List.replicate (k + 1) '*' ++ ['/']).dropWhile (fun c => c == '*') = ['/'] := by
    rw [List.dropWhile_append_of_pos (fun c hc => by simp [List.eq_of_mem_replicate hc])]
    rfl
  rw [cleanC, e, stripStart_none (p := "/**".toList) (by decide) h, stripStart_none (p := "/*".toList) (by decide) h, hd]
  decide

theorem opensC_iff {l : Text} : opensC l = true ↔ Marked "/*".toList l := by
  rw [opensC, Bool.or_eq_true, marked_iff solid_open, marked_iff solid_open2, or_iff_right_iff_imp]
  rintro ⟨w, r, hw, rfl⟩
  exact ⟨w, '*' :: r, hw, by simp⟩

theorem opens_opensC {l t : Text} (h : Opens l t) : opensC l = true := by
  rw [opensC_iff]
  obtain ⟨w, m, r, hw, rfl | rfl, rfl, _⟩ := h
  · exact ⟨w, '*' :: r, hw, by simp⟩
  · exact ⟨w, r, hw, rfl⟩

theorem not_opensC {l : Text} (h : ∀ c ∈ (trim l).head?, c ≠ '/') : opensC l = false := by
  rw [opensC, Bool.or_eq_false_iff]
  constructor <;>
  · rw [Bool.eq_false_iff]
    intro hs
    exact noOpen h (startsWith_iff.1 hs)

theorem goes_opensC {l t : Text} (h : Goes l t) : opensC l = false := by
  apply not_opensC
  obtain ⟨w, r, hw, rfl | rfl, hb⟩ := h
  · obtain ⟨r', b, rfl, hbw, e⟩ := trim_marked (w := w) (r := r) hw solid_star
    rw [List.append_assoc, List.singleton_append] at e
    rw [e]; simp
  · rw [core_trim hb.1]
    exact fun c hc => (hb.2.1 c hc).2

theorem closes_opensC {l t : Text} (h : Closes Goes l t) : opensC l = false := by
  apply not_opensC
  obtain ⟨ht, l', w', hw', rfl, w, r, hw, hl, hb⟩ := h
  rcases hl with rfl | rfl
  · have e := trim_closed (m := ['*']) (r := r) hw hw' (.inr solid_star) (fun e => absurd e (by simp)) (fun e => absurd e (by simp)) solid_close
    rw [List.append_assoc w, List.singleton_append] at e
    rw [e]; simp
  · obtain ⟨⟨a, b, rfl, ha, hbw, h1, h2⟩, h3, h4⟩ := hb
    have e := trim_closed (w := a) (m := []) (r := t ++ b) (p := "*/".toList) ha hw' (.inl rfl) (fun _ => head_of_append ht h1)
      (fun _ => by simp [ht]) solid_close
    have e' : trim (a ++ t ++ b ++ "*/".toList ++ w') = t ++ b ++ "*/".toList := by
      rw [← List.nil_append (t ++ b), ← e]; simp
    rw [e', List.append_assoc]
    exact head_of_append ht fun c hc => (h3 c hc).2

theorem bare_opensC {l : Text} (h : BareClose l) : opensC l = false := by
  rw [Bool.eq_false_iff]
  intro ho
  obtain ⟨w, r, hw, e⟩ := opensC_iff.1 ho
  have h1 := clean_bare h
  obtain ⟨v, k, w', hv, hw', rfl⟩ := h
  have e1 : trim (v ++ ['*'] ++ (List.replicate k '*' ++ '/' :: w')) = trim (w ++ "/*".toList ++ r) := by
    rw [← e]; simp [List.replicate_succ]
  obtain ⟨r1, b1, -, -, h2⟩ := trim_marked (r := List.replicate k '*' ++ '/' :: w') hv solid_star
  obtain ⟨r2, b2, -, -, h3⟩ := trim_marked (r := r) hw solid_open
  rw [h2, h3] at e1
  simp at e1

theorem closes_ended {line : Text → Text → Prop} {l t : Text} (h : Closes line l t) : Ended "*/".toList l := by
  obtain ⟨_, l', w, hw, rfl, _⟩ := h
  exact ⟨w, l', hw, rfl⟩

theorem bare_ended {l : Text} (h : BareClose l) : Ended "*/".toList l := by
  obtain ⟨w, k, w', hw, hw', rfl⟩ := h
  exact ⟨w', w ++ List.replicate k '*', hw', by simp [List.replicate_succ']⟩

end NextPlaid.Docs
