import Verif.Model.Globs
import Verif.Spec.Globs
import Verif.Proofs.Regex

namespace NextPlaid.Globs

open NextPlaid.Regex NextPlaid.Spec

/-- The text and the expression of a part of a pattern. -/
def tokText : Tok → List Char
  | .lit c => if c ∈ special then ['\\', c] else [c]
  | .one => ['.']
  | .run => ['[', '^', '/', ']', '*']
  | .deep => ['.', '*']
  | .dirs => ['(', '.', '*', '/', ')', '?']

def slashed : Rx := .cat (.star .any) (.cat (.chr '/') .eps)

def tokRx : Tok → Rx
  | .lit c => .chr c
  | .one => .any
  | .run => .star (.set true ['/'])
  | .deep => .star .any
  | .dirs => .opt slashed

theorem globBody_tokens (p : List Char) : globBody p = (tokens p).flatMap tokText := by
  fun_induction globBody p with
  | case1 cs ih => simp [tokens, tokText, ih]
  | case2 cs h ih => rw [tokens] <;> simp_all [tokText]
  | case3 cs h1 h2 ih => rw [tokens] <;> simp_all [tokText]
  | case4 cs ih => simp [tokens, tokText, ih]
  | case5 c cs h1 h2 h3 h4 h5 ih => rw [tokens] <;> simp_all [tokText]
  | case6 c cs h1 h2 h3 h4 h5 ih => rw [tokens] <;> simp_all [tokText]
  | case7 => simp [tokens]

/-- The literal parts of a pattern are neither `*` nor `?`. -/
theorem tokens_lit (p : List Char) : ∀ c, Tok.lit c ∈ tokens p → c ≠ '*' ∧ c ≠ '?' := by
  fun_induction tokens p with
  | case5 c cs h1 h2 h3 h4 ih =>
    intro d hd
    rcases List.mem_cons.mp hd with h | h
    · cases h; exact ⟨fun h => h3 h, fun h => h4 h⟩
    · exact ih d h
  | _ => simp_all

theorem seq_reverse (rs : List Rx) : seq rs.reverse = rs.foldr .cat .eps := by simp [seq, List.foldl_reverse]

theorem parse_lit (c : Char) (h1 : c ≠ '*') (h2 : c ≠ '?') (top : Frame) (outer : List Frame) :
    parseFrom { mode := .normal, top := top, outer := outer } (tokText (.lit c)) =
      some { mode := .normal, top := top.add (.chr c), outer := outer } := by
  by_cases h : c ∈ special
  · have hm : c ∈ metas := by revert h; simp only [special, metas, List.mem_cons, List.not_mem_nil, or_false]; tauto
    simp [tokText, h, parseFrom, step, step0, hm]
  · have : tokText (.lit c) = [c] := by simp [tokText, h]
    rw [this]
    simp only [special, List.mem_cons, List.not_mem_nil, or_false, not_or] at h
    obtain ⟨h3, h4, h5, h6, h7, h8, h9, h10, h11, h12, h13, h14⟩ := h
    simp only [parseFrom, step, step0, h1, h2, h3, h4, h5, h6, h7, h8, h9, h11, h12, h13, h14, if_false]
    rfl

theorem parse_tok (t : Tok) (ht : ∀ c, t = .lit c → c ≠ '*' ∧ c ≠ '?') (top : Frame) (outer : List Frame) :
    parseFrom { mode := .normal, top := top, outer := outer } (tokText t) =
      some { mode := .normal, top := top.add (tokRx t), outer := outer } := by
  cases t with
  | lit c => exact parse_lit c (ht c rfl).1 (ht c rfl).2 top outer
  | one => rfl
  | run => rfl
  | deep => rfl
  | dirs => rfl

def addAll (top : Frame) (rs : List Rx) : Frame := { top with cur := rs.reverse ++ top.cur }

theorem addAll_add (top : Frame) (r : Rx) (rs : List Rx) : addAll (top.add r) rs = addAll top (r :: rs) := by
  simp [addAll, Frame.add]

theorem parse_toks (ts : List Tok) (hts : ∀ c, Tok.lit c ∈ ts → c ≠ '*' ∧ c ≠ '?') : ∀ (top : Frame) (outer : List Frame),
    parseFrom { mode := .normal, top := top, outer := outer } (ts.flatMap tokText) =
      some { mode := .normal, top := addAll top (ts.map tokRx), outer := outer } := by
  induction ts with
  | nil => intro top outer; simp [addAll, parseFrom]
  | cons t ts ih =>
    intro top outer
    rw [List.flatMap_cons, parseFrom_append, parse_tok t (fun c hc => hts c (by simp [hc]))]
    simp only [Option.bind_some]
    rw [ih (fun c hc => hts c (by simp [hc])), List.map_cons, addAll_add]

/-- The text `t` stands for the pieces `rs` wherever it occurs in an expression. -/
def Stands (t : List Char) (rs : List Rx) : Prop := ∀ (top : Frame) (outer : List Frame),
  parseFrom { mode := .normal, top := top, outer := outer } t = some { mode := .normal, top := addAll top rs, outer := outer }

theorem Stands.append {t t' : List Char} {rs rs' : List Rx} (h : Stands t rs) (h' : Stands t' rs') : Stands (t ++ t') (rs ++ rs') := by
  intro top outer
  rw [parseFrom_append, h]
  simp only [Option.bind_some]
  rw [h']
  simp [addAll]

def pieces (rs : List Rx) : Rx := rs.foldr .cat .eps

theorem matches_finish {f : Flags} (p q : Place) : ∀ (alts : List Rx) (x : Rx),
    Matches f (alts.foldl (fun acc a => .alt a acc) x) p q ↔ Matches f x p q ∨ ∃ a ∈ alts, Matches f a p q := by
  intro alts
  induction alts with
  | nil => intro x; simp
  | cons a alts ih =>
    intro x
    rw [List.foldl_cons, ih]
    simp only [Matches, List.mem_cons, exists_eq_or_imp]
    tauto

theorem parse_join_from (f : Flags) : ∀ (ts : List (List Char × List Rx)), ts ≠ [] → (∀ t ∈ ts, Stands t.1 t.2) → ∀ alts : List Rx,
    ∃ top, parseFrom { mode := .normal, top := { alts := alts, cur := [] }, outer := [] } (joinBar (ts.map (·.1))) =
        some { mode := .normal, top := top, outer := [] } ∧
      ∀ p q, Matches f top.finish p q ↔ (∃ a ∈ alts, Matches f a p q) ∨ ∃ t ∈ ts, Matches f (pieces t.2) p q := by
  intro ts
  induction ts with
  | nil => intro h; exact absurd rfl h
  | cons t ts ih =>
    intro _ hs alts
    cases ts with
    | nil =>
      refine ⟨addAll { alts := alts, cur := [] } t.2, hs t (by simp) _ _, ?_⟩
      intro p q
      simp only [Frame.finish, addAll, List.append_nil, matches_finish, seq_reverse, List.mem_singleton, exists_eq_left, pieces]
      exact or_comm
    | cons t' ts =>
      obtain ⟨top, h1, h2⟩ := ih (by simp) (fun x hx => hs x (by simp [hx])) (pieces t.2 :: alts)
      refine ⟨top, ?_, ?_⟩
      · simp only [List.map_cons, joinBar] at h1 ⊢
        rw [parseFrom_append, hs t (by simp)]
        simp only [Option.bind_some, parseFrom, step, step0, addAll, List.append_nil, seq_reverse]
        exact h1
      · intro p q
        rw [h2]
        simp only [List.mem_cons, exists_eq_or_imp]
        rw [or_comm (a := Matches f (pieces t.2) p q), or_assoc]

/-- Expressions joined by `|` match where one of them does. -/
theorem parse_join (f : Flags) (ts : List (List Char × List Rx)) (hne : ts ≠ []) (hs : ∀ t ∈ ts, Stands t.1 t.2) :
    ∃ r, parse (joinBar (ts.map (·.1))) = some r ∧ ∀ text, isMatch f r text = true ↔ ∃ t ∈ ts, Found f (pieces t.2) text := by
  obtain ⟨top, h1, h2⟩ := parse_join_from f ts hne hs []
  refine ⟨top.finish, ?_, ?_⟩
  · have h1' : parseFrom {} (joinBar (ts.map (·.1))) = some { mode := .normal, top := top, outer := [] } := h1
    simp [parse, h1']
  · intro text
    rw [isMatch_iff]
    simp only [Found, h2, List.not_mem_nil, false_and, exists_false, false_or]
    constructor
    · rintro ⟨u, v, q, h, t, ht, hm⟩; exact ⟨t, ht, u, v, q, h, hm⟩
    · rintro ⟨t, ht, u, v, q, h, hm⟩; exact ⟨u, v, q, h, t, ht, hm⟩

/-- What the parts of a pattern match in an expression: `.` is any character but a line break. -/
def Denotes : List Tok → List Char → Prop
  | [], s => s = []
  | .lit c :: ts, s => ∃ s', s = c :: s' ∧ Denotes ts s'
  | .one :: ts, s => ∃ c s', s = c :: s' ∧ c ≠ '\n' ∧ Denotes ts s'
  | .run :: ts, s => ∃ u s', s = u ++ s' ∧ '/' ∉ u ∧ Denotes ts s'
  | .deep :: ts, s => ∃ u s', s = u ++ s' ∧ '\n' ∉ u ∧ Denotes ts s'
  | .dirs :: ts, s => Denotes ts s ∨ ∃ u s', s = u ++ '/' :: s' ∧ '\n' ∉ u ∧ Denotes ts s'

theorem after_append (b : Option Char) (u v w : List Char) : placeAfter (placeAfter b u (v ++ w)).1 v w = placeAfter b (u ++ v) w := by
  simp [placeAfter, List.getLast?_append, Option.or_assoc]

theorem after_nil (p : Place) : placeAfter p.1 [] p.2 = p := by simp [placeAfter]

/-- Repetition of one character. -/
theorem matches_many {f : Flags} {r : Rx} {ok : Char → Prop}
    (hr : ∀ p q, Matches f r p q ↔ ∃ d ds, p.2 = d :: ds ∧ ok d ∧ q = (some d, ds)) (p q : Place) :
    Matches f (.star r) p q ↔ ∃ u, p.2 = u ++ q.2 ∧ (∀ c ∈ u, ok c) ∧ q = placeAfter p.1 u q.2 := by
  constructor
  · intro h
    simp only [Matches] at h
    induction h with
    | refl => exact ⟨[], by simp [placeAfter]⟩
    | tail _ h2 ih =>
      obtain ⟨u, h3, h4, h5⟩ := ih
      obtain ⟨d, ds, h6, h7, h8⟩ := (hr _ _).mp h2
      refine ⟨u ++ [d], ?_, ?_, ?_⟩
      · rw [h3, h6, h8]; simp
      · intro c hc
        rcases List.mem_append.mp hc with hc | hc
        · exact h4 c hc
        · rw [List.mem_singleton.mp hc]; exact h7
      · rw [h8]; simp [placeAfter]
  · rintro ⟨u, h1, h2, h3⟩
    simp only [Matches]
    induction u generalizing p with
    | nil =>
      have : q = p := by rw [h3, ← show p.2 = q.2 by simpa using h1, after_nil]
      rw [this]
    | cons d u ih =>
      refine .head (b := (some d, u ++ q.2)) ((hr _ _).mpr ⟨d, u ++ q.2, by simpa using h1, h2 d (by simp), rfl⟩) ?_
      refine ih _ rfl (fun c hc => h2 c (by simp [hc])) ?_
      rw [h3]
      cases hu : u.getLast? <;> simp [placeAfter, List.getLast?_cons, hu]

theorem matches_any {f : Flags} (p q : Place) : Matches f .any p q ↔ ∃ d ds, p.2 = d :: ds ∧ d ≠ '\n' ∧ q = (some d, ds) := Iff.rfl

theorem matches_noslash {f : Flags} (hf : f.fold = id) (p q : Place) :
    Matches f (.set true ['/']) p q ↔ ∃ d ds, p.2 = d :: ds ∧ d ≠ '/' ∧ q = (some d, ds) := by
  simp [Matches, hf, eq_comm]

theorem matches_slash {f : Flags} (hf : f.fold = id) (p q : Place) :
    Matches f (.chr '/') p q ↔ p.2 = '/' :: q.2 ∧ q.1 = some '/' := by
  simp only [Matches, hf, id]
  constructor
  · rintro ⟨d, ds, h1, rfl, rfl⟩; exact ⟨h1, rfl⟩
  · rintro ⟨h1, h2⟩; exact ⟨'/', q.2, h1, rfl, by rw [← h2]⟩

theorem matches_slashed {f : Flags} (hf : f.fold = id) (p q : Place) :
    Matches f slashed p q ↔ ∃ u, p.2 = u ++ '/' :: q.2 ∧ '\n' ∉ u ∧ q.1 = some '/' := by
  simp only [slashed]
  rw [Matches]
  constructor
  · rintro ⟨m, h1, m', h2, rfl⟩
    obtain ⟨u, h3, h4, h5⟩ := (matches_many matches_any p m).mp h1
    obtain ⟨h6, h7⟩ := (matches_slash hf _ _).mp h2
    exact ⟨u, by rw [h3, h6], fun hc => h4 _ hc rfl, h7⟩
  · rintro ⟨u, h1, h2, h3⟩
    refine ⟨placeAfter p.1 u ('/' :: q.2), (matches_many matches_any _ _).mpr ⟨u, h1, fun c hc hn => h2 (hn ▸ hc), rfl⟩,
      q, (matches_slash hf _ _).mpr ⟨rfl, h3⟩, rfl⟩

theorem pieces_cons {f : Flags} (r : Rx) (rs : List Rx) (p q : Place) :
    Matches f (pieces (r :: rs)) p q ↔ ∃ m, Matches f r p m ∧ Matches f (pieces rs) m q := Iff.rfl

/-- The parts of a pattern followed by other pieces. -/
theorem matches_toks {f : Flags} (hf : f.fold = id) (tail : List Rx) (q : Place) : ∀ (ts : List Tok) (p : Place),
    Matches f (pieces (ts.map tokRx ++ tail)) p q ↔
      ∃ u v, p.2 = u ++ v ∧ Denotes ts u ∧ Matches f (pieces tail) (placeAfter p.1 u v) q := by
  intro ts
  induction ts with
  | nil =>
    intro p
    simp only [List.map_nil, List.nil_append, Denotes]
    constructor
    · intro h; exact ⟨[], p.2, rfl, rfl, by rwa [after_nil]⟩
    · rintro ⟨u, v, h1, rfl, h3⟩
      simp only [List.nil_append] at h1
      rwa [← h1, after_nil] at h3
  | cons t ts ih =>
    intro p
    simp only [List.map_cons, List.cons_append, pieces_cons, ih]
    have hstep : ∀ (s : List Char) (u v : List Char) (m : Place), m = placeAfter p.1 s (u ++ v) →
        placeAfter m.1 u v = placeAfter p.1 (s ++ u) v := by
      intro s u v m hm; rw [hm, after_append]
    cases t with
    | lit c =>
      constructor
      · rintro ⟨m, ⟨d, ds, h1, h2, h3⟩, u, v, h4, h5, h6⟩
        simp only [hf, id] at h2
        subst h2
        have hm : m = placeAfter p.1 [c] (u ++ v) := by rw [← h4, h3]; simp [placeAfter]
        refine ⟨c :: u, v, ?_, ⟨u, rfl, h5⟩, ?_⟩
        · rw [h1, ← show m.2 = ds by rw [h3], h4]; rfl
        · rwa [hstep [c] u v m hm] at h6
      · rintro ⟨u, v, h1, ⟨u', rfl, h2⟩, h3⟩
        refine ⟨(some c, u' ++ v), ⟨c, u' ++ v, by simpa using h1, rfl, rfl⟩, u', v, rfl, h2, ?_⟩
        rw [hstep [c] u' v _ (by simp [placeAfter])]
        exact h3
    | one =>
      constructor
      · rintro ⟨m, ⟨d, ds, h1, h2, h3⟩, u, v, h4, h5, h6⟩
        have hm : m = placeAfter p.1 [d] (u ++ v) := by rw [← h4, h3]; simp [placeAfter]
        refine ⟨d :: u, v, ?_, ⟨d, u, rfl, h2, h5⟩, ?_⟩
        · rw [h1, ← show m.2 = ds by rw [h3], h4]; rfl
        · rwa [hstep [d] u v m hm] at h6
      · rintro ⟨u, v, h1, ⟨d, u', rfl, hd, h2⟩, h3⟩
        refine ⟨(some d, u' ++ v), ⟨d, u' ++ v, by simpa using h1, hd, rfl⟩, u', v, rfl, h2, ?_⟩
        rw [hstep [d] u' v _ (by simp [placeAfter])]
        exact h3
    | run =>
      simp only [tokRx, matches_many (matches_noslash hf)]
      constructor
      · rintro ⟨m, ⟨s, h1, h2, h3⟩, u, v, h4, h5, h6⟩
        refine ⟨s ++ u, v, by rw [h1, h4, List.append_assoc], ⟨s, u, rfl, fun hs => h2 _ hs rfl, h5⟩, ?_⟩
        rwa [hstep s u v m (by rw [← h4]; exact h3)] at h6
      · rintro ⟨u, v, h1, ⟨s, u', rfl, hs, h2⟩, h3⟩
        refine ⟨placeAfter p.1 s (u' ++ v), ⟨s, by simpa [placeAfter] using h1, fun c hc hn => hs (hn ▸ hc), rfl⟩, u', v, rfl, h2, ?_⟩
        rw [hstep s u' v _ rfl]
        exact h3
    | deep =>
      simp only [tokRx, matches_many matches_any]
      constructor
      · rintro ⟨m, ⟨s, h1, h2, h3⟩, u, v, h4, h5, h6⟩
        refine ⟨s ++ u, v, by rw [h1, h4, List.append_assoc], ⟨s, u, rfl, fun hs => h2 _ hs rfl, h5⟩, ?_⟩
        rwa [hstep s u v m (by rw [← h4]; exact h3)] at h6
      · rintro ⟨u, v, h1, ⟨s, u', rfl, hs, h2⟩, h3⟩
        refine ⟨placeAfter p.1 s (u' ++ v), ⟨s, by simpa [placeAfter] using h1, fun c hc hn => hs (hn ▸ hc), rfl⟩, u', v, rfl, h2, ?_⟩
        rw [hstep s u' v _ rfl]
        exact h3
    | dirs =>
      simp only [tokRx, Denotes]
      constructor
      · rintro ⟨m, h | h, u, v, h4, h5, h6⟩
        · subst h; exact ⟨u, v, h4, .inl h5, h6⟩
        · obtain ⟨s, h1, h2, h3⟩ := (matches_slashed hf _ _).mp h
          refine ⟨s ++ '/' :: u, v, by rw [h1, h4]; simp, .inr ⟨s, u, rfl, h2, h5⟩, ?_⟩
          have hm : m = placeAfter p.1 (s ++ ['/']) (u ++ v) := by rw [← h4]; exact Prod.ext (by simp [placeAfter, h3]) rfl
          rw [hstep _ u v m hm] at h6
          simpa using h6
      · rintro ⟨u, v, h1, h2 | ⟨s, u', rfl, hs, h2⟩, h3⟩
        · exact ⟨p, .inl rfl, u, v, h1, h2, h3⟩
        · refine ⟨placeAfter p.1 (s ++ ['/']) (u' ++ v), .inr ((matches_slashed hf _ _).mpr ⟨s, by simpa [placeAfter] using h1, hs, by simp [placeAfter]⟩),
            u', v, rfl, h2, ?_⟩
          rw [hstep _ u' v _ rfl]
          simpa using h3

end NextPlaid.Globs
