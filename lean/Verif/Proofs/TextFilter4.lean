import Verif.Proofs.TextFilter3
import Verif.Proofs.Globs2

/-! The engine reads the text of a pattern as the pattern. -/

namespace NextPlaid.Ere

open NextPlaid.Spec
open NextPlaid.Regex
open NextPlaid.Globs (Stands Stands.append addAll pieces pieces_cons matches_finish stands_nil stands_eol stands_bol seq_reverse)

theorem power_congr {R S : Place → Place → Prop} (h : ∀ p q, R p q ↔ S p q) : ∀ (n : Nat) (p q : Place), Power R n p q ↔ Power S n p q
  | 0, _, _ => Iff.rfl
  | n + 1, p, q => by simp only [Power, h, power_congr h n]

theorem means_congr {R S : Place → Place → Prop} (h : ∀ p q, R p q ↔ S p q) (o : Often) (p q : Place) : o.Means R p q ↔ o.Means S p q := by
  cases o <;> simp only [Often.Means, power_congr h]

theorem power_add {R : Place → Place → Prop} : ∀ (m n : Nat) (p q : Place), Power R (m + n) p q ↔ ∃ x, Power R m p x ∧ Power R n x q
  | 0, n, p, q => by simp [Power]
  | m + 1, n, p, q => by
    rw [Nat.add_right_comm]
    simp only [Power, power_add m n]
    constructor
    · rintro ⟨y, h1, x, h2, h3⟩; exact ⟨x, ⟨y, h1, h2⟩, h3⟩
    · rintro ⟨x, ⟨y, h1, h2⟩, h3⟩; exact ⟨y, h1, x, h2, h3⟩

theorem star_power {R : Place → Place → Prop} {p q : Place} : Relation.ReflTransGen R p q ↔ ∃ n, Power R n p q := by
  constructor
  · intro h
    induction h using Relation.ReflTransGen.head_induction_on with
    | refl => exact ⟨0, rfl⟩
    | head h1 _ ih => obtain ⟨n, hn⟩ := ih; exact ⟨n + 1, _, h1, hn⟩
  · rintro ⟨n, h⟩
    induction n generalizing p with
    | zero => rw [show p = q from h]
    | succ n ih => obtain ⟨m, h1, h2⟩ := h; exact .head h1 (ih h2)

theorem matches_times {f : Flags} {r : Rx} : ∀ (n : Nat) (p q : Place), Matches f (r.times n) p q ↔ Power (Matches f r) n p q
  | 0, _, _ => Iff.rfl
  | n + 1, p, q => by simp only [Rx.times, Matches, Power, matches_times n]

theorem matches_upTo {f : Flags} {r : Rx} : ∀ (n : Nat) (p q : Place), Matches f (r.upTo n) p q ↔ ∃ k, k ≤ n ∧ Power (Matches f r) k p q
  | 0, p, q => by
    simp only [Rx.upTo, Matches]
    constructor
    · rintro rfl; exact ⟨0, le_rfl, rfl⟩
    · rintro ⟨k, hk, h⟩
      obtain rfl : k = 0 := by omega
      exact h
  | n + 1, p, q => by
    simp only [Rx.upTo, Matches, matches_upTo n]
    constructor
    · rintro (rfl | ⟨m, h1, k, hk, h2⟩)
      · exact ⟨0, by omega, rfl⟩
      · exact ⟨k + 1, by omega, m, h1, h2⟩
    · rintro ⟨k, hk, h⟩
      cases k with
      | zero => exact .inl h
      | succ k => obtain ⟨m, h1, h2⟩ := h; exact .inr ⟨m, h1, k, by omega, h2⟩

def num (n : Nat) (ds : List Char) : Nat := ds.foldl (fun n c => 10 * n + (c.toNat - 48)) n

theorem parse_low : ∀ (ds : List Char), (∀ c ∈ ds, c.isDigit = true) → ∀ (n : Option Nat) (top : Frame) (outer : List Frame),
    parseFrom { mode := .low n, top := top, outer := outer } ds =
      some { mode := .low (if ds = [] then n else some (num (n.getD 0) ds)), top := top, outer := outer }
  | [], _, n, top, outer => by simp [parseFrom]
  | c :: ds, h, n, top, outer => by
    have hc := h c (by simp)
    simp only [parseFrom, step, hc, if_true, Option.bind_some]
    rw [parse_low ds (fun d hd => h d (by simp [hd]))]
    cases ds with
    | nil => simp [num, addDigit]
    | cons d ds => simp [num, addDigit]

theorem parse_high : ∀ (ds : List Char), (∀ c ∈ ds, c.isDigit = true) → ∀ (lo : Nat) (n : Option Nat) (top : Frame) (outer : List Frame),
    parseFrom { mode := .high lo n, top := top, outer := outer } ds =
      some { mode := .high lo (if ds = [] then n else some (num (n.getD 0) ds)), top := top, outer := outer }
  | [], _, lo, n, top, outer => by simp [parseFrom]
  | c :: ds, h, lo, n, top, outer => by
    have hc := h c (by simp)
    simp only [parseFrom, step, hc, if_true, Option.bind_some]
    rw [parse_high ds (fun d hd => h d (by simp [hd]))]
    cases ds with
    | nil => simp [num, addDigit]
    | cons d ds => simp [num, addDigit]

/-- A quantifier applies to the latest piece. -/
theorem parse_often {q : Often} (h : q.Legal) : ∃ g : Rx → Rx,
    (∀ (top : Frame) (r : Rx) (outer : List Frame), parseFrom { mode := .normal, top := top.add r, outer := outer } (q.spell false) =
      some { mode := .normal, top := top.add (g r), outer := outer }) ∧
    ∀ (f : Flags) (r : Rx) (a b : Place), Matches f (g r) a b ↔ q.Means (Matches f r) a b := by
  cases q with
  | star => exact ⟨.star, fun _ _ _ => rfl, fun f r a b => star_power⟩
  | plus =>
    refine ⟨fun a => .cat a (.star a), fun _ _ _ => rfl, fun f r a b => ?_⟩
    simp only [Matches, Often.Means, star_power]
    constructor
    · rintro ⟨m, h1, n, h2⟩; exact ⟨n + 1, by omega, m, h1, h2⟩
    · rintro ⟨n, h1, h2⟩
      cases n with
      | zero => omega
      | succ n => obtain ⟨m, h3, h4⟩ := h2; exact ⟨m, h3, n, h4⟩
  | opt =>
    refine ⟨.opt, fun _ _ _ => rfl, fun f r a b => ?_⟩
    simp only [Matches, Often.Means]
    constructor
    · rintro (rfl | h)
      · exact ⟨0, by omega, rfl⟩
      · exact ⟨1, le_rfl, b, h, rfl⟩
    · rintro ⟨n, h1, h2⟩
      match n, h1, h2 with
      | 0, _, h2 => exact .inl h2
      | 1, _, ⟨m, h3, h4⟩ => exact .inr ((show m = b from h4) ▸ h3)
  | count bre lo =>
    obtain ⟨h1, h2⟩ := h
    refine ⟨.counted (decimal lo) (some (decimal lo)), fun top r outer => ?_, fun f r a b => ?_⟩
    · simp only [Often.spell, mark, Bool.false_and, Bool.false_eq_true, if_false, List.append_assoc, List.cons_append, List.nil_append]
      simp only [parseFrom, step, step0]
      simp only [show ¬ ('{' = '\\') by decide, show ¬ ('{' = '[') by decide, show ¬ ('{' = '(') by decide, show ¬ ('{' = ')') by decide,
        show ¬ ('{' = '|') by decide, show ¬ ('{' = '*') by decide, show ¬ ('{' = '?') by decide, show ¬ ('{' = '+') by decide, if_false, if_true,
        Option.bind_some]
      rw [parseFrom_append, parse_low lo h2]
      simp only [h1, if_false, Option.bind_some, parseFrom, step]
      rfl
    · simp [Rx.counted, Rx.upTo, Matches, matches_times, Often.Means]
  | range bre lo hi =>
    obtain ⟨h1, h2, h3, h4⟩ := h
    refine ⟨.counted (decimal lo) (if hi = [] then none else some (decimal hi)), fun top r outer => ?_, fun f r a b => ?_⟩
    · simp only [Often.spell, mark, Bool.false_and, Bool.false_eq_true, if_false, List.append_assoc, List.cons_append, List.nil_append]
      simp only [parseFrom, step, step0]
      simp only [show ¬ ('{' = '\\') by decide, show ¬ ('{' = '[') by decide, show ¬ ('{' = '(') by decide, show ¬ ('{' = ')') by decide,
        show ¬ ('{' = '|') by decide, show ¬ ('{' = '*') by decide, show ¬ ('{' = '?') by decide, show ¬ ('{' = '+') by decide, if_false, if_true,
        Option.bind_some]
      rw [parseFrom_append, parse_low lo h2]
      simp only [h1, if_false, Option.bind_some, parseFrom, step]
      simp only [show (','.isDigit) = false by decide, Bool.false_eq_true, if_false, if_true, Option.bind_some]
      rw [parseFrom_append, parse_high hi h3]
      simp only [Option.bind_some, parseFrom, step]
      by_cases hh : hi = []
      · subst hh; rfl
      · have := h4 hh
        simp only [hh, if_false, Option.all_some]
        simp only [show ('}'.isDigit) = false by decide, Bool.false_eq_true, if_false, if_true]
        rw [if_pos (by exact decide_eq_true this)]
        rfl
    · by_cases hh : hi = []
      · subst hh
        simp only [if_true, Rx.counted, Matches, matches_times, star_power, Often.Means]
        constructor
        · rintro ⟨m, h5, n, h6⟩; exact ⟨decimal lo + n, by omega, by simp, (power_add _ _ _ _).2 ⟨m, h5, h6⟩⟩
        · rintro ⟨n, h5, _, h6⟩
          obtain ⟨k, rfl⟩ := Nat.exists_eq_add_of_le h5
          obtain ⟨m, h7, h8⟩ := (power_add _ _ _ _).1 h6
          exact ⟨m, h7, k, h8⟩
      · have := h4 hh
        simp only [hh, if_false, Rx.counted, Matches, matches_times, matches_upTo, Often.Means]
        constructor
        · rintro ⟨m, h5, n, hn, h6⟩; exact ⟨decimal lo + n, by omega, fun _ => by omega, (power_add _ _ _ _).2 ⟨m, h5, h6⟩⟩
        · rintro ⟨n, h5, h9, h6⟩
          have := h9 hh
          obtain ⟨k, rfl⟩ := Nat.exists_eq_add_of_le h5
          obtain ⟨m, h7, h8⟩ := (power_add _ _ _ _).1 h6
          exact ⟨m, h7, k, by omega, h8⟩

theorem parse_cls : ∀ (cs : List Char), (∀ c ∈ cs, clsChar c = true) → ∀ (neg : Bool) (ds : List Char) (top : Frame) (outer : List Frame),
    cs.reverse ++ ds ≠ [] →
    parseFrom { mode := .cls neg ds, top := top, outer := outer } (cs ++ [']']) =
      some { mode := .normal, top := top.add (.set neg (ds.reverse ++ cs)), outer := outer }
  | [], _, neg, ds, top, outer, hne => by
    simp only [List.reverse_nil, List.nil_append] at hne
    simp [parseFrom, step, hne]
  | c :: cs, h, neg, ds, top, outer, _ => by
    have hc := h c (by simp)
    have hc' : c ≠ ']' := by rintro rfl; exact absurd hc (by decide)
    simp only [List.cons_append, parseFrom, step, hc, hc', if_false, if_true, Option.bind_some]
    rw [parse_cls cs (fun d hd => h d (by simp [hd])) neg (c :: ds) top outer (by simp)]
    simp

theorem stands_set {neg : Bool} {cs : List Char} (h1 : cs ≠ []) (h2 : ∀ c ∈ cs, clsChar c = true) :
    Stands ((Pat.set neg cs).spell false) [.set neg cs] := by
  intro top outer
  cases neg with
  | true =>
    simp only [Pat.spell, if_true, List.append_assoc, List.cons_append, List.nil_append, parseFrom, step, step0]
    have := parse_cls cs h2 true [] top outer (by simpa using h1)
    simp only [List.reverse_nil, List.nil_append] at this
    simpa [addAll, Frame.add] using this
  | false =>
    cases cs with
    | nil => exact absurd rfl h1
    | cons c cs =>
      have hc := h2 c (by simp)
      have hc' : c ≠ '^' := by rintro rfl; exact absurd hc (by decide)
      have := parse_cls cs (fun d hd => h2 d (by simp [hd])) false [c] top outer (by simp)
      simp only [Pat.spell, Bool.false_eq_true, if_false, List.append_assoc, List.cons_append, List.nil_append, parseFrom, step, step0]
      simp only [List.reverse_singleton, List.singleton_append] at this
      simp [hc, hc', this, addAll, Frame.add]

theorem stands_lit {c : Char} (h : c ≠ '|') : ∃ r, Stands (final (.lit c)) [r] ∧
    ∀ (f : Flags) (a b : Place), Matches f r a b ↔ (Pat.lit c).Means f a b := by
  by_cases h1 : c = '{' ∨ c = '}'
  · refine ⟨.set false [c], ?_, fun f a b => ?_⟩
    · have := stands_set (neg := false) (cs := [c]) (by simp) (by
        intro d hd
        obtain rfl := List.mem_singleton.1 hd
        rcases h1 with rfl | rfl <;> decide)
      simpa [final, h1, Pat.spell] using this
    · simp [Matches, Pat.Means]
  · refine ⟨.chr c, ?_, fun f a b => Iff.rfl⟩
    intro top outer
    simp only [final, h1, if_false]
    split
    · rename_i hm
      have hm' : c ∈ metas := by
        simp only [escaped, List.mem_cons, List.not_mem_nil, or_false] at hm
        simp only [metas, List.mem_cons, List.not_mem_nil, or_false]
        tauto
      simp [parseFrom, step, step0, hm', addAll, Frame.add]
    · rename_i hm
      simp only [escaped, List.mem_cons, List.not_mem_nil, or_false, not_or] at hm h1
      obtain ⟨e1, e2, e3, e4, e5, e6, e7, e8, e9, e10, e11⟩ := hm
      simp only [parseFrom, step, step0, h, h1.1, e1, e2, e3, e4, e5, e6, e7, e8, e10, e11, if_false]
      rfl

theorem final_single {p : Pat} (h : p.single = true) : final p ≠ [] := by
  cases p with
  | lit c => simp only [final]; split <;> [simp; (split <;> simp)]
  | any => simp [final]
  | set neg cs => cases neg <;> simp [final, Pat.spell]
  | group _ a => simp [final]
  | _ => simp [Pat.single] at h

theorem final_head : ∀ {p : Pat}, p.Legal → (final p).head? ≠ some '?'
  | .empty, _ => by simp [final]
  | .lit c, _ => by
    simp only [final]
    split
    · simp
    · split
      · simp
      · rename_i h
        rintro e
        simp only [List.head?_cons, Option.some.injEq] at e
        subst e
        exact h (by decide)
  | .any, _ => by simp [final]
  | .bol, _ => by simp [final]
  | .eol, _ => by simp [final]
  | .edge, _ => by simp [final]
  | .set neg cs, _ => by cases neg <;> simp [final, Pat.spell]
  | .cat a b, h => by
    simp only [final]
    cases ha : final a with
    | nil => exact final_head h.2.1
    | cons x xs => have := final_head h.1; rw [ha] at this; simpa using this
  | .alt _ a b, h => by
    simp only [final]
    cases ha : final a with
    | nil => simp
    | cons x xs => have := final_head h.1; rw [ha] at this; simpa using this
  | .group _ a, _ => by simp [final]
  | .many q a, h => by
    simp only [final]
    cases ha : final a with
    | nil => exact absurd ha (final_single h.2.2)
    | cons x xs => have := final_head h.2.1; rw [ha] at this; simpa using this

theorem parse_group {t : List Char} (h : t.head? ≠ some '?') (h0 : t ≠ []) (top : Frame) (outer : List Frame) :
    parseFrom { mode := .group, top := top, outer := outer } t = parseFrom { mode := .normal, top := top, outer := outer } t := by
  cases t with
  | nil => exact absurd rfl h0
  | cons c t =>
    have hc : c ≠ '?' := by simpa using h
    simp only [parseFrom, step, hc, if_false]
    have : step0 { mode := .group, top := top, outer := outer } c = step0 { mode := .normal, top := top, outer := outer } c := by
      simp only [step0]
    rw [this]

/-- The pieces of a pattern that is not an alternative. -/
def PieceWise (p : Pat) : Prop := ∃ rs, Stands (final p) rs ∧ (p.single = true → ∃ r, rs = [r]) ∧
  ∀ (f : Flags) (a b : Place), Matches f (pieces rs) a b ↔ p.Means f a b

/-- The parser after the pattern. -/
def Whole (p : Pat) : Prop := ∀ alts : List Rx, ∃ top : Frame,
  (∀ outer, parseFrom { mode := .normal, top := { alts := alts, cur := [] }, outer := outer } (final p) =
    some { mode := .normal, top := top, outer := outer }) ∧
  ∀ (f : Flags) (a b : Place), Matches f top.finish a b ↔ (∃ x ∈ alts, Matches f x a b) ∨ p.Means f a b

theorem PieceWise.whole {p : Pat} (h : PieceWise p) : Whole p := by
  obtain ⟨rs, h1, _, h2⟩ := h
  intro alts
  refine ⟨addAll { alts := alts, cur := [] } rs, fun outer => h1 _ outer, fun f a b => ?_⟩
  simp only [Frame.finish, addAll, List.append_nil, matches_finish, seq_reverse]
  have := h2 f a b
  simp only [pieces] at this
  rw [this]
  exact or_comm

theorem matches_one {f : Flags} {r : Rx} {a b : Place} : Matches f (pieces [r]) a b ↔ Matches f r a b := by
  rw [pieces_cons]
  simp [pieces, Matches]

theorem pieces_append {f : Flags} : ∀ (rs rs' : List Rx) (a b : Place),
    Matches f (pieces (rs ++ rs')) a b ↔ ∃ m, Matches f (pieces rs) a m ∧ Matches f (pieces rs') m b
  | [], rs', a, b => by simp [pieces, Matches]
  | r :: rs, rs', a, b => by
    rw [List.cons_append, pieces_cons]
    simp only [pieces_append rs rs', pieces_cons]
    constructor
    · rintro ⟨m, h1, x, h2, h3⟩; exact ⟨x, ⟨m, h1, h2⟩, h3⟩
    · rintro ⟨x, ⟨m, h1, h2⟩, h3⟩; exact ⟨m, h1, x, h2, h3⟩

theorem pieceWise_one {p : Pat} {r : Rx} (h : Stands (final p) [r]) (h2 : ∀ (f : Flags) (a b : Place), Matches f r a b ↔ p.Means f a b) :
    PieceWise p := ⟨[r], h, fun _ => ⟨r, rfl⟩, fun f a b => by rw [matches_one, h2]⟩

theorem read_pat : ∀ {p : Pat}, p.Legal → (p.isAlt = false → PieceWise p) ∧ Whole p := by
  intro p
  induction p with
  | empty =>
    intro _
    have : PieceWise .empty := ⟨[], stands_nil, by simp [Pat.single], fun f a b => Iff.rfl⟩
    exact ⟨fun _ => this, this.whole⟩
  | lit c =>
    intro h
    obtain ⟨r, h1, h2⟩ := stands_lit h
    exact ⟨fun _ => pieceWise_one h1 h2, (pieceWise_one h1 h2).whole⟩
  | any =>
    intro _
    have : PieceWise .any := pieceWise_one (r := .any) (fun _ _ => rfl) (fun f a b => Iff.rfl)
    exact ⟨fun _ => this, this.whole⟩
  | bol =>
    intro _
    have : PieceWise .bol := pieceWise_one stands_bol (fun f a b => Iff.rfl)
    exact ⟨fun _ => this, this.whole⟩
  | eol =>
    intro _
    have : PieceWise .eol := pieceWise_one stands_eol (fun f a b => Iff.rfl)
    exact ⟨fun _ => this, this.whole⟩
  | edge =>
    intro _
    have : PieceWise .edge := pieceWise_one (r := .word) (fun _ _ => rfl) (fun f a b => Iff.rfl)
    exact ⟨fun _ => this, this.whole⟩
  | set neg cs =>
    intro h
    have : PieceWise (.set neg cs) := pieceWise_one (stands_set h.1 (fun c hc => by
      unfold clsChar
      exact decide_eq_true (h.2 c hc))) (fun f a b => Iff.rfl)
    exact ⟨fun _ => this, this.whole⟩
  | cat a b iha ihb =>
    intro h
    obtain ⟨ha, hb, h1, h2, _⟩ := h
    obtain ⟨rs, h3, _, h4⟩ := (iha ha).1 h1
    obtain ⟨rs', h5, _, h6⟩ := (ihb hb).1 h2
    have : PieceWise (.cat a b) := ⟨rs ++ rs', h3.append h5, by simp [Pat.single], fun f p q => by
      rw [pieces_append]
      simp only [h4, h6, Pat.Means]⟩
    exact ⟨fun _ => this, this.whole⟩
  | alt bre a b iha ihb =>
    intro h
    refine ⟨by simp [Pat.isAlt], fun alts => ?_⟩
    obtain ⟨t1, h1, h2⟩ := (iha h.1).2 alts
    obtain ⟨t2, h3, h4⟩ := (ihb h.2).2 (seq t1.cur :: t1.alts)
    refine ⟨t2, fun outer => ?_, fun f p q => ?_⟩
    · simp only [final]
      rw [parseFrom_append, h1]
      exact h3 outer
    · rw [h4]
      have := h2 f p q
      simp only [Frame.finish, matches_finish] at this
      simp only [List.mem_cons, exists_eq_or_imp, this, Pat.Means, or_assoc]
  | group bre a ih =>
    intro h
    obtain ⟨t, h1, h2⟩ := (ih h).2 []
    have : PieceWise (.group bre a) := by
      refine pieceWise_one (r := t.finish) (fun top outer => ?_) (fun f p q => by rw [h2]; simp [Pat.Means])
      have hh : ((final a ++ [')']).head?) ≠ some '?' := by
        cases hx : final a with
        | nil => simp
        | cons x xs => have := final_head (p := a) h; rw [hx] at this; simpa using this
      have := h1 (top :: outer)
      simp only [final, List.cons_append]
      show (some _).bind _ = _
      simp only [Option.bind_some]
      rw [parse_group hh (by simp), parseFrom_append, this]
      rfl
    exact ⟨fun _ => this, this.whole⟩
  | many q a ih =>
    intro h
    obtain ⟨hq, ha, hsng⟩ := h
    have hna : a.isAlt = false := by cases a <;> first | rfl | simp [Pat.single] at hsng
    obtain ⟨rs, h1, h2, h3⟩ := (ih ha).1 hna
    obtain ⟨r, rfl⟩ := h2 hsng
    obtain ⟨g, h4, h5⟩ := parse_often hq
    have : PieceWise (.many q a) := pieceWise_one (r := g r) (fun top outer => by
      have := h1 top outer
      simp only [final]
      rw [parseFrom_append, this]
      exact h4 top r outer) (fun f x y => by
      rw [h5]
      exact means_congr (fun p q => by rw [← h3, matches_one]) q x y)
    exact ⟨fun _ => this, this.whole⟩

/-- The engine reads the text of a pattern as the pattern. -/
theorem parse_final {p : Pat} (h : p.Legal) : ∃ r, parse (final p) = some r ∧
    ∀ (f : Flags) (text : List Char), isMatch f r text = true ↔ Occurs f p text := by
  obtain ⟨top, h1, h2⟩ := (read_pat h).2 []
  refine ⟨top.finish, ?_, fun f text => ?_⟩
  · have := h1 []
    unfold parse
    rw [show ({} : PState) = { mode := .normal, top := { alts := [], cur := [] }, outer := [] } from rfl, this]
    rfl
  · rw [isMatch_iff]
    unfold Found Occurs
    simp only [h2, List.not_mem_nil, false_and, exists_false, false_or]

end NextPlaid.Ere
