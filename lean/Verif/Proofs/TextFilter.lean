import Verif.Spec.TextFilter
import Verif.Proofs.Globs2

/-! The rewriting of patterns: `bre_to_ere` and `escape_literal_braces` on patterns of the grammar. -/

namespace NextPlaid.Ere

open NextPlaid.Spec
open NextPlaid.Regex

/-! ### Steps -/

theorem tokens_plain {c : Char} (h : c ≠ '\\') (rest : List Char) : tokens (c :: rest) = .plain c :: tokens rest := by
  cases rest with
  | nil => rfl
  | cons d ds => rw [tokens, if_neg h]

theorem tokens_esc (c : Char) (rest : List Char) : tokens ('\\' :: c :: rest) = .esc c :: tokens rest := by
  rw [tokens, if_pos rfl]

theorem tokens_plains : ∀ {cs : List Char}, (∀ c ∈ cs, c ≠ '\\') → ∀ rest, tokens (cs ++ rest) = cs.map .plain ++ tokens rest
  | [], _, rest => rfl
  | c :: cs, h, rest => by
    rw [List.cons_append, tokens_plain (h c (by simp)), tokens_plains (fun d hd => h d (by simp [hd]))]; rfl

/-- The steps of a marker. -/
def mtoks (bre : Bool) (c : Char) : List Tok := if bre then [.esc c] else [.plain c]

theorem tokens_mark {c : Char} (h : c ≠ '\\') (bre : Bool) (rest : List Char) :
    tokens (mark true bre c ++ rest) = mtoks bre c ++ tokens rest := by
  cases bre with
  | false => exact tokens_plain h rest
  | true => exact tokens_esc c rest

def otoks : Often → List Tok
  | .star => [.plain '*']
  | .plus => [.plain '+']
  | .opt => [.plain '?']
  | .count bre lo => mtoks bre '{' ++ lo.map .plain ++ mtoks bre '}'
  | .range bre lo hi => mtoks bre '{' ++ lo.map .plain ++ .plain ',' :: hi.map .plain ++ mtoks bre '}'

/-- The steps of a pattern. -/
def toks : Pat → List Tok
  | .empty => []
  | .lit c => if c ∈ escaped then [.esc c] else [.plain c]
  | .any => [.plain '.']
  | .bol => [.plain '^']
  | .eol => [.plain '$']
  | .edge => [.esc 'b']
  | .set neg cs => (if neg then [.plain '[', .plain '^'] else [.plain '[']) ++ cs.map .plain ++ [.plain ']']
  | .cat a b => toks a ++ toks b
  | .alt bre a b => toks a ++ mtoks bre '|' ++ toks b
  | .group bre a => mtoks bre '(' ++ toks a ++ mtoks bre ')'
  | .many q a => toks a ++ otoks q

theorem digit_ne {c d : Char} (h : c.isDigit = true) (hd : d.isDigit = false) : c ≠ d := by
  rintro rfl; rw [h] at hd; cases hd

theorem tokens_often {q : Often} (h : q.Legal) (rest : List Char) : tokens (q.spell true ++ rest) = otoks q ++ tokens rest := by
  cases q with
  | star => exact tokens_plain (by decide) rest
  | plus => exact tokens_plain (by decide) rest
  | opt => exact tokens_plain (by decide) rest
  | count bre lo =>
    simp only [Often.spell, otoks, List.append_assoc]
    rw [tokens_mark (by decide), tokens_plains (fun c hc => digit_ne (h.2 c hc) (by decide)), tokens_mark (by decide)]
  | range bre lo hi =>
    simp only [Often.spell, otoks, List.append_assoc, List.cons_append]
    rw [tokens_mark (by decide), tokens_plains (fun c hc => digit_ne (h.2.1 c hc) (by decide)), tokens_plain (by decide),
      tokens_plains (fun c hc => digit_ne (h.2.2.1 c hc) (by decide)), tokens_mark (by decide)]

theorem tokens_pat : ∀ {p : Pat}, p.Legal → ∀ rest, tokens (p.spell true ++ rest) = toks p ++ tokens rest
  | .empty, _, rest => rfl
  | .lit c, h, rest => by
    simp only [Pat.spell, toks]
    split
    · exact tokens_esc c rest
    · rename_i hc
      refine tokens_plain ?_ rest
      rintro rfl
      exact hc (by decide)
  | .any, _, rest => tokens_plain (by decide) rest
  | .bol, _, rest => tokens_plain (by decide) rest
  | .eol, _, rest => tokens_plain (by decide) rest
  | .edge, _, rest => tokens_esc 'b' rest
  | .set neg cs, h, rest => by
    have hcs : ∀ c ∈ cs, c ≠ '\\' := by
      intro c hc he
      exact h.2 c hc (by rw [he]; decide)
    cases neg
    · simp only [Pat.spell, toks, Bool.false_eq_true, if_false, List.append_assoc, List.cons_append, List.nil_append]
      rw [tokens_plain (by decide), tokens_plains hcs, tokens_plain (by decide)]
    · simp only [Pat.spell, toks, if_true, List.append_assoc, List.cons_append, List.nil_append]
      rw [tokens_plain (by decide), tokens_plain (by decide), tokens_plains hcs, tokens_plain (by decide)]
  | .cat a b, h, rest => by
    simp only [Pat.spell, toks, List.append_assoc]
    rw [tokens_pat h.1, tokens_pat h.2.1]
  | .alt bre a b, h, rest => by
    simp only [Pat.spell, toks, List.append_assoc]
    rw [tokens_pat h.1, tokens_mark (by decide), tokens_pat h.2]
  | .group bre a, h, rest => by
    simp only [Pat.spell, toks, List.append_assoc]
    rw [tokens_mark (by decide), tokens_pat (p := a) h, tokens_mark (by decide)]
  | .many q a, h, rest => by
    simp only [Pat.spell, toks, List.append_assoc]
    rw [tokens_pat h.2.1, tokens_often h.1]

theorem tokens_write {p : Pat} (h : p.Legal) : tokens p.write = toks p := by
  have := tokens_pat h []
  rw [List.append_nil] at this
  rw [Pat.write, this]
  simp [tokens]

/-! ### Pairs -/

/-- Every `\o` has its `\c`. -/
inductive Bal (o c : Char) : List Tok → Prop
  | nil : Bal o c []
  | other {t : Tok} : t ≠ .esc o → t ≠ .esc c → Bal o c [t]
  | append {a b : List Tok} : Bal o c a → Bal o c b → Bal o c (a ++ b)
  | wrap {a : List Tok} : Bal o c a → Bal o c (.esc o :: a ++ [.esc c])

theorem bal_marks {o c : Char} (hoc : o ≠ c) {ts : List Tok} (h : Bal o c ts) : ∀ (k : Nat) (S M : List Nat),
    ∃ M', (ts.zipIdx k).foldl (markOne o c) (S, M) = (S, M') ∧
      ∀ i, i ∈ M' ↔ i ∈ M ∨ ∃ j, i = k + j ∧ (ts[j]? = some (.esc o) ∨ ts[j]? = some (.esc c)) := by
  induction h with
  | nil => intro k S M; exact ⟨M, rfl, by simp⟩
  | other h1 h2 =>
    intro k S M
    refine ⟨M, by simp [markOne, h1, h2], ?_⟩
    rename_i t
    intro i
    constructor
    · exact .inl
    · rintro (h | ⟨j, rfl, h⟩)
      · exact h
      · cases j with
        | zero =>
          simp only [List.getElem?_cons_zero, Option.some.injEq] at h
          rcases h with h | h
          · exact absurd h h1
          · exact absurd h h2
        | succ j => simp at h
  | append h1 h2 ih1 ih2 =>
    rename_i a b
    intro k S M
    obtain ⟨M1, e1, m1⟩ := ih1 k S M
    obtain ⟨M2, e2, m2⟩ := ih2 (k + a.length) S M1
    refine ⟨M2, ?_, ?_⟩
    · rw [List.zipIdx_append, List.foldl_append, e1, e2]
    · intro i
      rw [m2, m1]
      constructor
      · rintro ((h | ⟨j, rfl, h⟩) | ⟨j, rfl, h⟩)
        · exact .inl h
        · refine .inr ⟨j, rfl, ?_⟩
          have hj : j < a.length := by
            rcases h with h | h <;> exact (List.getElem?_eq_some_iff.1 h).1
          rw [List.getElem?_append_left hj]; exact h
        · refine .inr ⟨a.length + j, by omega, ?_⟩
          rw [List.getElem?_append_right (by omega), Nat.add_sub_cancel_left]; exact h
      · rintro (h | ⟨j, rfl, h⟩)
        · exact .inl (.inl h)
        · by_cases hj : j < a.length
          · rw [List.getElem?_append_left hj] at h
            exact .inl (.inr ⟨j, rfl, h⟩)
          · rw [List.getElem?_append_right (by omega)] at h
            exact .inr ⟨j - a.length, by omega, h⟩
  | wrap h ih =>
    rename_i a
    intro k S M
    obtain ⟨M1, e1, m1⟩ := ih (k + 1) (k :: S) M
    refine ⟨(k + 1 + a.length) :: k :: M1, ?_, ?_⟩
    · rw [List.cons_append, List.zipIdx_cons, List.foldl_cons, List.zipIdx_append, List.foldl_append]
      have h0 : markOne o c (S, M) (Tok.esc o, k) = (k :: S, M) := by simp [markOne]
      rw [h0, e1]
      have hne : Tok.esc c ≠ Tok.esc o := by intro h; cases h; exact hoc rfl
      simp [markOne, hne]
    · intro i
      simp only [List.mem_cons, m1]
      constructor
      · rintro (h | h | h | ⟨j, h, hj⟩)
        · refine .inr ⟨1 + a.length, by omega, ?_⟩
          rw [List.getElem?_append_right (by simp; omega)]
          simp [Nat.add_comm]
        · exact .inr ⟨0, by omega, by simp⟩
        · exact .inl h
        · refine .inr ⟨j + 1, by omega, ?_⟩
          have hlt : j < a.length := by
            rcases hj with h | h <;> exact (List.getElem?_eq_some_iff.1 h).1
          rw [List.cons_append, List.getElem?_cons_succ, List.getElem?_append_left hlt]; exact hj
      · rintro (h | ⟨j, rfl, hj⟩)
        · exact .inr (.inr (.inl h))
        · cases j with
          | zero => exact .inr (.inl (by omega))
          | succ j =>
            rw [List.cons_append, List.getElem?_cons_succ] at hj
            by_cases hlt : j < a.length
            · rw [List.getElem?_append_left hlt] at hj
              exact .inr (.inr (.inr ⟨j, by omega, hj⟩))
            · rw [List.getElem?_append_right (by omega)] at hj
              left
              have : j - a.length < 1 := by
                rcases hj with h | h <;> simpa using (List.getElem?_eq_some_iff.1 h).1
              omega

theorem markPairs_bal {o c : Char} (hoc : o ≠ c) {ts : List Tok} (h : Bal o c ts) (i : Nat) :
    i ∈ markPairs o c ts ↔ ts[i]? = some (.esc o) ∨ ts[i]? = some (.esc c) := by
  obtain ⟨M', e, m⟩ := bal_marks hoc h 0 [] []
  unfold markPairs
  rw [e, m]
  simp

/-- Without one of the two nothing is marked. -/
theorem markPairs_none {o c : Char} {ts : List Tok} (h : Tok.esc o ∉ ts ∨ Tok.esc c ∉ ts) : markPairs o c ts = [] := by
  unfold markPairs
  rcases h with h | h
  · have : ∀ (ts : List Tok) (k : Nat), Tok.esc o ∉ ts → (ts.zipIdx k).foldl (markOne o c) ([], []) = ([], []) := by
      intro ts
      induction ts with
      | nil => intro k _; rfl
      | cons t ts ih =>
        intro k hn
        rw [List.zipIdx_cons, List.foldl_cons]
        have : markOne o c ([], []) (t, k) = ([], []) := by
          unfold markOne
          rw [if_neg (fun h => hn (by simp only at h; simp [h]))]
          simp only
          split <;> rfl
        rw [this]
        exact ih _ (fun h => hn (by simp [h]))
    rw [this ts 0 h]
  · have : ∀ (ts : List Tok) (k : Nat) (S : List Nat), Tok.esc c ∉ ts → ((ts.zipIdx k).foldl (markOne o c) (S, [])).2 = [] := by
      intro ts
      induction ts with
      | nil => intro k S _; rfl
      | cons t ts ih =>
        intro k S hn
        rw [List.zipIdx_cons, List.foldl_cons]
        have : ∃ S', markOne o c (S, []) (t, k) = (S', []) := by
          unfold markOne
          split
          · exact ⟨_, rfl⟩
          · rw [if_neg (fun h => hn (by simp only at h; simp [h]))]
            exact ⟨_, rfl⟩
        obtain ⟨S', hS⟩ := this
        rw [hS]
        exact ih _ _ (fun h => hn (by simp [h]))
    exact this ts 0 [] h

/-! ### The second pass -/

/-- What a step becomes; `keep`: parentheses stay escaped. -/
def conv1 (keep : Bool) : Tok → List Char
  | .plain c => [c]
  | .esc c => if c = '|' then ['|'] else if (c = '(' ∨ c = ')') then (if keep then ['\\', c] else [c])
    else if c = '{' ∨ c = '}' then [c] else ['\\', c]

theorem conv1_ne (keep : Bool) (t : Tok) : conv1 keep t ≠ [] := by
  cases t with
  | plain c => simp [conv1]
  | esc c => unfold conv1; simp only; split <;> (try split) <;> (try split) <;> simp

theorem convert_all {keep : Bool} {marked : List Nat} : ∀ (ts : List Tok) (k : Nat) (acc : List Char),
    (acc = [] → ts.head? ≠ some (.esc '{')) →
    (∀ j c, ts[j]? = some (.esc c) → c = '(' ∨ c = ')' → (k + j ∈ marked ↔ keep = false)) →
    (∀ j c, ts[j]? = some (.esc c) → c = '{' ∨ c = '}' → k + j ∈ marked) →
    (ts.zipIdx k).foldl (convertOne marked) (acc, 0) = (acc ++ ts.flatMap (conv1 keep), 0)
  | [], k, acc, _, _, _ => by simp
  | t :: ts, k, acc, h0, h1, h2 => by
    have hstep : convertOne marked (acc, 0) (t, k) = (acc ++ conv1 keep t, 0) := by
      cases t with
      | plain c => rfl
      | esc c =>
        by_cases hb : c = '|'
        · subst hb; rfl
        · have hconv : convertOne marked (acc, 0) (Tok.esc c, k) =
              if (c = '(' ∨ c = ')') ∧ k ∈ marked then (acc ++ [c], 0)
              else if c = '{' ∧ k ∈ marked then (if acc = [] then (['\\', '{'], 1) else (acc ++ ['{'], 0))
              else if c = '}' ∧ k ∈ marked then (acc ++ ['}'], 0)
              else (acc ++ ['\\', c], 0) := by
            unfold convertOne
            simp
          rw [hconv]
          unfold conv1
          simp only [if_neg hb]
          by_cases hp : c = '(' ∨ c = ')'
          · have hm := h1 0 c (by simp) hp
            rw [Nat.add_zero] at hm
            rw [if_pos hp]
            cases keep with
            | false => rw [if_pos ⟨hp, hm.2 rfl⟩]; rfl
            | true =>
              have hk : k ∉ marked := fun h => by simpa using hm.1 h
              simp [hk]
          · rw [if_neg (fun h => hp h.1), if_neg hp]
            by_cases hbr : c = '{' ∨ c = '}'
            · have hm := h2 0 c (by simp) hbr
              rw [Nat.add_zero] at hm
              rw [if_pos hbr]
              rcases hbr with rfl | rfl
              · rw [if_pos ⟨rfl, hm⟩, if_neg (fun h => h0 h (by simp))]
              · rw [if_neg (by simp), if_pos ⟨rfl, hm⟩]
            · simp only [not_or] at hbr
              rw [if_neg (fun h => hbr.1 h.1), if_neg (fun h => hbr.2 h.1), if_neg (by tauto)]
    rw [List.zipIdx_cons, List.foldl_cons, hstep,
      convert_all ts (k + 1) (acc ++ conv1 keep t) (fun h => absurd (List.append_eq_nil_iff.1 h).2 (conv1_ne keep t))
        (fun j c hj hc => by
          have := h1 (j + 1) c (by simpa using hj) hc
          rwa [show k + (j + 1) = k + 1 + j by omega] at this)
        (fun j c hj hc => by
          have := h2 (j + 1) c (by simpa using hj) hc
          rwa [show k + (j + 1) = k + 1 + j by omega] at this)]
    simp [List.append_assoc]

end NextPlaid.Ere
