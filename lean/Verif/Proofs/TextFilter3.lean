import Verif.Proofs.TextFilter2

/-! `escape_literal_braces` on patterns of the grammar. -/

namespace NextPlaid.Ere

open NextPlaid.Spec
open NextPlaid.Regex

def after (prev : Option Char) (t : List Char) : Option Char := t.getLast?.or prev

theorem after_append (prev : Option Char) (a b : List Char) : after prev (a ++ b) = after (after prev a) b := by
  simp [after, List.getLast?_append, Option.or_assoc]

theorem after_cons (prev : Option Char) (c : Char) (t : List Char) : after prev (c :: t) = after (some c) t := by
  have := after_append prev [c] t
  simpa [after] using this

theorem esc_plain {prev : Option Char} {c : Char} (h1 : c ≠ '[') (h2 : c ≠ '\\') (h3 : c ≠ '{') (h4 : c ≠ '}') (rest : List Char) :
    escBraces prev false 0 (c :: rest) = c :: escBraces (some c) false 0 rest := by
  rw [escBraces.eq_def]
  simp [h1, h2, h3, h4]

theorem esc_esc {prev : Option Char} {d : Char} (h1 : d ≠ '{') (h2 : d ≠ '}') (rest : List Char) :
    escBraces prev false 0 ('\\' :: d :: rest) = '\\' :: d :: escBraces (some d) false 0 rest := by
  rw [escBraces.eq_def]
  simp [h1, h2]

theorem esc_copy : ∀ (cs : List Char) (prev : Option Char) (cls : Bool) (rest : List Char),
    escBraces prev cls cs.length (cs ++ rest) = cs ++ escBraces (after prev cs) cls 0 rest
  | [], prev, cls, rest => by simp [after]
  | c :: cs, prev, cls, rest => by
    rw [List.cons_append, escBraces.eq_def]
    dsimp only
    rw [if_pos (by simp), List.length_cons, Nat.add_sub_cancel, esc_copy cs, after_cons]
    rfl

theorem esc_class : ∀ (cs : List Char) (prev : Option Char) (rest : List Char), prev ≠ some '\\' →
    (∀ c ∈ cs, c ≠ '[' ∧ c ≠ ']' ∧ c ≠ '\\') →
    escBraces prev true 0 (cs ++ ']' :: rest) = cs ++ ']' :: escBraces (some ']') false 0 rest
  | [], prev, rest, hp, _ => by
    rw [List.nil_append, escBraces.eq_def]
    simp [hp]
  | c :: cs, prev, rest, hp, h => by
    obtain ⟨h1, h2, h3⟩ := h c (by simp)
    rw [List.cons_append, escBraces.eq_def]
    simp only [lt_irrefl, if_false, h1, h2, false_and]
    simp only [if_true]
    rw [esc_class cs (some c) rest (by simpa using h3) (fun d hd => h d (by simp [hd]))]
    rfl

theorem esc_set {prev : Option Char} (hp : prev ≠ some '\\') (neg : Bool) {cs : List Char}
    (h : ∀ c ∈ cs, c ∉ ['[', ']', '^', '-', '&', '~', '\\']) (rest : List Char) :
    escBraces prev false 0 ((Pat.set neg cs).spell false ++ rest) =
      (Pat.set neg cs).spell false ++ escBraces (some ']') false 0 rest := by
  have hcs : ∀ c ∈ cs, c ≠ '[' ∧ c ≠ ']' ∧ c ≠ '\\' := by
    intro c hc
    have := h c hc
    simp only [List.mem_cons, List.not_mem_nil, or_false, not_or] at this
    exact ⟨this.1, this.2.1, this.2.2.2.2.2.2⟩
  have hopen : ∀ t, escBraces prev false 0 ('[' :: t) = '[' :: escBraces (some '[') true 0 t := by
    intro t; rw [escBraces.eq_def]; simp [hp]
  cases neg with
  | false =>
    simp only [Pat.spell, Bool.false_eq_true, if_false, List.append_assoc, List.cons_append, List.nil_append]
    rw [hopen, esc_class cs _ rest (by decide) hcs]
  | true =>
    simp only [Pat.spell, if_true, List.append_assoc, List.cons_append, List.nil_append]
    have := esc_class ('^' :: cs) (some '[') rest (by decide) (by
      intro c hc
      rcases List.mem_cons.1 hc with rfl | hc
      · decide
      · exact hcs c hc)
    rw [hopen, ← List.cons_append, this]
    rfl

theorem braceBody_digits {rest : List Char} : ∀ {cs : List Char}, (∀ c ∈ cs, c ≠ '}' ∧ c ≠ '{') →
    braceBody (cs ++ '}' :: rest) = some cs
  | [], _ => by rw [List.nil_append, braceBody, if_pos rfl]
  | c :: cs, h => by
    obtain ⟨h1, h2⟩ := h c (by simp)
    rw [List.cons_append, braceBody, if_neg h1, if_neg h2, braceBody_digits (fun d hd => h d (by simp [hd]))]
    rfl

theorem splitComma_one : ∀ {cs : List Char}, ',' ∉ cs → splitComma cs = [cs]
  | [], _ => rfl
  | c :: cs, h => by
    simp only [List.mem_cons, not_or] at h
    rw [splitComma, if_neg (fun e => h.1 e.symm), splitComma_one h.2]

theorem splitComma_two : ∀ {cs ds : List Char}, ',' ∉ cs → ',' ∉ ds → splitComma (cs ++ ',' :: ds) = [cs, ds]
  | [], ds, _, h => by rw [List.nil_append, splitComma, if_pos rfl, splitComma_one h]
  | c :: cs, ds, h, h' => by
    simp only [List.mem_cons, not_or] at h
    rw [List.cons_append, splitComma, if_neg (fun e => h.1 e.symm), splitComma_two h.2 h']

theorem invalid_body {c : Char} (h1 : c.isDigit = false) (h2 : c ≠ ',') (cs : List Char) : validQuantifier (c :: cs) = false := by
  unfold validQuantifier
  rw [splitComma, if_neg h2]
  cases hs : splitComma cs with
  | nil => simp [h1]
  | cons l ls =>
    cases ls with
    | nil => simp [h1]
    | cons l' ls =>
      cases ls with
      | nil => simp [h1]
      | cons _ _ => rfl

/-- A brace that stands for itself. -/
theorem esc_open {prev : Option Char} {rest : List Char} (h : ∀ c ∈ rest.head?, c.isDigit = false ∧ c ≠ ',') :
    escBraces prev false 0 ('{' :: rest) = '[' :: '{' :: ']' :: escBraces (some '{') false 0 rest := by
  rw [escBraces.eq_def]
  simp only [lt_irrefl, if_false, Bool.false_eq_true, false_and, and_false, if_true,
    show ¬ ('{' = '[') by decide, show ¬ ('{' = ']') by decide, show ¬ ('{' = '\\') by decide]
  cases hb : braceBody rest with
  | none => rfl
  | some body =>
    have hv : validQuantifier body = false := by
      cases rest with
      | nil => simp [braceBody] at hb
      | cons c cs =>
        obtain ⟨h1, h2⟩ := h c (by simp)
        rw [braceBody] at hb
        split at hb
        · obtain rfl : [] = body := by simpa using hb
          rfl
        · split at hb
          · simp at hb
          · cases hc : braceBody cs with
            | none => rw [hc] at hb; simp at hb
            | some b =>
              rw [hc] at hb
              obtain rfl : c :: b = body := by simpa using hb
              exact invalid_body h1 h2 b
    simp [hv]

theorem esc_close {prev : Option Char} (rest : List Char) :
    escBraces prev false 0 ('}' :: rest) = '[' :: '}' :: ']' :: escBraces (some '}') false 0 rest := by
  rw [escBraces.eq_def]
  simp

/-- A quantifier in braces. -/
theorem esc_count {prev : Option Char} {body : List Char} (hv : validQuantifier body = true) (hb : ∀ c ∈ body, c ≠ '}' ∧ c ≠ '{')
    (rest : List Char) :
    escBraces prev false 0 ('{' :: body ++ '}' :: rest) = '{' :: body ++ '}' :: escBraces (some '}') false 0 rest := by
  rw [List.cons_append, escBraces.eq_def]
  simp only [lt_irrefl, if_false, Bool.false_eq_true, false_and, and_false, if_true,
    show ¬ ('{' = '[') by decide, show ¬ ('{' = ']') by decide, show ¬ ('{' = '\\') by decide]
  rw [braceBody_digits hb]
  simp only [hv, if_true]
  have := esc_copy (body ++ ['}']) (some '{') false rest
  simp only [List.length_append, List.length_singleton, List.append_assoc, List.singleton_append] at this
  rw [this]
  simp [after]

theorem all_digits {cs : List Char} (h : ∀ c ∈ cs, c.isDigit = true) : cs.all Char.isDigit = true := by
  rw [List.all_eq_true]; exact h

theorem esc_many {q : Often} (h : q.Legal) {prev : Option Char} (rest : List Char) :
    escBraces prev false 0 (q.spell false ++ rest) = q.spell false ++ escBraces (after prev (q.spell false)) false 0 rest := by
  cases q with
  | star => exact esc_plain (by decide) (by decide) (by decide) (by decide) rest
  | plus => exact esc_plain (by decide) (by decide) (by decide) (by decide) rest
  | opt => exact esc_plain (by decide) (by decide) (by decide) (by decide) rest
  | count bre lo =>
    obtain ⟨h1, h2⟩ := h
    have hv : validQuantifier lo = true := by
      unfold validQuantifier
      rw [splitComma_one (fun hc => digit_ne (h2 _ hc) (by decide) rfl)]
      simp only [all_digits h2, Bool.and_true]
      cases lo with
      | nil => exact absurd rfl h1
      | cons _ _ => rfl
    have := esc_count (prev := prev) hv (fun c hc => ⟨digit_ne (h2 c hc) (by decide), digit_ne (h2 c hc) (by decide)⟩) rest
    simp only [Often.spell, mark, Bool.false_and, Bool.false_eq_true, if_false, List.append_assoc, List.cons_append, List.nil_append] at this ⊢
    rw [this]
    simp only [after_cons, after_append]
    simp [after]
  | range bre lo hi =>
    obtain ⟨h1, h2, h3, h4⟩ := h
    have hv : validQuantifier (lo ++ ',' :: hi) = true := by
      unfold validQuantifier
      rw [splitComma_two (fun hc => digit_ne (h2 _ hc) (by decide) rfl) (fun hc => digit_ne (h3 _ hc) (by decide) rfl)]
      simp only [all_digits h2, all_digits h3, Bool.true_and]
      cases lo with
      | nil => exact absurd rfl h1
      | cons _ _ => rfl
    have := esc_count (prev := prev) hv (by
      intro c hc
      rcases List.mem_append.1 hc with hc | hc
      · exact ⟨digit_ne (h2 c hc) (by decide), digit_ne (h2 c hc) (by decide)⟩
      · rcases List.mem_cons.1 hc with rfl | hc
        · decide
        · exact ⟨digit_ne (h3 c hc) (by decide), digit_ne (h3 c hc) (by decide)⟩) rest
    simp only [Often.spell, mark, Bool.false_and, Bool.false_eq_true, if_false, List.append_assoc, List.cons_append, List.nil_append] at this ⊢
    rw [this]
    simp only [after_cons, after_append]
    simp [after]

/-- The text handed to the engine. -/
def final : Pat → List Char
  | .empty => []
  | .lit c => if c = '{' ∨ c = '}' then ['[', c, ']'] else if c ∈ escaped then ['\\', c] else [c]
  | .any => ['.']
  | .bol => ['^']
  | .eol => ['$']
  | .edge => ['\\', 'b']
  | .set neg cs => (Pat.set neg cs).spell false
  | .cat a b => final a ++ final b
  | .alt _ a b => final a ++ '|' :: final b
  | .group _ a => '(' :: final a ++ [')']
  | .many q a => final a ++ q.spell false

theorem often_head (q : Often) (rest : List Char) : ∀ c ∈ (q.spell false ++ rest).head?, c.isDigit = false ∧ c ≠ ',' := by
  intro c hc
  cases q <;> simp [Often.spell, mark] at hc <;> subst hc <;> decide

theorem set_head (neg : Bool) (cs rest : List Char) : ((Pat.set neg cs).spell false ++ rest).head? = some '[' := by
  cases neg <;> simp [Pat.spell]

theorem esc_pat : ∀ {p : Pat}, p.Legal → ∀ {prev : Option Char} {rest : List Char},
    (prev = some '\\' → (p.spell false).head? ≠ some '[') →
    ((p.spell false).getLast? = some '{' → ∀ c ∈ rest.head?, c.isDigit = false ∧ c ≠ ',') →
    escBraces prev false 0 (p.spell false ++ rest) = final p ++ escBraces (after prev (p.spell false)) false 0 rest
  | .empty, _, prev, rest, _, _ => by simp [Pat.spell, final, after]
  | .lit c, _, prev, rest, _, h2 => by
    by_cases h3 : c = '{'
    · subst h3
      have hs : (Pat.lit '{').spell false = ['{'] := by simp [Pat.spell, escaped]
      rw [hs] at h2 ⊢
      simp only [final, true_or, if_true]
      exact esc_open (h2 rfl)
    · by_cases h4 : c = '}'
      · subst h4
        have hs : (Pat.lit '}').spell false = ['}'] := by simp [Pat.spell, escaped]
        rw [hs]
        simp only [final, or_true, if_true]
        exact esc_close rest
      · simp only [final, h3, h4, or_self, if_false, Pat.spell]
        split
        · rw [List.cons_append, List.cons_append, esc_esc h3 h4]
          simp [after]
        · rename_i hc
          rw [List.cons_append, esc_plain ?_ ?_ h3 h4]
          · simp [after]
          · rintro rfl; exact hc (by decide)
          · rintro rfl; exact hc (by decide)
  | .any, _, prev, rest, _, _ => esc_plain (by decide) (by decide) (by decide) (by decide) rest
  | .bol, _, prev, rest, _, _ => esc_plain (by decide) (by decide) (by decide) (by decide) rest
  | .eol, _, prev, rest, _, _ => esc_plain (by decide) (by decide) (by decide) (by decide) rest
  | .edge, _, prev, rest, _, _ => esc_esc (by decide) (by decide) rest
  | .set neg cs, h, prev, rest, h1, _ => by
    have hp : prev ≠ some '\\' := by
      intro hp
      have := set_head neg cs []
      rw [List.append_nil] at this
      exact h1 hp this
    rw [esc_set hp neg h.2]
    have : after prev ((Pat.set neg cs).spell false) = some ']' := by simp [Pat.spell, after]
    rw [this]
    rfl
  | .cat a b, h, prev, rest, h1, h2 => by
    obtain ⟨ha, hb, _, _, hbr, hbs⟩ := h
    simp only [Pat.spell] at h1 h2 ⊢
    rw [List.append_assoc, esc_pat ha (prev := prev) ?_ ?_, esc_pat hb (prev := after prev (a.spell false)) ?_ ?_]
    · simp [final, after_append]
    · intro hp
      cases hl : (a.spell false).getLast? with
      | none =>
        rw [List.getLast?_eq_none_iff] at hl
        rw [hl] at hp h1
        simp only [after, List.getLast?_nil, Option.none_or] at hp
        exact h1 hp
      | some x =>
        rw [after, hl] at hp
        simp only [Option.some_or, Option.some.injEq] at hp
        exact hbs (by rw [hl, hp])
    · intro hl
      apply h2
      rw [List.getLast?_append, hl]
      rfl
    · intro hp
      have := h1 hp
      cases hx : a.spell false with
      | nil => simp
      | cons x xs => rw [hx] at this; simpa using this
    · intro hl c hc
      cases hx : b.spell false with
      | nil =>
        rw [hx] at hc h2
        rw [List.append_nil] at h2
        exact h2 hl c hc
      | cons x xs =>
        rw [hx] at hc
        exact hbr hl c (by rw [hx]; simpa using hc)
  | .alt bre a b, h, prev, rest, h1, h2 => by
    obtain ⟨ha, hb⟩ := h
    simp only [Pat.spell, mark, Bool.false_and, Bool.false_eq_true, if_false, List.append_assoc, List.cons_append, List.nil_append] at h1 h2 ⊢
    rw [esc_pat ha (prev := prev) ?_ ?_, esc_plain (by decide) (by decide) (by decide) (by decide),
      esc_pat hb (prev := some '|') (by simp) ?_]
    · simp [final, after_append, after_cons]
    · intro hl
      apply h2
      rw [List.getLast?_append, List.getLast?_cons, hl]
      rfl
    · intro hp
      have := h1 hp
      cases hx : a.spell false with
      | nil => simp
      | cons x xs => rw [hx] at this; simpa using this
    · intro _ c hc
      simp only [List.head?_cons, Option.mem_def, Option.some.injEq] at hc
      subst hc; decide
  | .group bre a, h, prev, rest, h1, h2 => by
    have ha : a.Legal := h
    simp only [Pat.spell, mark, Bool.false_and, Bool.false_eq_true, if_false, List.append_assoc, List.cons_append, List.nil_append] at h1 h2 ⊢
    rw [esc_plain (by decide) (by decide) (by decide) (by decide), esc_pat ha (prev := some '(') (by simp) ?_,
      esc_plain (by decide) (by decide) (by decide) (by decide)]
    · simp [final, after_cons, after_append]
      simp [after]
    · intro _ c hc
      simp only [List.head?_cons, Option.mem_def, Option.some.injEq] at hc
      subst hc; decide
  | .many q a, h, prev, rest, h1, h2 => by
    obtain ⟨hq, ha, hsng⟩ := h
    simp only [Pat.spell] at h1 h2 ⊢
    rw [List.append_assoc, esc_pat ha (prev := prev) ?_ (fun _ => often_head q rest), esc_many hq]
    · simp [final, after_append]
    · intro hp
      have := h1 hp
      cases hx : a.spell false with
      | nil => simp
      | cons x xs => rw [hx] at this; simpa using this

/-- What is handed to the engine for a pattern. -/
theorem toEre_write {p : Pat} (h : p.Legal) (hs : p.OneSense) : toEre p.write = final p := by
  unfold toEre escapeLiteralBraces
  rw [breToEre_write h hs]
  have := esc_pat h (prev := none) (rest := []) (by simp) (by simp)
  rw [List.append_nil] at this
  rw [this]
  simp [escBraces]

end NextPlaid.Ere
