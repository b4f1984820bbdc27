import Verif.Proofs.TextFilter

/-! `bre_to_ere` and `escape_literal_braces` on patterns of the grammar, continued. -/

namespace NextPlaid.Ere

open NextPlaid.Spec
open NextPlaid.Regex

theorem bal_map {o c : Char} : ∀ cs : List Char, Bal o c (cs.map .plain)
  | [] => .nil
  | d :: cs => .append (a := [.plain d]) (.other (by simp) (by simp)) (bal_map cs)

theorem bal_plain {o c d : Char} : Bal o c [.plain d] := .other (by simp) (by simp)

theorem bal_esc {o c d : Char} (h1 : d ≠ o) (h2 : d ≠ c) : Bal o c [.esc d] := .other (by simpa using h1) (by simpa using h2)

theorem bal_mark {o c d : Char} (h1 : d ≠ o) (h2 : d ≠ c) (bre : Bool) : Bal o c (mtoks bre d) := by
  cases bre
  · exact bal_plain
  · exact bal_esc h1 h2

theorem bal_wrap {o c : Char} {ts : List Tok} (h : Bal o c ts) (bre : Bool) : Bal o c (mtoks bre o ++ ts ++ mtoks bre c) := by
  cases bre
  · exact .append (.append bal_plain h) bal_plain
  · exact .wrap h

theorem bal_often_brace (q : Often) : Bal '{' '}' (otoks q) := by
  cases q with
  | star => exact bal_plain
  | plus => exact bal_plain
  | opt => exact bal_plain
  | count bre lo => exact bal_wrap (bal_map lo) bre
  | range bre lo hi =>
    have : otoks (.range bre lo hi) = mtoks bre '{' ++ (lo.map .plain ++ ([.plain ','] ++ hi.map .plain)) ++ mtoks bre '}' := by
      simp [otoks]
    rw [this]
    exact bal_wrap (.append (bal_map lo) (.append bal_plain (bal_map hi))) bre

theorem bal_often_paren (q : Often) : Bal '(' ')' (otoks q) := by
  cases q with
  | star => exact bal_plain
  | plus => exact bal_plain
  | opt => exact bal_plain
  | count bre lo => exact .append (.append (bal_mark (by decide) (by decide) _) (bal_map lo)) (bal_mark (by decide) (by decide) _)
  | range bre lo hi =>
    have : otoks (.range bre lo hi) = mtoks bre '{' ++ (lo.map .plain ++ ([.plain ','] ++ hi.map .plain)) ++ mtoks bre '}' := by
      simp [otoks]
    rw [this]
    exact .append (.append (bal_mark (by decide) (by decide) _) (.append (bal_map lo) (.append bal_plain (bal_map hi))))
      (bal_mark (by decide) (by decide) _)

theorem bal_set {o c : Char} (neg : Bool) (cs : List Char) : Bal o c (toks (.set neg cs)) := by
  have : toks (.set neg cs) = (if neg then [.plain '[', .plain '^'] else [.plain '[']) ++ cs.map .plain ++ [.plain ']'] := rfl
  rw [this]
  refine .append (.append ?_ (bal_map cs)) bal_plain
  cases neg
  · exact bal_plain
  · exact .append (a := [.plain '[']) bal_plain bal_plain

theorem bal_brace : ∀ p : Pat, Bal '{' '}' (toks p)
  | .empty => .nil
  | .lit c => by
    simp only [toks]
    split
    · rename_i h
      refine bal_esc ?_ ?_ <;> (rintro rfl; revert h; decide)
    · exact bal_plain
  | .any => bal_plain
  | .bol => bal_plain
  | .eol => bal_plain
  | .edge => bal_esc (by decide) (by decide)
  | .set neg cs => bal_set neg cs
  | .cat a b => .append (bal_brace a) (bal_brace b)
  | .alt bre a b => .append (.append (bal_brace a) (bal_mark (by decide) (by decide) _)) (bal_brace b)
  | .group bre a => .append (.append (bal_mark (by decide) (by decide) _) (bal_brace a)) (bal_mark (by decide) (by decide) _)
  | .many q a => .append (bal_brace a) (bal_often_brace q)

theorem bal_paren : ∀ p : Pat, p.hasLit '(' = false → p.hasLit ')' = false → Bal '(' ')' (toks p)
  | .empty, _, _ => .nil
  | .lit c, h1, h2 => by
    simp only [Pat.hasLit, decide_eq_false_iff_not] at h1 h2
    simp only [toks]
    split
    · exact bal_esc h1 h2
    · exact bal_plain
  | .any, _, _ => bal_plain
  | .bol, _, _ => bal_plain
  | .eol, _, _ => bal_plain
  | .edge, _, _ => bal_esc (by decide) (by decide)
  | .set neg cs, _, _ => bal_set neg cs
  | .cat a b, h1, h2 => by
    simp only [Pat.hasLit, Bool.or_eq_false_iff] at h1 h2
    exact .append (bal_paren a h1.1 h2.1) (bal_paren b h1.2 h2.2)
  | .alt bre a b, h1, h2 => by
    simp only [Pat.hasLit, Bool.or_eq_false_iff] at h1 h2
    exact .append (.append (bal_paren a h1.1 h2.1) (bal_mark (by decide) (by decide) _)) (bal_paren b h1.2 h2.2)
  | .group bre a, h1, h2 => bal_wrap (bal_paren a h1 h2) bre
  | .many q a, h1, h2 => .append (bal_paren a h1 h2) (bal_often_paren q)

theorem esc_often {q : Often} {c : Char} (h : Tok.esc c ∈ otoks q) : c = '{' ∨ c = '}' := by
  cases q with
  | star => simp [otoks] at h
  | plus => simp [otoks] at h
  | opt => simp [otoks] at h
  | count bre lo => cases bre <;> simp [otoks, mtoks] at h; exact h
  | range bre lo hi => cases bre <;> simp [otoks, mtoks] at h; exact h

/-- Where an escaped parenthesis comes from. -/
theorem esc_paren {c : Char} (hc : c = '(' ∨ c = ')') : ∀ {p : Pat}, p.hasBre = false → p.hasLit c = false → Tok.esc c ∉ toks p
  | .empty, _, _ => by simp [toks]
  | .lit d, _, h2 => by
    simp only [Pat.hasLit, decide_eq_false_iff_not] at h2
    simp only [toks]
    split
    · simpa using fun h => h2 h.symm
    · simp
  | .any, _, _ => by simp [toks]
  | .bol, _, _ => by simp [toks]
  | .eol, _, _ => by simp [toks]
  | .edge, _, _ => by rcases hc with rfl | rfl <;> simp [toks]
  | .set neg cs, _, _ => by cases neg <;> simp [toks]
  | .cat a b, h1, h2 => by
    simp only [Pat.hasLit, Pat.hasBre, Bool.or_eq_false_iff] at h1 h2
    simp only [toks, List.mem_append, not_or]
    exact ⟨esc_paren hc h1.1 h2.1, esc_paren hc h1.2 h2.2⟩
  | .alt bre a b, h1, h2 => by
    simp only [Pat.hasLit, Pat.hasBre, Bool.or_eq_false_iff] at h1 h2
    simp only [toks, List.mem_append, not_or]
    refine ⟨⟨esc_paren hc h1.1 h2.1, ?_⟩, esc_paren hc h1.2 h2.2⟩
    cases bre <;> rcases hc with rfl | rfl <;> simp [mtoks]
  | .group bre a, h1, h2 => by
    simp only [Pat.hasLit, Pat.hasBre, Bool.or_eq_false_iff] at h1 h2
    simp only [toks, List.mem_append, not_or]
    rw [h1.1]
    exact ⟨⟨by simp [mtoks], esc_paren hc h1.2 h2⟩, by simp [mtoks]⟩
  | .many q a, h1, h2 => by
    simp only [toks, List.mem_append, not_or]
    refine ⟨esc_paren (p := a) hc h1 h2, fun h => ?_⟩
    have := esc_often h
    rcases hc with rfl | rfl <;> simp at this

theorem single_toks : ∀ {p : Pat}, p.single = true → toks p ≠ []
  | .lit c, _ => by simp only [toks]; split <;> simp
  | .any, _ => by simp [toks]
  | .set neg cs, _ => by cases neg <;> simp [toks]
  | .group bre a, _ => by cases bre <;> simp [toks, mtoks]

theorem head_append {A : Type} {a b : List A} {x : A} (h1 : a.head? ≠ some x) (h2 : b.head? ≠ some x) : (a ++ b).head? ≠ some x := by
  cases a with
  | nil => exact h2
  | cons y ys => exact h1

theorem toks_head : ∀ {p : Pat}, p.Legal → (toks p).head? ≠ some (.esc '{')
  | .empty, _ => by simp [toks]
  | .lit c, _ => by
    simp only [toks]
    split
    · rename_i h
      simp only [List.head?_cons, ne_eq, Option.some.injEq, Tok.esc.injEq]
      rintro rfl; revert h; decide
    · simp
  | .any, _ => by simp [toks]
  | .bol, _ => by simp [toks]
  | .eol, _ => by simp [toks]
  | .edge, _ => by simp [toks]
  | .set neg cs, _ => by cases neg <;> simp [toks]
  | .cat a b, h => head_append (toks_head h.1) (toks_head h.2.1)
  | .alt bre a b, h => by
    refine head_append (head_append (toks_head h.1) ?_) (toks_head h.2)
    cases bre <;> simp [mtoks]
  | .group bre a, _ => by cases bre <;> simp [toks, mtoks]
  | .many q a, h => by
    have := toks_head h.2.1
    have hne := single_toks h.2.2
    simp only [toks]
    cases ha : toks a with
    | nil => exact absurd ha hne
    | cons t ts => rw [ha] at this; simpa using this

theorem conv_plains (keep : Bool) (cs : List Char) : (cs.map Tok.plain).flatMap (conv1 keep) = cs := by
  induction cs with
  | nil => rfl
  | cons c cs ih => simp [conv1, ih]

theorem conv_often (keep : Bool) (q : Often) : (otoks q).flatMap (conv1 keep) = q.spell false := by
  cases q with
  | star => rfl
  | plus => rfl
  | opt => rfl
  | count bre lo => cases bre <;> simp [otoks, mtoks, conv_plains, Often.spell, mark, List.flatMap_append] <;> simp [conv1]
  | range bre lo hi => cases bre <;> simp [otoks, mtoks, conv_plains, Often.spell, mark, List.flatMap_append] <;> simp [conv1]

theorem conv_pat {keep : Bool} : ∀ {p : Pat}, p.Legal →
    (keep = false → p.hasLit '(' = false ∧ p.hasLit ')' = false) → (keep = true → p.hasBre = false) →
    (toks p).flatMap (conv1 keep) = p.spell false
  | .empty, _, _, _ => rfl
  | .lit c, h, hk, _ => by
    simp only [toks, Pat.spell]
    have h1 : c ≠ '|' := h
    split
    · rename_i hc
      simp only [List.flatMap_cons, List.flatMap_nil, List.append_nil, conv1, if_neg h1]
      have h2 : ¬ (c = '{' ∨ c = '}') := by rintro (rfl | rfl) <;> revert hc <;> decide
      rw [if_neg h2]
      split
      · rename_i hp
        cases keep with
        | true => rfl
        | false =>
          have := hk rfl
          simp only [Pat.hasLit, decide_eq_false_iff_not] at this
          rcases hp with rfl | rfl
          · exact absurd rfl this.1
          · exact absurd rfl this.2
      · rfl
    · simp [conv1]
  | .any, _, _, _ => rfl
  | .bol, _, _, _ => rfl
  | .eol, _, _, _ => rfl
  | .edge, _, _, _ => rfl
  | .set neg cs, _, _, _ => by
    have h1 : conv1 keep (.plain '[') = ['['] := rfl
    have h2 : conv1 keep (.plain '^') = ['^'] := rfl
    have h3 : conv1 keep (.plain ']') = [']'] := rfl
    cases neg <;> simp [toks, Pat.spell, conv_plains, h1, h2, h3]
  | .cat a b, h, hk, hb => by
    simp only [Pat.hasLit, Pat.hasBre, Bool.or_eq_false_iff] at hk hb
    simp only [toks, Pat.spell, List.flatMap_append]
    rw [conv_pat h.1 (fun e => ⟨(hk e).1.1, (hk e).2.1⟩) (fun e => (hb e).1),
      conv_pat h.2.1 (fun e => ⟨(hk e).1.2, (hk e).2.2⟩) (fun e => (hb e).2)]
  | .alt bre a b, h, hk, hb => by
    simp only [Pat.hasLit, Pat.hasBre, Bool.or_eq_false_iff] at hk hb
    simp only [toks, Pat.spell, List.flatMap_append]
    rw [conv_pat h.1 (fun e => ⟨(hk e).1.1, (hk e).2.1⟩) (fun e => (hb e).1),
      conv_pat h.2 (fun e => ⟨(hk e).1.2, (hk e).2.2⟩) (fun e => (hb e).2)]
    cases bre <;> simp [mtoks, mark, conv1]
  | .group bre a, h, hk, hb => by
    simp only [Pat.hasLit, Pat.hasBre, Bool.or_eq_false_iff] at hk hb
    simp only [toks, Pat.spell, List.flatMap_append]
    rw [conv_pat (p := a) h hk (fun e => (hb e).2)]
    cases bre with
    | false => simp [mtoks, mark, conv1]
    | true =>
      cases keep with
      | true => simp at hb
      | false => simp [mtoks, mark, conv1]
  | .many q a, h, hk, hb => by
    simp only [toks, Pat.spell, List.flatMap_append]
    rw [conv_pat (p := a) h.2.1 hk hb, conv_often]

/-- `bre_to_ere` changes the spelling and nothing else. -/
theorem breToEre_write {p : Pat} (h : p.Legal) (hs : p.OneSense) : breToEre p.write = p.spell false := by
  have hbrace : ∀ i, i ∈ markPairs '{' '}' (toks p) ↔ (toks p)[i]? = some (.esc '{') ∨ (toks p)[i]? = some (.esc '}') :=
    markPairs_bal (by decide) (bal_brace p)
  obtain ⟨keep, hk1, hk2, hk3⟩ : ∃ keep : Bool, (keep = false → p.hasLit '(' = false ∧ p.hasLit ')' = false) ∧
      (keep = true → p.hasBre = false) ∧
      ∀ j c, (toks p)[j]? = some (.esc c) → c = '(' ∨ c = ')' → (j ∈ markPairs '(' ')' (toks p) ↔ keep = false) := by
    rcases hs with ⟨h1, h2⟩ | ⟨h1, h2⟩
    · refine ⟨false, fun _ => ⟨h1, h2⟩, by simp, ?_⟩
      intro j c hj hc
      rw [markPairs_bal (by decide) (bal_paren p h1 h2), hj]
      rcases hc with rfl | rfl <;> simp
    · refine ⟨true, by simp, fun _ => h1, ?_⟩
      intro j c hj hc
      rw [markPairs_none (h2.imp (esc_paren (.inl rfl) h1) (esc_paren (.inr rfl) h1))]
      simp
  unfold breToEre
  rw [tokens_write h, convert_all (keep := keep) (toks p) 0 [] (fun _ => toks_head h) ?_ ?_]
  · simp only [List.nil_append]
    exact conv_pat h hk1 hk2
  · intro j c hj hc
    rw [Nat.zero_add, List.mem_append]
    rw [hk3 j c hj hc, hbrace, hj]
    rcases hc with rfl | rfl <;> simp
  · intro j c hj hc
    rw [Nat.zero_add, List.mem_append]
    right
    rw [hbrace, hj]
    rcases hc with rfl | rfl <;> simp

end NextPlaid.Ere
