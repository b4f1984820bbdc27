import Verif.Spec.Condition

/-!
The tokenizer recognises exactly the spelling, the recursive descent exactly the grammar.
-/

namespace NextPlaid.Proofs.Condition
open NextPlaid.Condition NextPlaid.Spec

/-! ### Tokens -/

theorem push_ok {t : Token} {r : Res (List Token)} {ts : List Token} (h : push t r = .ok ts) :
    ∃ us, r = .ok us ∧ ts = t :: us := by
  unfold push at h
  rcases r with e | us
  · cases h
  · cases h
    exact ⟨us, rfl, rfl⟩

theorem singleTok_some {c : Char} {t : Token} (h : singleTok c = some t) : Sign t [c] := by
  unfold singleTok at h
  repeat' (split at h)
  all_goals first | (rename_i hc; subst hc; cases h; constructor) | cases h

theorem doubleTok_some {c : Char} {o : Option Char} {t : Token} (h : doubleTok c o = some t) :
    ∃ d, o = some d ∧ Sign t [c, d] := by
  unfold doubleTok at h
  repeat' (split at h)
  all_goals first
    | (rename_i hc; obtain ⟨rfl, rfl⟩ := hc; cases h; exact ⟨_, rfl, by constructor⟩)
    | cases h

theorem wordChar_iff {U : Uni} {c : Char} : wordChar U c = true ↔ U.isAlnum c = true ∨ c = '_' := by
  unfold wordChar
  simp

theorem wordChar_false {U : Uni} {c : Char} (h : wordChar U c = false) : U.isAlnum c = false ∧ c ≠ '_' := by
  unfold wordChar at h
  simpa using h

theorem mem_takeWhile {α : Type} {p : α → Bool} {l : List α} {x : α} (h : x ∈ l.takeWhile p) : p x = true := by
  induction l with
  | nil => cases h
  | cons y l ih =>
    rw [List.takeWhile_cons] at h
    split at h
    · rename_i hy
      cases h with
      | head => exact hy
      | tail _ h => exact ih h
    · cases h

theorem head_dropWhile {α : Type} {p : α → Bool} {l : List α} {x : α} (h : (l.dropWhile p).head? = some x) :
    p x = false := by
  induction l with
  | nil => cases h
  | cons y l ih =>
    rw [List.dropWhile_cons] at h
    split at h
    · exact ih h
    · rename_i hy
      cases h
      simpa using hy

theorem wordTok_spells {U : Uni} {w cs : List Char} {ts : List Token} (hw : IsPlainWord U w)
    (hn : ∀ c, cs.head? = some c → U.isAlnum c = false ∧ c ≠ '_') (h : Spells U cs ts) :
    Spells U (w ++ cs) (wordTok U w :: ts) := by
  unfold wordTok
  repeat' split
  all_goals first
    | (rename_i hu; exact .keyword (by constructor) hw hu hn h)
    | skip
  refine .column hw ?_ hn h
  intro t k hk
  cases hk <;> assumption

theorem tokenizeFrom_sound {U : Uni} (hU : U.Lawful) : ∀ (n : Nat) (cs : List Char) (ts : List Token),
    tokenizeFrom U n cs = .ok ts → ∃ us, ts = us ++ [.eof] ∧ Spells U cs us := by
  intro n
  induction n with
  | zero => intro cs ts h; cases h
  | succ n ih =>
    intro cs ts h
    match cs with
    | [] =>
      cases h
      exact ⟨[], rfl, .nil⟩
    | c :: cs =>
      unfold tokenizeFrom at h
      split at h
      · rename_i hs
        obtain ⟨us, e, hsp⟩ := ih cs ts h
        exact ⟨us, e, .space hs hsp⟩
      · split at h
        · rename_i t ht
          obtain ⟨vs, hv, rfl⟩ := push_ok h
          obtain ⟨us, rfl, hsp⟩ := ih cs vs hv
          exact ⟨t :: us, rfl, .sign (singleTok_some ht) hsp⟩
        · split at h
          · rename_i t ht
            obtain ⟨vs, hv, rfl⟩ := push_ok h
            obtain ⟨us, rfl, hsp⟩ := ih cs.tail vs hv
            obtain ⟨d, hd, hsg⟩ := doubleTok_some ht
            match cs, hd with
            | _ :: cs, rfl => exact ⟨t :: us, rfl, .sign hsg hsp⟩
          · rename_i hsingle hd
            split at h
            · rename_i t ht
              obtain ⟨vs, hv, rfl⟩ := push_ok h
              obtain ⟨us, rfl, hsp⟩ := ih cs vs hv
              refine ⟨t :: us, rfl, ?_⟩
              unfold angleTok at ht
              split at ht
              · rename_i hc
                subst hc
                cases ht
                refine .lt ?_ ?_ hsp <;> intro hh <;> rw [hh] at hd <;> exact absurd hd (by decide)
              · split at ht
                · rename_i hc
                  subst hc
                  cases ht
                  refine .gt ?_ hsp
                  intro hh
                  rw [hh] at hd
                  exact absurd hd (by decide)
                · cases ht
            · split at h
              · rename_i hw
                obtain ⟨vs, hv, rfl⟩ := push_ok h
                obtain ⟨us, rfl, hsp⟩ := ih _ vs hv
                refine ⟨_ :: us, rfl, ?_⟩
                have := wordTok_spells (U := U) (w := (c :: cs).takeWhile (wordChar U)) (cs := (c :: cs).dropWhile (wordChar U))
                  ?_ ?_ hsp
                · rwa [List.takeWhile_append_dropWhile] at this
                · refine ⟨⟨c, cs.takeWhile (wordChar U), ?_, by simpa using hw⟩, ?_⟩
                  · rw [List.takeWhile_cons, if_pos]
                    rw [wordChar_iff]
                    rcases (by simpa using hw : U.isAlpha c = true ∨ c = '_') with ha | ha
                    · exact .inl (hU.alpha_alnum c ha)
                    · exact .inr ha
                  · intro d hd
                    exact wordChar_iff.1 (mem_takeWhile hd)
                · intro d hd
                  exact wordChar_false (head_dropWhile hd)
              · split at h
                · rename_i hq
                  subst hq
                  split at h
                  · cases h
                  · rename_i x rest hrest
                    obtain ⟨vs, hv, rfl⟩ := push_ok h
                    obtain ⟨us, rfl, hsp⟩ := ih rest vs hv
                    refine ⟨_ :: us, rfl, ?_⟩
                    have hx : x = '"' := by
                      have := head_dropWhile (l := cs) (p := (· ≠ '"')) (x := x) (by rw [hrest]; rfl)
                      simpa using this
                    subst hx
                    have e : cs = cs.takeWhile (· ≠ '"') ++ '"' :: rest := by
                      conv => lhs; rw [← List.takeWhile_append_dropWhile (p := (· ≠ '"')) (l := cs)]
                      rw [hrest]
                    have := Spells.quoted (U := U) (w := cs.takeWhile (· ≠ '"')) (cs := rest) (ts := us) (by
                      intro hm
                      have := mem_takeWhile hm
                      simp at this) hsp
                    rw [← e] at this
                    exact this
                · cases h

theorem takeWhile_append_stop {α : Type} {p : α → Bool} {w : List α} {x : α} {r : List α} (hw : ∀ c ∈ w, p c = true)
    (hx : p x = false) : (w ++ x :: r).takeWhile p = w := by
  induction w with
  | nil => simp [hx]
  | cons y w ih =>
    rw [List.cons_append, List.takeWhile_cons, if_pos (hw y (by simp)), ih fun c hc => hw c (by simp [hc])]

theorem dropWhile_append_stop {α : Type} {p : α → Bool} {w : List α} {x : α} {r : List α} (hw : ∀ c ∈ w, p c = true)
    (hx : p x = false) : (w ++ x :: r).dropWhile p = x :: r := by
  induction w with
  | nil => simp [hx]
  | cons y w ih =>
    rw [List.cons_append, List.dropWhile_cons, if_pos (hw y (by simp)), ih fun c hc => hw c (by simp [hc])]

theorem takeWhile_all {α : Type} {p : α → Bool} {w : List α} (hw : ∀ c ∈ w, p c = true) : w.takeWhile p = w := by
  induction w with
  | nil => rfl
  | cons y w ih => rw [List.takeWhile_cons, if_pos (hw y (by simp)), ih fun c hc => hw c (by simp [hc])]

theorem dropWhile_all {α : Type} {p : α → Bool} {w : List α} (hw : ∀ c ∈ w, p c = true) : w.dropWhile p = [] := by
  induction w with
  | nil => rfl
  | cons y w ih => rw [List.dropWhile_cons, if_pos (hw y (by simp)), ih fun c hc => hw c (by simp [hc])]

theorem word_step {U : Uni} (hU : U.Lawful) {w cs : List Char} (hw : IsPlainWord U w)
    (hn : ∀ c, cs.head? = some c → U.isAlnum c = false ∧ c ≠ '_') {n : Nat} (h : (w ++ cs).length < n) :
    tokenizeFrom U n (w ++ cs) = push (wordTok U w) (tokenizeFrom U (n - 1) cs) := by
  obtain ⟨⟨c, w', rfl, hc⟩, hall⟩ := hw
  match n, h with
  | n + 1, h =>
    have hnot : ∀ s ∈ ['?', '(', ')', ',', '=', '!', '<', '>', '"'], c ≠ s := by
      rintro s hs rfl
      rcases hc with hc | hc
      · rw [hU.sign_alpha c hs] at hc
        cases hc
      · subst hc
        simp at hs
    have hsp : ¬ U.isSpace c = true := by
      intro h
      rcases hc with hc | hc
      · rw [hU.space_alpha c h] at hc; cases hc
      · subst hc
        rw [hU.sign_space '_' (by simp)] at h; cases h
    have hp : ∀ d ∈ c :: w', wordChar U d = true := fun d hd => wordChar_iff.2 (hall d hd)
    have ht : (c :: (w' ++ cs)).takeWhile (wordChar U) = c :: w' ∧ (c :: (w' ++ cs)).dropWhile (wordChar U) = cs := by
      rw [← List.cons_append]
      match cs, hn with
      | [], _ => rw [List.append_nil]; exact ⟨takeWhile_all hp, dropWhile_all hp⟩
      | d :: cs, hn =>
        have hd : wordChar U d = false := by
          have := hn d rfl
          unfold wordChar
          simp [this.1, this.2]
        exact ⟨takeWhile_append_stop hp hd, dropWhile_append_stop hp hd⟩
    rw [List.cons_append, tokenizeFrom.eq_3]
    rw [if_neg hsp]
    have h1 : singleTok c = none := by
      unfold singleTok
      simp [hnot '?' (by simp), hnot '(' (by simp), hnot ')' (by simp), hnot ',' (by simp), hnot '=' (by simp)]
    have h2 : ∀ o, doubleTok c o = none := by
      intro o
      unfold doubleTok
      simp [hnot '!' (by simp), hnot '<' (by simp), hnot '>' (by simp)]
    have h3 : angleTok c = none := by
      unfold angleTok
      simp [hnot '<' (by simp), hnot '>' (by simp)]
    rw [h1]
    simp only [h2, h3]
    rw [if_pos (by simpa using hc), ht.1, ht.2, Nat.add_sub_cancel]

theorem tokenize_complete {U : Uni} (hU : U.Lawful) {cs : List Char} {us : List Token} (h : Spells U cs us) :
    ∀ n, cs.length < n → tokenizeFrom U n cs = .ok (us ++ [.eof]) := by
  induction h with
  | nil =>
    intro n hn
    match n, hn with
    | n + 1, _ => rfl
  | @space c cs ts hs _ ih =>
    intro n hn
    match n, hn with
    | n + 1, hn =>
      unfold tokenizeFrom
      rw [if_pos hs, ih n (by simpa using hn)]
  | @sign t s cs ts hs _ ih =>
    intro n hn
    match n, hn with
    | n + 1, hn =>
      cases hs <;> simp only [List.cons_append, List.nil_append, List.length_cons] at hn ⊢ <;> unfold tokenizeFrom <;>
        rw [if_neg (by rw [hU.sign_space _ (by simp)]; exact Bool.false_ne_true)]
      case ne => rw [show singleTok '!' = none from by decide]; simp only [List.head?_cons, List.tail_cons]
                 rw [show doubleTok '!' (some '=') = some .ne from by decide]; simp only; rw [ih n (by omega)]; rfl
      case ne' => rw [show singleTok '<' = none from by decide]; simp only [List.head?_cons, List.tail_cons]
                  rw [show doubleTok '<' (some '>') = some .ne from by decide]; simp only; rw [ih n (by omega)]; rfl
      case le => rw [show singleTok '<' = none from by decide]; simp only [List.head?_cons, List.tail_cons]
                 rw [show doubleTok '<' (some '=') = some .le from by decide]; simp only; rw [ih n (by omega)]; rfl
      case ge => rw [show singleTok '>' = none from by decide]; simp only [List.head?_cons, List.tail_cons]
                 rw [show doubleTok '>' (some '=') = some .ge from by decide]; simp only; rw [ih n (by omega)]; rfl
      all_goals rw [ih n (by omega)]; rfl
  | @lt cs ts h1 h2 _ ih =>
    intro n hn
    match n, hn with
    | n + 1, hn =>
      unfold tokenizeFrom
      rw [if_neg (by rw [hU.sign_space _ (by simp)]; exact Bool.false_ne_true), show singleTok '<' = none from by decide]
      have hd : doubleTok '<' cs.head? = none := by
        unfold doubleTok
        simp [h1, h2]
      simp only [hd]
      rw [show angleTok '<' = some .lt from by decide]
      simp only
      rw [ih n (by simpa using hn)]
      rfl
  | @gt cs ts h1 _ ih =>
    intro n hn
    match n, hn with
    | n + 1, hn =>
      unfold tokenizeFrom
      rw [if_neg (by rw [hU.sign_space _ (by simp)]; exact Bool.false_ne_true), show singleTok '>' = none from by decide]
      have hd : doubleTok '>' cs.head? = none := by
        unfold doubleTok
        simp [h1]
      simp only [hd]
      rw [show angleTok '>' = some .gt from by decide]
      simp only
      rw [ih n (by simpa using hn)]
      rfl
  | @keyword t k w cs ts hk hw hu hn' _ ih =>
    intro n hn
    rw [word_step hU hw hn' hn]
    rw [ih _ (by
      obtain ⟨⟨c, w', rfl, _⟩, _⟩ := hw
      simp at hn
      omega)]
    have : wordTok U w = t := by
      unfold wordTok
      rw [hu]
      cases hk <;> simp
    rw [this]
    rfl
  | @column w cs ts hw hk hn' _ ih =>
    intro n hn
    rw [word_step hU hw hn' hn]
    rw [ih _ (by
      obtain ⟨⟨c, w', rfl, _⟩, _⟩ := hw
      simp at hn
      omega)]
    have : wordTok U w = .ident w := by
      unfold wordTok
      rw [if_neg (hk _ _ .and), if_neg (hk _ _ .or), if_neg (hk _ _ .not), if_neg (hk _ _ .is), if_neg (hk _ _ .null),
        if_neg (hk _ _ .like), if_neg (hk _ _ .regexp), if_neg (hk _ _ .between), if_neg (hk _ _ .isIn)]
    rw [this]
    rfl
  | @quoted w cs ts hw _ ih =>
    intro n hn
    match n, hn with
    | n + 1, hn =>
      unfold tokenizeFrom
      rw [if_neg (by rw [hU.sign_space _ (by simp)]; exact Bool.false_ne_true), show singleTok '"' = none from by decide]
      have hd : ∀ o, doubleTok '"' o = none := by
        intro o
        unfold doubleTok
        simp
      simp only [hd]
      rw [show angleTok '"' = none from by decide]
      simp only [hU.sign_alpha '"' (by simp)]
      rw [if_neg (by decide), if_pos trivial]
      have hall : ∀ c ∈ w, decide (c ≠ '"') = true := by
        intro c hc
        simp only [ne_eq, decide_eq_true_eq]
        rintro rfl
        exact hw hc
      rw [dropWhile_append_stop hall (by simp), takeWhile_append_stop hall (by simp)]
      simp only
      rw [ih n (by simp at hn; omega)]
      rfl

/-! ### The recursive descent -/

/-- The signs a method reads. -/
def Reads (U : Uni) (cols : List (List Char)) : Method → List Token → Prop
  | .expr, us => ∃ c, Says .expr us c ∧ ∀ n ∈ c.columns, Named U cols n
  | .andExpr, us => ∃ c, Says .andExpr us c ∧ ∀ n ∈ c.columns, Named U cols n
  | .unary, us => ∃ c, Says .unary us c ∧ ∀ n ∈ c.columns, Named U cols n
  | .primary, us => ∃ c, Says .primary us c ∧ ∀ n ∈ c.columns, Named U cols n
  | .orLoop, us => us = [] ∨ ∃ vs c, us = .or :: vs ∧ Says .expr vs c ∧ ∀ n ∈ c.columns, Named U cols n
  | .andLoop, us => us = [] ∨ ∃ vs c, us = .and :: vs ∧ Says .andExpr vs c ∧ ∀ n ∈ c.columns, Named U cols n

theorem expect_ok {t : Token} {ts r : List Token} (ht : t ≠ .eof) (h : expect t ts = .ok r) : ts = t :: r := by
  unfold expect at h
  split at h
  · rename_i hc
    cases h
    match ts, hc with
    | [], hc => exact absurd hc.symm ht
    | _ :: _, rfl => rfl
  · cases h

theorem expect_cons (t : Token) (r : List Token) : expect t (t :: r) = .ok r := by
  unfold expect current
  simp

theorem current_eq {t : Token} {ts : List Token} (ht : t ≠ .eof) (h : current ts = t) : ts = t :: ts.tail := by
  match ts, h with
  | [], h => exact absurd h.symm ht
  | _ :: _, rfl => rfl

theorem moreItems_ok : ∀ (n : Nat) (ts r : List Token), moreItems n ts = .ok r →
    ∃ k, ts = (List.replicate k [Token.comma, .placeholder]).flatten ++ r := by
  intro n
  induction n with
  | zero => intro ts r h; cases h
  | succ n ih =>
    intro ts r h
    unfold moreItems at h
    split at h
    · rename_i hc
      split at h
      · cases h
      · rename_i r1 hr1
        obtain ⟨k, hk⟩ := ih r1 r h
        refine ⟨k + 1, ?_⟩
        rw [current_eq (by decide) hc, expect_ok (by decide) hr1, hk, List.replicate_succ]
        rfl
    · cases h
      exact ⟨0, rfl⟩

theorem moreItems_complete (k : Nat) (r : List Token) (hr : current r ≠ .comma) : ∀ n, k < n →
    moreItems n ((List.replicate k [Token.comma, .placeholder]).flatten ++ r) = .ok r := by
  induction k with
  | zero =>
    intro n hn
    match n, hn with
    | n + 1, _ =>
      unfold moreItems
      simp only [List.replicate_zero, List.flatten_nil, List.nil_append]
      rw [if_neg hr]
  | succ k ih =>
    intro n hn
    match n, hn with
    | n + 1, hn =>
      unfold moreItems
      rw [List.replicate_succ, List.flatten_cons]
      simp only [List.cons_append, List.nil_append, current, List.tail_cons, if_true]
      rw [expect_cons]
      exact ih n (by omega)

theorem bind_ok {α β : Type} {x : Res α} {f : α → Res β} {b : β} (h : (x >>= f) = .ok b) : ∃ a, x = .ok a ∧ f a = .ok b := by
  rcases x with e | a
  · cases h
  · exact ⟨a, rfl, h⟩

theorem parseInList_ok {ts r : List Token} (h : parseInList ts = .ok r) : ∃ k,
    ts = [.lparen, .placeholder] ++ (List.replicate k [Token.comma, .placeholder]).flatten ++ [.rparen] ++ r := by
  unfold parseInList at h
  obtain ⟨r1, h1, h⟩ := bind_ok h
  obtain ⟨r2, h2, h⟩ := bind_ok h
  obtain ⟨r3, h3, h⟩ := bind_ok h
  obtain ⟨k, hk⟩ := moreItems_ok _ _ _ h3
  refine ⟨k, ?_⟩
  rw [expect_ok (by decide) h1, expect_ok (by decide) h2, hk, expect_ok (by decide) h]
  simp

theorem parseInList_complete (k : Nat) (r : List Token) :
    parseInList ([.lparen, .placeholder] ++ (List.replicate k [Token.comma, .placeholder]).flatten ++ [.rparen] ++ r) = .ok r := by
  unfold parseInList
  simp only [List.cons_append, List.nil_append, List.append_assoc]
  rw [expect_cons]
  simp only [bind, Except.bind]
  rw [expect_cons]
  simp only
  rw [moreItems_complete k (.rparen :: r) (by simp [current]) _ (by
    have : k ≤ ((List.replicate k [Token.comma, .placeholder]).flatten).length := by
      induction k with
      | zero => simp
      | succ k ih => rw [List.replicate_succ, List.flatten_cons, List.length_append]; simp only [List.length_cons, List.length_nil]; omega
    simp only [List.length_append, List.length_cons]
    omega)]
  simp only
  rw [expect_cons]

theorem parseBetween_ok {ts r : List Token} (h : parseBetween ts = .ok r) : ts = [.placeholder, .and, .placeholder] ++ r := by
  unfold parseBetween at h
  obtain ⟨r1, h1, h⟩ := bind_ok h
  obtain ⟨r2, h2, h⟩ := bind_ok h
  rw [expect_ok (by decide) h1, expect_ok (by decide) h2, expect_ok (by decide) h]
  rfl

theorem parseBetween_complete (r : List Token) : parseBetween ([.placeholder, .and, .placeholder] ++ r) = .ok r := rfl

theorem parseOperator_ok {c : List Char} {ts r : List Token} (h : parseOperator ts = .ok r) :
    ∃ t : Test, t.column = c ∧ Token.ident c :: ts = t.signs ++ r := by
  unfold parseOperator at h
  split at h
  case h_1 hc =>
    rw [current_eq (by decide) hc]
    split at h
    · rename_i hn
      refine ⟨.isNull true c, rfl, ?_⟩
      rw [current_eq (by decide) hn, expect_ok (by decide) h]
      rfl
    · refine ⟨.isNull false c, rfl, ?_⟩
      rw [expect_ok (by decide) h]
      rfl
  case h_2 hc =>
    rw [current_eq (by decide) hc]
    unfold parseNegated at h
    split at h
    case h_1 hc => exact ⟨.between true c, rfl, by rw [current_eq (by decide) hc, parseBetween_ok h]; rfl⟩
    case h_2 hc =>
      obtain ⟨k, hk⟩ := parseInList_ok h
      exact ⟨.isIn true c k, rfl, by rw [current_eq (by decide) hc, hk]; simp [Test.signs, optNot]⟩
    case h_3 hc => exact ⟨.like true c, rfl, by rw [current_eq (by decide) hc, expect_ok (by decide) h]; rfl⟩
    case h_4 hc => exact ⟨.regexp true c, rfl, by rw [current_eq (by decide) hc, expect_ok (by decide) h]; rfl⟩
    case h_5 => cases h
  case h_3 hc => exact ⟨.between false c, rfl, by rw [current_eq (by decide) hc, parseBetween_ok h]; rfl⟩
  case h_4 hc =>
    obtain ⟨k, hk⟩ := parseInList_ok h
    exact ⟨.isIn false c k, rfl, by rw [current_eq (by decide) hc, hk]; simp [Test.signs, optNot]⟩
  case h_5 hc => exact ⟨.like false c, rfl, by rw [current_eq (by decide) hc, expect_ok (by decide) h]; rfl⟩
  case h_6 hc => exact ⟨.regexp false c, rfl, by rw [current_eq (by decide) hc, expect_ok (by decide) h]; rfl⟩
  case h_7 hc => exact ⟨.compare c .eq, rfl, by rw [current_eq (by decide) hc, expect_ok (by decide) h]; rfl⟩
  case h_8 hc => exact ⟨.compare c .ne, rfl, by rw [current_eq (by decide) hc, expect_ok (by decide) h]; rfl⟩
  case h_9 hc => exact ⟨.compare c .lt, rfl, by rw [current_eq (by decide) hc, expect_ok (by decide) h]; rfl⟩
  case h_10 hc => exact ⟨.compare c .le, rfl, by rw [current_eq (by decide) hc, expect_ok (by decide) h]; rfl⟩
  case h_11 hc => exact ⟨.compare c .gt, rfl, by rw [current_eq (by decide) hc, expect_ok (by decide) h]; rfl⟩
  case h_12 hc => exact ⟨.compare c .ge, rfl, by rw [current_eq (by decide) hc, expect_ok (by decide) h]; rfl⟩
  case h_13 => cases h

/-- Every test is read back, whatever follows. -/
theorem parseOperator_complete (t : Test) (r : List Token) : ∃ us, t.signs = .ident t.column :: us ∧
    parseOperator (us ++ r) = .ok r := by
  rcases t with ⟨c, op⟩ | ⟨neg, c⟩ | ⟨neg, c⟩ | ⟨neg, c⟩ | ⟨neg, c⟩ | ⟨neg, c, k⟩
  · rcases op <;> exact ⟨_, rfl, rfl⟩
  · rcases neg <;> exact ⟨_, rfl, rfl⟩
  · rcases neg <;> exact ⟨_, rfl, rfl⟩
  · rcases neg <;> exact ⟨_, rfl, rfl⟩
  · rcases neg <;> exact ⟨_, rfl, rfl⟩
  · rcases neg
    · refine ⟨[.isIn, .lparen, .placeholder] ++ (List.replicate k [Token.comma, .placeholder]).flatten ++ [.rparen], by
        simp [Test.signs, optNot, Test.column], ?_⟩
      have := parseInList_complete k r
      simpa [parseOperator, current] using this
    · refine ⟨[.not, .isIn, .lparen, .placeholder] ++ (List.replicate k [Token.comma, .placeholder]).flatten ++ [.rparen], by
        simp [Test.signs, optNot, Test.column], ?_⟩
      have := parseInList_complete k r
      simpa [parseOperator, parseNegated, current] using this

theorem validColumn_iff {U : Uni} {cols : List (List Char)} {name : List Char} :
    validColumn U cols name = true ↔ Named U cols name := by
  unfold validColumn Named
  simp

/-- What a method reads is of the form of its rule. -/
theorem parse_sound {U : Uni} {cols : List (List Char)} : ∀ (n : Nat) (m : Method) (ts r : List Token),
    parse U cols n m ts = .ok r → ∃ us, ts = us ++ r ∧ Reads U cols m us := by
  intro n
  induction n with
  | zero => intro m ts r h; cases m <;> cases h
  | succ n ih =>
    intro m ts r h
    cases m with
    | expr =>
      unfold parse at h
      split at h
      · cases h
      · rename_i r1 h1
        obtain ⟨us, rfl, c, hc, hn⟩ := ih _ _ _ h1
        obtain ⟨vs, rfl, hv⟩ := ih _ _ _ h
        rcases hv with rfl | ⟨vs', d, rfl, hd, hn'⟩
        · exact ⟨us, by simp, c, .single hc, hn⟩
        · refine ⟨us ++ .or :: vs', by simp, _, .or hc hd, ?_⟩
          intro x hx
          rcases List.mem_append.1 hx with hx | hx
          · exact hn x hx
          · exact hn' x hx
    | orLoop =>
      unfold parse at h
      split at h
      · rename_i hcur
        split at h
        · cases h
        · rename_i r1 h1
          obtain ⟨us, e, c, hc, hn⟩ := ih _ _ _ h1
          obtain ⟨vs, rfl, hv⟩ := ih _ _ _ h
          rw [current_eq (by decide) hcur, e]
          rcases hv with rfl | ⟨vs', d, rfl, hd, hn'⟩
          · exact ⟨.or :: us, by simp, .inr ⟨us, c, rfl, .single hc, hn⟩⟩
          · refine ⟨.or :: (us ++ .or :: vs'), by simp, .inr ⟨_, _, rfl, .or hc hd, ?_⟩⟩
            intro x hx
            rcases List.mem_append.1 hx with hx | hx
            · exact hn x hx
            · exact hn' x hx
      · cases h
        exact ⟨[], rfl, .inl rfl⟩
    | andExpr =>
      unfold parse at h
      split at h
      · cases h
      · rename_i r1 h1
        obtain ⟨us, rfl, c, hc, hn⟩ := ih _ _ _ h1
        obtain ⟨vs, rfl, hv⟩ := ih _ _ _ h
        rcases hv with rfl | ⟨vs', d, rfl, hd, hn'⟩
        · exact ⟨us, by simp, c, .one hc, hn⟩
        · refine ⟨us ++ .and :: vs', by simp, _, .and hc hd, ?_⟩
          intro x hx
          rcases List.mem_append.1 hx with hx | hx
          · exact hn x hx
          · exact hn' x hx
    | andLoop =>
      unfold parse at h
      split at h
      · rename_i hcur
        split at h
        · cases h
        · rename_i r1 h1
          obtain ⟨us, e, c, hc, hn⟩ := ih _ _ _ h1
          obtain ⟨vs, rfl, hv⟩ := ih _ _ _ h
          rw [current_eq (by decide) hcur, e]
          rcases hv with rfl | ⟨vs', d, rfl, hd, hn'⟩
          · exact ⟨.and :: us, by simp, .inr ⟨us, c, rfl, .one hc, hn⟩⟩
          · refine ⟨.and :: (us ++ .and :: vs'), by simp, .inr ⟨_, _, rfl, .and hc hd, ?_⟩⟩
            intro x hx
            rcases List.mem_append.1 hx with hx | hx
            · exact hn x hx
            · exact hn' x hx
      · cases h
        exact ⟨[], rfl, .inl rfl⟩
    | unary =>
      unfold parse at h
      split at h
      · rename_i hcur
        obtain ⟨us, e, c, hc, hn⟩ := ih _ _ _ h
        rw [current_eq (by decide) hcur, e]
        exact ⟨.not :: us, by simp, _, .not hc, hn⟩
      · obtain ⟨us, e, c, hc, hn⟩ := ih _ _ _ h
        exact ⟨us, e, _, .plain hc, hn⟩
    | primary =>
      unfold parse at h
      split at h
      · rename_i hcur
        split at h
        · cases h
        · rename_i r1 h1
          obtain ⟨us, e, c, hc, hn⟩ := ih _ _ _ h1
          rw [current_eq (by decide) hcur, e, expect_ok (by decide) h]
          exact ⟨.lparen :: (us ++ [.rparen]), by simp, c, .paren hc, hn⟩
      · split at h
        · rename_i name hname
          split at h
          · rename_i hv
            obtain ⟨t, ht, e⟩ := parseOperator_ok (c := name) h
            refine ⟨t.signs, ?_, _, .test t, ?_⟩
            · rw [← e]
              exact current_eq (by simp) hname
            · intro x hx
              simp only [Cond.columns, List.mem_singleton] at hx
              subst hx
              rw [ht]
              exact validColumn_iff.1 hv
          · cases h
        · cases h

/-- A bound that was large enough stays so. -/
theorem parse_mono {U : Uni} {cols : List (List Char)} : ∀ (n : Nat) (m : Method) (ts : List Token),
    parse U cols n m ts ≠ .error .panic → parse U cols (n + 1) m ts = parse U cols n m ts := by
  intro n
  induction n with
  | zero => intro m ts h; cases m <;> exact absurd rfl h
  | succ n ih =>
    intro m ts h
    cases m with
    | expr =>
      rw [parse.eq_2] at h ⊢
      rw [parse.eq_2 U cols _ n]
      have h1 := ih .andExpr ts
      rcases hp : parse U cols n .andExpr ts with e | r
      · rw [hp] at h h1
        rw [h1 h]
      · rw [hp] at h h1
        rw [h1 (by simp)]
        exact ih .orLoop r h
    | orLoop =>
      rw [parse.eq_3] at h ⊢
      rw [parse.eq_3 U cols _ n]
      split
      · rename_i hc
        rw [if_pos hc] at h
        have h1 := ih .andExpr ts.tail
        rcases hp : parse U cols n .andExpr ts.tail with e | r
        · rw [hp] at h h1
          rw [h1 h]
        · rw [hp] at h h1
          rw [h1 (by simp)]
          exact ih .orLoop r h
      · rfl
    | andExpr =>
      rw [parse.eq_4] at h ⊢
      rw [parse.eq_4 U cols _ n]
      have h1 := ih .unary ts
      rcases hp : parse U cols n .unary ts with e | r
      · rw [hp] at h h1
        rw [h1 h]
      · rw [hp] at h h1
        rw [h1 (by simp)]
        exact ih .andLoop r h
    | andLoop =>
      rw [parse.eq_5] at h ⊢
      rw [parse.eq_5 U cols _ n]
      split
      · rename_i hc
        rw [if_pos hc] at h
        have h1 := ih .unary ts.tail
        rcases hp : parse U cols n .unary ts.tail with e | r
        · rw [hp] at h h1
          rw [h1 h]
        · rw [hp] at h h1
          rw [h1 (by simp)]
          exact ih .andLoop r h
      · rfl
    | unary =>
      rw [parse.eq_6] at h ⊢
      rw [parse.eq_6 U cols _ n]
      split
      · rename_i hc
        rw [if_pos hc] at h
        exact ih .primary _ h
      · rename_i hc
        rw [if_neg hc] at h
        exact ih .primary _ h
    | primary =>
      rw [parse.eq_7] at h ⊢
      rw [parse.eq_7 U cols _ n]
      split
      · rename_i hc
        rw [if_pos hc] at h
        have h1 := ih .expr ts.tail
        rcases hp : parse U cols n .expr ts.tail with e | r
        · rw [hp] at h h1
          rw [h1 h]
        · rw [hp] at h h1
          rw [h1 (by simp)]
      · rfl

theorem parse_mono' {U : Uni} {cols : List (List Char)} {n : Nat} {m : Method} {ts : List Token}
    (h : parse U cols n m ts ≠ .error .panic) : ∀ k, parse U cols (n + k) m ts = parse U cols n m ts := by
  intro k
  induction k with
  | zero => rfl
  | succ k ih =>
    rw [← Nat.add_assoc, parse_mono _ _ _ (by rw [ih]; exact h), ih]

theorem parse_le {U : Uni} {cols : List (List Char)} {n n' : Nat} {m : Method} {ts r : List Token}
    (h : parse U cols n m ts = .ok r) (hn : n ≤ n') : parse U cols n' m ts = .ok r := by
  have := parse_mono' (by rw [h]; simp) (n' - n) (U := U) (cols := cols) (n := n) (m := m) (ts := ts)
  rw [Nat.add_sub_cancel' hn, h] at this
  exact this

/-! ### The bound is large enough -/

def rank : Method → Nat
  | .expr => 5
  | .orLoop => 1
  | .andExpr => 4
  | .andLoop => 1
  | .unary => 3
  | .primary => 2

theorem noPanic_expect (t : Token) (ts : List Token) : expect t ts ≠ .error .panic := by
  unfold expect
  split <;> simp

theorem noPanic_bind {α β : Type} {x : Res α} {f : α → Res β} (hx : x ≠ .error .panic)
    (hf : ∀ a, x = .ok a → f a ≠ .error .panic) : (x >>= f) ≠ .error .panic := by
  rcases x with e | a
  · intro h
    cases h
    exact hx rfl
  · exact hf a rfl

theorem noPanic_moreItems : ∀ (n : Nat) (ts : List Token), ts.length < n → moreItems n ts ≠ .error .panic := by
  intro n
  induction n with
  | zero => intro ts h; omega
  | succ n ih =>
    intro ts h
    unfold moreItems
    split
    · rename_i hc
      have := current_eq (by decide) hc
      rcases he : expect .placeholder ts.tail with e | r
      · simp only
        intro hh
        rw [hh] at he
        exact noPanic_expect _ _ he
      · simp only
        refine ih r ?_
        have := expect_ok (by decide) he
        have h2 := congrArg List.length this
        simp at h2
        omega
    · simp

theorem noPanic_parseInList (ts : List Token) : parseInList ts ≠ .error .panic := by
  unfold parseInList
  refine noPanic_bind (noPanic_expect _ _) fun a _ => noPanic_bind (noPanic_expect _ _) fun b _ =>
    noPanic_bind (noPanic_moreItems _ _ (by omega)) fun c _ => noPanic_expect _ _

theorem noPanic_parseBetween (ts : List Token) : parseBetween ts ≠ .error .panic := by
  unfold parseBetween
  exact noPanic_bind (noPanic_expect _ _) fun a _ => noPanic_bind (noPanic_expect _ _) fun b _ => noPanic_expect _ _

theorem noPanic_parseOperator (ts : List Token) : parseOperator ts ≠ .error .panic := by
  unfold parseOperator
  split <;> first
    | exact noPanic_expect _ _
    | exact noPanic_parseBetween _
    | exact noPanic_parseInList _
    | simp
    | skip
  unfold parseNegated
  split <;> first
    | exact noPanic_expect _ _
    | exact noPanic_parseBetween _
    | exact noPanic_parseInList _
    | simp

theorem noPanic_parse {U : Uni} {cols : List (List Char)} : ∀ (n : Nat) (m : Method) (ts : List Token),
    6 * ts.length + rank m ≤ n → parse U cols n m ts ≠ .error .panic := by
  intro n
  induction n with
  | zero => intro m ts h; cases m <;> simp [rank] at h
  | succ n ih =>
    intro m ts h
    have hlen : ∀ {m ts r}, parse U cols n m ts = .ok r → r.length ≤ ts.length := by
      intro m ts r h
      obtain ⟨us, e, _⟩ := parse_sound _ _ _ _ h
      rw [e]
      simp
    have htail : ∀ {t : Token} {ts : List Token}, t ≠ .eof → current ts = t → ts.length = ts.tail.length + 1 := by
      intro t ts ht hc
      have := congrArg List.length (current_eq ht hc)
      simpa using this
    cases m <;> simp only [rank] at h
    case expr =>
      rw [parse.eq_2]
      rcases hp : parse U cols n .andExpr ts with e | r
      · simp only
        rw [← hp]
        exact ih _ _ (by simp only [rank]; omega)
      · have := hlen hp
        exact ih _ _ (by simp only [rank]; omega)
    case orLoop =>
      rw [parse.eq_3]
      split
      · rename_i hc
        have h1 := htail (by decide) hc
        rcases hp : parse U cols n .andExpr ts.tail with e | r
        · simp only
          rw [← hp]
          exact ih _ _ (by simp only [rank]; omega)
        · have := hlen hp
          exact ih _ _ (by simp only [rank]; omega)
      · simp
    case andExpr =>
      rw [parse.eq_4]
      rcases hp : parse U cols n .unary ts with e | r
      · simp only
        rw [← hp]
        exact ih _ _ (by simp only [rank]; omega)
      · have := hlen hp
        exact ih _ _ (by simp only [rank]; omega)
    case andLoop =>
      rw [parse.eq_5]
      split
      · rename_i hc
        have h1 := htail (by decide) hc
        rcases hp : parse U cols n .unary ts.tail with e | r
        · simp only
          rw [← hp]
          exact ih _ _ (by simp only [rank]; omega)
        · have := hlen hp
          exact ih _ _ (by simp only [rank]; omega)
      · simp
    case unary =>
      rw [parse.eq_6]
      split
      · rename_i hc
        have h1 := htail (by decide) hc
        exact ih _ _ (by simp only [rank]; omega)
      · exact ih _ _ (by simp only [rank]; omega)
    case primary =>
      rw [parse.eq_7]
      split
      · rename_i hc
        have h1 := htail (by decide) hc
        rcases hp : parse U cols n .expr ts.tail with e | r
        · simp only
          rw [← hp]
          exact ih _ _ (by simp only [rank]; omega)
        · exact noPanic_expect _ _
      · split
        · split
          · exact noPanic_parseOperator _
          · simp
        · simp

/-! ### Completeness -/

def methodOf : Level → Method
  | .expr => .expr
  | .andExpr => .andExpr
  | .unary => .unary
  | .primary => .primary

/-- What may follow the signs of a level. -/
def follows : Level → Token → Prop
  | .expr, t => t ≠ .and ∧ t ≠ .or
  | .andExpr, t => t ≠ .and
  | _, _ => True

theorem signs_head (t : Test) : ∃ us, t.signs = .ident t.column :: us := by
  obtain ⟨us, h, _⟩ := parseOperator_complete t []
  exact ⟨us, h⟩

theorem primary_head {l : Level} {ts : List Token} {c : Cond} (h : Says l ts c) :
    l = .primary → ∃ t us, ts = t :: us ∧ t ≠ .not := by
  intro hl
  cases h <;> cases hl
  · exact ⟨_, _, rfl, by decide⟩
  · rename_i t
    obtain ⟨us, hu⟩ := signs_head t
    exact ⟨_, us, hu, by simp⟩

theorem parse_complete {U : Uni} {cols : List (List Char)} {l : Level} {us : List Token} {c : Cond} (h : Says l us c)
    (hn : ∀ x ∈ c.columns, Named U cols x) : ∀ r, follows l (current r) →
    ∃ n, parse U cols n (methodOf l) (us ++ r) = .ok r := by
  induction h with
  | @single ts c _ ih =>
    intro r hr
    obtain ⟨n, h⟩ := ih hn r hr.1
    refine ⟨n + 2, ?_⟩
    change parse U cols (n + 1 + 1) .expr _ = _
    rw [parse.eq_2]
    rw [show parse U cols (n + 1) .andExpr (ts ++ r) = .ok r from parse_le h (by omega)]
    simp only
    rw [parse.eq_3, if_neg hr.2]
  | @or ts us c d _ _ ih1 ih2 =>
    intro r hr
    obtain ⟨n1, h1⟩ := ih1 (fun x hx => hn x (List.mem_append.2 (.inl hx))) (.or :: (us ++ r)) (by simp [follows, current])
    obtain ⟨n2, h2⟩ := ih2 (fun x hx => hn x (List.mem_append.2 (.inr hx))) r hr
    refine ⟨n1 + n2 + 1, ?_⟩
    change parse U cols (n1 + n2 + 1) .expr _ = _
    rw [parse.eq_2]
    rw [List.append_assoc, List.cons_append]
    rw [show parse U cols (n1 + n2) .andExpr _ = .ok _ from parse_le h1 (by omega)]
    simp only
    match n2, h2 with
    | n2 + 1, h2 =>
      change parse U cols (n2 + 1) .expr _ = _ at h2
      rw [parse.eq_2] at h2
      rw [← Nat.add_assoc, parse.eq_3, if_pos (by simp [current])]
      simp only [List.tail_cons]
      rcases hp : parse U cols n2 .andExpr (us ++ r) with e | r1
      · rw [hp] at h2; cases h2
      · rw [hp] at h2
        rw [show parse U cols (n1 + n2) .andExpr (us ++ r) = .ok r1 from parse_le hp (by omega)]
        exact parse_le h2 (by omega)
  | @one ts c _ ih =>
    intro r hr
    obtain ⟨n, h⟩ := ih hn r trivial
    refine ⟨n + 2, ?_⟩
    change parse U cols (n + 1 + 1) .andExpr _ = _
    rw [parse.eq_4]
    rw [show parse U cols (n + 1) .unary (ts ++ r) = .ok r from parse_le h (by omega)]
    simp only
    rw [parse.eq_5, if_neg hr]
  | @and ts us c d _ _ ih1 ih2 =>
    intro r hr
    obtain ⟨n1, h1⟩ := ih1 (fun x hx => hn x (List.mem_append.2 (.inl hx))) (.and :: (us ++ r)) trivial
    obtain ⟨n2, h2⟩ := ih2 (fun x hx => hn x (List.mem_append.2 (.inr hx))) r hr
    refine ⟨n1 + n2 + 1, ?_⟩
    change parse U cols (n1 + n2 + 1) .andExpr _ = _
    rw [parse.eq_4]
    rw [List.append_assoc, List.cons_append]
    rw [show parse U cols (n1 + n2) .unary _ = .ok _ from parse_le h1 (by omega)]
    simp only
    match n2, h2 with
    | n2 + 1, h2 =>
      change parse U cols (n2 + 1) .andExpr _ = _ at h2
      rw [parse.eq_4] at h2
      rw [← Nat.add_assoc, parse.eq_5, if_pos (by simp [current])]
      simp only [List.tail_cons]
      rcases hp : parse U cols n2 .unary (us ++ r) with e | r1
      · rw [hp] at h2; cases h2
      · rw [hp] at h2
        rw [show parse U cols (n1 + n2) .unary (us ++ r) = .ok r1 from parse_le hp (by omega)]
        exact parse_le h2 (by omega)
  | @plain ts c hs ih =>
    intro r _
    obtain ⟨n, h⟩ := ih hn r trivial
    obtain ⟨t, us, rfl, ht⟩ := primary_head hs rfl
    refine ⟨n + 1, ?_⟩
    change parse U cols (n + 1) .unary _ = _
    rw [parse.eq_6, if_neg (by simpa [current] using ht)]
    exact h
  | @not ts c _ ih =>
    intro r _
    obtain ⟨n, h⟩ := ih hn r trivial
    refine ⟨n + 1, ?_⟩
    change parse U cols (n + 1) .unary _ = _
    rw [parse.eq_6, if_pos (by simp [current])]
    exact h
  | @paren ts c _ ih =>
    intro r _
    obtain ⟨n, h⟩ := ih hn (.rparen :: r) (by simp [follows, current])
    refine ⟨n + 1, ?_⟩
    change parse U cols (n + 1) .primary _ = _
    rw [parse.eq_7, if_pos (by simp [current])]
    simp only [List.cons_append, List.append_assoc, List.nil_append, List.tail_cons]
    rw [show parse U cols n .expr (ts ++ .rparen :: r) = .ok _ from h]
    simp only
    rw [expect_cons]
  | test t =>
    intro r _
    obtain ⟨us, e, h⟩ := parseOperator_complete t r
    refine ⟨1, ?_⟩
    change parse U cols (0 + 1) .primary _ = _
    rw [parse.eq_7, e, List.cons_append, if_neg (by simp [current])]
    simp only [current, List.tail_cons]
    rw [if_pos (validColumn_iff.2 (hn _ (by simp [Cond.columns])))]
    exact h

theorem signs_noEof {l : Level} {ts : List Token} {c : Cond} (h : Says l ts c) : Token.eof ∉ ts := by
  induction h with
  | single _ ih => exact ih
  | or _ _ ih1 ih2 => simp [ih1, ih2]
  | one _ ih => exact ih
  | and _ _ ih1 ih2 => simp [ih1, ih2]
  | plain _ ih => exact ih
  | not _ ih => simp [ih]
  | paren _ ih => simp [ih]
  | test t =>
    rcases t with ⟨c, op⟩ | ⟨neg, c⟩ | ⟨neg, c⟩ | ⟨neg, c⟩ | ⟨neg, c⟩ | ⟨neg, c, k⟩
    · rcases op <;> simp [Test.signs, Cmp.token]
    all_goals rcases neg <;> simp [Test.signs, optNot]

theorem spells_noEof {U : Uni} {cs : List Char} {ts : List Token} (h : Spells U cs ts) : Token.eof ∉ ts := by
  induction h with
  | nil => simp
  | space _ _ ih => exact ih
  | sign hs _ ih => cases hs <;> simp [ih]
  | lt _ _ _ ih => simp [ih]
  | gt _ _ ih => simp [ih]
  | keyword hk _ _ _ _ ih => cases hk <;> simp [ih]
  | column _ _ _ _ ih => simp [ih]
  | quoted _ _ ih => simp [ih]

/-- The grammar check accepts exactly the grammar. -/
theorem validate_iff {U : Uni} {cols : List (List Char)} {ts : List Token} (hts : Token.eof ∉ ts) :
    validate U cols (ts ++ [.eof]) = .ok () ↔ ∃ c, Says .expr ts c ∧ ∀ n ∈ c.columns, Named U cols n := by
  constructor
  · intro h
    unfold validate at h
    split at h
    · cases h
    · rename_i r hp
      split at h
      · rename_i hc
        obtain ⟨us, e, c, hs, hn⟩ := parse_sound _ _ _ _ hp
        have hu := signs_noEof hs
        have : us = ts := by
          match r, hc with
          | [], _ =>
            rw [List.append_nil] at e
            rw [← e] at hu
            simp at hu
          | t :: r, hc =>
            change t = .eof at hc
            subst hc
            have hr : r = [] := by
              rcases List.eq_nil_or_concat r with h | ⟨r', x, rfl⟩
              · exact h
              · exfalso
                have e' : ts ++ [.eof] = (us ++ .eof :: r') ++ [x] := by rw [e]; simp
                have := (List.append_inj' e' rfl).1
                rw [this] at hts
                simp at hts
            subst hr
            exact ((List.append_inj' e rfl).1).symm
        subst this
        exact ⟨c, hs, hn⟩
      · cases h
  · rintro ⟨c, hs, hn⟩
    obtain ⟨n, h⟩ := parse_complete hs hn [.eof] (by simp [follows, current])
    change parse U cols n .expr _ = _ at h
    have hne := noPanic_parse (U := U) (cols := cols) (6 * (ts ++ [Token.eof]).length + 6) .expr (ts ++ [Token.eof]) (by simp [rank])
    have h2 := parse_mono' hne n
    rw [parse_le h (by omega)] at h2
    unfold validate
    rw [← h2]
    rfl

end NextPlaid.Proofs.Condition
