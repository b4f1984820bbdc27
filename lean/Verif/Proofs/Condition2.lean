import Verif.Proofs.Condition

/-!
The safety check, and the uniqueness of the reading.
-/

namespace NextPlaid.Proofs.Condition
open NextPlaid.Condition NextPlaid.Spec

/-! ### The safety check refuses what it should -/

theorem containsSub_of {pat : List Char} (hp : pat ≠ []) : ∀ {s : List Char}, Contains s pat → containsSub pat s = true := by
  intro s
  induction s with
  | nil =>
    rintro ⟨a, b, e⟩
    have := congrArg List.length e
    simp at this
    exact absurd (List.length_eq_zero_iff.1 (by omega)) hp
  | cons c s ih =>
    rintro ⟨a, b, e⟩
    unfold containsSub
    rw [Bool.or_eq_true]
    match a, e with
    | [], e =>
      left
      rw [e, List.nil_append, List.isPrefixOf_iff_prefix]
      exact List.prefix_append _ _
    | x :: a, e =>
      right
      refine ih ⟨a, b, ?_⟩
      simpa using (List.cons.inj e).2

theorem containsSub_iff {pat : List Char} (hp : pat ≠ []) : ∀ {s : List Char}, containsSub pat s = true ↔ Contains s pat := by
  intro s
  refine ⟨?_, containsSub_of hp⟩
  induction s with
  | nil =>
    intro h
    unfold containsSub at h
    exact absurd (List.isEmpty_iff.1 h) hp
  | cons c s ih =>
    intro h
    unfold containsSub at h
    rw [Bool.or_eq_true] at h
    rcases h with h | h
    · rw [List.isPrefixOf_iff_prefix] at h
      obtain ⟨b, hb⟩ := h
      exact ⟨[], b, by rw [List.nil_append]; exact hb.symm⟩
    · obtain ⟨a, b, e⟩ := ih h
      exact ⟨c :: a, b, by rw [e]; rfl⟩

theorem findWord_of {U : Uni} {kw : List Char} (hk : kw ≠ []) (hw : ∀ c ∈ kw, U.reWord c = true) :
    ∀ (s : List Char) (prev : Option Char) (a b : List Char), s = a ++ kw ++ b →
      (∀ c, (if a = [] then prev else a.getLast?) = some c → U.reWord c = false) →
      (∀ c, b.head? = some c → U.reWord c = false) → findWord U kw prev s = true := by
  intro s
  induction s with
  | nil =>
    intro prev a b e
    have := congrArg List.length e
    simp at this
    exact absurd (List.length_eq_zero_iff.1 (by omega)) hk
  | cons c s ih =>
    intro prev a b e h1 h2
    unfold findWord
    rw [Bool.or_eq_true]
    match a, e with
    | [], e =>
      left
      rw [List.nil_append] at e
      rw [Bool.and_eq_true, Bool.and_eq_true, e]
      rcases hkc : kw with _ | ⟨k, kw'⟩
      · exact absurd hkc hk
      rw [hkc, List.cons_append] at e
      have hck := (List.cons.inj e).1
      refine ⟨⟨?_, ?_⟩, ?_⟩
      · unfold boundary
        have hkw : U.reWord c = true := by rw [hck]; exact hw k (by rw [hkc]; simp)
        rcases prev with _ | p
        · simp [hkw]
        · have := h1 p rfl
          simp [hkw, this]
      · rw [List.isPrefixOf_iff_prefix]
        exact List.prefix_append _ _
      · rw [List.drop_left]
        unfold boundary
        have hlast : (k :: kw').getLast?.any U.reWord = true := by
          rw [List.getLast?_eq_some_getLast (List.cons_ne_nil k kw')]
          exact hw _ (by rw [hkc]; exact List.getLast_mem _)
        rw [hlast]
        rcases hb : b.head? with _ | x
        · rfl
        · have := h2 x hb
          simp [this]
    | x :: a, e =>
      right
      refine ih (some c) a b (by simpa using (List.cons.inj e).2) ?_ h2
      intro d hd
      refine h1 d ?_
      rw [if_neg (by simp)]
      have hcx : c = x := (List.cons.inj e).1
      split at hd
      · rename_i ha
        subst ha
        rw [← hcx]
        exact hd
      · rename_i ha
        rw [List.getLast?_cons_of_ne_nil ha]
        exact hd

theorem findWord_of_hasWord {U : Uni} {kw s : List Char} (hk : kw ≠ []) (hw : ∀ c ∈ kw, U.reWord c = true)
    (h : HasWord U s kw) : findWord U kw none s = true := by
  obtain ⟨a, b, e, h1, h2⟩ := h
  refine findWord_of hk hw s none a b e ?_ h2
  intro c hc
  split at hc
  · cases hc
  · exact h1 c hc

/-! ### ... and nothing else -/

theorem ascii_forall {P : Char → Prop} (h : ∀ n : Nat, n < 128 → P (Char.ofNat n)) (c : Char) (hc : c.toNat < 128) : P c := by
  have := h c.toNat hc
  rwa [Char.ofNat_toNat] at this

theorem upper_ascii (c : Char) (h : c.toNat < 128) : c.toUpper.toNat < 128 :=
  ascii_forall (P := fun c => c.toUpper.toNat < 128) (by decide +kernel) c h

theorem upper_word (c : Char) (h : c.toNat < 128) :
    (c.toUpper.isAlphanum || c.toUpper == '_') = (c.isAlphanum || c == '_') :=
  ascii_forall (P := fun c => (c.toUpper.isAlphanum || c.toUpper == '_') = (c.isAlphanum || c == '_')) (by decide +kernel) c h

theorem lower_word (c : Char) (h : c.toNat < 128) :
    (c.toLower.isAlphanum || c.toLower == '_') = (c.isAlphanum || c == '_') :=
  ascii_forall (P := fun c => (c.toLower.isAlphanum || c.toLower == '_') = (c.isAlphanum || c == '_')) (by decide +kernel) c h

theorem upper_lower (c : Char) (h : c.toNat < 128) : c.toLower.toUpper = c.toUpper :=
  ascii_forall (P := fun c => c.toLower.toUpper = c.toUpper) (by decide +kernel) c h

theorem alnum_ascii (c : Char) (h : c.isAlphanum = true ∨ c = '_') : c.toNat < 128 := by
  rcases h with h | h
  · simp only [Char.isAlphanum, Char.isAlpha, Char.isUpper, Char.isLower, Char.isDigit, Bool.or_eq_true, Bool.and_eq_true,
      decide_eq_true_eq, UInt32.le_iff_toNat_le] at h
    change c.val.toNat < 128
    have h1 : 'Z'.val.toNat = 90 := rfl
    have h2 : 'z'.val.toNat = 122 := rfl
    have h3 : '9'.val.toNat = 57 := rfl
    rw [h1, h2, h3] at h
    omega
  · subst h
    decide

/-- An upper-cased character of the text is a word character exactly when the character is. -/
theorem word_upper {U : Uni} (hA : U.Ascii) (c : Char) (h : c.toNat < 128) :
    U.reWord c.toUpper = (c.isAlphanum || c == '_') := by
  rw [hA.word _ (upper_ascii c h), upper_word c h]

theorem findWord_nonword {U : Uni} {kw : List Char} (hk : kw ≠ []) (hw : ∀ c ∈ kw, U.reWord c = true) {prev : Option Char}
    {c : Char} {cs : List Char} (hc : U.reWord c = false) (h : findWord U kw prev (c :: cs) = true) :
    findWord U kw (some c) cs = true := by
  unfold findWord at h
  rw [Bool.or_eq_true] at h
  rcases h with h | h
  · rw [Bool.and_eq_true, Bool.and_eq_true] at h
    have hp := h.1.2
    rw [List.isPrefixOf_iff_prefix] at hp
    obtain ⟨b, hb⟩ := hp
    rcases hkc : kw with _ | ⟨k, kw'⟩
    · exact absurd hkc hk
    · rw [hkc, List.cons_append] at hb
      have := hw k (by rw [hkc]; simp)
      rw [(List.cons.inj hb).1, hc] at this
      cases this
  · exact h

theorem findWord_inside {U : Uni} {kw : List Char} : ∀ (W C : List Char) (p : Char), U.reWord p = true →
    (∀ c ∈ W, U.reWord c = true) → findWord U kw (some p) (W ++ C) = true →
    ∃ q, U.reWord q = true ∧ findWord U kw (some q) C = true := by
  intro W
  induction W with
  | nil => intro C p hp _ h; exact ⟨p, hp, h⟩
  | cons c W ih =>
    intro C p hp hW h
    rw [List.cons_append] at h
    unfold findWord at h
    rw [Bool.or_eq_true] at h
    rcases h with h | h
    · rw [Bool.and_eq_true, Bool.and_eq_true] at h
      have hb := h.1.1
      unfold boundary at hb
      simp [hp, hW c (by simp)] at hb
    · exact ih C c (hW c (by simp)) (fun d hd => hW d (by simp [hd])) h

theorem findWord_word {U : Uni} {kw : List Char} (hk : kw ≠ []) (hw : ∀ c ∈ kw, U.reWord c = true)
    {W C : List Char} (hne : W ≠ []) (hW : ∀ c ∈ W, U.reWord c = true) (hC : ∀ c, C.head? = some c → U.reWord c = false)
    {prev : Option Char} (h : findWord U kw prev (W ++ C) = true) :
    kw = W ∨ ∃ q, U.reWord q = true ∧ findWord U kw (some q) C = true := by
  match W, hne, hW, h with
  | c :: W, _, hW, h =>
    rw [List.cons_append] at h
    unfold findWord at h
    rw [Bool.or_eq_true] at h
    rcases h with h | h
    · left
      rw [Bool.and_eq_true, Bool.and_eq_true] at h
      obtain ⟨⟨_, hp⟩, hb⟩ := h
      rw [List.isPrefixOf_iff_prefix] at hp
      obtain ⟨b, hb'⟩ := hp
      rw [← hb', List.drop_left] at hb
      rw [← List.cons_append] at hb'
      rcases Nat.lt_trichotomy kw.length (c :: W).length with hl | hl | hl
      · exfalso
        have hbh : ∃ x, b.head? = some x ∧ x ∈ c :: W := by
          have h1 : (kw ++ b)[kw.length]? = b.head? := by
            rw [List.getElem?_append_right (Nat.le_refl _), Nat.sub_self]
            exact List.head?_eq_getElem? ▸ rfl
          rw [hb', List.getElem?_append_left hl, List.getElem?_eq_getElem hl] at h1
          exact ⟨_, h1.symm, List.getElem_mem _⟩
        obtain ⟨x, hx, hxm⟩ := hbh
        unfold boundary at hb
        rw [hx] at hb
        simp only [Option.any_some, hW x hxm] at hb
        rcases hkl : kw.getLast? with _ | y
        · rw [List.getLast?_eq_none_iff] at hkl
          exact hk hkl
        · have := hw y (List.mem_of_getLast? hkl)
          rw [hkl] at hb
          simp [this] at hb
      · exact (List.append_inj hb' hl).1
      · exfalso
        have h1 : (kw ++ b)[(c :: W).length]? = some (kw[(c :: W).length]) := by
          rw [List.getElem?_append_left hl, List.getElem?_eq_getElem hl]
        rw [hb', List.getElem?_append_right (Nat.le_refl _), Nat.sub_self] at h1
        have h2 := hC _ (by rw [List.head?_eq_getElem?]; exact h1)
        rw [hw _ (List.getElem_mem _)] at h2
        cases h2
    · right
      exact findWord_inside W C c (hW c (by simp)) (fun d hd => hW d (by simp [hd])) h

/-- Every character of a condition is white space, a sign, a quote, or belongs to a word. -/
theorem spells_chars {U : Uni} (hA : U.Ascii) {text : List Char} {ts : List Token} (h : Spells U text ts)
    (hasc : IsAscii text) (hid : ∀ n, Token.ident n ∈ ts → ColumnName n) : ∀ c ∈ text,
    c ∈ [' ', '\t', '\n', '\r', '\x0b', '\x0c', '?', '(', ')', ',', '=', '!', '<', '>', '"'] ∨ c.isAlphanum = true ∨ c = '_' := by
  have hword : ∀ {w : List Char}, IsPlainWord U w → (∀ c ∈ w, c.toNat < 128) → ∀ c ∈ w,
      c ∈ [' ', '\t', '\n', '\r', '\x0b', '\x0c', '?', '(', ')', ',', '=', '!', '<', '>', '"'] ∨ c.isAlphanum = true ∨ c = '_' := by
    intro w hw ha c hc
    right
    rcases hw.2 c hc with h | h
    · rw [hA.alnum c (ha c hc)] at h
      exact .inl h
    · exact .inr h
  induction h with
  | nil => simp
  | @space c cs ts hs _ ih =>
    intro d hd
    rcases List.mem_cons.1 hd with rfl | hd
    · left
      have := hA.space d (hasc d (by simp)) hs
      simp only [List.mem_cons, List.not_mem_nil, or_false] at this ⊢
      rcases this with h | h | h | h | h | h <;> simp [h]
    · exact ih (fun x hx => hasc x (by simp [hx])) hid d hd
  | @sign t s cs ts hs _ ih =>
    intro d hd
    rcases List.mem_append.1 hd with hd | hd
    · left
      cases hs <;> simp only [List.mem_cons, List.not_mem_nil, or_false] at hd ⊢ <;>
        first
          | (rcases hd with rfl | rfl <;> simp)
          | (subst hd; simp)
    · exact ih (fun x hx => hasc x (by simp [hx])) (fun n hn => hid n (by simp [hn])) d hd
  | @lt cs ts h1 h2 _ ih =>
    intro d hd
    rcases List.mem_cons.1 hd with rfl | hd
    · simp
    · exact ih (fun x hx => hasc x (by simp [hx])) (fun n hn => hid n (by simp [hn])) d hd
  | @gt cs ts h1 _ ih =>
    intro d hd
    rcases List.mem_cons.1 hd with rfl | hd
    · simp
    · exact ih (fun x hx => hasc x (by simp [hx])) (fun n hn => hid n (by simp [hn])) d hd
  | @keyword t k w cs ts hk hw hu hn' _ ih =>
    intro d hd
    rcases List.mem_append.1 hd with hd | hd
    · exact hword hw (fun c hc => hasc c (by simp [hc])) d hd
    · exact ih (fun x hx => hasc x (by simp [hx])) (fun n hn => hid n (by simp [hn])) d hd
  | @column w cs ts hw hk hn' _ ih =>
    intro d hd
    rcases List.mem_append.1 hd with hd | hd
    · exact hword hw (fun c hc => hasc c (by simp [hc])) d hd
    · exact ih (fun x hx => hasc x (by simp [hx])) (fun n hn => hid n (by simp [hn])) d hd
  | @quoted w cs ts hw _ ih =>
    intro d hd
    rcases List.mem_cons.1 hd with rfl | hd
    · simp
    · rcases List.mem_append.1 hd with hd | hd
      · right
        exact hid w (by simp) d hd
      · rcases List.mem_cons.1 hd with rfl | hd
        · simp
        · exact ih (fun x hx => hasc x (by simp [hx])) (fun n hn => hid n (by simp [hn])) d hd

/-- A whole word of a condition is a keyword or a column. -/
theorem spells_words {U : Uni} (hA : U.Ascii) {kw : List Char} (hk : kw ≠ []) (hw : ∀ c ∈ kw, U.reWord c = true)
    {text : List Char} {ts : List Token} (h : Spells U text ts) (hasc : IsAscii text)
    (hid : ∀ n, Token.ident n ∈ ts → ColumnName n) : ∀ prev, findWord U kw prev (text.map Char.toUpper) = true →
    (∃ t, Keyword t kw) ∨ ∃ n, Token.ident n ∈ ts ∧ n.map Char.toUpper = kw := by
  have hnon : ∀ {c : Char}, c.toNat < 128 → (c.isAlphanum || c == '_') = false → U.reWord c.toUpper = false := by
    intro c hc h
    rw [word_upper hA c hc, h]
  have hwordc : ∀ {w : List Char}, IsAscii w → (∀ c ∈ w, c.isAlphanum = true ∨ c = '_') →
      ∀ c ∈ w.map Char.toUpper, U.reWord c = true := by
    intro w ha hw c hc
    obtain ⟨d, hd, rfl⟩ := List.mem_map.1 hc
    rw [word_upper hA d (ha d hd)]
    simpa using hw d hd
  have hhead : ∀ {cs : List Char}, IsAscii cs → (∀ c, cs.head? = some c → (c.isAlphanum || c == '_') = false) →
      ∀ c, (cs.map Char.toUpper).head? = some c → U.reWord c = false := by
    intro cs ha h c hc
    rw [List.head?_map] at hc
    rcases hh : cs.head? with _ | d
    · rw [hh] at hc; cases hc
    · rw [hh] at hc
      cases hc
      exact hnon (ha d (List.mem_of_mem_head? hh)) (h d hh)
  induction h with
  | nil => intro prev h; cases h
  | @space c cs ts hs _ ih =>
    intro prev h
    have hc := hasc c (by simp)
    have hcs := hA.space c hc hs
    refine ih (fun x hx => hasc x (by simp [hx])) hid _ (findWord_nonword hk hw (hnon hc ?_) h)
    simp only [List.mem_cons, List.not_mem_nil, or_false] at hcs
    rcases hcs with rfl | rfl | rfl | rfl | rfl | rfl <;> decide
  | @sign t s cs ts hs _ ih =>
    intro prev h
    have key : ∃ p, findWord U kw p (cs.map Char.toUpper) = true := by
      cases hs <;> simp only [List.cons_append, List.nil_append, List.map_cons] at h <;>
        first
          | exact ⟨_, findWord_nonword hk hw (hnon (by decide) (by decide)) (findWord_nonword hk hw (hnon (by decide) (by decide)) h)⟩
          | exact ⟨_, findWord_nonword hk hw (hnon (by decide) (by decide)) h⟩
    obtain ⟨p, hp⟩ := key
    rcases ih (fun x hx => hasc x (by simp [hx])) (fun n hn => hid n (by simp [hn])) p hp with h | ⟨n, hn, e⟩
    · exact .inl h
    · exact .inr ⟨n, by simp [hn], e⟩
  | @lt cs ts h1 h2 _ ih =>
    intro prev h
    rcases ih (fun x hx => hasc x (by simp [hx])) (fun n hn => hid n (by simp [hn])) _
      (findWord_nonword hk hw (hnon (by decide) (by decide)) h) with h | ⟨n, hn, e⟩
    · exact .inl h
    · exact .inr ⟨n, by simp [hn], e⟩
  | @gt cs ts h1 _ ih =>
    intro prev h
    rcases ih (fun x hx => hasc x (by simp [hx])) (fun n hn => hid n (by simp [hn])) _
      (findWord_nonword hk hw (hnon (by decide) (by decide)) h) with h | ⟨n, hn, e⟩
    · exact .inl h
    · exact .inr ⟨n, by simp [hn], e⟩
  | @keyword t k w cs ts hkw hwd hu hn' _ ih =>
    intro prev h
    have haw : IsAscii w := fun c hc => hasc c (by simp [hc])
    have hac : IsAscii cs := fun c hc => hasc c (by simp [hc])
    rw [List.map_append] at h
    rcases findWord_word hk hw (W := w.map Char.toUpper) (C := cs.map Char.toUpper) (by
        obtain ⟨⟨c, cs, rfl, _⟩, _⟩ := hwd
        simp) (hwordc haw fun c hc => by
          rcases hwd.2 c hc with h | h
          · rw [hA.alnum c (haw c hc)] at h; exact .inl h
          · exact .inr h) (hhead hac fun c hc => by
            have := hn' c hc
            rw [hA.alnum c (hac c (List.mem_of_mem_head? hc))] at this
            simp [this.1, this.2]) h with h | ⟨q, _, h⟩
    · left
      rw [hA.upper w haw] at hu
      refine ⟨t, ?_⟩
      rw [h, hu]
      exact hkw
    · rcases ih hac (fun n hn => hid n (by simp [hn])) _ h with h | ⟨n, hn, e⟩
      · exact .inl h
      · exact .inr ⟨n, by simp [hn], e⟩
  | @column w cs ts hwd hkw hn' _ ih =>
    intro prev h
    have haw : IsAscii w := fun c hc => hasc c (by simp [hc])
    have hac : IsAscii cs := fun c hc => hasc c (by simp [hc])
    rw [List.map_append] at h
    rcases findWord_word hk hw (W := w.map Char.toUpper) (C := cs.map Char.toUpper) (by
        obtain ⟨⟨c, cs, rfl, _⟩, _⟩ := hwd
        simp) (hwordc haw fun c hc => by
          rcases hwd.2 c hc with h | h
          · rw [hA.alnum c (haw c hc)] at h; exact .inl h
          · exact .inr h) (hhead hac fun c hc => by
            have := hn' c hc
            rw [hA.alnum c (hac c (List.mem_of_mem_head? hc))] at this
            simp [this.1, this.2]) h with h | ⟨q, _, h⟩
    · exact .inr ⟨w, by simp, h.symm⟩
    · rcases ih hac (fun n hn => hid n (by simp [hn])) _ h with h | ⟨n, hn, e⟩
      · exact .inl h
      · exact .inr ⟨n, by simp [hn], e⟩
  | @quoted w cs ts hwq _ ih =>
    intro prev h
    have haw : IsAscii w := fun c hc => hasc c (by simp [hc])
    have hac : IsAscii cs := fun c hc => hasc c (by simp [hc])
    rw [List.map_cons, List.map_append, List.map_cons] at h
    have h1 := findWord_nonword hk hw (hnon (c := '"') (by decide) (by decide)) h
    have hrest : ∀ {p}, findWord U kw p (Char.toUpper '"' :: cs.map Char.toUpper) = true →
        (∃ t, Keyword t kw) ∨ ∃ n, Token.ident n ∈ Token.ident w :: ts ∧ n.map Char.toUpper = kw := by
      intro p hp
      rcases ih hac (fun n hn => hid n (by simp [hn])) _
        (findWord_nonword hk hw (hnon (c := '"') (by decide) (by decide)) hp) with h | ⟨n, hn, e⟩
      · exact .inl h
      · exact .inr ⟨n, by simp [hn], e⟩
    by_cases hwe : w = []
    · subst hwe
      exact hrest h1
    · rcases findWord_word hk hw (W := w.map Char.toUpper) (C := Char.toUpper '"' :: cs.map Char.toUpper) (by simpa using hwe)
        (hwordc haw (hid w (by simp))) (fun c hc => by cases hc; exact hnon (c := '"') (by decide) (by decide)) h1 with h | ⟨q, _, h⟩
      · exact .inr ⟨w, by simp, h.symm⟩
      · exact hrest h

/-! ### One reading -/

theorem items_inj : ∀ (k k' : Nat) (r r' : List Token),
    (List.replicate k [Token.comma, .placeholder]).flatten ++ Token.rparen :: r =
      (List.replicate k' [Token.comma, .placeholder]).flatten ++ Token.rparen :: r' → k = k' ∧ r = r' := by
  intro k
  induction k with
  | zero =>
    intro k' r r' h
    cases k' with
    | zero => simpa using h
    | succ k' => simp [List.replicate_succ] at h
  | succ k ih =>
    intro k' r r' h
    cases k' with
    | zero => simp [List.replicate_succ] at h
    | succ k' =>
      simp only [List.replicate_succ, List.flatten_cons, List.cons_append, List.nil_append, List.cons.injEq, true_and] at h
      obtain ⟨h1, h2⟩ := ih k' r r' h
      exact ⟨by rw [h1], h2⟩

theorem test_inj {t t' : Test} {r r' : List Token} (h : t.signs ++ r = t'.signs ++ r') : t = t' := by
  rcases t with ⟨c, op⟩ | ⟨neg, c⟩ | ⟨neg, c⟩ | ⟨neg, c⟩ | ⟨neg, c⟩ | ⟨neg, c, k⟩ <;>
    rcases t' with ⟨c', op'⟩ | ⟨neg', c'⟩ | ⟨neg', c'⟩ | ⟨neg', c'⟩ | ⟨neg', c'⟩ | ⟨neg', c', k'⟩ <;>
    (try rcases op) <;> (try rcases op') <;> (try rcases neg) <;> (try rcases neg') <;>
    simp [Test.signs, optNot, Cmp.token] at h ⊢ <;> first | exact h.1 | (exact ⟨h.1, (items_inj _ _ _ _ h.2).1⟩)

theorem says_ne_nil {l : Level} {ts : List Token} {c : Cond} (h : Says l ts c) : ts ≠ [] := by
  induction h with
  | single _ ih => exact ih
  | or _ _ ih1 ih2 => simp
  | one _ ih => exact ih
  | and _ _ ih1 ih2 => simp
  | plain _ ih => exact ih
  | not _ ih => simp
  | paren _ ih => simp
  | test t =>
    obtain ⟨us, h⟩ := signs_head t
    rw [h]
    simp

theorem says_unique {l : Level} {ts : List Token} {c : Cond} (h : Says l ts c) : ∀ {ts' : List Token} {c' : Cond}
    {r r' : List Token}, Says l ts' c' → ts ++ r = ts' ++ r' → follows l (current r) → follows l (current r') →
    c = c' ∧ ts = ts' := by
  induction h with
  | @single ts c hs ih =>
    intro ts' c' r r' h' e hr hr'
    cases h' with
    | single h' => exact ih h' e hr.1 hr'.1
    | @or ts1 us c1 d h1 h2 =>
      rw [List.append_assoc, List.cons_append] at e
      have := ih h1 e hr.1 (by simp [follows, current])
      rw [this.2] at e
      have e2 := List.append_cancel_left e
      rw [e2] at hr
      exact absurd rfl hr.2
  | @or ts1 us c1 d h1 h2 ih1 ih2 =>
    intro ts' c' r r' h' e hr hr'
    rw [List.append_assoc, List.cons_append] at e
    cases h' with
    | single h' =>
      have := ih1 h' e (by simp [follows, current]) hr'.1
      rw [this.2] at e
      have e2 := List.append_cancel_left e
      rw [← e2] at hr'
      exact absurd rfl hr'.2
    | @or ts1' us' c1' d' h1' h2' =>
      rw [List.append_assoc, List.cons_append] at e
      have i1 := ih1 h1' e (by simp [follows, current]) (by simp [follows, current])
      rw [i1.2] at e
      have e2 := (List.cons.inj (List.append_cancel_left e)).2
      have i2 := ih2 h2' e2 hr hr'
      rw [i1.1, i1.2, i2.1, i2.2]
      exact ⟨rfl, rfl⟩
  | @one ts c hs ih =>
    intro ts' c' r r' h' e hr hr'
    cases h' with
    | one h' => exact ih h' e trivial trivial
    | @and ts1 us c1 d h1 h2 =>
      rw [List.append_assoc, List.cons_append] at e
      have := ih h1 e trivial trivial
      rw [this.2] at e
      have e2 := List.append_cancel_left e
      rw [e2] at hr
      exact absurd rfl hr
  | @and ts1 us c1 d h1 h2 ih1 ih2 =>
    intro ts' c' r r' h' e hr hr'
    rw [List.append_assoc, List.cons_append] at e
    cases h' with
    | one h' =>
      have := ih1 h' e trivial trivial
      rw [this.2] at e
      have e2 := List.append_cancel_left e
      rw [← e2] at hr'
      exact absurd rfl hr'
    | @and ts1' us' c1' d' h1' h2' =>
      rw [List.append_assoc, List.cons_append] at e
      have i1 := ih1 h1' e trivial trivial
      rw [i1.2] at e
      have e2 := (List.cons.inj (List.append_cancel_left e)).2
      have i2 := ih2 h2' e2 hr hr'
      rw [i1.1, i1.2, i2.1, i2.2]
      exact ⟨rfl, rfl⟩
  | @plain ts c hs ih =>
    intro ts' c' r r' h' e hr hr'
    cases h' with
    | plain h' => exact ih h' e trivial trivial
    | not h' =>
      obtain ⟨t, us, rfl, ht⟩ := primary_head hs rfl
      rw [List.cons_append, List.cons_append] at e
      exact absurd (List.cons.inj e).1 ht
  | @not ts c hs ih =>
    intro ts' c' r r' h' e hr hr'
    cases h' with
    | plain h' =>
      obtain ⟨t, us, rfl, ht⟩ := primary_head h' rfl
      rw [List.cons_append, List.cons_append] at e
      exact absurd (List.cons.inj e).1.symm ht
    | not h' =>
      rw [List.cons_append, List.cons_append] at e
      have := ih h' (List.cons.inj e).2 trivial trivial
      rw [this.1, this.2]
      exact ⟨rfl, rfl⟩
  | @paren ts c hs ih =>
    intro ts' c' r r' h' e hr hr'
    cases h' with
    | paren h' =>
      simp only [List.cons_append, List.append_assoc, List.nil_append, List.cons.injEq, true_and] at e
      have := ih h' e (by simp [follows, current]) (by simp [follows, current])
      rw [this.1, this.2]
      exact ⟨rfl, rfl⟩
    | test t =>
      obtain ⟨us, hu⟩ := signs_head t
      rw [hu, List.cons_append, List.cons_append] at e
      exact absurd (List.cons.inj e).1 (by simp)
  | test t =>
    intro ts' c' r r' h' e hr hr'
    cases h' with
    | paren h' =>
      obtain ⟨us, hu⟩ := signs_head t
      rw [hu, List.cons_append, List.cons_append] at e
      exact absurd (List.cons.inj e).1 (by simp)
    | test t' =>
      have := test_inj e
      subst this
      exact ⟨rfl, rfl⟩

theorem ident_column {l : Level} {ts : List Token} {c : Cond} (h : Says l ts c) : ∀ n, Token.ident n ∈ ts → n ∈ c.columns := by
  induction h with
  | single _ ih => exact ih
  | or _ _ ih1 ih2 =>
    intro n hn
    simp only [List.mem_append, List.mem_cons, reduceCtorEq, false_or] at hn
    rcases hn with hn | hn
    · exact List.mem_append.2 (.inl (ih1 n hn))
    · exact List.mem_append.2 (.inr (ih2 n hn))
  | one _ ih => exact ih
  | and _ _ ih1 ih2 =>
    intro n hn
    simp only [List.mem_append, List.mem_cons, reduceCtorEq, false_or] at hn
    rcases hn with hn | hn
    · exact List.mem_append.2 (.inl (ih1 n hn))
    · exact List.mem_append.2 (.inr (ih2 n hn))
  | plain _ ih => exact ih
  | not _ ih =>
    intro n hn
    exact ih n (by simpa using hn)
  | paren _ ih =>
    intro n hn
    exact ih n (by simpa using hn)
  | test t =>
    intro n hn
    simp only [Cond.columns, List.mem_singleton]
    rcases t with ⟨c, op⟩ | ⟨neg, c⟩ | ⟨neg, c⟩ | ⟨neg, c⟩ | ⟨neg, c⟩ | ⟨neg, c, k⟩
    · rcases op <;> simpa [Test.signs, Cmp.token, Test.column] using hn
    case isIn =>
      have hi : ∀ k, Token.ident n ∉ (List.replicate k [Token.comma, .placeholder]).flatten := by
        intro k
        induction k with
        | zero => simp
        | succ k ih => simp [List.replicate_succ]
      rcases neg <;> simp only [Test.signs, optNot, Test.column, List.mem_append, hi] at hn ⊢ <;> simpa using hn
    all_goals rcases neg <;> simpa [Test.signs, optNot, Test.column] using hn

/-- The characters of a column's name stand in the text. -/
theorem ident_chars {U : Uni} {text : List Char} {ts : List Token} (h : Spells U text ts) :
    ∀ n, Token.ident n ∈ ts → ∀ x ∈ n, x ∈ text := by
  induction h with
  | nil => simp
  | space _ _ ih => intro n hn x hx; simp [ih n hn x hx]
  | sign hs _ ih => cases hs <;> intro n hn x hx <;> simp [ih n (by simpa using hn) x hx]
  | lt _ _ _ ih => intro n hn x hx; simp [ih n (by simpa using hn) x hx]
  | gt _ _ ih => intro n hn x hx; simp [ih n (by simpa using hn) x hx]
  | keyword hk _ _ _ _ ih => cases hk <;> intro n hn x hx <;> simp [ih n (by simpa using hn) x hx]
  | column _ _ _ _ ih =>
    intro n hn x hx
    rcases List.mem_cons.1 hn with h | hn
    · cases h
      simp [hx]
    · simp [ih n hn x hx]
  | quoted _ _ ih =>
    intro n hn x hx
    rcases List.mem_cons.1 hn with h | hn
    · cases h
      simp [hx]
    · simp [ih n hn x hx]

/-! ### The idiom of two numbers -/

theorem trim_split (U : Uni) (s : List Char) : ∃ l r, s = l ++ trim U s ++ r ∧ ∀ c ∈ l ++ r, U.isSpace c = true := by
  refine ⟨s.takeWhile U.isSpace, ((s.dropWhile U.isSpace).reverse.takeWhile U.isSpace).reverse, ?_, ?_⟩
  · unfold trim
    rw [List.append_assoc, ← List.reverse_append, List.takeWhile_append_dropWhile, List.reverse_reverse,
      List.takeWhile_append_dropWhile]
  · intro c hc
    rcases List.mem_append.1 hc with hc | hc
    · exact mem_takeWhile hc
    · exact mem_takeWhile (List.mem_reverse.1 hc)

theorem numeric_sound {U : Uni} {text : List Char} (h : isNumericEquality U text = true) : NumericIdiom U text := by
  unfold isNumericEquality at h
  obtain ⟨l, r, e, hlr⟩ := trim_split U text
  generalize trim U text = s at h e
  simp only [Bool.and_eq_true] at h
  obtain ⟨h1, h2⟩ := h
  split at h2
  · cases h2
  · rename_i c rest hrest
    simp only [Bool.and_eq_true, beq_iff_eq] at h2
    obtain ⟨⟨rfl, hne⟩, hall⟩ := h2
    refine ⟨l, s.takeWhile U.reDigit, (s.dropWhile U.reDigit).takeWhile U.reSpace, rest.takeWhile U.reSpace,
      rest.dropWhile U.reSpace, r, ?_, by simpa using h1, by simpa using hne, ?_, ?_, hlr⟩
    · rw [e]
      congr 1
      simp only [List.append_assoc, List.cons_append]
      rw [List.takeWhile_append_dropWhile]
      rw [← hrest, List.takeWhile_append_dropWhile, List.takeWhile_append_dropWhile]
    · intro c hc
      rcases List.mem_append.1 hc with hc | hc
      · exact mem_takeWhile hc
      · exact List.all_eq_true.1 hall c hc
    · intro c hc
      rcases List.mem_append.1 hc with hc | hc
      · exact mem_takeWhile hc
      · exact mem_takeWhile hc

end NextPlaid.Proofs.Condition
