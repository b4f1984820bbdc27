import Verif.Spec.Rerank
import Verif.Proofs.Npy
import Mathlib.Tactic.ByContra

/-!
Proofs for reranking: the two formats of embeddings.
-/

namespace NextPlaid.Rerank
open Single Spec

/-! ### Base64 -/

theorem undigit_digit : ∀ n < 64, undigit (digit n) = some n := by decide +kernel

theorem digit_ne : ∀ n < 64, digit n ≠ '=' := by decide +kernel

theorem alphabet_length : alphabet.length = 64 := by decide +kernel

theorem digit_undigit {c : Char} {n : Nat} (h : undigit c = some n) : c = digit n ∧ n < 64 := by
  unfold undigit at h
  split at h
  · rename_i hc
    cases h
    have hl : alphabet.idxOf c < alphabet.length := List.idxOf_lt_length_iff.mpr hc
    refine ⟨?_, by rw [← alphabet_length]; exact hl⟩
    unfold digit
    rw [List.getD_eq_getElem?_getD, List.getElem?_eq_getElem hl, Option.getD_some, List.getElem_idxOf]
  · cases h

theorem group4_digits {a b c d : Nat} (ha : a < 64) (hb : b < 64) (hc : c < 64) (hd : d < 64) :
    group4 (digit a) (digit b) (digit c) (digit d) = some [a * 4 + b / 16, b % 16 * 16 + c / 4, c % 4 * 64 + d] := by
  unfold group4
  rw [undigit_digit a ha, undigit_digit b hb, undigit_digit c hc, undigit_digit d hd]
  rfl

theorem group3_digits {a b c : Nat} (ha : a < 64) (hb : b < 64) (hc : c < 64) (h : c % 4 = 0) :
    group3 (digit a) (digit b) (digit c) = some [a * 4 + b / 16, b % 16 * 16 + c / 4] := by
  unfold group3
  rw [undigit_digit a ha, undigit_digit b hb, undigit_digit c hc]
  show (if c % 4 = 0 then _ else _) = _
  rw [if_pos h]

theorem group2_digits {a b : Nat} (ha : a < 64) (hb : b < 64) (h : b % 16 = 0) :
    group2 (digit a) (digit b) = some [a * 4 + b / 16] := by
  unfold group2
  rw [undigit_digit a ha, undigit_digit b hb]
  show (if b % 16 = 0 then _ else _) = _
  rw [if_pos h]

/-- Decoding reads back what encoding wrote. -/
theorem decode_encode : ∀ l : List Nat, (∀ b ∈ l, b < 256) → decode64 (encode64 l) = some l
  | [], _ => by simp [encode64, decode64]
  | [a], h => by
    have ha := h a (by simp)
    unfold encode64 decode64
    rw [if_pos rfl, if_pos rfl, group2_digits (by omega) (by omega) (by omega)]
    congr 2
    omega
  | [a, b], h => by
    have ha := h a (by simp)
    have hb := h b (by simp)
    unfold encode64 decode64
    rw [if_pos rfl, if_neg (digit_ne _ (by omega)), group3_digits (by omega) (by omega) (by omega) (by omega)]
    congr 2
    · omega
    · congr 1
      omega
  | a :: b :: c :: rest, h => by
    have ha := h a (by simp)
    have hb := h b (by simp)
    have hc := h c (by simp)
    have ih := decode_encode rest (fun x hx => h x (by simp [hx]))
    have hg : group4 (digit (a / 4)) (digit (a % 4 * 16 + b / 16)) (digit (b % 16 * 4 + c / 64)) (digit (c % 64)) = some [a, b, c] := by
      rw [group4_digits (by omega) (by omega) (by omega) (by omega)]
      congr 2
      · omega
      · congr 1
        · omega
        · congr 1
          omega
    unfold encode64
    cases hr : encode64 rest with
    | nil =>
      rw [hr] at ih
      rw [decode64.eq_2, if_neg (digit_ne _ (by omega)), hg]
      have : rest = [] := by
        unfold decode64 at ih
        cases ih
        rfl
      rw [this]
    | cons x xs =>
      rw [hr] at ih
      rw [decode64.eq_3 _ _ _ _ _ (by simp), hg, ih]
      rfl

theorem group4_some {a b c d : Char} {l : List Nat} (h : group4 a b c d = some l) :
    ∃ x y z, l = [x, y, z] ∧ x < 256 ∧ y < 256 ∧ z < 256 ∧ a = digit (x / 4) ∧ b = digit (x % 4 * 16 + y / 16) ∧ c = digit (y % 16 * 4 + z / 64) ∧ d = digit (z % 64) := by
  unfold group4 at h
  cases ea : undigit a with
  | none => rw [ea] at h; cases h
  | some a' =>
    cases eb : undigit b with
    | none => rw [ea, eb] at h; cases h
    | some b' =>
      cases ec : undigit c with
      | none => rw [ea, eb, ec] at h; cases h
      | some c' =>
        cases ed : undigit d with
        | none => rw [ea, eb, ec, ed] at h; cases h
        | some d' =>
          rw [ea, eb, ec, ed] at h
          cases h
          obtain ⟨rfl, ha⟩ := digit_undigit ea
          obtain ⟨rfl, hb⟩ := digit_undigit eb
          obtain ⟨rfl, hc⟩ := digit_undigit ec
          obtain ⟨rfl, hd⟩ := digit_undigit ed
          refine ⟨_, _, _, rfl, by omega, by omega, by omega, ?_, ?_, ?_, ?_⟩ <;> congr 1 <;> omega

theorem group3_some {a b c : Char} {l : List Nat} (h : group3 a b c = some l) :
    ∃ x y, l = [x, y] ∧ x < 256 ∧ y < 256 ∧ a = digit (x / 4) ∧ b = digit (x % 4 * 16 + y / 16) ∧ c = digit (y % 16 * 4) := by
  unfold group3 at h
  cases ea : undigit a with
  | none => rw [ea] at h; cases h
  | some a' =>
    cases eb : undigit b with
    | none => rw [ea, eb] at h; cases h
    | some b' =>
      cases ec : undigit c with
      | none => rw [ea, eb, ec] at h; cases h
      | some c' =>
        rw [ea, eb, ec] at h
        have h : (if c' % 4 = 0 then some [a' * 4 + b' / 16, b' % 16 * 16 + c' / 4] else none) = some l := h
        split at h
        · rename_i h0
          cases h
          obtain ⟨rfl, ha⟩ := digit_undigit ea
          obtain ⟨rfl, hb⟩ := digit_undigit eb
          obtain ⟨rfl, hc⟩ := digit_undigit ec
          refine ⟨_, _, rfl, by omega, by omega, ?_, ?_, ?_⟩ <;> congr 1 <;> omega
        · cases h

theorem group2_some {a b : Char} {l : List Nat} (h : group2 a b = some l) :
    ∃ x, l = [x] ∧ x < 256 ∧ a = digit (x / 4) ∧ b = digit (x % 4 * 16) := by
  unfold group2 at h
  cases ea : undigit a with
  | none => rw [ea] at h; cases h
  | some a' =>
    cases eb : undigit b with
    | none => rw [ea, eb] at h; cases h
    | some b' =>
      rw [ea, eb] at h
      have h : (if b' % 16 = 0 then some [a' * 4 + b' / 16] else none) = some l := h
      split at h
      · rename_i h0
        cases h
        obtain ⟨rfl, ha⟩ := digit_undigit ea
        obtain ⟨rfl, hb⟩ := digit_undigit eb
        refine ⟨_, rfl, by omega, ?_, ?_⟩ <;> congr 1 <;> omega
      · cases h

/-- Only what encoding writes is read. -/
theorem encode_decode : ∀ (s : List Char) (l : List Nat), decode64 s = some l → s = encode64 l ∧ ∀ b ∈ l, b < 256
  | [], l, h => by unfold decode64 at h; cases h; exact ⟨by simp [encode64], by simp⟩
  | [_], l, h => by unfold decode64 at h; cases h
  | [_, _], l, h => by unfold decode64 at h; cases h
  | [_, _, _], l, h => by unfold decode64 at h; cases h
  | [a, b, c, d], l, h => by
    unfold decode64 at h
    split at h
    · rename_i hd
      subst hd
      split at h
      · rename_i hc
        subst hc
        obtain ⟨x, rfl, h1, rfl, rfl⟩ := group2_some h
        exact ⟨by unfold encode64; rfl, by simpa using h1⟩
      · obtain ⟨x, y, rfl, h1, h2, rfl, rfl, rfl⟩ := group3_some h
        exact ⟨by unfold encode64; rfl, by simp [h1, h2]⟩
    · obtain ⟨x, y, z, rfl, h1, h2, h3, rfl, rfl, rfl, rfl⟩ := group4_some h
      exact ⟨by unfold encode64; simp [encode64], by simp [h1, h2, h3]⟩
  | a :: b :: c :: d :: e :: rest, l, h => by
    rw [decode64.eq_3 _ _ _ _ _ (by simp)] at h
    cases hg : group4 a b c d with
    | none => rw [hg] at h; cases h
    | some g =>
      cases hr : decode64 (e :: rest) with
      | none => rw [hg, hr] at h; cases h
      | some r =>
        rw [hg, hr] at h
        cases h
        obtain ⟨x, y, z, rfl, h1, h2, h3, rfl, rfl, rfl, rfl⟩ := group4_some hg
        obtain ⟨he, hb⟩ := encode_decode (e :: rest) r hr
        refine ⟨?_, ?_⟩
        · rw [List.cons_append, List.cons_append, List.cons_append, List.nil_append, encode64, ← he]
        · intro w hw
          simp only [List.cons_append, List.nil_append, List.mem_cons] at hw
          rcases hw with rfl | rfl | rfl | hw
          · exact h1
          · exact h2
          · exact h3
          · exact hb w hw

/-! ### Pieces -/

theorem pieces_length {A : Type} (w : Nat) : ∀ (n : Nat) (l : List A), (pieces w n l).length = n
  | 0, _ => rfl
  | n + 1, l => by unfold pieces; rw [List.length_cons, pieces_length w n]

theorem pieces_flatten {A : Type} (w : Nat) : ∀ (n : Nat) (l : List A), l.length = n * w → (pieces w n l).flatten = l
  | 0, l, h => by
    rw [Nat.zero_mul] at h
    rw [List.length_eq_zero_iff.mp h]
    rfl
  | n + 1, l, h => by
    unfold pieces
    rw [List.flatten_cons, pieces_flatten w n (l.drop w) (by rw [List.length_drop, h, Nat.succ_mul]; omega), List.take_append_drop]

theorem pieces_widths {A : Type} (w : Nat) : ∀ (n : Nat) (l : List A), l.length = n * w → ∀ p ∈ pieces w n l, p.length = w
  | 0, _, _ => by simp [pieces]
  | n + 1, l, h => by
    unfold pieces
    have : w ≤ l.length := by rw [h, Nat.succ_mul]; omega
    intro p hp
    rcases List.mem_cons.mp hp with rfl | hp
    · rw [List.length_take]; omega
    · exact pieces_widths w n (l.drop w) (by rw [List.length_drop, h, Nat.succ_mul]; omega) p hp

theorem pieces_of_rows {A : Type} (w : Nat) : ∀ (e : List (List A)), (∀ r ∈ e, r.length = w) → pieces w e.length e.flatten = e
  | [], _ => rfl
  | r :: e, h => by
    have hr := h r List.mem_cons_self
    rw [List.length_cons, List.flatten_cons]
    unfold pieces
    rw [← hr, List.take_left, List.drop_left, hr, pieces_of_rows w e (fun x hx => h x (List.mem_cons_of_mem _ hx))]

theorem flatten_length {A : Type} (w : Nat) : ∀ (e : List (List A)), (∀ r ∈ e, r.length = w) → e.flatten.length = e.length * w
  | [], _ => by simp
  | r :: e, h => by
    rw [List.flatten_cons, List.length_append, flatten_length w e (fun x hx => h x (List.mem_cons_of_mem _ hx)), h r List.mem_cons_self, List.length_cons, Nat.succ_mul, Nat.add_comm]

/-! ### Numbers as bytes -/

theorem leBytes_leVal : ∀ (n : Nat) (l : List Nat), l.length = n → (∀ b ∈ l, b < 256) → Npy.leBytes n (Npy.leVal l) = l
  | 0, l, h, _ => by rw [List.length_eq_zero_iff.mp h]; rfl
  | n + 1, [], h, _ => by simp at h
  | n + 1, b :: l, h, hb => by
    have h1 := hb b List.mem_cons_self
    unfold Npy.leVal Npy.leBytes
    rw [show (b + 256 * Npy.leVal l) % 256 = b by omega, show (b + 256 * Npy.leVal l) / 256 = Npy.leVal l by omega,
      leBytes_leVal n l (by simpa using h) (fun x hx => hb x (List.mem_cons_of_mem _ hx))]

theorem leVal_lt : ∀ (n : Nat) (l : List Nat), l.length = n → (∀ b ∈ l, b < 256) → Npy.leVal l < 256 ^ n
  | 0, l, h, _ => by rw [List.length_eq_zero_iff.mp h]; simp [Npy.leVal]
  | n + 1, [], h, _ => by simp at h
  | n + 1, b :: l, h, hb => by
    have h1 := hb b List.mem_cons_self
    have h2 := leVal_lt n l (by simpa using h) (fun x hx => hb x (List.mem_cons_of_mem _ hx))
    unfold Npy.leVal
    rw [Nat.pow_succ]
    omega

/-- The numbers of a base64 text. -/
theorem decodeB64_iff (b : List Char) (sh : Nat × Nat) (fs : List Nat) :
    decodeB64 b sh = some fs ↔ b = encode64 (fs.flatMap (Npy.leBytes 4)) ∧ fs.length = sh.1 * sh.2 ∧ sh.1 * sh.2 * 4 < 2 ^ 64 ∧
      ∀ f ∈ fs, f < 2 ^ 32 ∧ (F32.ofBits f).isFinite = true := by
  constructor
  · intro h
    unfold decodeB64 at h
    split at h
    · cases h
    · rename_i bytes hd
      split at h
      · cases h
      · split at h
        · cases h
        · rename_i h64
          split at h
          · cases h
          · rename_i hlen
            rw [not_not] at hlen
            have hdiv : bytes.length / 4 = sh.1 * sh.2 := by omega
            simp only at h
            split at h
            · rename_i hfin
              cases h
              obtain ⟨he, hb⟩ := encode_decode b bytes hd
              have hl4 : bytes.length = (bytes.length / 4) * 4 := by omega
              have hw := pieces_widths 4 (bytes.length / 4) bytes hl4
              have hfl := pieces_flatten 4 (bytes.length / 4) bytes hl4
              have hmem : ∀ p ∈ pieces 4 (bytes.length / 4) bytes, ∀ x ∈ p, x < 256 := by
                intro p hp x hx
                apply hb
                rw [← hfl]
                exact List.mem_flatten.mpr ⟨p, hp, hx⟩
              refine ⟨?_, ?_, by omega, ?_⟩
              · rw [he]
                congr 1
                rw [List.flatMap_map]
                have : (pieces 4 (bytes.length / 4) bytes).flatMap (fun a => Npy.leBytes 4 (Npy.leVal a)) = (pieces 4 (bytes.length / 4) bytes).flatMap id := by
                  rw [List.flatMap_def, List.flatMap_def]
                  congr 1
                  apply List.map_congr_left
                  intro p hp
                  exact leBytes_leVal 4 p (hw p hp) (hmem p hp)
                rw [this, List.flatMap_id, hfl]
              · rw [List.length_map, pieces_length, hdiv]
              · intro f hf
                refine ⟨?_, by rw [List.all_eq_true] at hfin; exact hfin f hf⟩
                obtain ⟨p, hp, rfl⟩ := List.mem_map.mp hf
                exact leVal_lt 4 p (hw p hp) (hmem p hp)
            · cases h
  · rintro ⟨rfl, hl, h64, hf⟩
    have hb : ∀ x ∈ fs.flatMap (Npy.leBytes 4), x < 256 := by
      intro x hx
      obtain ⟨f, -, hx⟩ := List.mem_flatMap.mp hx
      exact Npy.leBytes_lt 4 f x hx
    have hlen : (fs.flatMap (Npy.leBytes 4)).length = fs.length * 4 := by
      rw [List.flatMap_def, flatten_length 4 _ (by intro r hr; obtain ⟨f, -, rfl⟩ := List.mem_map.mp hr; exact Npy.leBytes_length 4 f), List.length_map]
    have hp : pieces 4 ((fs.flatMap (Npy.leBytes 4)).length / 4) (fs.flatMap (Npy.leBytes 4)) = fs.map (Npy.leBytes 4) := by
      rw [hlen, Nat.mul_div_cancel _ (by omega), List.flatMap_def]
      have := pieces_of_rows 4 (fs.map (Npy.leBytes 4)) (by intro r hr; obtain ⟨f, -, rfl⟩ := List.mem_map.mp hr; exact Npy.leBytes_length 4 f)
      rw [List.length_map] at this
      exact this
    unfold decodeB64
    rw [decode_encode _ hb]
    have hv : (pieces 4 ((fs.flatMap (Npy.leBytes 4)).length / 4) (fs.flatMap (Npy.leBytes 4))).map Npy.leVal = fs := by
      rw [hp, List.map_map]
      conv_rhs => rw [← List.map_id fs]
      apply List.map_congr_left
      intro f hfm
      show Npy.leVal (Npy.leBytes 4 f) = f
      rw [Npy.leVal_leBytes, Nat.mod_eq_of_lt]
      exact (hf f hfm).1
    simp only [hv]
    rw [if_neg (by omega), if_neg (by omega), if_neg (by rw [hlen, hl]; simp), if_pos]
    rw [List.all_eq_true]
    exact fun f hfm => (hf f hfm).2

/-! ### Arrays -/

theorem text64_flatten (e : List (List Nat)) : text64 e = encode64 (e.flatten.flatMap (Npy.leBytes 4)) := by
  unfold text64
  congr 1
  rw [List.flatMap_def, List.flatMap_def, List.map_flatten, List.flatten_flatten, List.map_map]
  rfl

theorem b64ToArray_iff (b : List Char) (sh : Nat × Nat) (a : Arr) :
    b64ToArray b sh = some a ↔ Usable a.rows a.ncols ∧ b = text64 a.rows ∧ sh = (a.rows.length, a.ncols) ∧ a.rows.length * a.ncols * 4 < 2 ^ 64 := by
  obtain ⟨r, c⟩ := sh
  unfold b64ToArray validShape
  constructor
  · intro h
    split at h
    · rename_i hv
      rw [Bool.and_eq_true, decide_eq_true_eq, decide_eq_true_eq] at hv
      obtain ⟨fs, hfs, rfl⟩ := Option.map_eq_some_iff.mp h
      obtain ⟨h1, h2, h3, h4⟩ := (decodeB64_iff _ _ _).mp hfs
      have hl := pieces_length c r fs
      have hfl := pieces_flatten c r fs h2
      refine ⟨⟨?_, Nat.pos_of_ne_zero hv.2, ?_⟩, ?_, ?_, ?_⟩
      · intro he
        have he : pieces c r fs = [] := he
        rw [he] at hl
        exact hv.1 hl.symm
      · intro row hrow
        refine ⟨pieces_widths c r fs h2 row hrow, ?_⟩
        intro f hf
        apply h4
        rw [← hfl]
        exact List.mem_flatten.mpr ⟨row, hrow, hf⟩
      · rw [text64_flatten, h1]
        show _ = encode64 ((pieces c r fs).flatten.flatMap _)
        rw [hfl]
      · show (r, c) = ((pieces c r fs).length, c)
        rw [hl]
      · show (pieces c r fs).length * c * 4 < _
        rw [hl]
        exact h3
    · cases h
  · rintro ⟨⟨h1, h2, h3⟩, rfl, hsh, h5⟩
    cases hsh
    have hw : ∀ x ∈ a.rows, x.length = a.ncols := fun x hx => (h3 x hx).1
    rw [if_pos (by
      rw [Bool.and_eq_true, decide_eq_true_eq, decide_eq_true_eq]
      exact ⟨by intro h; exact h1 (List.length_eq_zero_iff.mp h), by show a.ncols ≠ 0; omega⟩)]
    have := (decodeB64_iff (text64 a.rows) (a.rows.length, a.ncols) a.rows.flatten).mpr
      ⟨text64_flatten _, flatten_length _ _ hw, h5, fun f hf => by
        obtain ⟨row, hr, hf⟩ := List.mem_flatten.mp hf
        exact (h3 row hr).2 f hf⟩
    rw [this, Option.map_some]
    rw [pieces_of_rows _ _ hw]

theorem jsonToArray_iff (e : List (List Nat)) (he : ∀ row ∈ e, ∀ f ∈ row, f < 2 ^ 32) (a : Arr) :
    jsonToArray e = some a ↔ Usable a.rows a.ncols ∧ e = a.rows := by
  unfold jsonToArray validShape
  constructor
  · intro h
    split at h
    · rename_i hv
      rw [Bool.and_eq_true, decide_eq_true_eq, decide_eq_true_eq] at hv
      simp only at h
      split at h
      · rename_i hall
        cases h
        rw [List.all_eq_true] at hall
        have hw : ∀ r ∈ e, r.length = (e.headD []).length := by
          intro r hr
          have := hall r hr
          rw [Bool.and_eq_true, decide_eq_true_eq] at this
          exact this.1
        have hp := pieces_of_rows _ e hw
        refine ⟨⟨?_, ?_, ?_⟩, hp.symm⟩
        · intro hnil
          have hnil : pieces (e.headD []).length e.length e.flatten = [] := hnil
          rw [hp] at hnil
          rw [hnil] at hv
          exact hv.1 rfl
        · cases e with
          | nil => exact absurd rfl hv.1
          | cons x e =>
            have := hv.2
            simp only [List.head?_cons, Option.map_some, Option.getD_some] at this
            show 0 < x.length
            omega
        · intro row hrow
          have hrow : row ∈ pieces (e.headD []).length e.length e.flatten := hrow
          rw [hp] at hrow
          refine ⟨hw row hrow, ?_⟩
          intro f hf
          refine ⟨he row hrow f hf, ?_⟩
          have := hall row hrow
          rw [Bool.and_eq_true, List.all_eq_true] at this
          exact this.2 f hf
      · cases h
    · cases h
  · rintro ⟨⟨h1, h2, h3⟩, rfl⟩
    have hw : ∀ x ∈ a.rows, x.length = a.ncols := fun x hx => (h3 x hx).1
    have hh : (a.rows.headD []).length = a.ncols := by
      cases hr : a.rows with
      | nil => exact absurd hr h1
      | cons x xs => exact hw x (by rw [hr]; exact List.mem_cons_self)
    have hh2 : (a.rows.head?.map List.length).getD 0 = a.ncols := by
      cases hr : a.rows with
      | nil => exact absurd hr h1
      | cons x xs => exact hw x (by rw [hr]; exact List.mem_cons_self)
    rw [if_pos (by
      rw [Bool.and_eq_true, decide_eq_true_eq, decide_eq_true_eq]
      exact ⟨by intro h; exact h1 (List.length_eq_zero_iff.mp h), by show _ ≠ 0; rw [hh2]; omega⟩)]
    simp only
    rw [hh, if_pos, pieces_of_rows _ _ hw]
    rw [List.all_eq_true]
    intro row hrow
    rw [Bool.and_eq_true, decide_eq_true_eq, List.all_eq_true]
    exact ⟨hw row hrow, fun f hf => ((h3 row hrow).2 f hf).2⟩

theorem strictArray_iff (s : Sent) (hs : Words32 s) (a : Arr) : strictArray s = some a ↔ Usable a.rows a.ncols ∧ Carries s a.rows a.ncols := by
  obtain ⟨j, b, sh⟩ := s
  have hj : (j.bind jsonToArray = some a) ↔ Usable a.rows a.ncols ∧ j = some a.rows := by
    cases j with
    | none => simp
    | some e =>
      rw [Option.bind_some, jsonToArray_iff e (hs e rfl) a, Option.some_inj]
  cases b with
  | none => unfold strictArray Carries; simp [hj]
  | some b =>
    cases sh with
    | none => unfold strictArray Carries; simp [hj]
    | some sh =>
      unfold strictArray Carries
      simp only [b64ToArray_iff, Option.some_inj, reduceCtorEq, or_self, false_and, or_false]

end NextPlaid.Rerank
