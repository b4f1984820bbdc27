import Verif.Proofs.Convert
import Verif.Props.Npy

/-!
C39: conversion of legacy indexes.
-/

namespace NextPlaid.Props
open NextPlaid.Npy NextPlaid.Convert Function

/-- C39: after a successful conversion, whatever the directory held, a second conversion changes nothing and
reports that nothing was converted. -/
theorem C39_idempotent (widen : Nat → Nat → Bytes) (d d' : Dir) (b : Bool) (h : convert widen d = (d', .ok b)) :
    convert widen d' = (d', .ok false) := by
  unfold convert at h
  have h1 := congrArg Prod.fst h
  have h2 := congrArg Prod.snd h
  simp only at h1 h2
  have hall : convAll widen (targets d) d.files false = (d'.files, .ok b) := by
    rw [← h1]
    exact Prod.ext rfl h2
  have hl : d'.listing = d.listing := by rw [← h1]
  have ht : targets d' = targets d := by unfold targets; rw [hl]
  obtain ⟨_, i2, i3⟩ := convAll_spec _ (targets_oneKind d) _ _ _ _ hall
  have hst : convAll widen (targets d') d'.files false = (d'.files, .ok false) := by
    rw [ht]
    apply convAll_stable
    intro n k x hm hx
    rw [i2 n k hm] at hx
    rcases hf : d.files n with _ | y
    · rw [hf] at hx; cases hx
    · rw [hf] at hx
      cases hx
      obtain ⟨b', hb'⟩ := i3 n k y hm hf
      exact stable_after hb'
  unfold convert
  rw [hst]

/-- C39: the report is truthful: `false` means that nothing was changed, `true` that a file of a legacy type
was there. -/
theorem C39_report (widen : Nat → Nat → Bytes) (d d' : Dir) (b : Bool) (h : convert widen d = (d', .ok b)) :
    (b = false → d' = d) ∧
    (b = true → ∃ n k x, (n, k) ∈ targets d ∧ d.files n = some x ∧ detectDtype x = .ok k.legacy) := by
  unfold convert at h
  have h1 := congrArg Prod.fst h
  have h2 := congrArg Prod.snd h
  simp only at h1 h2
  obtain ⟨i1, i2⟩ := convAll_report _ (targets_oneKind d) d.files (convAll widen (targets d) d.files false).1 false b
    (Prod.ext rfl h2)
  refine ⟨fun hb => ?_, fun hb => ?_⟩
  · rw [← h1, (i1 hb).2]
  · rcases i2 hb with h3 | h3
    · cases h3
    · exact h3

/-- C39: a successful conversion leaves alone every file that is not one of the convertible files or not of
the legacy type, and adds and removes no file. -/
theorem C39_untouched (widen : Nat → Nat → Bytes) (d d' : Dir) (b : Bool) (h : convert widen d = (d', .ok b)) (n : Name) :
    ((∀ k, (n, k) ∉ targets d) → d'.files n = d.files n) ∧
    (∀ k x t, (n, k) ∈ targets d → d.files n = some x → detectDtype x = .ok t → t ≠ k.legacy → d'.files n = some x) ∧
    (d'.files n = none ↔ d.files n = none) := by
  unfold convert at h
  have h1 := congrArg Prod.fst h
  have h2 := congrArg Prod.snd h
  simp only at h1 h2
  have hall : convAll widen (targets d) d.files false = (d'.files, .ok b) := by
    rw [← h1]
    exact Prod.ext rfl h2
  obtain ⟨i1, i2, _⟩ := convAll_spec _ (targets_oneKind d) _ _ _ _ hall
  refine ⟨i1 n, ?_, ?_⟩
  · intro k x t hm hx ht hne
    rw [i2 n k hm, hx, Option.map_some]
    unfold convFile
    rw [ht]
    simp only
    rw [if_neg hne]
  · by_cases hin : ∃ k, (n, k) ∈ targets d
    · obtain ⟨k, hk⟩ := hin
      rw [i2 n k hk, Option.map_eq_none_iff]
    · rw [i1 n (fun k hk => hin ⟨k, hk⟩)]

/-- A legacy file is replaced by its conversion. -/
theorem C39_converted (widen : Nat → Nat → Bytes) (d d' : Dir) (b : Bool) (h : convert widen d = (d', .ok b)) (n : Name)
    (k : Kind) (hk : (n, k) ∈ targets d) (x : Bytes) (hx : d.files n = some x) (ht : detectDtype x = .ok k.legacy) :
    d'.files n = some (k.conv widen x).1 ∧ (k.conv widen x).2 = .ok () ∧ b = true := by
  have hh := h
  unfold convert at h
  have h1 := congrArg Prod.fst h
  have h2 := congrArg Prod.snd h
  simp only at h1 h2
  have hall : convAll widen (targets d) d.files false = (d'.files, .ok b) := by
    rw [← h1]
    exact Prod.ext rfl h2
  obtain ⟨_, i2, i3⟩ := convAll_spec _ (targets_oneKind d) _ _ _ _ hall
  have e : convFile widen k x = ((k.conv widen x).1, (k.conv widen x).2.map fun _ => true) := by
    unfold convFile; rw [ht]; simp only; rw [if_pos trivial]
  obtain ⟨b', hb'⟩ := i3 n k x hk hx
  rw [e] at hb'
  obtain ⟨⟨⟩, h3, h4⟩ := map_ok hb'
  refine ⟨by rw [i2 n k hk, hx, Option.map_some, e], h3, ?_⟩
  cases b with
  | true => rfl
  | false =>
    have hd := (C39_report widen d d' false hh).1 rfl
    have hf : d'.files n = some (k.conv widen x).1 := by rw [i2 n k hk, hx, Option.map_some, e]
    rw [hd, hx] at hf
    have hx' : x = (k.conv widen x).1 := by injection hf
    have hm := conv_modern (k := k) (widen := widen) (data := x) h3
    rw [← hx', ht] at hm
    exact absurd (by injection hm with hm; exact hm.symm) (modern_ne_legacy k)

theorem range_slice (g : Nat → Bytes) (w n : Nat) (hg : ∀ i, (g i).length = w) (i : Nat) (h : i < n) :
    (((List.range n).flatMap g).drop (i * w)).take w = g i := by
  have := flatten_sliceC ((List.range n).map g) w (by
    intro r hr
    obtain ⟨j, _, rfl⟩ := List.mem_map.1 hr
    exact hg j) i (by simpa using h)
  rw [← List.flatMap_def] at this
  rw [this]
  simp

theorem range_length (g : Nat → Bytes) (w n : Nat) (hg : ∀ i, (g i).length = w) :
    ((List.range n).flatMap g).length = n * w := by
  rw [List.flatMap_def, flatten_lengthC _ w, List.length_map, List.length_range]
  intro r hr
  obtain ⟨j, _, rfl⟩ := List.mem_map.1 hr
  exact hg j

/-- C39, floats: a C-ordered array of halves of one or two dimensions becomes an array of singles of the same
shape, whose element `i` is the widened element `i`.  The full statement would cover Fortran order as well; it
is false there (`C39_fortran_order_lost`). -/
theorem C39_float_values_partial (widen : Nat → Nat → Bytes) (hw : ∀ a b, (widen a b).length = 4) (f : Bytes) (shape : List Nat)
    (off : Nat) (hp : parseHeader f = .ok (shape, off, false)) (hdim : shape.length = 1 ∨ shape.length = 2)
    (hlen : off + shape.prod * 2 ≤ f.length) (h64 : f.length < 2 ^ 64) :
    ∃ f' off', Kind.float.conv widen f = (f', .ok ()) ∧ parseHeader f' = .ok (shape, off', false) ∧
      detectDtype f' = .ok ['<', 'f', '4'] ∧ f'.length = off' + shape.prod * 4 ∧
      ∀ i < shape.prod, (f'.drop (off' + i * 4)).take 4 = widen (byteAt f (off + 2 * i)) (byteAt f (off + 2 * i + 1)) := by
  have hraw := raw_of_parseHeader hp
  have hlt := rawShape_lt hraw
  have hmod : shape.prod % 2 ^ 64 = shape.prod := Nat.mod_eq_of_lt (by omega)
  have hmod2 : shape.prod * 2 % 2 ^ 64 = shape.prod * 2 := Nat.mod_eq_of_lt (by omega)
  have hn : shape.prod * 2 / 2 = shape.prod := by omega
  have hbody := range_length (fun i => widen (byteAt f (off + 2 * i)) (byteAt f (off + 2 * i + 1))) 4 shape.prod
    (fun i => hw _ _)
  have hslice := range_slice (fun i => widen (byteAt f (off + 2 * i)) (byteAt f (off + 2 * i + 1))) 4 shape.prod
    (fun i => hw _ _)
  have hgo : ∀ H : Bytes, (H ++ (List.range shape.prod).flatMap fun i => widen (byteAt f (off + 2 * i)) (byteAt f (off + 2 * i + 1))).length
      = H.length + shape.prod * 4 ∧ ∀ i < shape.prod, ((H ++ (List.range shape.prod).flatMap fun i =>
        widen (byteAt f (off + 2 * i)) (byteAt f (off + 2 * i + 1))).drop (H.length + i * 4)).take 4 =
          widen (byteAt f (off + 2 * i)) (byteAt f (off + 2 * i + 1)) := by
    intro H
    refine ⟨by rw [List.length_append, hbody], fun i hi => ?_⟩
    rw [List.drop_append, List.drop_eq_nil_of_le (by omega), List.nil_append, Nat.add_sub_cancel_left]
    exact hslice i hi
  have hconv : Kind.float.conv widen f = (match shape with
      | [n] => (writeHeader (dict1d n ['<', 'f', '4']) ++ (List.range shape.prod).flatMap fun i =>
          widen (byteAt f (off + 2 * i)) (byteAt f (off + 2 * i + 1)), .ok ())
      | [r, c] => (writeHeader (dict2d r c ['<', 'f', '4']) ++ (List.range shape.prod).flatMap fun i =>
          widen (byteAt f (off + 2 * i)) (byteAt f (off + 2 * i + 1)), .ok ())
      | _ => ([], .error .err)) := by
    change convF16 widen f = _
    unfold convF16
    split
    · rename_i e he
      rw [hraw] at he
      cases he
    · rename_i s o he
      rw [hraw] at he
      cases he
      simp only [hmod, hmod2, hn]
      rw [if_neg (by omega)]
      rcases shape with _ | ⟨r, _ | ⟨c, _ | ⟨x, l⟩⟩⟩ <;> rfl
  rw [hconv]
  rcases shape with _ | ⟨r, _ | ⟨c, _ | ⟨x, l⟩⟩⟩
  · simp at hdim
  · have hr := hlt r (by simp)
    refine ⟨_, _, rfl, parse_1d r _ (by decide) hr _, detect_1d r _ (by decide) hr _, ?_⟩
    have := hgo (writeHeader (dict1d r ['<', 'f', '4']))
    rw [writeHeader_length] at this
    exact this
  · have hr := hlt r (by simp)
    have hc := hlt c (by simp)
    refine ⟨_, _, rfl, parse_2d r c _ (by decide) hr hc _, detect_2d r c _ (by decide) hr hc _, ?_⟩
    have := hgo (writeHeader (dict2d r c ['<', 'f', '4']))
    rw [writeHeader_length] at this
    exact this
  · simp at hdim

theorem i32_round (v : Int) (h1 : -2 ^ 31 ≤ v) (h2 : v < 2 ^ 31) : i32Val (i32Bytes v) = v := by
  unfold i32Val i32Bytes
  rw [leVal_leBytes]
  have e : (v % 2 ^ 32).toNat % 256 ^ 4 = (v % 2 ^ 32).toNat := Nat.mod_eq_of_lt (by omega)
  rw [e]
  split <;> omega

/-- C39, list lengths: a one-dimensional array of 64-bit integers becomes one of 32-bit integers of the same
length; every value that fits is kept.  The full statement would cover all 64-bit values; it is false for the
others (`C39_length_overflow`). -/
theorem C39_length_values_partial (widen : Nat → Nat → Bytes) (f : Bytes) (n off : Nat) (fo : Bool)
    (hp : parseHeader f = .ok ([n], off, fo)) (hlen : off + n * 8 ≤ f.length) (h64 : f.length < 2 ^ 64) :
    ∃ f' off', Kind.lengths.conv widen f = (f', .ok ()) ∧ parseHeader f' = .ok ([n], off', false) ∧
      detectDtype f' = .ok ['<', 'i', '4'] ∧ f'.length = off' + n * 4 ∧
      ∀ i < n, ∀ v, get1I64 f off i = .ok v → -2 ^ 31 ≤ v → v < 2 ^ 31 → i32Val ((f'.drop (off' + i * 4)).take 4) = v := by
  have hraw := raw_of_parseHeader hp
  have hr := rawShape_lt hraw n (by simp)
  have hmod : n * 8 % 2 ^ 64 = n * 8 := Nat.mod_eq_of_lt (by omega)
  have hn : n * 8 / 8 = n := by omega
  have hconv : Kind.lengths.conv widen f = (writeHeader (dict1d n ['<', 'i', '4']) ++
      (List.range n).flatMap fun i => i32Bytes (i64Val ((f.drop (off + 8 * i)).take 8)), .ok ()) := by
    change convI64 f = _
    unfold convI64
    rw [hraw]
    simp only [hmod, hn]
    rw [if_neg (by omega)]
  rw [hconv]
  have hg : ∀ i, (i32Bytes (i64Val ((f.drop (off + 8 * i)).take 8))).length = 4 := fun i => leBytes_length _ _
  refine ⟨_, _, rfl, parse_1d n _ (by decide) hr _, detect_1d n _ (by decide) hr _, ?_, ?_⟩
  · rw [List.length_append, writeHeader_length, range_length _ 4 n hg]
    rfl
  · intro i hi v hv h1 h2
    have hoff : headerSize1d n ['<', 'i', '4'] = (writeHeader (dict1d n ['<', 'i', '4'])).length := (writeHeader_length _).symm
    rw [hoff, List.drop_append, List.drop_eq_nil_of_le (by omega), List.nil_append, Nat.add_sub_cancel_left,
      range_slice _ 4 n hg i hi]
    unfold get1I64 at hv
    split at hv
    · cases hv
    · rw [Nat.mul_comm 8 i]
      have hv' : i64Val ((f.drop (off + i * 8)).take 8) = v := by injection hv
      rw [hv', i32_round v h1 h2]

/-- C39, residuals: only the header is rewritten. -/
theorem C39_residual_values (widen : Nat → Nat → Bytes) (f : Bytes) (r c off : Nat)
    (hp : parseHeader f = .ok ([r, c], off, false)) (hlen : off + r * c ≤ f.length) (h64 : f.length < 2 ^ 64) :
    ∃ f' off', Kind.residuals.conv widen f = (f', .ok ()) ∧ load2U8 f' = .ok (r, c, off') ∧
      detectDtype f' = .ok ['|', 'u', '1'] ∧ ∀ i < r, row2U8 f' c off' i = row2U8 f c off i := by
  have hraw := raw_of_parseHeader hp
  have hr := rawShape_lt hraw r (by simp)
  have hc := rawShape_lt hraw c (by simp)
  have hmod : r * c % 2 ^ 64 = r * c := Nat.mod_eq_of_lt (by omega)
  have hconv : Kind.residuals.conv widen f = (writeHeader (dict2d r c ['|', 'u', '1']) ++ (f.drop off).take (r * c), .ok ()) := by
    change convU8 f = _
    unfold convU8
    rw [hraw]
    simp only [hmod]
    rw [if_neg (by omega)]
  rw [hconv]
  have hp' := parse_2d r c ['|', 'u', '1'] (by decide) hr hc ((f.drop off).take (r * c))
  have hl : (writeHeader (dict2d r c ['|', 'u', '1'])).length = headerSize2d r c ['|', 'u', '1'] := writeHeader_length _
  have hfl : (writeHeader (dict2d r c ['|', 'u', '1']) ++ (f.drop off).take (r * c)).length =
      headerSize2d r c ['|', 'u', '1'] + r * c := by
    rw [List.length_append, hl, List.length_take, List.length_drop]
    omega
  refine ⟨_, headerSize2d r c ['|', 'u', '1'], rfl, ?_, detect_2d r c _ (by decide) hr hc _, ?_⟩
  · unfold load2U8
    rw [hp']
    simp only
    rw [if_neg (by rw [hfl]; exact Nat.lt_irrefl _)]
  · intro i hi
    have hle : i * c + c ≤ r * c := by rw [← Nat.succ_mul]; exact Nat.mul_le_mul_right _ hi
    unfold row2U8
    rw [if_neg (by omega), if_neg (by omega)]
    congr 1
    rw [← hl, List.drop_append, List.drop_eq_nil_of_le (by omega), List.nil_append, Nat.add_sub_cancel_left,
      List.drop_take, List.take_take, List.drop_drop]
    congr 1
    omega

/-! ### Findings -/

/-- A legacy header as numpy writes it, in either order. -/
def f2Header (order shape : List Char) : Bytes :=
  writeHeader (descrPrefix ++ ['<', 'f', '2'] ++ ['\'', ',', ' ', '\'', 'f', 'o', 'r', 't', 'r', 'a', 'n', '_', 'o', 'r', 'd', 'e', 'r', '\'', ':', ' '] ++ order ++
    [',', ' ', '\'', 's', 'h', 'a', 'p', 'e', '\'', ':', ' ', '('] ++ shape ++ [')', ',', ' ', '}'])

/-- A toy widening, enough to tell elements apart. -/
def toyWiden (a b : Nat) : Bytes := [0, 0, a, b]

/-- The order of the elements is dropped: a Fortran-ordered matrix is rewritten with the same bytes but the
header says C order, so its elements change places (lines 507-531 never look at `fortran_order`). -/
theorem C39_fortran_order_lost :
    ∃ f f' off off', parseHeader f = .ok ([2, 2], off, true) ∧ Kind.float.conv toyWiden f = (f', .ok ()) ∧
      parseHeader f' = .ok ([2, 2], off', false) ∧
      (f.drop off) = [1, 0, 2, 0, 3, 0, 4, 0] ∧ f'.drop off' = [0, 0, 1, 0, 0, 0, 2, 0, 0, 0, 3, 0, 0, 0, 4, 0] :=
  ⟨f2Header ['T', 'r', 'u', 'e'] ['2', ',', ' ', '2'] ++ [1, 0, 2, 0, 3, 0, 4, 0],
   (Kind.float.conv toyWiden (f2Header ['T', 'r', 'u', 'e'] ['2', ',', ' ', '2'] ++ [1, 0, 2, 0, 3, 0, 4, 0])).1,
   129, 129, by decide +kernel, by decide +kernel, by decide +kernel, by decide +kernel, by decide +kernel⟩

/-- A legacy float file with a shape of no or three dimensions is destroyed: the error is reported only after
`File::create` has emptied the file (lines 522-533). -/
theorem C39_unsupported_shape_destroyed :
    ∃ f, detectDtype f = .ok ['<', 'f', '2'] ∧ f.drop 129 = [7, 0] ∧
      convFile toyWiden .float f = ([], .error .err) :=
  ⟨f2Header ['F', 'a', 'l', 's', 'e'] ['1', ',', '1', ',', '1'] ++ [7, 0], by decide +kernel, by decide +kernel, by decide +kernel⟩

/-- Lengths of `2^31` and above do not survive. -/
theorem C39_length_overflow : i32Val (i32Bytes (2 ^ 31)) = -2 ^ 31 := by decide

/-! ### The hypotheses are met -/

def legacyDir : Dir where
  files n := if n = ['c', 'e', 'n', 't', 'r', 'o', 'i', 'd', 's', '.', 'n', 'p', 'y'] then
      some (f2Header ['F', 'a', 'l', 's', 'e'] ['2', ',', ' ', '1'] ++ [1, 2, 3, 4])
    else if n = lengthsFile then some (codesFile [3, 4]) else none
  listing := [['c', 'e', 'n', 't', 'r', 'o', 'i', 'd', 's', '.', 'n', 'p', 'y'], lengthsFile]

example : (convert toyWiden legacyDir).2 = .ok true ∧
    ((convert toyWiden legacyDir).1.files ['c', 'e', 'n', 't', 'r', 'o', 'i', 'd', 's', '.', 'n', 'p', 'y']).map (·.drop 129) =
      some [0, 0, 1, 2, 0, 0, 3, 4] ∧
    ((convert toyWiden legacyDir).1.files lengthsFile).map (·.drop 129) = some [3, 0, 0, 0, 4, 0, 0, 0] := by
  decide +kernel

example : parseHeader (f2Header ['F', 'a', 'l', 's', 'e'] ['2', ',', ' ', '1'] ++ [1, 2, 3, 4]) = .ok ([2, 1], 129, false) := by
  decide +kernel

end NextPlaid.Props
