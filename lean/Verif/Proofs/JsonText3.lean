import Verif.Proofs.JsonText2

/-! A value nested too deep is refused. -/

namespace NextPlaid.JsonText
open NextPlaid.Spec

variable {R : Type} {F : Reals R}

mutual

theorem value_deep (hF : LawfulReals F) : ∀ (v : J R) (n d : Nat) (y : Layout) (rest : List Char), Writable F v → 0 < d → d ≤ depth v →
    2 * (render F y v).length ≤ n → value F n d (render F y v ++ rest) = none
  | .null, _, _, _, _, _, h0, hd, _ => by simp only [depth] at hd; omega
  | .bool _, _, _, _, _, _, h0, hd, _ => by simp only [depth] at hd; omega
  | .int _, _, _, _, _, _, h0, hd, _ => by simp only [depth] at hd; omega
  | .real _, _, _, _, _, _, h0, hd, _ => by simp only [depth] at hd; omega
  | .str _, _, _, _, _, _, h0, hd, _ => by simp only [depth] at hd; omega
  | .arr [], 0, _, _, _, _, _, _, _ => by unfold value; rfl
  | .arr [], n + 1, d, y, rest, _, h0, hd, _ => by
    simp only [depth, depthItems] at hd
    unfold render value
    simp only [List.cons_append, List.nil_append]
    rw [skip_cons (by decide)]
    dsimp only
    rw [if_neg (by decide), if_neg (by decide), if_neg (by decide), if_neg (by decide), if_pos rfl, if_pos (by omega)]
  | .arr (v :: l), 0, _, _, _, _, _, _, _ => by unfold value; rfl
  | .arr (v :: l), n + 1, d, y, rest, hw, h0, hd, hn => by
    unfold render at hn ⊢
    simp only [depth] at hd
    unfold value
    rw [List.cons_append, skip_cons (by decide)]
    dsimp only
    rw [if_neg (by decide), if_neg (by decide), if_neg (by decide), if_neg (by decide), if_pos rfl]
    by_cases h2 : d < 2
    · rw [if_pos h2]
    · obtain ⟨c, t, hc, hws, hne, _⟩ := render_start hF (deeper y) v
      have hi := items_deep hF v l n (d - 1) y rest hw (by omega) (by omega) (by
        rw [List.length_cons] at hn
        omega)
      rw [if_neg h2, if_neg (by
        rw [hc, List.append_assoc, List.append_assoc, skip_start hws]
        simpa using hne), hi]
      rfl
  | .obj [], 0, _, _, _, _, _, _, _ => by unfold value; rfl
  | .obj [], n + 1, d, y, rest, _, h0, hd, _ => by
    simp only [depth, depthMembers] at hd
    unfold render value
    simp only [List.cons_append, List.nil_append]
    rw [skip_cons (by decide)]
    dsimp only
    rw [if_neg (by decide), if_neg (by decide), if_neg (by decide), if_neg (by decide), if_neg (by decide), if_pos rfl, if_pos (by omega)]
  | .obj ((k, v) :: l), 0, _, _, _, _, _, _, _ => by unfold value; rfl
  | .obj ((k, v) :: l), n + 1, d, y, rest, hw, h0, hd, hn => by
    unfold render at hn ⊢
    simp only [depth] at hd
    unfold value
    rw [List.cons_append, skip_cons (by decide)]
    dsimp only
    rw [if_neg (by decide), if_neg (by decide), if_neg (by decide), if_neg (by decide), if_neg (by decide), if_pos rfl]
    by_cases h2 : d < 2
    · rw [if_pos h2]
    · have hi := members_deep hF k v l n (d - 1) y rest hw (by omega) (by omega) (by
        rw [List.length_cons] at hn
        omega)
      rw [if_neg h2, if_neg (by
        unfold renderEntry quote
        simp only [List.cons_append, List.append_assoc]
        rw [skip_gap, skip_cons (by decide)]
        simp), hi]
      rfl

  termination_by v => sizeOf v

theorem items_deep (hF : LawfulReals F) : ∀ (v : J R) (l : List (J R)) (n d : Nat) (y : Layout) (rest : List Char), WritableItems F (v :: l) →
    0 < d → d ≤ depthItems (v :: l) → 2 * (gap y ++ render F (deeper y) v ++ renderItems F y l).length ≤ n →
    items F n d (gap y ++ render F (deeper y) v ++ renderItems F y l ++ rest) = none
  | v, l, 0, d, y, rest, _, _, _, _ => by unfold items; rfl
  | v, [], n + 1, d, y, rest, hw, h0, hd, hn => by
    unfold WritableItems at hw
    unfold depthItems depthItems at hd
    have hlen : 0 < (renderItems F y ([] : List (J R))).length := by simp [renderItems]
    rw [List.length_append, List.length_append] at hn
    unfold items
    rw [List.append_assoc, List.append_assoc, value_gap, value_deep hF v n d (deeper y) _ hw.1 h0 (by omega) (by omega)]
    rfl
  | v, w :: l, n + 1, d, y, rest, hw, h0, hd, hn => by
    unfold WritableItems at hw
    unfold depthItems at hd
    have hlen : 0 < (renderItems F y (w :: l)).length := by simp [renderItems]
    rw [List.length_append, List.length_append] at hn
    unfold items
    rw [List.append_assoc, List.append_assoc, value_gap]
    by_cases hv : d ≤ depth v
    · rw [value_deep hF v n d (deeper y) _ hw.1 h0 hv (by omega)]
      rfl
    · obtain ⟨c0, t0, hc0, _⟩ := render_start hF (deeper y) v
      have hpos : 0 < (render F (deeper y) v).length := by rw [hc0]; simp
      rw [value_render hF v n d (deeper y) _ hw.1 (by omega) (by omega) (free_items y (w :: l) rest), Option.bind_some]
      unfold renderItems
      dsimp only
      rw [List.cons_append, skip_cons (by decide)]
      dsimp only
      unfold renderItems at hn
      rw [if_pos rfl, items_deep hF w l n d y rest hw.2 h0 (by omega) (by
        rw [List.length_cons] at hn
        omega)]
      rfl

  termination_by v l => sizeOf (v :: l)

theorem members_deep (hF : LawfulReals F) : ∀ (k : List Char) (v : J R) (l : List (List Char × J R)) (n d : Nat) (y : Layout) (rest : List Char),
    WritableMembers F ((k, v) :: l) → 0 < d → d ≤ depthMembers ((k, v) :: l) →
    2 * (gap y ++ renderEntry F y (k, v) ++ renderMembers F y l).length ≤ n →
    members F n d (gap y ++ renderEntry F y (k, v) ++ renderMembers F y l ++ rest) = none
  | k, v, l, 0, d, y, rest, _, _, _, _ => by unfold members; rfl
  | k, v, [], n + 1, d, y, rest, hw, h0, hd, hn => by
    unfold WritableMembers at hw
    unfold depthMembers at hd
    have hlen : 0 < (renderMembers F y ([] : List (List Char × J R))).length := by simp [renderMembers]
    have hcol : 0 < (colon y).length := by cases y <;> simp [colon]
    have hq : 0 < (quote k).length := by simp [quote]
    unfold renderEntry at hn ⊢
    simp only [List.length_append] at hn
    unfold members quote
    simp only [List.append_assoc, List.cons_append]
    rw [skip_gap, skip_cons (by decide)]
    dsimp only
    rw [if_pos rfl, List.nil_append, string_flatMap, Option.bind_some]
    dsimp only
    have hskip : ∃ u, colon y ++ (render F (deeper y) v ++ (renderMembers F y ([] : List (List Char × J R)) ++ rest)) = ':' :: u ∧
        value F n d u = value F n d (render F (deeper y) v ++ (renderMembers F y ([] : List (List Char × J R)) ++ rest)) := by
      cases y with
      | none => exact ⟨_, rfl, rfl⟩
      | some j => exact ⟨' ' :: (render F (deeper (some j)) v ++ (renderMembers F (some j) ([] : List (List Char × J R)) ++ rest)), rfl, value_space ..⟩
    obtain ⟨u, hu, hval⟩ := hskip
    rw [hu, skip_cons (by decide)]
    dsimp only
    rw [if_pos rfl, hval]
    by_cases hv : d ≤ depth v
    · rw [value_deep hF v n d (deeper y) _ hw.1 h0 hv (by omega)]
      rfl
    · unfold depthMembers at hd; omega
  | k, v, (k', w) :: l, n + 1, d, y, rest, hw, h0, hd, hn => by
    unfold WritableMembers at hw
    unfold depthMembers at hd
    have hlen : 0 < (renderMembers F y ((k', w) :: l)).length := by simp [renderMembers]
    have hcol : 0 < (colon y).length := by cases y <;> simp [colon]
    have hq : 0 < (quote k).length := by simp [quote]
    unfold renderEntry at hn ⊢
    simp only [List.length_append] at hn
    unfold members quote
    simp only [List.append_assoc, List.cons_append]
    rw [skip_gap, skip_cons (by decide)]
    dsimp only
    rw [if_pos rfl, List.nil_append, string_flatMap, Option.bind_some]
    dsimp only
    have hskip : ∃ u, colon y ++ (render F (deeper y) v ++ (renderMembers F y ((k', w) :: l) ++ rest)) = ':' :: u ∧
        value F n d u = value F n d (render F (deeper y) v ++ (renderMembers F y ((k', w) :: l) ++ rest)) := by
      cases y with
      | none => exact ⟨_, rfl, rfl⟩
      | some j => exact ⟨' ' :: (render F (deeper (some j)) v ++ (renderMembers F (some j) ((k', w) :: l) ++ rest)), rfl, value_space ..⟩
    obtain ⟨u, hu, hval⟩ := hskip
    rw [hu, skip_cons (by decide)]
    dsimp only
    rw [if_pos rfl, hval]
    by_cases hv : d ≤ depth v
    · rw [value_deep hF v n d (deeper y) _ hw.1 h0 hv (by omega)]
      rfl
    · rw [value_render hF v n d (deeper y) _ hw.1 (by omega) (by omega) (free_members y ((k', w) :: l) rest), Option.bind_some]
      unfold renderMembers
      dsimp only
      rw [List.cons_append, skip_cons (by decide)]
      dsimp only
      unfold renderMembers at hn
      rw [if_pos rfl, members_deep hF k' w l n d y rest hw.2 h0 (by omega) (by
        rw [List.length_cons] at hn
        unfold renderEntry at hn ⊢
        simp only [List.length_append] at hn ⊢
        omega)]
      rfl

  termination_by k v l => sizeOf ((k, v) :: l)

end

theorem parse_deep (hF : LawfulReals F) (y : Layout) (v : J R) (hw : Writable F v) (hd : 128 ≤ depth v) : parse F (render F y v) = none := by
  unfold parse
  have := value_deep hF v (2 * (render F y v).length + 2) 128 y [] hw (by omega) hd (by omega)
  rw [List.append_nil] at this
  rw [this]

end NextPlaid.JsonText
