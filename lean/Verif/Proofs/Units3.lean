import Verif.Proofs.Units2

/-! Every definition has its unit; the whole of `extract_units`. -/

namespace NextPlaid.Units

open NextPlaid.Spec

theorem anyFunction_of_mem {c : Node} : ∀ {cs : List Node}, c ∈ cs → hasFunction c = true → anyFunction cs = true
  | [], h, _ => by cases h
  | a :: cs, h, hc => by
    rw [anyFunction]
    rcases List.mem_cons.1 h with rfl | h
    · simp [hc]
    · simp [anyFunction_of_mem h hc]

theorem hasFunction_child {t c : Node} (h : c ∈ t.children) (hc : hasFunction c = true) : hasFunction t = true := by
  cases t with
  | mk info cs => rw [hasFunction, anyFunction_of_mem (cs := cs) h hc]; simp

theorem hasFunction_of_found {ab : Bool} {p p' : Option Text} {t m : Node} (h : Reached ab p t p' m)
    (hm : hasFunction m = true) : hasFunction t = true := by
  induction h with
  | here => exact hm
  | inner hc _ _ _ ih => exact hasFunction_child hc (ih hm)
  | member _ _ _ _ hb hc _ ih => exact hasFunction_child (List.mem_of_getElem? hb) (hasFunction_child hc (ih hm))

theorem found_some {ab : Bool} {p p' : Option Text} {t m : Node} (h : Reached ab p t p' m) : p ≠ none → p' ≠ none := by
  induction h with
  | here => exact id
  | inner _ _ _ _ ih => exact ih
  | member _ _ _ _ _ _ _ ih => exact fun _ => ih (by simp)

theorem bodyFunction_of : ∀ {i : Nat} {cs : List Node} {b : Node}, cs[i]? = some b → anyFunction b.children = true →
    bodyFunction i cs = true
  | _, [], _, h, _ => by simp at h
  | 0, n :: ns, b, h, hb => by
    obtain rfl : n = b := by simpa using h
    rw [bodyFunction]; exact hb
  | i + 1, n :: ns, b, h, hb => by
    rw [bodyFunction]; exact bodyFunction_of (by simpa using h) hb

theorem bind_append_ok {r r' : Res (List CodeUnit)} {ws : List CodeUnit}
    (h : (r.bind fun us => r'.bind fun vs => .ok (us ++ vs)) = .ok ws) :
    ∃ us vs, r = .ok us ∧ r' = .ok vs ∧ ws = us ++ vs := by
  cases r with
  | error e => simp [Except.bind] at h
  | ok us =>
    cases r' with
    | error e => simp [Except.bind] at h
    | ok vs => exact ⟨us, vs, rfl, rfl, by simpa [Except.bind] using h.symm⟩

theorem extractList_mem {M : Mode} {ls : List Text} {p : Option Text} {d : Nat} {c : Node} :
    ∀ {cs : List Node} {us : List CodeUnit}, c ∈ cs → extractList M ls p d cs = .ok us →
      ∃ vs, extractNode M ls p d c = .ok vs ∧ vs ⊆ us
  | [], _, h, _ => by cases h
  | n :: ns, us, h, he => by
    rw [extractList] at he
    obtain ⟨a, b, ha, hb, rfl⟩ := bind_append_ok he
    rcases List.mem_cons.1 h with rfl | h
    · exact ⟨a, ha, by simp⟩
    · obtain ⟨vs, hv, hs⟩ := extractList_mem h hb
      exact ⟨vs, hv, fun x hx => by simp [hs hx]⟩

theorem extractBody_mem {M : Mode} {ls : List Text} {p : Option Text} {d : Nat} {b c : Node} :
    ∀ {i : Nat} {cs : List Node} {us : List CodeUnit}, cs[i]? = some b → c ∈ b.children →
      extractBody M ls p d i cs = .ok us → ∃ vs, extractNode M ls p d c = .ok vs ∧ vs ⊆ us
  | _, [], _, h, _, _ => by simp at h
  | 0, .mk info kids :: ns, us, h, hc, he => by
    obtain rfl : Node.mk info kids = b := by simpa using h
    rw [extractBody] at he
    exact extractList_mem hc he
  | i + 1, n :: ns, us, h, hc, he => by
    rw [extractBody] at he
    exact extractBody_mem (by simpa using h) hc he

theorem extractNode_found {M : Mode} {ls : List Text} {ab : Bool} {p p' : Option Text} {t m : Node}
    (h : Reached ab p t p' m) (hab : ab = true → M.eager = true)
    (hm : M.eager = true ∨ hasFunction m = true ∨ p' = none) :
    ∀ {d : Nat} {us : List CodeUnit}, extractNode M ls p d t = .ok us →
      ∃ d' vs, d' ≤ M.maxDepth ∧ extractNode M ls p' d' m = .ok vs ∧ vs ⊆ us := by
  induction h with
  | here p t =>
    intro d us he
    refine ⟨d, us, ?_, he, List.Subset.refl _⟩
    cases t with
    | mk info cs =>
      rw [extractNode] at he
      by_contra hd
      rw [if_pos (by omega)] at he; simp at he
  | @inner p p' t c m hc hcl hco hf ih =>
    intro d us he
    obtain ⟨info, cs⟩ := t
    simp only [Node.info] at hcl hco
    rw [extractNode] at he
    split at he
    · simp at he
    · have hlist : ∃ vs, extractList M ls p (d + 1) cs = .ok vs ∧ vs ⊆ us := by
        split at he
        · obtain ⟨a, b, _, hb, rfl⟩ := bind_append_ok he
          exact ⟨b, hb, by simp⟩
        · rename_i hk
          split at he
          · rename_i name hn
            exact absurd ⟨hk, by simp [hn]⟩ hcl
          · exact ⟨us, he, List.Subset.refl _⟩
        · rename_i hk
          split at he
          · rename_i hp
            exact absurd ⟨hk, by simpa using hp⟩ hco
          · exact ⟨us, he, List.Subset.refl _⟩
        · exact ⟨us, he, List.Subset.refl _⟩
      obtain ⟨vs, hvs, hsub⟩ := hlist
      obtain ⟨ws, hws, hsub'⟩ := extractList_mem hc hvs
      obtain ⟨d', xs, hd', hxs, hsub''⟩ := ih hm hws
      exact ⟨d', xs, hd', hxs, fun x hx => hsub (hsub' (hsub'' hx))⟩
  | @member p p' t b c m name i hk hn hab' hb hget hc hf ih =>
    intro d us he
    obtain ⟨info, cs⟩ := t
    simp only [Node.info, Node.children] at hk hn hab' hb hget
    rw [extractNode, hk, hn, hb] at he
    split at he
    · simp at he
    · simp only at he
      have hdesc : descends M info i cs = true := by
        unfold descends
        rcases hm with h | h | h
        · simp [h]
        · by_cases hE : M.eager = true
          · simp [hE]
          · have habf : ab = false := by
              by_contra hc'
              exact hE (hab (by simpa using hc'))
            have hfun := hasFunction_of_found hf h
            rw [bodyFunction_of hget (anyFunction_of_mem hc hfun), hab' habf]
            simp
        · exact absurd h (found_some hf (by simp))
      rw [hdesc] at he
      cases hcu : classUnit M.lang ls info name with
      | error e => rw [hcu] at he; simp [Except.bind] at he
      | ok u =>
        rw [hcu] at he
        simp only [Except.bind, if_true] at he
        cases hbody : extractBody M ls (some name) (d + 1) i cs with
        | error e => rw [hbody] at he; simp at he
        | ok vs =>
          rw [hbody] at he
          simp only at he
          obtain rfl : u :: vs = us := by simpa using he
          obtain ⟨ws, hws, hsub⟩ := extractBody_mem hget hc hbody
          obtain ⟨d', xs, hd', hxs, hsub'⟩ := ih hm hws
          exact ⟨d', xs, hd', hxs, fun x hx => by simp [hsub (hsub' hx)]⟩

/-- The unit of a function that is found. -/
theorem extractNode_function {M : Mode} {ls : List Text} {p : Option Text} {d : Nat} {m : Node} {us : List CodeUnit}
    (he : extractNode M ls p d m = .ok us) (hk : m.info.kind = .function) {name : Text} (hn : m.info.name = some name)
    (h1 : m.info.startRow ≤ m.info.endRow) (h2 : m.info.startRow ≤ ls.length) :
    ∃ u ∈ us, u.name = name ∧ u.calls = m.info.calls ∧ u.endLine = m.info.endRow + 1 ∧
        (∃ start, u.line = start + 1 ∧ StartsAt M.lang ls m.info.startRow start) ∧
        u.parent = p.or m.info.receiver ∧
        (u.utype = if (p.or m.info.receiver).isSome then .method else .function) := by
  obtain ⟨info, cs⟩ := m
  simp only [Node.info] at hk hn h1 h2 ⊢
  rw [extractNode, hk] at he
  split at he
  · simp at he
  · obtain ⟨a, b, ha, _, rfl⟩ := bind_append_ok he
    obtain ⟨us, hus, _, hall⟩ := functionUnits_ok M.lang ls p info h1 h2
    rw [ha] at hus
    obtain rfl : a = us := by simpa using hus
    obtain ⟨u, hu, hrest⟩ := hall name hn
    exact ⟨u, by simp [hu], hrest⟩

theorem extractNode_class {M : Mode} {ls : List Text} {p : Option Text} {d : Nat} {m : Node} {us : List CodeUnit}
    (he : extractNode M ls p d m = .ok us) (hk : m.info.kind = .class) {name : Text} (hn : m.info.name = some name)
    (h1 : m.info.startRow ≤ m.info.endRow) (h2 : m.info.startRow ≤ ls.length) :
    ∃ u ∈ us, u.name = name ∧ u.calls = m.info.calls ∧ u.endLine = m.info.endRow + 1 ∧
        (∃ start, u.line = start + 1 ∧ StartsAt M.lang ls m.info.startRow start) ∧ u.utype = .class := by
  obtain ⟨info, cs⟩ := m
  simp only [Node.info] at hk hn h1 h2 ⊢
  obtain ⟨u, hu, hok, a1, a2, a3, a4, a5, a6⟩ := declUnit_ok M.lang ls info name .class none info.calls h1 h2 (by simp)
  rw [extractNode, hk, hn] at he
  split at he
  · simp at he
  · simp only [show classUnit M.lang ls info name = .ok u from hu, Except.bind] at he
    refine ⟨u, ?_, a1, a4, a5, a6, a2⟩
    split at he
    · obtain rfl : [u] = us := by simpa using he
      simp
    · split at he
      · cases hbody : extractBody M ls (some name) (d + 1) _ cs with
        | error e => rw [hbody] at he; simp at he
        | ok vs =>
          rw [hbody] at he
          simp only at he
          obtain rfl : u :: vs = us := by simpa using he
          simp
      · obtain rfl : [u] = us := by simpa using he
        simp

theorem extractNode_constant {M : Mode} {ls : List Text} {d : Nat} {m : Node} {us : List CodeUnit}
    (he : extractNode M ls none d m = .ok us) (hk : m.info.kind = .constant) {name : Text} (hn : m.info.name = some name)
    (hpy : M.lang = .python → isPythonConstant name = true)
    (h1 : m.info.startRow ≤ m.info.endRow) (h2 : m.info.startRow ≤ ls.length) :
    ∃ u ∈ us, u.name = name ∧ u.endLine = m.info.endRow + 1 ∧
        (∃ start, u.line = start + 1 ∧ StartsAt M.lang ls m.info.startRow start) ∧
        (u.utype = if M.lang = .typescript ∧ m.info.arrow = true then .function else .constant) := by
  obtain ⟨info, cs⟩ := m
  simp only [Node.info] at hk hn h1 h2 ⊢
  rw [extractNode, hk] at he
  split at he
  · simp at he
  · obtain ⟨vs, hvs, _, hall⟩ := constantUnits_ok M.lang ls info h1 h2
    simp only [Option.isNone_none, if_true] at he
    rw [he] at hvs
    obtain rfl : us = vs := by simpa using hvs
    exact hall name hn hpy

theorem found_within {ab : Bool} {p p' : Option Text} {t m : Node} (h : Reached ab p t p' m) : ∃ k, WithinAt k t m := by
  induction h with
  | here p t => exact ⟨0, .self t⟩
  | inner hc _ _ _ ih =>
    obtain ⟨k, hk⟩ := ih
    exact ⟨k + 1, .child hc hk⟩
  | member _ _ _ _ hb hc _ ih =>
    obtain ⟨k, hk⟩ := ih
    exact ⟨k + 1 + 1, .child (List.mem_of_getElem? hb) (.child hc hk)⟩

/-! ### `extract_units` -/

theorem covered_iff {total : Nat} {units : List CodeUnit} {n : Nat} (hn : n ≤ total) :
    covered total units n = true ↔ ∃ u ∈ units, Covers u n := by
  unfold covered Covers
  rw [List.any_eq_true]
  constructor
  · rintro ⟨u, hu, h⟩
    simp only [decide_eq_true_eq] at h
    exact ⟨u, hu, by omega⟩
  · rintro ⟨u, hu, h⟩
    refine ⟨u, hu, ?_⟩
    simp only [decide_eq_true_eq]
    omega

/-- The units of a file: those of its declarations, then the raw ones. -/
theorem extractUnits_ok {lang : Lang} {maxDepth : Nat} {source : Text} {t : Node} (hf : Fits t (lines source).length)
    (hd : NotDeeper t maxDepth) :
    ∃ decls raws, extractNode ⟨lang, maxDepth, false⟩ (lines source) none 0 t = .ok decls ∧
      extractUnits lang maxDepth source (some t) = .ok (decls ++ raws) ∧
      (∀ u ∈ decls, DeclOk (lines source) u) ∧
      GapsOk (lines source) (covered (lines source).length decls) 0 raws := by
  obtain ⟨h1, h2, h3⟩ := extractNode_outcome ⟨lang, maxDepth, false⟩ (lines source) t none 0 hf
  obtain ⟨decls, he⟩ := h3 ⟨Nat.zero_le _, hd⟩
  have hdecl := h1 decls he
  have hbad : decls.any (badRange (lines source).length) = false := by
    rw [List.any_eq_false]
    intro u hu
    obtain ⟨⟨_, hle, _⟩, _⟩ := hdecl u hu
    unfold badRange
    simp only [decide_eq_true_eq]
    omega
  rcases hl : lines source with _ | ⟨l, ls⟩
  · rw [hl] at he hdecl
    refine ⟨decls, [], he, ?_, hdecl, by simp, ?_, .nil⟩
    · unfold extractUnits fillGaps
      simp only [hl, he]
      simp
    · intro n hn ht
      have := textAt_le ht
      simp at this; omega
  · have hg := gaps_ok (lines source) (covered (lines source).length decls) (lines source) 0 none rfl (Nat.zero_le _) trivial
    simp only [settled] at hg
    refine ⟨decls, gaps (lines source) (covered (lines source).length decls) 0 none (lines source), ?_, ?_, ?_, ?_⟩
    · rw [← hl]; exact he
    · unfold extractUnits fillGaps
      simp only [he, hbad]
      rw [hl]; simp
    · rw [← hl]; exact hdecl
    · rw [← hl]; exact hg

end NextPlaid.Units
