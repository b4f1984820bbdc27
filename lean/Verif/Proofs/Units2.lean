import Verif.Proofs.Units

/-! What `extract_from_node` returns. -/

namespace NextPlaid.Units

open NextPlaid.Spec

theorem fits_child {t c : Node} {rows : Nat} (h : Fits t rows) (hc : c ∈ t.children) : Fits c rows :=
  fun k m hm => h (k + 1) m (.child hc hm)

theorem deeper_child {t c : Node} {d : Nat} (h : NotDeeper t d) (hc : c ∈ t.children) : 1 ≤ d ∧ NotDeeper c (d - 1) :=
  ⟨h 1 c (.child hc (.self c)), fun k m hm => by have := h (k + 1) m (.child hc hm); omega⟩

/-- What every unit made from a node is. -/
def DeclOk (ls : List Text) (u : CodeUnit) : Prop :=
  CodeIs ls u ∧ u.utype ≠ .rawCode ∧ u.calledBy = [] ∧ u.line ≤ ls.length + 1

theorem declUnit_ok (lang : Lang) (ls : List Text) (info : Info) (name : Text) (utype : UnitType) (parent : Option Text)
    (calls : List Text) (h1 : info.startRow ≤ info.endRow) (h2 : info.startRow ≤ ls.length) (ht : utype ≠ .rawCode) :
    ∃ u, declUnit lang ls info name utype parent calls = .ok u ∧ DeclOk ls u ∧ u.name = name ∧ u.utype = utype ∧
      u.parent = parent ∧ u.calls = calls ∧ u.endLine = info.endRow + 1 ∧
      ∃ start, u.line = start + 1 ∧ StartsAt lang ls info.startRow start := by
  have hs := findStart_spec lang ls info.startRow
  have hle := hs.1
  refine ⟨_, by unfold declUnit slice; rw [if_pos ⟨by omega, by omega⟩]; rfl, ⟨⟨by simp, by simp; omega, ?_⟩, ht, rfl,
    by simp; omega⟩, rfl, rfl, rfl, rfl, rfl, _, rfl, hs⟩
  show joinNl _ = _
  rw [joinNl_eq]
  congr 1
  simp only [Nat.add_sub_cancel]
  rcases Nat.le_total (info.endRow + 1) ls.length with h | h
  · rw [min_eq_left h]; congr 1; omega
  · rw [min_eq_right h, List.take_of_length_le (by simp), List.take_of_length_le (by simp; omega)]

/-- The unit of a function: a method when it is in a class or has a receiver. -/
theorem functionUnits_ok (lang : Lang) (ls : List Text) (parent : Option Text) (info : Info)
    (h1 : info.startRow ≤ info.endRow) (h2 : info.startRow ≤ ls.length) :
    ∃ us, functionUnits lang ls parent info = .ok us ∧ (∀ u ∈ us, DeclOk ls u) ∧
      ∀ name, info.name = some name → ∃ u ∈ us, u.name = name ∧ u.calls = info.calls ∧ u.endLine = info.endRow + 1 ∧
        (∃ start, u.line = start + 1 ∧ StartsAt lang ls info.startRow start) ∧
        u.parent = parent.or info.receiver ∧
        (u.utype = if (parent.or info.receiver).isSome then .method else .function) := by
  unfold functionUnits
  cases hn : info.name with
  | none => exact ⟨[], rfl, by simp, by simp⟩
  | some name =>
    cases parent with
    | some p =>
      obtain ⟨u, he, hok, a1, a2, a3, a4, a5, a6⟩ := declUnit_ok lang ls info name .method (some p) info.calls h1 h2 (by simp)
      refine ⟨[u], by simp only [he]; rfl, by simpa using hok, ?_⟩
      intro name' hn'
      obtain rfl : name = name' := by simpa using hn'
      exact ⟨u, by simp, a1, a4, a5, a6, by simp [a3], by simp [a2]⟩
    | none =>
      cases hr : info.receiver with
      | some r =>
        obtain ⟨u, he, hok, a1, a2, a3, a4, a5, a6⟩ := declUnit_ok lang ls info name .method (some r) info.calls h1 h2 (by simp)
        refine ⟨[u], by simp only [he]; rfl, by simpa using hok, ?_⟩
        intro name' hn'
        obtain rfl : name = name' := by simpa using hn'
        exact ⟨u, by simp, a1, a4, a5, a6, by simp [a3], by simp [a2]⟩
      | none =>
        obtain ⟨u, he, hok, a1, a2, a3, a4, a5, a6⟩ := declUnit_ok lang ls info name .function none info.calls h1 h2 (by simp)
        refine ⟨[u], by simp only [he]; rfl, by simpa using hok, ?_⟩
        intro name' hn'
        obtain rfl : name = name' := by simpa using hn'
        exact ⟨u, by simp, a1, a4, a5, a6, by simp [a3], by simp [a2]⟩

/-- The unit of a constant. -/
theorem constantUnits_ok (lang : Lang) (ls : List Text) (info : Info)
    (h1 : info.startRow ≤ info.endRow) (h2 : info.startRow ≤ ls.length) :
    ∃ us, constantUnits lang ls info = .ok us ∧ (∀ u ∈ us, DeclOk ls u) ∧
      ∀ name, info.name = some name → (lang = .python → isPythonConstant name = true) →
        ∃ u ∈ us, u.name = name ∧ u.endLine = info.endRow + 1 ∧
        (∃ start, u.line = start + 1 ∧ StartsAt lang ls info.startRow start) ∧
        (u.utype = if lang = .typescript ∧ info.arrow = true then .function else .constant) := by
  unfold constantUnits
  cases hn : info.name with
  | none => exact ⟨[], rfl, by simp, by simp⟩
  | some name =>
    simp only
    split
    · rename_i hp
      refine ⟨[], rfl, by simp, ?_⟩
      intro name' hn' hpy
      obtain rfl : name = name' := by simpa using hn'
      have := hpy hp.1; rw [hp.2] at this; simp at this
    · split
      · rename_i ha
        obtain ⟨u, he, hok, a1, a2, a3, a4, a5, a6⟩ := declUnit_ok lang ls info name .function none info.calls h1 h2 (by simp)
        refine ⟨[u], by simp only [he]; rfl, by simpa using hok, ?_⟩
        intro name' hn' _
        obtain rfl : name = name' := by simpa using hn'
        exact ⟨u, by simp, a1, a5, a6, a2⟩
      · obtain ⟨u, he, hok, a1, a2, a3, a4, a5, a6⟩ := declUnit_ok lang ls info name .constant none [] h1 h2 (by simp)
        refine ⟨[u], by simp only [he]; rfl, by simpa using hok, ?_⟩
        intro name' hn' _
        obtain rfl : name = name' := by simpa using hn'
        exact ⟨u, by simp, a1, a5, a6, a2⟩

/-- No panic, every unit is what it should be, and the depth limit is hit only by a deep tree. -/
def Outcome (ls : List Text) (shallow : Prop) (r : Res (List CodeUnit)) : Prop :=
  (∀ us, r = .ok us → ∀ u ∈ us, DeclOk ls u) ∧ r ≠ .error .panic ∧ (shallow → ∃ us, r = .ok us)

theorem Outcome.mono {ls : List Text} {p q : Prop} {r : Res (List CodeUnit)} (h : Outcome ls p r) (hpq : q → p) :
    Outcome ls q r := ⟨h.1, h.2.1, fun hq => h.2.2 (hpq hq)⟩

theorem Outcome.append {ls : List Text} {p : Prop} {r r' : Res (List CodeUnit)} (h : Outcome ls p r) (h' : Outcome ls p r') :
    Outcome ls p (r.bind fun us => r'.bind fun vs => .ok (us ++ vs)) := by
  obtain ⟨a1, a2, a3⟩ := h
  obtain ⟨b1, b2, b3⟩ := h'
  cases hr : r with
  | error e => 
    refine ⟨by simp [Except.bind], by simpa [Except.bind, hr] using a2, fun hp => ?_⟩
    obtain ⟨us, hus⟩ := a3 hp; rw [hr] at hus; simp at hus
  | ok us =>
    cases hr' : r' with
    | error e =>
      refine ⟨by simp [Except.bind], by simpa [Except.bind, hr'] using b2, fun hp => ?_⟩
      obtain ⟨us, hus⟩ := b3 hp; rw [hr'] at hus; simp at hus
    | ok vs =>
      refine ⟨?_, by simp [Except.bind], fun _ => ⟨us ++ vs, rfl⟩⟩
      intro ws hws u hu
      obtain rfl : us ++ vs = ws := by simpa [Except.bind] using hws
      rcases List.mem_append.1 hu with h | h
      · exact a1 us hr u h
      · exact b1 vs hr' u h

theorem Outcome.of_ok {ls : List Text} {p : Prop} {us : List CodeUnit} (h : ∀ u ∈ us, DeclOk ls u) :
    Outcome ls p (.ok us) :=
  ⟨fun vs hv => by obtain rfl : us = vs := by simpa using hv
                   exact h, by simp, fun _ => ⟨us, rfl⟩⟩

mutual
theorem extractNode_outcome (M : Mode) (ls : List Text) : ∀ (n : Node) (parent : Option Text) (depth : Nat),
    Fits n ls.length → Outcome ls (depth ≤ M.maxDepth ∧ NotDeeper n (M.maxDepth - depth)) (extractNode M ls parent depth n)
  | .mk info children, parent, depth, hf => by
    rw [extractNode]
    obtain ⟨hr1, hr2⟩ := hf 0 _ (.self _)
    simp only [Node.info] at hr1 hr2
    have hkids : ∀ p, Outcome ls (depth ≤ M.maxDepth ∧ NotDeeper (.mk info children) (M.maxDepth - depth))
        (extractList M ls p (depth + 1) children) := by
      intro p
      refine (extractList_outcome M ls children p (depth + 1) (fun c hc => fits_child hf hc)).mono ?_
      rintro ⟨hd, hdeep⟩ c hc
      obtain ⟨h1, h2⟩ := deeper_child hdeep (c := c) hc
      exact ⟨by omega, fun k m hm => by have := h2 k m hm; omega⟩
    split
    · rename_i hd
      exact ⟨by simp, by simp, fun h => by omega⟩
    · rename_i hd
      split
      · obtain ⟨us, he, hok, _⟩ := functionUnits_ok M.lang ls parent info hr1 hr2
        rw [he]
        exact (Outcome.of_ok hok).append (hkids parent)
      · split
        · rename_i name hn
          obtain ⟨u, he, hok, _⟩ := declUnit_ok M.lang ls info name .class none info.calls hr1 hr2 (by simp)
          rw [show classUnit M.lang ls info name = .ok u from he]
          simp only [Except.bind]
          split
          · exact Outcome.of_ok (by simpa using hok)
          · rename_i i hb
            split
            · have := Outcome.append (ls := ls) (Outcome.of_ok (us := [u]) (by simpa using hok))
                ((extractBody_outcome M ls children (some name) (depth + 1) i (fun c hc => fits_child hf hc)).mono
                  (q := depth ≤ M.maxDepth ∧ NotDeeper (.mk info children) (M.maxDepth - depth)) (by
                  rintro ⟨hd, hdeep⟩ c hc
                  obtain ⟨h1, h2⟩ := deeper_child hdeep (c := c) hc
                  exact ⟨by omega, fun k m hm => by have := h2 k m hm; omega⟩))
              exact this
            · exact Outcome.of_ok (by simpa using hok)
        · exact hkids parent
      · split
        · obtain ⟨us, he, hok, _⟩ := constantUnits_ok M.lang ls info hr1 hr2
          rw [he]
          exact Outcome.of_ok hok
        · exact hkids _
      · exact hkids parent
theorem extractList_outcome (M : Mode) (ls : List Text) : ∀ (cs : List Node) (parent : Option Text) (depth : Nat),
    (∀ c ∈ cs, Fits c ls.length) →
    Outcome ls (∀ c ∈ cs, depth ≤ M.maxDepth ∧ NotDeeper c (M.maxDepth - depth)) (extractList M ls parent depth cs)
  | [], parent, depth, _ => by rw [extractList]; exact Outcome.of_ok (by simp)
  | n :: ns, parent, depth, hf => by
    rw [extractList]
    exact Outcome.append
      ((extractNode_outcome M ls n parent depth (hf n (by simp))).mono fun h => h n (by simp))
      ((extractList_outcome M ls ns parent depth (fun c hc => hf c (by simp [hc]))).mono fun h c hc => h c (by simp [hc]))
theorem extractBody_outcome (M : Mode) (ls : List Text) : ∀ (cs : List Node) (parent : Option Text) (depth : Nat) (i : Nat),
    (∀ c ∈ cs, Fits c ls.length) →
    Outcome ls (∀ c ∈ cs, depth ≤ M.maxDepth ∧ NotDeeper c (M.maxDepth - depth)) (extractBody M ls parent depth i cs)
  | [], parent, depth, i, _ => by rw [extractBody]; exact Outcome.of_ok (by simp)
  | .mk info kids :: ns, parent, depth, 0, hf => by
    rw [extractBody]
    refine (extractList_outcome M ls kids parent depth (fun c hc => fits_child (hf (.mk info kids) (by simp)) hc)).mono ?_
    intro h c hc
    obtain ⟨h1, h2⟩ := h (.mk info kids) (by simp)
    obtain ⟨h3, h4⟩ := deeper_child h2 (c := c) hc
    exact ⟨h1, fun k m hm => by have := h4 k m hm; omega⟩
  | n :: ns, parent, depth, i + 1, hf => by
    rw [extractBody]
    exact (extractBody_outcome M ls ns parent depth i (fun c hc => hf c (by simp [hc]))).mono fun h c hc => h c (by simp [hc])
end

end NextPlaid.Units
