import Verif.Proofs.Units3

/-! Every unit of a declaration describes a definition of the file. -/

namespace NextPlaid.Units

open NextPlaid.Spec

theorem capitals_iff (name : Text) : isPythonConstant name = true ↔ Capitals name := by
  unfold isPythonConstant Capitals
  rw [Bool.and_eq_true, List.any_eq_true, List.all_eq_true]
  refine and_congr (exists_congr fun c => and_congr_right fun _ => ?_) (forall₂_congr fun c _ => ?_)
  · simp only [Char.isAlpha, Char.isUpper, Char.isLower, Bool.or_eq_true, Bool.and_eq_true, decide_eq_true_eq]
    exact Iff.rfl
  · simp only [Char.isUpper, Char.isDigit, Bool.or_eq_true, Bool.and_eq_true, decide_eq_true_eq, beq_iff_eq, or_assoc]
    exact Iff.rfl

theorem declUnit_eq {lang : Lang} {ls : List Text} {info : Info} {name : Text} {utype : UnitType} {parent : Option Text}
    {calls : List Text} {us : List CodeUnit}
    (h : (declUnit lang ls info name utype parent calls).map (fun u => [u]) = .ok us) :
    ∃ u, us = [u] ∧ u.name = name ∧ u.utype = utype ∧ u.parent = parent ∧ u.calls = calls ∧ u.endLine = info.endRow + 1 ∧
      ∃ start, u.line = start + 1 ∧ StartsAt lang ls info.startRow start := by
  unfold declUnit at h
  cases hs : slice ls (findStart lang ls info.startRow) (min (info.endRow + 1) ls.length) with
  | error e => rw [hs] at h; simp [Except.map] at h
  | ok code =>
    rw [hs] at h
    simp only [Except.map, Except.ok.injEq] at h
    exact ⟨_, h.symm, rfl, rfl, rfl, rfl, rfl, _, rfl, findStart_spec lang ls info.startRow⟩

theorem functionUnits_sound {lang : Lang} {ls : List Text} {p : Option Text} {m : Node} {us : List CodeUnit}
    (hk : m.info.kind = .function) (h : functionUnits lang ls p m.info = .ok us) : ∀ u ∈ us, UnitOf lang ls p m u := by
  unfold functionUnits at h
  split at h
  · obtain rfl : [] = us := by simpa using h
    simp
  · rename_i name hn
    have key : ∀ (ut : UnitType) (q : Option Text),
        (declUnit lang ls m.info name ut q m.info.calls).map (fun u => [u]) = .ok us →
        q = p.or m.info.receiver → (ut = if (p.or m.info.receiver).isSome then .method else .function) →
        ∀ u ∈ us, UnitOf lang ls p m u := by
      intro ut q h hq hut u hu
      obtain ⟨v, rfl, a1, a2, a3, a4, a5, a6⟩ := declUnit_eq h
      obtain rfl : u = v := by simpa using hu
      exact ⟨⟨by rw [hn, a1], a5, a6⟩, .inl ⟨hk, a4, by rw [a3, hq], by rw [a2, hut]⟩⟩
    split at h
    · exact key _ _ h (by simp) (by simp)
    · rename_i r hr
      exact key _ _ h (by simp [hr]) (by simp [hr])
    · rename_i hr
      exact key _ _ h (by simp [hr]) (by simp [hr])

theorem constantUnits_sound {lang : Lang} {ls : List Text} {m : Node} {us : List CodeUnit}
    (hk : m.info.kind = .constant) (h : constantUnits lang ls m.info = .ok us) : ∀ u ∈ us, UnitOf lang ls none m u := by
  unfold constantUnits at h
  split at h
  · obtain rfl : [] = us := by simpa using h
    simp
  · rename_i name hn
    split at h
    · obtain rfl : [] = us := by simpa using h
      simp
    · rename_i hp
      have hpy : lang = .python → Capitals name := by
        intro hl
        rw [← capitals_iff]
        cases hc : isPythonConstant name with
        | true => rfl
        | false => exact absurd ⟨hl, hc⟩ hp
      split at h
      · rename_i ha
        intro u hu
        obtain ⟨v, rfl, a1, a2, a3, a4, a5, a6⟩ := declUnit_eq h
        obtain rfl : u = v := by simpa using hu
        exact ⟨⟨by rw [hn, a1], a5, a6⟩, .inr (.inr ⟨hk, rfl, by rw [a1]; exact hpy, a3, by rw [a2, if_pos ha]⟩)⟩
      · rename_i ha
        intro u hu
        obtain ⟨v, rfl, a1, a2, a3, a4, a5, a6⟩ := declUnit_eq h
        obtain rfl : u = v := by simpa using hu
        exact ⟨⟨by rw [hn, a1], a5, a6⟩, .inr (.inr ⟨hk, rfl, by rw [a1]; exact hpy, a3, by rw [a2, if_neg ha]⟩)⟩

theorem classUnit_sound {lang : Lang} {ls : List Text} {p : Option Text} {m : Node} {name : Text} {u : CodeUnit}
    (hk : m.info.kind = .class) (hn : m.info.name = some name) (h : classUnit lang ls m.info name = .ok u) :
    UnitOf lang ls p m u := by
  obtain ⟨v, hv, a1, a2, a3, a4, a5, a6⟩ := declUnit_eq (us := [u]) (by
    unfold classUnit at h; rw [h]; rfl)
  obtain rfl : u = v := by simpa using hv
  exact ⟨⟨by rw [hn, a1], a5, a6⟩, .inr (.inl ⟨hk, a4, a3, a2⟩)⟩

/-- What a list of units describes: definitions reached from one of the nodes. -/
def Sound (M : Mode) (ls : List Text) (p : Option Text) (n : Node) (us : List CodeUnit) : Prop :=
  ∀ u ∈ us, ∃ q m, Reached M.eager p n q m ∧ UnitOf M.lang ls q m u

mutual
theorem extractNode_sound (M : Mode) (ls : List Text) : ∀ (n : Node) (p : Option Text) (d : Nat) (us : List CodeUnit),
    extractNode M ls p d n = .ok us → Sound M ls p n us
  | .mk info cs, p, d, us, he => by
    rw [extractNode] at he
    split at he
    · simp at he
    · cases hk : info.kind with
      | function =>
        rw [hk] at he
        obtain ⟨a, b, ha, hb, rfl⟩ := bind_append_ok he
        intro u hu
        rcases List.mem_append.1 hu with h | h
        · exact ⟨p, _, .here _ _, functionUnits_sound (m := .mk info cs) hk ha u h⟩
        · obtain ⟨c, hc, q, m, hr, hd⟩ := extractList_sound M ls cs p (d + 1) b hb u h
          exact ⟨q, m, .inner hc (by simp [Node.info, hk]) (by simp [Node.info, hk]) hr, hd⟩
      | «class» =>
        rw [hk] at he
        cases hn : info.name with
        | none =>
          rw [hn] at he
          intro u hu
          obtain ⟨c, hc, q, m, hr, hd⟩ := extractList_sound M ls cs p (d + 1) us he u hu
          exact ⟨q, m, .inner hc (by simp [Node.info, hn]) (by simp [Node.info, hk]) hr, hd⟩
        | some name =>
          rw [hn] at he
          simp only at he
          cases hcu : classUnit M.lang ls info name with
          | error e => rw [hcu] at he; simp [Except.bind] at he
          | ok v =>
            rw [hcu] at he
            simp only [Except.bind] at he
            have hv : UnitOf M.lang ls p (.mk info cs) v := classUnit_sound (m := .mk info cs) hk hn hcu
            have one : us = [v] → Sound M ls p (.mk info cs) us := by
              rintro rfl u hu
              obtain rfl : u = v := by simpa using hu
              exact ⟨p, _, .here _ _, hv⟩
            cases hb : info.body with
            | none => rw [hb] at he; exact one (by simpa using he.symm)
            | some i =>
              rw [hb] at he
              simp only at he
              split at he
              · rename_i hdesc
                cases hbody : extractBody M ls (some name) (d + 1) i cs with
                | error e => rw [hbody] at he; simp at he
                | ok vs =>
                  rw [hbody] at he
                  simp only at he
                  obtain rfl : v :: vs = us := by simpa using he
                  intro u hu
                  rcases List.mem_cons.1 hu with rfl | h
                  · exact ⟨p, _, .here _ _, hv⟩
                  · obtain ⟨b, c, hget, hc, q, m, hr, hd⟩ := extractBody_sound M ls cs (some name) (d + 1) i vs hbody u h
                    refine ⟨q, m, .member hk hn ?_ hb hget hc hr, hd⟩
                    intro hab
                    simp only [descends, hab, Bool.false_or, Bool.and_eq_true, Bool.not_eq_true'] at hdesc
                    exact hdesc.1
              · exact one (by simpa using he.symm)
      | constant =>
        rw [hk] at he
        simp only at he
        split at he
        · rename_i hp
          obtain rfl : p = none := by simpa using hp
          intro u hu
          exact ⟨none, _, .here _ _, constantUnits_sound (m := .mk info cs) hk he u hu⟩
        · rename_i hp
          intro u hu
          obtain ⟨c, hc, q, m, hr, hd⟩ := extractList_sound M ls cs p (d + 1) us he u hu
          exact ⟨q, m, .inner hc (by simp [Node.info, hk]) (by rintro ⟨_, rfl⟩; simp at hp) hr, hd⟩
      | other =>
        rw [hk] at he
        intro u hu
        obtain ⟨c, hc, q, m, hr, hd⟩ := extractList_sound M ls cs p (d + 1) us he u hu
        exact ⟨q, m, .inner hc (by simp [Node.info, hk]) (by simp [Node.info, hk]) hr, hd⟩
theorem extractList_sound (M : Mode) (ls : List Text) : ∀ (ns : List Node) (p : Option Text) (d : Nat) (us : List CodeUnit),
    extractList M ls p d ns = .ok us → ∀ u ∈ us, ∃ c ∈ ns, ∃ q m, Reached M.eager p c q m ∧ UnitOf M.lang ls q m u
  | [], p, d, us, he => by
    rw [extractList] at he
    obtain rfl : [] = us := by simpa using he
    simp
  | n :: ns, p, d, us, he => by
    rw [extractList] at he
    obtain ⟨a, b, ha, hb, rfl⟩ := bind_append_ok he
    intro u hu
    rcases List.mem_append.1 hu with h | h
    · obtain ⟨q, m, hr⟩ := extractNode_sound M ls n p d a ha u h
      exact ⟨n, by simp, q, m, hr⟩
    · obtain ⟨c, hc, rest⟩ := extractList_sound M ls ns p d b hb u h
      exact ⟨c, by simp [hc], rest⟩
theorem extractBody_sound (M : Mode) (ls : List Text) : ∀ (ns : List Node) (p : Option Text) (d i : Nat) (us : List CodeUnit),
    extractBody M ls p d i ns = .ok us →
      ∀ u ∈ us, ∃ b c, ns[i]? = some b ∧ c ∈ b.children ∧ ∃ q m, Reached M.eager p c q m ∧ UnitOf M.lang ls q m u
  | [], p, d, i, us, he => by
    rw [extractBody] at he
    obtain rfl : [] = us := by simpa using he
    simp
  | .mk info kids :: ns, p, d, 0, us, he => by
    rw [extractBody] at he
    intro u hu
    obtain ⟨c, hc, rest⟩ := extractList_sound M ls kids p d us he u hu
    exact ⟨.mk info kids, c, rfl, hc, rest⟩
  | n :: ns, p, d, i + 1, us, he => by
    rw [extractBody] at he
    exact extractBody_sound M ls ns p d i us he
end

end NextPlaid.Units
