import Verif.Proofs.Qml

/-! The walk over a QML file. -/

namespace NextPlaid.Qml
open NextPlaid.Units NextPlaid.Spec

/-- The outcome of a walk: no panic, no refusal within the limit, and the units are right. -/
def Out (r : Res (List CodeUnit)) (fits shallow : Prop) (good : List CodeUnit → Prop) : Prop :=
  fits → r ≠ .error .panic ∧ (shallow → r ≠ .error .err) ∧ ∀ us, r = .ok us → good us

theorem out_ok {us : List CodeUnit} {fits shallow : Prop} {good : List CodeUnit → Prop} (h : fits → good us) :
    Out (.ok us) fits shallow good := fun hf => ⟨by simp, by simp, fun vs e => by cases e; exact h hf⟩

theorem out_mono {r : Res (List CodeUnit)} {f f' s s' : Prop} {g g' : List CodeUnit → Prop} (h : Out r f s g) (hf : f' → f)
    (hs : s' → s) (hg : ∀ us, g us → g' us) : Out r f' s' g' := fun h' =>
  ⟨(h (hf h')).1, fun hs' => (h (hf h')).2.1 (hs hs'), fun us e => hg us ((h (hf h')).2.2 us e)⟩

theorem out_cons {r : Res (List CodeUnit)} {f s : Prop} {g g' : List CodeUnit → Prop} {u : CodeUnit} (h : Out r f s g)
    (hg : ∀ us, g us → g' (u :: us)) : Out (r.bind fun us => .ok (u :: us)) f s g' := by
  intro hf
  obtain ⟨h1, h2, h3⟩ := h hf
  cases r with
  | error e =>
    cases e with
    | panic => exact absurd rfl h1
    | err => exact ⟨by simp [Except.bind], fun hs => absurd rfl (h2 hs), by simp [Except.bind]⟩
  | ok us =>
    refine ⟨by simp [Except.bind], by simp [Except.bind], ?_⟩
    intro vs e
    simp only [Except.bind, Except.ok.injEq] at e
    rw [← e]
    exact hg us (h3 us rfl)

theorem out_append {r r' : Res (List CodeUnit)} {f s : Prop} {g g1 g2 : List CodeUnit → Prop} (h : Out r f s g1)
    (h' : Out r' f s g2) (hg : ∀ us vs, g1 us → g2 vs → g (us ++ vs)) :
    Out (r.bind fun us => r'.bind fun vs => .ok (us ++ vs)) f s g := by
  intro hf
  obtain ⟨h1, h2, h3⟩ := h hf
  obtain ⟨h1', h2', h3'⟩ := h' hf
  cases r with
  | error e =>
    cases e with
    | panic => exact absurd rfl h1
    | err => exact ⟨by simp [Except.bind], fun hs => absurd rfl (h2 hs), by simp [Except.bind]⟩
  | ok us =>
    cases r' with
    | error e =>
      cases e with
      | panic => exact absurd rfl h1'
      | err => exact ⟨by simp [Except.bind], fun hs => absurd rfl (h2' hs), by simp [Except.bind]⟩
    | ok vs =>
      refine ⟨by simp [Except.bind], by simp [Except.bind], ?_⟩
      intro ws e
      simp only [Except.bind, Except.ok.injEq] at e
      rw [← e]
      exact hg us vs (h3 us rfl) (h3' vs rfl)

theorem goodL_append {file : List Text} {p : Option Text} {n : QNode} {ns : List QNode} {us vs : List CodeUnit}
    (h : Good file p n us) (h' : GoodL file p ns vs) : GoodL file p (n :: ns) (us ++ vs) := by
  refine ⟨?_, ?_, ?_⟩
  · intro u hu
    rcases List.mem_append.1 hu with hu | hu
    · exact ⟨n, List.mem_cons_self, h.sound u hu⟩
    · obtain ⟨c, hc, r⟩ := h'.sound u hu
      exact ⟨c, List.mem_cons_of_mem _ hc, r⟩
  · intro c hc q m name hi hd
    rcases List.mem_cons.1 hc with rfl | hc
    · obtain ⟨u, hu, r⟩ := h.complete q m name hi hd
      exact ⟨u, List.mem_append.2 (.inl hu), r⟩
    · obtain ⟨u, hu, r⟩ := h'.complete c hc q m name hi hd
      exact ⟨u, List.mem_append.2 (.inr hu), r⟩
  · intro d hd
    have a := h.once d hd
    have b := h'.once d hd
    rw [List.length_append, countList]
    omega

/-- An object or component with its unit first. -/
theorem good_cons {file : List Text} {p : Option Text} {q : QInfo} {cs ks : List QNode} {u : CodeUnit} {us : List CodeUnit}
    (hk : q.kind = .object ∨ q.kind = .component) (hu : objectUnit p q = some u) (hg : GoodL file (some u.name) ks us)
    (hin : ∀ k ∈ ks, ∀ p' m, Inside (some u.name) k p' m → Inside p (.mk q cs) p' m)
    (hinv : ∀ p' m, Inside p (.mk q cs) p' m → (p' = p ∧ m = .mk q cs) ∨ ∃ k ∈ ks, Inside (some u.name) k p' m)
    (hc : ∀ d, countList d ks ≤ countList d cs) : Good file p (.mk q cs) (u :: us) := by
  obtain ⟨h1, h2, h3, h4, h5, h6⟩ := plainUnit_some hu cs
  have hfit : UnitFits file p (.mk q cs) u := by
    rcases hk with hk | hk
    all_goals
      simp only [UnitFits, Defines, QNode.info, hk]
      exact ⟨h1, h4, h5, h6, h2, h3⟩
  refine ⟨?_, ?_, ?_⟩
  · intro v hv
    rcases List.mem_cons.1 hv with rfl | hv
    · exact ⟨p, _, .here _ _, hfit⟩
    · obtain ⟨k, hk, p', m, hi, r⟩ := hg.sound v hv
      exact ⟨p', m, hin k hk p' m hi, r⟩
  · intro p' m name hi hd
    rcases hinv p' m hi with ⟨rfl, rfl⟩ | ⟨k, hk, hi⟩
    · exact ⟨u, List.mem_cons_self, hfit⟩
    · obtain ⟨v, hv, r⟩ := hg.complete k hk p' m name hi hd
      exact ⟨v, List.mem_cons_of_mem _ hv, r⟩
  · intro d hd
    rw [count, if_pos ((hd _).2 ⟨_, hfit.1⟩)]
    have a := hg.once d hd
    have b := hc d
    rw [List.length_cons]
    omega

theorem objectUnit_none {p : Option Text} {q : QInfo} (h : objectUnit p q = none) (cs : List QNode) (name : Text) :
    ¬ Named (.mk q cs) name := by
  intro hn
  obtain ⟨u, hu, _⟩ := plainUnit_named (ut := .class) (p := p) (sg := firstLine) hn
  unfold objectUnit at h
  rw [hu] at h
  cases h

theorem shallow_pos {q : QInfo} {cs : List QNode} {c : QNode} {d : Nat} (h : Shallow (.mk q cs) d) (hc : c ∈ cs) :
    1 ≤ d ∧ Shallow c (d - 1) := shallow_child (t := .mk q cs) h hc

/-- All of these nodes are shallow. -/
def ShallowL (ns : List QNode) (d : Nat) : Prop := ∀ n ∈ ns, Shallow n d

theorem get_mem {ns : List QNode} {i : Nat} {c : QNode} (h : ns[i]? = some c) : c ∈ ns := List.mem_of_getElem? h

mutual
theorem extract_out (ls : List Text) (maxDepth : Nat) : ∀ (n : QNode) (p : Option Text) (depth : Nat),
    Out (extract ls maxDepth p depth n) (RowsFit n ls.length) (∃ d, Shallow n d ∧ depth + d ≤ maxDepth) (Good ls p n)
  | .mk q cs, p, depth => by
    rw [extract]
    split
    · next hd =>
      intro _
      refine ⟨by simp, ?_, by simp⟩
      rintro ⟨d, _, h⟩
      omega
    · next hd =>
      have hrow : RowsFit (.mk q cs) ls.length → q.decl.startRow ≤ q.decl.endRow ∧ q.decl.startRow ≤ ls.length :=
        fun h => h 0 _ (.self _)
      have hlist : (q.kind = .other ∨ q.kind = .object ∧ ∀ name, ¬ Named (.mk q cs) name) →
          Out (extractList ls maxDepth p (depth + 1) cs) (RowsFit (.mk q cs) ls.length)
            (∃ d, Shallow (.mk q cs) d ∧ depth + d ≤ maxDepth) (Good ls p (.mk q cs)) := by
        intro hk
        refine out_mono (extractList_out ls maxDepth cs p (depth + 1)) (fun h c hc => rows_child h hc) ?_ ?_
        · rintro ⟨d, h1, h2⟩
          cases cs with
          | nil => exact .inl rfl
          | cons c cs =>
            have := (shallow_pos h1 (c := c) List.mem_cons_self).1
            exact .inr ⟨d - 1, fun n hn => (shallow_pos h1 hn).2, by omega⟩
        · intro us hg
          have hnd : ∀ name, ¬ Defines (.mk q cs) name := by
            intro name hdf
            rcases hk with hk | ⟨hk, hk'⟩
            · simp only [Defines, QNode.info, hk] at hdf
            · simp only [Defines, QNode.info, hk] at hdf
              exact hk' name hdf
          refine ⟨?_, ?_, ?_⟩
          · intro u hu
            obtain ⟨c, hc, p', m, hi, r⟩ := hg.sound u hu
            exact ⟨p', m, .other hk hc hi, r⟩
          · intro p' m name hi hdf
            cases hi with
            | here => exact absurd hdf (hnd name)
            | annotated h =>
              rcases hk with hk | hk
              · cases (hk.symm.trans h)
              · cases (hk.1.symm.trans h)
            | component h =>
              rcases hk with hk | hk
              · cases (hk.symm.trans h)
              · cases (hk.1.symm.trans h)
            | object h hn =>
              rcases hk with hk | hk
              · cases (hk.symm.trans h)
              · exact absurd hn (hk.2 _)
            | other _ hc hi => exact hg.complete _ hc p' m name hi hdf
          · intro d hd
            rw [count]
            have := hg.once d hd
            omega
      split
      · -- annotated
        next hk =>
        have hnd : ∀ name, ¬ Defines (.mk q cs) name := by
          intro name hdf
          simp only [Defines, QNode.info, hk] at hdf
        have hinv : ∀ p' m name, Inside p (.mk q cs) p' m → Defines m name → ∃ i c, q.part = some i ∧ cs[i]? = some c ∧
            Inside p c p' m := by
          intro p' m name hi hdf
          cases hi with
          | here => exact absurd hdf (hnd name)
          | annotated h h1 h2 h3 => exact ⟨_, _, h1, h2, h3⟩
          | component h => cases (hk.symm.trans h)
          | object h => cases (hk.symm.trans h)
          | other h =>
            rcases h with h | h
            · cases (hk.symm.trans h)
            · cases (hk.symm.trans h.1)
        split
        · next hp =>
          refine out_ok fun _ => ⟨by simp, ?_, fun _ _ => Nat.zero_le _⟩
          intro p' m name hi hdf
          obtain ⟨i, c, h, _⟩ := hinv p' m name hi hdf
          rw [hp] at h
          cases h
        · next i hp =>
          refine out_mono (extractAt_out ls maxDepth cs p (depth + 1) i) (fun h c hc => rows_child h hc) ?_ ?_
          · rintro ⟨d, h1, h2⟩
            cases cs with
            | nil => exact .inl rfl
            | cons c cs =>
              have := (shallow_pos h1 (c := c) List.mem_cons_self).1
              exact .inr ⟨d - 1, fun n hn => (shallow_pos h1 hn).2, by omega⟩
          · intro us hg
            rcases hg with ⟨hcn, rfl⟩ | ⟨c, hc, hg⟩
            · refine ⟨by simp, ?_, fun _ _ => Nat.zero_le _⟩
              intro p' m name hi hdf
              obtain ⟨j, c, h, h', _⟩ := hinv p' m name hi hdf
              rw [hp] at h
              cases h
              rw [hcn] at h'
              cases h'
            · refine ⟨?_, ?_, ?_⟩
              · intro u hu
                obtain ⟨p', m, hi, r⟩ := hg.sound u hu
                exact ⟨p', m, .annotated hk hp hc hi, r⟩
              · intro p' m name hi hdf
                obtain ⟨j, c', h, h', hi⟩ := hinv p' m name hi hdf
                rw [hp] at h
                cases h
                rw [hc] at h'
                cases h'
                exact hg.complete p' m name hi hdf
              · intro d hd
                rw [count]
                have a := hg.once d hd
                have b := count_get (d := d) hc
                omega
      · -- component
        next hk =>
        split
        · next hu =>
          have hnd := objectUnit_none hu cs
          refine out_ok fun _ => ⟨by simp, ?_, fun _ _ => Nat.zero_le _⟩
          intro p' m name hi hdf
          cases hi with
          | here =>
            simp only [Defines, QNode.info, hk] at hdf
            exact absurd hdf (hnd name)
          | annotated h => cases (hk.symm.trans h)
          | component _ hn => exact absurd hn (hnd _)
          | object h => cases (hk.symm.trans h)
          | other h =>
            rcases h with h | h
            · cases (hk.symm.trans h)
            · cases (hk.symm.trans h.1)
        · next u hu =>
          have hnm := (plainUnit_some hu cs).1
          have hinv : ∀ p' m, Inside p (.mk q cs) p' m → (p' = p ∧ m = .mk q cs) ∨
              ∃ i c j b k, q.part = some i ∧ cs[i]? = some c ∧ c.info.init = some j ∧ c.children[j]? = some b ∧ k ∈ b.children ∧
                Inside (some u.name) k p' m := by
            intro p' m hi
            cases hi with
            | here => exact .inl ⟨rfl, rfl⟩
            | annotated h => cases (hk.symm.trans h)
            | component _ hn h1 h2 h3 h4 h5 h6 =>
              rw [named_unique hn hnm] at h6
              exact .inr ⟨_, _, _, _, _, h1, h2, h3, h4, h5, h6⟩
            | object h => cases (hk.symm.trans h)
            | other h =>
              rcases h with h | h
              · cases (hk.symm.trans h)
              · cases (hk.symm.trans h.1)
          have hempty : GoodL ls (some u.name) [] [] := ⟨by simp, by simp, fun _ _ => Nat.zero_le _⟩
          split
          · next hp =>
            refine out_ok fun _ => good_cons (ks := []) (.inr hk) hu hempty (by simp) ?_ fun _ => by rw [countList]; exact Nat.zero_le _
            intro p' m hi
            rcases hinv p' m hi with h | ⟨i, _, _, _, _, h, _⟩
            · exact .inl h
            · rw [hp] at h; cases h
          · next i hp =>
            refine out_cons (out_mono (extractPart_out ls maxDepth cs (some u.name) (depth + 2) i)
              (fun h c hc => rows_child h hc) ?_ fun us h => h) ?_
            · rintro ⟨d, h1, h2⟩
              cases cs with
              | nil => exact .inl rfl
              | cons c cs =>
                have := (shallow_pos h1 (c := c) List.mem_cons_self).1
                exact .inr ⟨d - 1, fun n hn => (shallow_pos h1 hn).2, by omega⟩
            · rintro us ⟨ks, hg, hks, hcnt⟩
              refine good_cons (ks := ks) (.inr hk) hu hg ?_ ?_ hcnt
              · intro k hkm p' m hi
                obtain ⟨c, j, b, h1, h2, h3, h4⟩ := (hks k).1 hkm
                exact .component hk hnm hp h1 h2 h3 h4 hi
              · intro p' m hi
                rcases hinv p' m hi with h | ⟨i', c, j, b, k, h1, h2, h3, h4, h5, h6⟩
                · exact .inl h
                · rw [hp] at h1
                  cases h1
                  exact .inr ⟨k, (hks k).2 ⟨c, j, b, h2, h3, h4, h5⟩, h6⟩
      · -- object
        next hk =>
        split
        · next hu => exact hlist (.inr ⟨hk, objectUnit_none hu cs⟩)
        · next u hu =>
          have hnm := (plainUnit_some hu cs).1
          have hinv : ∀ p' m, Inside p (.mk q cs) p' m → (p' = p ∧ m = .mk q cs) ∨
              ∃ j b k, q.init = some j ∧ cs[j]? = some b ∧ k ∈ b.children ∧ Inside (some u.name) k p' m := by
            intro p' m hi
            cases hi with
            | here => exact .inl ⟨rfl, rfl⟩
            | annotated h => cases (hk.symm.trans h)
            | component h => cases (hk.symm.trans h)
            | object _ hn h1 h2 h3 h4 =>
              rw [named_unique hn hnm] at h4
              exact .inr ⟨_, _, _, h1, h2, h3, h4⟩
            | other h =>
              rcases h with h | h
              · cases (hk.symm.trans h)
              · exact absurd hnm (h.2 _)
          have hempty : GoodL ls (some u.name) [] [] := ⟨by simp, by simp, fun _ _ => Nat.zero_le _⟩
          split
          · next hp =>
            refine out_ok fun _ => good_cons (ks := []) (.inl hk) hu hempty (by simp) ?_ fun _ => by rw [countList]; exact Nat.zero_le _
            intro p' m hi
            rcases hinv p' m hi with h | ⟨i, _, _, h, _⟩
            · exact .inl h
            · rw [hp] at h; cases h
          · next i hp =>
            refine out_cons (out_mono (extractKids_out ls maxDepth cs (some u.name) (depth + 2) i)
              (fun h c hc => rows_child h hc) ?_ fun us h => h) ?_
            · rintro ⟨d, h1, h2⟩
              cases cs with
              | nil => exact .inl rfl
              | cons c cs =>
                have := (shallow_pos h1 (c := c) List.mem_cons_self).1
                exact .inr ⟨d - 1, fun n hn => (shallow_pos h1 hn).2, by omega⟩
            · rintro us ⟨ks, hg, hks, hcnt⟩
              refine good_cons (ks := ks) (.inl hk) hu hg ?_ ?_ hcnt
              · intro k hkm p' m hi
                obtain ⟨b, h1, h2⟩ := (hks k).1 hkm
                exact .object hk hnm hp h1 h2 hi
              · intro p' m hi
                rcases hinv p' m hi with h | ⟨i', b, k, h1, h2, h3, h4⟩
                · exact .inl h
                · rw [hp] at h1
                  cases h1
                  exact .inr ⟨k, (hks k).2 ⟨b, h2, h3⟩, h4⟩
      · next hk =>
        intro hf
        obtain ⟨us, e, hg⟩ := function_good (p := p) (cs := cs) hk (hrow hf).1 (hrow hf).2
        rw [e]
        exact out_ok (fits := True) (shallow := _) (fun _ => hg) trivial
      · next hk =>
        intro hf
        obtain ⟨us, e, hg⟩ := variable_good (p := p) (cs := cs) hk (hrow hf).1 (hrow hf).2
        rw [e]
        exact out_ok (fits := True) (shallow := _) (fun _ => hg) trivial
      · next hk =>
        intro hf
        obtain ⟨us, e, hg⟩ := enum_good (p := p) (cs := cs) hk (hrow hf).1 (hrow hf).2
        rw [e]
        exact out_ok (fits := True) (shallow := _) (fun _ => hg) trivial
      · next hk => exact out_ok fun _ => signal_good hk
      · next hk => exact out_ok fun _ => property_good hk
      · next hk => exact out_ok fun _ => binding_good hk
      · next hk => exact hlist (.inl hk)
theorem extractList_out (ls : List Text) (maxDepth : Nat) : ∀ (ns : List QNode) (p : Option Text) (depth : Nat),
    Out (extractList ls maxDepth p depth ns) (∀ n ∈ ns, RowsFit n ls.length)
      (ns = [] ∨ ∃ d, ShallowL ns d ∧ depth + d ≤ maxDepth) (GoodL ls p ns)
  | [], p, depth => by
    rw [extractList]
    exact out_ok fun _ => ⟨by simp, by simp, fun _ _ => Nat.zero_le _⟩
  | n :: ns, p, depth => by
    rw [extractList]
    refine out_append (out_mono (extract_out ls maxDepth n p depth) (fun h => h n List.mem_cons_self) ?_ fun us h => h)
      (out_mono (extractList_out ls maxDepth ns p depth) (fun h c hc => h c (List.mem_cons_of_mem _ hc)) ?_ fun us h => h)
      fun us vs h h' => goodL_append h h'
    · rintro (h | ⟨d, h1, h2⟩)
      · cases h
      · exact ⟨d, h1 n List.mem_cons_self, h2⟩
    · rintro (h | ⟨d, h1, h2⟩)
      · cases h
      · exact .inr ⟨d, fun c hc => h1 c (List.mem_cons_of_mem _ hc), h2⟩
theorem extractAt_out (ls : List Text) (maxDepth : Nat) : ∀ (ns : List QNode) (p : Option Text) (depth i : Nat),
    Out (extractAt ls maxDepth p depth i ns) (∀ n ∈ ns, RowsFit n ls.length)
      (ns = [] ∨ ∃ d, ShallowL ns d ∧ depth + d ≤ maxDepth)
      (fun us => (ns[i]? = none ∧ us = []) ∨ ∃ c, ns[i]? = some c ∧ Good ls p c us)
  | [], p, depth, i => by
    rw [extractAt]
    exact out_ok fun _ => .inl ⟨by simp, rfl⟩
  | n :: ns, p, depth, 0 => by
    rw [extractAt]
    refine out_mono (extract_out ls maxDepth n p depth) (fun h => h n List.mem_cons_self) ?_ fun us h => .inr ⟨n, rfl, h⟩
    rintro (h | ⟨d, h1, h2⟩)
    · cases h
    · exact ⟨d, h1 n List.mem_cons_self, h2⟩
  | n :: ns, p, depth, i + 1 => by
    rw [extractAt]
    refine out_mono (extractAt_out ls maxDepth ns p depth i) (fun h c hc => h c (List.mem_cons_of_mem _ hc)) ?_ ?_
    · rintro (h | ⟨d, h1, h2⟩)
      · cases h
      · exact .inr ⟨d, fun c hc => h1 c (List.mem_cons_of_mem _ hc), h2⟩
    · intro us h
      rw [List.getElem?_cons_succ]
      exact h
theorem extractKids_out (ls : List Text) (maxDepth : Nat) : ∀ (ns : List QNode) (p : Option Text) (depth i : Nat),
    Out (extractKids ls maxDepth p depth i ns) (∀ n ∈ ns, RowsFit n ls.length)
      (ns = [] ∨ ∃ d, ShallowL ns d ∧ depth + d ≤ maxDepth + 1)
      (fun us => ∃ ks, GoodL ls p ks us ∧ (∀ k, k ∈ ks ↔ ∃ b, ns[i]? = some b ∧ k ∈ b.children) ∧
        ∀ d, countList d ks ≤ countList d ns)
  | [], p, depth, i => by
    rw [extractKids]
    exact out_ok fun _ => ⟨[], ⟨by simp, by simp, fun _ _ => Nat.zero_le _⟩, by simp, fun _ => by simp [countList]⟩
  | .mk q kids :: ns, p, depth, 0 => by
    rw [extractKids]
    refine out_mono (extractList_out ls maxDepth kids p depth) (fun h c hc => rows_child (h _ List.mem_cons_self) hc) ?_ ?_
    · rintro (h | ⟨d, h1, h2⟩)
      · cases h
      · cases kids with
        | nil => exact .inl rfl
        | cons c cs =>
          have h0 := h1 _ List.mem_cons_self
          have := (shallow_pos h0 (c := c) List.mem_cons_self).1
          exact .inr ⟨d - 1, fun n hn => (shallow_pos h0 hn).2, by omega⟩
    · intro us h
      refine ⟨kids, h, by simp [QNode.children], fun d => ?_⟩
      rw [countList, count]
      omega
  | n :: ns, p, depth, i + 1 => by
    rw [extractKids]
    refine out_mono (extractKids_out ls maxDepth ns p depth i) (fun h c hc => h c (List.mem_cons_of_mem _ hc)) ?_ ?_
    · rintro (h | ⟨d, h1, h2⟩)
      · cases h
      · exact .inr ⟨d, fun c hc => h1 c (List.mem_cons_of_mem _ hc), h2⟩
    · rintro us ⟨ks, h1, h2, h3⟩
      refine ⟨ks, h1, ?_, fun d => ?_⟩
      · intro k
        rw [List.getElem?_cons_succ]
        exact h2 k
      · have := h3 d
        rw [countList]
        omega
theorem extractPart_out (ls : List Text) (maxDepth : Nat) : ∀ (ns : List QNode) (p : Option Text) (depth i : Nat),
    Out (extractPart ls maxDepth p depth i ns) (∀ n ∈ ns, RowsFit n ls.length)
      (ns = [] ∨ ∃ d, ShallowL ns d ∧ depth + d ≤ maxDepth + 1)
      (fun us => ∃ ks, GoodL ls p ks us ∧ (∀ k, k ∈ ks ↔ ∃ c j b, ns[i]? = some c ∧ c.info.init = some j ∧ c.children[j]? = some b ∧
        k ∈ b.children) ∧ ∀ d, countList d ks ≤ countList d ns)
  | [], p, depth, i => by
    rw [extractPart]
    exact out_ok fun _ => ⟨[], ⟨by simp, by simp, fun _ _ => Nat.zero_le _⟩, by simp, fun _ => by simp [countList]⟩
  | .mk q kids :: ns, p, depth, 0 => by
    rw [extractPart]
    split
    · next hi =>
      refine out_ok fun _ => ⟨[], ⟨by simp, by simp, fun _ _ => Nat.zero_le _⟩, ?_, fun _ => by simp [countList]⟩
      intro k
      simp [QNode.info, hi]
    · next j hi =>
      refine out_mono (extractKids_out ls maxDepth kids p depth j) (fun h c hc => rows_child (h _ List.mem_cons_self) hc) ?_ ?_
      · rintro (h | ⟨d, h1, h2⟩)
        · cases h
        · cases kids with
          | nil => exact .inl rfl
          | cons c cs =>
            have h0 := h1 _ List.mem_cons_self
            have := (shallow_pos h0 (c := c) List.mem_cons_self).1
            exact .inr ⟨d - 1, fun n hn => (shallow_pos h0 hn).2, by omega⟩
      · rintro us ⟨ks, h1, h2, h3⟩
        refine ⟨ks, h1, ?_, fun d => ?_⟩
        · intro k
          rw [h2 k]
          constructor
          · rintro ⟨b, hb, hk⟩
            exact ⟨_, j, b, rfl, hi, hb, hk⟩
          · rintro ⟨c, j', b, hc, hi', hb, hk⟩
            rw [List.getElem?_cons_zero] at hc
            cases hc
            have hi'' : q.init = some j' := hi'
            rw [hi] at hi''
            cases hi''
            exact ⟨b, hb, hk⟩
        · have := h3 d
          rw [countList, count]
          omega
  | n :: ns, p, depth, i + 1 => by
    rw [extractPart]
    refine out_mono (extractPart_out ls maxDepth ns p depth i) (fun h c hc => h c (List.mem_cons_of_mem _ hc)) ?_ ?_
    · rintro (h | ⟨d, h1, h2⟩)
      · cases h
      · exact .inr ⟨d, fun c hc => h1 c (List.mem_cons_of_mem _ hc), h2⟩
    · rintro us ⟨ks, h1, h2, h3⟩
      refine ⟨ks, h1, ?_, fun d => ?_⟩
      · intro k
        rw [List.getElem?_cons_succ]
        exact h2 k
      · have := h3 d
        rw [countList]
        omega
end

theorem inside_below {p q : Option Text} {t m : QNode} (h : Inside p t q m) : ∃ k, BelowAt k t m := by
  induction h with
  | here => exact ⟨0, .self _⟩
  | annotated _ _ hc _ ih =>
    obtain ⟨k, hk⟩ := ih
    exact ⟨k + 1, .child (get_mem hc) hk⟩
  | component _ _ _ hc _ hb hk _ ih =>
    obtain ⟨k, h⟩ := ih
    exact ⟨k + 1 + 1 + 1, .child (get_mem hc) (.child (get_mem hb) (.child hk h))⟩
  | object _ _ _ hb hk _ ih =>
    obtain ⟨k, h⟩ := ih
    exact ⟨k + 1 + 1, .child (get_mem hb) (.child hk h)⟩
  | other _ hc _ ih =>
    obtain ⟨k, hk⟩ := ih
    exact ⟨k + 1, .child hc hk⟩

theorem codeIs_located {source : Text} {u : CodeUnit} (h : CodeIs (lines source) u) : Located (lines source) u := by
  obtain ⟨h1, h2, h3⟩ := h
  refine ⟨h1, ?_⟩
  intro k l hk
  rw [h3, ← joinNl_eq] at hk
  have hno : ∀ l ∈ ((lines source).drop (u.line - 1)).take (u.endLine + 1 - u.line), NoNl l := fun l hl =>
    lines_noNl (List.drop_subset _ _ (List.take_subset _ _ hl))
  obtain ⟨w, hw, hp⟩ := lines_join hno hk
  rw [List.getElem?_take] at hw
  split at hw
  · next hlt =>
    rw [List.getElem?_drop] at hw
    refine ⟨by omega, w, ?_, hp.isInfix⟩
    rw [← hw]
    congr 1
    omega
  · cases hw

theorem containsText_iff (p : Text) : ∀ s : Text, containsText p s = true ↔ p <:+: s
  | [] => by
    rw [containsText]
    simp
  | c :: s => by
    rw [containsText, Bool.or_eq_true, containsText_iff p s, List.isPrefixOf_iff_prefix, List.infix_cons_iff]

theorem importsUsed_aux (code : Text) : ∀ (imports used : List Text), used.Nodup →
    (imports.foldl (fun used name =>
      if containsText (name ++ ['.']) code || containsText (name ++ [' ']) code || containsText (name ++ [' ', '{']) code then
        if used.contains name then used else used ++ [name]
      else used) used).Nodup ∧
    ∀ x, x ∈ imports.foldl (fun used name =>
      if containsText (name ++ ['.']) code || containsText (name ++ [' ']) code || containsText (name ++ [' ', '{']) code then
        if used.contains name then used else used ++ [name]
      else used) used ↔ x ∈ used ∨ (x ∈ imports ∧ (x ++ ['.'] <:+: code ∨ x ++ [' '] <:+: code))
  | [], used, h => ⟨h, by simp⟩
  | n :: imports, used, h => by
    have hcond : (containsText (n ++ ['.']) code || containsText (n ++ [' ']) code || containsText (n ++ [' ', '{']) code) = true ↔
        (n ++ ['.'] <:+: code ∨ n ++ [' '] <:+: code) := by
      rw [Bool.or_eq_true, Bool.or_eq_true, containsText_iff, containsText_iff, containsText_iff]
      constructor
      · rintro ((h | h) | h)
        · exact .inl h
        · exact .inr h
        · refine .inr (List.IsInfix.trans ?_ h)
          exact ⟨[], ['{'], by simp⟩
      · rintro (h | h)
        · exact .inl (.inl h)
        · exact .inl (.inr h)
    rw [List.foldl_cons]
    by_cases hc : (containsText (n ++ ['.']) code || containsText (n ++ [' ']) code || containsText (n ++ [' ', '{']) code) = true
    · rw [if_pos hc]
      have hc' := hcond.1 hc
      by_cases hu : used.contains n = true
      · rw [if_pos hu]
        have hm := List.contains_iff_mem.1 hu
        obtain ⟨a, b⟩ := importsUsed_aux code imports used h
        refine ⟨a, fun x => ?_⟩
        rw [b x]
        constructor
        · rintro (h | ⟨h, h'⟩)
          · exact .inl h
          · exact .inr ⟨List.mem_cons_of_mem _ h, h'⟩
        · rintro (h | ⟨h, h'⟩)
          · exact .inl h
          · rcases List.mem_cons.1 h with rfl | h
            · exact .inl hm
            · exact .inr ⟨h, h'⟩
      · rw [if_neg hu]
        have hm : n ∉ used := fun hm => hu (List.contains_iff_mem.2 hm)
        obtain ⟨a, b⟩ := importsUsed_aux code imports (used ++ [n]) (by
          rw [List.nodup_append]
          refine ⟨h, by simp, ?_⟩
          intro x hx y hy e
          rw [List.mem_singleton.1 hy] at e
          exact hm (e ▸ hx))
        refine ⟨a, fun x => ?_⟩
        rw [b x, List.mem_append, List.mem_singleton]
        constructor
        · rintro ((h | rfl) | ⟨h, h'⟩)
          · exact .inl h
          · exact .inr ⟨List.mem_cons_self, hc'⟩
          · exact .inr ⟨List.mem_cons_of_mem _ h, h'⟩
        · rintro (h | ⟨h, h'⟩)
          · exact .inl (.inl h)
          · rcases List.mem_cons.1 h with rfl | h
            · exact .inl (.inr rfl)
            · exact .inr ⟨h, h'⟩
    · rw [if_neg hc]
      obtain ⟨a, b⟩ := importsUsed_aux code imports used h
      refine ⟨a, fun x => ?_⟩
      rw [b x]
      constructor
      · rintro (h | ⟨h, h'⟩)
        · exact .inl h
        · exact .inr ⟨List.mem_cons_of_mem _ h, h'⟩
      · rintro (h | ⟨h, h'⟩)
        · exact .inl h
        · rcases List.mem_cons.1 h with rfl | h
          · exact absurd (hcond.2 h') hc
          · exact .inr ⟨h, h'⟩

end NextPlaid.Qml
