import Verif.Proofs.Units4

/-! Vue, Svelte and HTML files as a whole; the call graph. -/

namespace NextPlaid.Units

open NextPlaid.Spec

theorem scriptUnits_ok {maxDepth : Nat} {parse : Text → Option Node} (hp : ParserFits parse) {file : List Text} {b : Block}
    (hb : BlockOk file b) : scriptUnits maxDepth parse b ≠ .error .panic ∧
      ∀ us, scriptUnits maxDepth parse b = .ok us → ∀ u ∈ us, Located file u ∧ u.utype ≠ .rawCode := by
  unfold scriptUnits
  cases ht : parse b.content with
  | none =>
    refine ⟨by simp, ?_⟩
    intro us h
    obtain rfl : [] = us := by simpa using h
    simp
  | some t =>
    obtain ⟨h1, h2, _⟩ := extractNode_outcome ⟨.typescript, maxDepth, true⟩ (lines b.content) t none 0 (hp _ _ ht)
    cases he : extractNode ⟨.typescript, maxDepth, true⟩ (lines b.content) none 0 t with
    | error e =>
      rw [he] at h2
      simp only [he]
      refine ⟨by simpa [Except.map] using h2, by simp [Except.map]⟩
    | ok us =>
      simp only [he]
      refine ⟨by simp [Except.map], ?_⟩
      intro vs hvs u hu
      simp only [Except.map, Except.ok.injEq] at hvs
      subst hvs
      obtain ⟨v, hv, rfl⟩ := List.mem_map.1 hu
      obtain ⟨a1, a2, _⟩ := h1 us he v hv
      exact ⟨located_shift hb a1, a2⟩

theorem scriptUnits_shallow {maxDepth : Nat} {parse : Text → Option Node} (hp : ParserFits parse)
    (hs : ParserShallow parse maxDepth) (b : Block) : ∃ us, scriptUnits maxDepth parse b = .ok us := by
  unfold scriptUnits
  cases ht : parse b.content with
  | none => exact ⟨[], rfl⟩
  | some t =>
    obtain ⟨_, _, h3⟩ := extractNode_outcome ⟨.typescript, maxDepth, true⟩ (lines b.content) t none 0 (hp _ _ ht)
    obtain ⟨us, hus⟩ := h3 ⟨Nat.zero_le _, hs _ _ ht⟩
    exact ⟨_, by simp only [hus]; rfl⟩

theorem allScripts_shallow {maxDepth : Nat} {parse : Text → Option Node} (hp : ParserFits parse)
    (hs : ParserShallow parse maxDepth) : ∀ (bs : List Block), ∃ us, allScripts maxDepth parse bs = .ok us
  | [] => ⟨[], rfl⟩
  | b :: bs => by
    obtain ⟨us, hus⟩ := scriptUnits_shallow hp hs b
    obtain ⟨vs, hvs⟩ := allScripts_shallow hp hs bs
    exact ⟨us ++ vs, by rw [allScripts, hus, hvs]; rfl⟩

theorem vueUnits_ok {maxDepth : Nat} {parse : Text → Option Node} (hp : ParserFits parse) (source : Text) :
    ∃ us, vueUnits maxDepth parse source = .ok us ∧ ∀ u ∈ us, Located (lines source) u := by
  have htmpl : ∀ u ∈ (vueBlock templateTag source).toList.map (blockUnit templateTag), Located (lines source) u := by
    intro u hu
    obtain ⟨b, hb, rfl⟩ := List.mem_map.1 hu
    exact located_block (vueBlock_ok (by simpa using hb)) _
  unfold vueUnits
  cases hb : vueBlock scriptTag source with
  | none => exact ⟨_, rfl, htmpl⟩
  | some b =>
    obtain ⟨h1, h2⟩ := scriptUnits_ok (maxDepth := maxDepth) hp (vueBlock_ok hb)
    simp only
    cases hs : scriptUnits maxDepth parse b with
    | error e =>
      cases e with
      | err => exact ⟨[], rfl, by simp⟩
      | panic => exact absurd hs h1
    | ok us =>
      refine ⟨_, rfl, ?_⟩
      intro u hu
      rcases List.mem_append.1 hu with hu | hu
      · exact (h2 us hs u hu).1
      · exact htmpl u hu

theorem allScripts_ok {maxDepth : Nat} {parse : Text → Option Node} (hp : ParserFits parse) {file : List Text} :
    ∀ {bs : List Block}, (∀ b ∈ bs, BlockOk file b) → allScripts maxDepth parse bs ≠ .error .panic ∧
      ∀ us, allScripts maxDepth parse bs = .ok us → ∀ u ∈ us, Located file u ∧ u.utype ≠ .rawCode
  | [], _ => by
    refine ⟨by simp [allScripts], ?_⟩
    intro us h
    obtain rfl : [] = us := by simpa [allScripts] using h
    simp
  | b :: bs, h => by
    obtain ⟨h1, h2⟩ := scriptUnits_ok (maxDepth := maxDepth) hp (h b (by simp))
    obtain ⟨h3, h4⟩ := allScripts_ok (maxDepth := maxDepth) hp (bs := bs) (fun x hx => h x (by simp [hx]))
    rw [allScripts]
    constructor
    · cases hs : scriptUnits maxDepth parse b with
      | error e => rw [hs] at h1; simpa [Except.bind] using h1
      | ok us =>
        cases ha : allScripts maxDepth parse bs with
        | error e => rw [ha] at h3; simpa [Except.bind] using h3
        | ok vs => simp [Except.bind]
    · intro ws hws u hu
      obtain ⟨us, vs, hus, hvs, rfl⟩ := bind_append_ok hws
      rcases List.mem_append.1 hu with hu | hu
      · exact h2 us hus u hu
      · exact h4 vs hvs u hu

/-! ### The lines kept for the structure unit -/

/-- The kept lines are lines of the file, in order, from row `i` on. -/
def KeptOk (all : List Text) (i : Nat) (kept : List (Nat × Text)) : Prop :=
  (∀ x ∈ kept, i ≤ x.1 ∧ all[x.1]? = some x.2) ∧ kept.Pairwise fun x y => x.1 < y.1

theorem KeptOk.step {all : List Text} {i : Nat} {kept : List (Nat × Text)} (h : KeptOk all (i + 1) kept) :
    KeptOk all i kept := ⟨fun x hx => ⟨by have := (h.1 x hx).1; omega, (h.1 x hx).2⟩, h.2⟩

theorem KeptOk.cons {all : List Text} {i : Nat} {kept : List (Nat × Text)} {l : Text} (h : KeptOk all (i + 1) kept)
    (hl : all[i]? = some l) : KeptOk all i ((i, l) :: kept) := by
  refine ⟨?_, List.pairwise_cons.2 ⟨fun y hy => by have := (h.1 y hy).1; simp only; omega, h.2⟩⟩
  intro x hx
  rcases List.mem_cons.1 hx with rfl | hx
  · exact ⟨le_rfl, hl⟩
  · exact h.step.1 x hx

theorem htmlKeep_ok (all : List Text) : ∀ (ls : List Text) (i : Nat) (s : Bool), all.drop i = ls →
    KeptOk all i (htmlKeep i s ls)
  | [], i, s, _ => by rw [htmlKeep]; exact ⟨by simp, .nil⟩
  | l :: ls, i, s, h => by
    obtain ⟨hl, hd⟩ := drop_cons h
    rw [htmlKeep]
    split
    · exact (htmlKeep_ok all ls (i + 1) true hd).cons hl
    · split
      · exact (htmlKeep_ok all ls (i + 1) false hd).cons hl
      · split
        · exact (htmlKeep_ok all ls (i + 1) s hd).cons hl
        · exact (htmlKeep_ok all ls (i + 1) s hd).step

theorem svelteKeep_ok (all : List Text) : ∀ (ls : List Text) (i : Nat) (s t : Bool), all.drop i = ls →
    KeptOk all i (svelteKeep i s t ls)
  | [], i, s, t, _ => by rw [svelteKeep]; exact ⟨by simp, .nil⟩
  | l :: ls, i, s, t, h => by
    obtain ⟨hl, hd⟩ := drop_cons h
    rw [svelteKeep]
    split
    · exact (svelteKeep_ok all ls (i + 1) _ _ hd).step
    · split
      · exact (svelteKeep_ok all ls (i + 1) _ _ hd).step
      · split
        · exact (svelteKeep_ok all ls (i + 1) _ _ hd).step
        · split
          · exact (svelteKeep_ok all ls (i + 1) _ _ hd).step
          · split
            · exact (svelteKeep_ok all ls (i + 1) _ _ hd).cons hl
            · exact (svelteKeep_ok all ls (i + 1) _ _ hd).step

/-- The state says that a tag is open only when one is. -/
def OpenInv (opening closing : Text → Bool) (all : List Text) (i : Nat) (s : Bool) : Prop :=
  s = true → ¬ Outside opening closing all i

theorem openInv_keep {opening closing : Text → Bool} {all : List Text} {i : Nat} {s : Bool} {l : Text}
    (h : OpenInv opening closing all i s) (hl : all[i]? = some l) (hc : s = true → closing l = true → opening l = true) :
    OpenInv opening closing all (i + 1) s := by
  intro hs hout
  apply h hs
  intro j x hj hx ho
  obtain ⟨k, y, h1, h2, h3, h4, h5⟩ := hout j x (by omega) hx ho
  rcases Nat.lt_or_ge k i with hk | hk
  · exact ⟨k, y, h1, hk, h3, h4, h5⟩
  · obtain rfl : k = i := by omega
    rw [hl] at h3
    obtain rfl : l = y := by simpa using h3
    rw [hc hs h4] at h5; simp at h5

theorem openInv_open {opening closing : Text → Bool} {all : List Text} {i : Nat} {l : Text} (hl : all[i]? = some l)
    (ho : opening l = true) : OpenInv opening closing all (i + 1) true := by
  intro _ hout
  obtain ⟨k, y, h1, h2, _⟩ := hout i l (by omega) hl ho
  omega

theorem openInv_false {opening closing : Text → Bool} {all : List Text} {i : Nat} : OpenInv opening closing all i false :=
  fun h => by simp at h

theorem htmlKeep_complete (all : List Text) : ∀ (ls : List Text) (i : Nat) (s : Bool), all.drop i = ls →
    OpenInv (opensScript true) (closes scriptTag) all i s →
    ∀ (r : Nat) (l : Text), i ≤ r → all[r]? = some l → ¬ BlankLine l →
      (Outside (opensScript true) (closes scriptTag) all r ∨ opensScript true l = true) → (r, l) ∈ htmlKeep i s ls
  | [], i, s, h, _, r, l, hr, hl, _, _ => by
    have := List.drop_eq_nil_iff.1 h
    obtain ⟨h', _⟩ := List.getElem?_eq_some_iff.1 hl
    omega
  | a :: ls, i, s, h, hi, r, l, hr, hl, hb, ho => by
    obtain ⟨ha, hd⟩ := drop_cons h
    rw [htmlKeep]
    rcases Nat.lt_or_ge i r with hlt | hge
    · split
      · rename_i hop
        exact List.mem_cons_of_mem _ (htmlKeep_complete all ls (i + 1) true hd (openInv_open ha hop) r l hlt hl hb ho)
      · rename_i hop
        split
        · exact List.mem_cons_of_mem _ (htmlKeep_complete all ls (i + 1) false hd openInv_false r l hlt hl hb ho)
        · rename_i hcl
          have hinv : OpenInv (opensScript true) (closes scriptTag) all (i + 1) s := openInv_keep hi ha (by
            intro hs hc; rw [hs, hc] at hcl; simp at hcl)
          split
          · exact List.mem_cons_of_mem _ (htmlKeep_complete all ls (i + 1) s hd hinv r l hlt hl hb ho)
          · exact htmlKeep_complete all ls (i + 1) s hd hinv r l hlt hl hb ho
    · obtain rfl : r = i := by omega
      rw [ha] at hl
      obtain rfl : a = l := by simpa using hl
      split
      · simp
      · rename_i hop
        split
        · simp
        · have hs : s = false := by
            rcases ho with ho | ho
            · by_contra hne
              exact hi (by simpa using hne) ho
            · exact absurd ho hop
          rw [← blank_false_iff] at hb
          simp [hs, hb]

theorem svelteKeep_complete (all : List Text) : ∀ (ls : List Text) (i : Nat) (s t : Bool), all.drop i = ls →
    OpenInv (opensScript false) (closes scriptTag) all i s → OpenInv (opens styleTag) closesStyle all i t →
    ∀ (r : Nat) (l : Text), i ≤ r → all[r]? = some l → ¬ BlankLine l →
      Outside (opensScript false) (closes scriptTag) all r → Outside (opens styleTag) closesStyle all r →
      opensScript false l = false → opens styleTag l = false → (r, l) ∈ svelteKeep i s t ls
  | [], i, s, t, h, _, _, r, l, hr, hl, _, _, _, _, _ => by
    have := List.drop_eq_nil_iff.1 h
    obtain ⟨h', _⟩ := List.getElem?_eq_some_iff.1 hl
    omega
  | a :: ls, i, s, t, h, hi, hi', r, l, hr, hl, hb, ho, ho', hn, hn' => by
    obtain ⟨ha, hd⟩ := drop_cons h
    rw [svelteKeep]
    rcases Nat.lt_or_ge i r with hlt | hge
    · have go := fun s' t' hs ht => svelteKeep_complete all ls (i + 1) s' t' hd hs ht r l hlt hl hb ho ho' hn hn'
      split
      · rename_i hop
        exact go _ _ (openInv_open ha hop) (openInv_keep hi' ha (by
          intro _ hc; simp [closesStyle, hop] at hc))
      · rename_i hop
        split
        · rename_i hcl
          exact go _ _ openInv_false (openInv_keep hi' ha (by
            intro _ hc
            simp only [Bool.and_eq_true] at hcl
            simp [closesStyle, hcl.2] at hc))
        · rename_i hcl
          have hinv : OpenInv (opensScript false) (closes scriptTag) all (i + 1) s := openInv_keep hi ha (by
            intro hs hc; rw [hs, hc] at hcl; simp at hcl)
          split
          · rename_i hst
            exact go _ _ hinv (openInv_open ha hst)
          · rename_i hst
            split
            · exact go _ _ hinv openInv_false
            · rename_i hcs
              have hinv' : OpenInv (opens styleTag) closesStyle all (i + 1) t := openInv_keep hi' ha (by
                intro ht hc
                simp only [closesStyle, Bool.and_eq_true] at hc
                rw [ht, hc.1.1] at hcs; simp at hcs)
              split
              · exact List.mem_cons_of_mem _ (go _ _ hinv hinv')
              · exact go _ _ hinv hinv'
    · obtain rfl : r = i := by omega
      rw [ha] at hl
      obtain rfl : a = l := by simpa using hl
      have hs : s = false := by
        by_contra hne
        exact hi (by simpa using hne) ho
      have ht : t = false := by
        by_contra hne
        exact hi' (by simpa using hne) ho'
      rw [← blank_false_iff] at hb
      simp [hs, ht, hb, hn, hn']

theorem keptBlock_selection {all : List Text} {kept : List (Nat × Text)} (h : KeptOk all 0 kept) {b : Block}
    (hb : keptBlock kept = some b) (name : Text) : Selection all (kept.map Prod.fst) (blockUnit name b) := by
  unfold keptBlock at hb
  split at hb
  · simp at hb
  · rename_i i l rest
    obtain rfl := Option.some.inj hb
    refine ⟨?_, ?_, ⟨i, by simp, rfl⟩, ?_⟩
    · rw [List.pairwise_map]; exact h.2
    · intro r hr
      obtain ⟨x, hx, rfl⟩ := List.mem_map.1 hr
      obtain ⟨h', _⟩ := List.getElem?_eq_some_iff.1 (h.1 x hx).2
      exact h'
    · show joinNl _ = _
      rw [joinNl_eq, List.map_map]
      congr 1
      apply List.map_congr_left
      intro x hx
      simp [(h.1 x hx).2]

theorem keptBlock_some {kept : List (Nat × Text)} {x : Nat × Text} (h : x ∈ kept) : ∃ b, keptBlock kept = some b := by
  cases kept with
  | nil => cases h
  | cons y ys => exact ⟨_, rfl⟩

theorem pageUnits_ok {html : Bool} {maxDepth : Nat} {parse : Text → Option Node} (hp : ParserFits parse) (source : Text) :
    ∃ us, pageUnits html maxDepth parse source = .ok us ∧
      (us = [] ∨ ∃ scripts, (∀ u ∈ scripts, Located (lines source) u ∧ u.utype ≠ .rawCode) ∧
        us = scripts ++ (keptBlock (if html then htmlKeep 0 false (lines source) else svelteKeep 0 false false (lines source))).toList.map
          (blockUnit (if html then "html_structure".toList else templateTag))) := by
  obtain ⟨h1, h2⟩ := allScripts_ok (maxDepth := maxDepth) hp (file := lines source) (bs := scriptBlocks html source)
    (fun b hb => scriptBlocks_ok hb)
  unfold pageUnits
  cases hs : allScripts maxDepth parse (scriptBlocks html source) with
  | error e =>
    cases e with
    | err => exact ⟨[], rfl, .inl rfl⟩
    | panic => exact absurd hs h1
  | ok us => exact ⟨_, rfl, .inr ⟨us, h2 us hs, rfl⟩⟩

theorem pageUnits_shallow {html : Bool} {maxDepth : Nat} {parse : Text → Option Node} (hp : ParserFits parse)
    (hs : ParserShallow parse maxDepth) (source : Text) :
    ∃ scripts, (∀ u ∈ scripts, Located (lines source) u ∧ u.utype ≠ .rawCode) ∧
      pageUnits html maxDepth parse source = .ok (scripts ++
        (keptBlock (if html then htmlKeep 0 false (lines source) else svelteKeep 0 false false (lines source))).toList.map
          (blockUnit (if html then "html_structure".toList else templateTag))) := by
  obtain ⟨h1, h2⟩ := allScripts_ok (maxDepth := maxDepth) hp (file := lines source) (bs := scriptBlocks html source)
    (fun b hb => scriptBlocks_ok hb)
  obtain ⟨us, hus⟩ := allScripts_shallow hp hs (scriptBlocks html source)
  exact ⟨us, h2 us hus, by unfold pageUnits; simp only [hus]⟩

/-! ### The call graph -/

theorem mem_dedupAdj {x : Text} : ∀ (l : List Text), x ∈ dedupAdj l ↔ x ∈ l
  | [] => by simp [dedupAdj]
  | [a] => by simp [dedupAdj]
  | a :: b :: l => by
    rw [dedupAdj]
    split
    · rename_i h
      subst h
      rw [mem_dedupAdj (a :: l)]
      simp
    · rw [List.mem_cons, mem_dedupAdj (b :: l), List.mem_cons (a := x) (b := a)]

theorem dedupAdj_sorted : ∀ (l : List Text), l.Pairwise (· ≤ ·) → (dedupAdj l).Pairwise (· < ·)
  | [], _ => by simp [dedupAdj]
  | [a], _ => by simp [dedupAdj]
  | a :: b :: l, h => by
    rw [dedupAdj]
    obtain ⟨h1, h2⟩ := List.pairwise_cons.1 h
    split
    · exact dedupAdj_sorted (b :: l) h2
    · rename_i hne
      refine List.pairwise_cons.2 ⟨?_, dedupAdj_sorted (b :: l) h2⟩
      intro x hx
      rw [mem_dedupAdj] at hx
      have hab : a < b := lt_of_le_of_ne (h1 b (by simp)) hne
      rcases List.mem_cons.1 hx with rfl | hx
      · exact hab
      · exact lt_of_lt_of_le hab ((List.pairwise_cons.1 h2).1 x hx)

theorem mem_callersOf {units : List CodeUnit} {u : CodeUnit} {x : Text} :
    x ∈ callersOf units u ↔ CalledFrom units u.name x := by
  unfold callersOf CalledFrom
  rw [List.mem_flatMap]
  constructor
  · rintro ⟨v, hv, h⟩
    obtain ⟨c, hc, rfl⟩ := List.mem_map.1 h
    rw [List.mem_filter] at hc
    refine ⟨v, hv, rfl, ?_⟩
    have : c = u.name := by simpa using hc.2
    rw [← this]; exact hc.1
  · rintro ⟨v, hv, rfl, hc⟩
    exact ⟨v, hv, List.mem_map.2 ⟨u.name, List.mem_filter.2 ⟨hc, by simp⟩, rfl⟩⟩

end NextPlaid.Units
