import Verif.Proofs.Units6

/-! Scripts in Vue, Svelte and HTML files: each definition has its unit. -/

namespace NextPlaid.Units

open NextPlaid.Spec

theorem vueInside_body {tag : Text} {e : Text} {post : List Text} (he : closes tag e = true) (hb : contentBefore tag e = []) :
    ∀ {body : List Text}, (∀ l ∈ body, closes tag l = false) → vueInside tag (body ++ e :: post) = body
  | [], _ => by simp [vueInside, he, hb]
  | l :: body, h => by
    rw [List.cons_append, vueInside, if_neg (by simp [h l (by simp)]),
      vueInside_body he hb fun x hx => h x (by simp [hx])]

theorem vueScan_body {tag o e : Text} {body post : List Text} (ho : opens tag o = true) (hi : inlineContent tag o = [])
    (he : closes tag e = true) (hb : contentBefore tag e = []) (hbody : ∀ l ∈ body, closes tag l = false) :
    ∀ {pre : List Text} {i : Nat}, (∀ l ∈ pre, opens tag l = false) →
      vueScan tag i (pre ++ o :: (body ++ e :: post)) = (body, i + pre.length + 1)
  | [], i, _ => by
    rw [List.nil_append, vueScan, if_pos ho, hi, vueInside_body he hb hbody]; simp
  | l :: pre, i, h => by
    rw [List.cons_append, vueScan, if_neg (by simp [h l (by simp)]),
      vueScan_body ho hi he hb hbody fun x hx => h x (by simp [hx])]
    simp only [List.length_cons, Prod.mk.injEq, true_and]; omega

/-- Reading a script that is open. -/
theorem scriptScan_body {html : Bool} {e : Text} {post : List Text} (he : closes scriptTag e = true)
    (hb : contentBefore scriptTag e = []) : ∀ {body : List Text} {i start : Nat} {content : List Text},
    (∀ l ∈ body, closes scriptTag l = false) → content ++ body ≠ [] →
    (⟨joinNl (content ++ body), start⟩ : Block) ∈ scriptScan html i (some (content, start)) (body ++ e :: post)
  | [], i, start, content, _, hne => by
    rw [List.nil_append, scriptScan, if_pos he, hb]
    apply List.mem_append.2; left
    unfold mkBlock
    rw [if_neg (by simpa using hne)]
    simp
  | l :: body, i, start, content, h, _ => by
    rw [List.cons_append, scriptScan, if_neg (by simp [h l (by simp)])]
    have := scriptScan_body (html := html) (post := post) he hb (body := body) (i := i + 1) (start := start)
      (content := content ++ [l]) (fun x hx => h x (by simp [hx])) (by simp)
    simpa using this

/-- In a script since line `j`. -/
def OpenSince (html : Bool) (all : List Text) (i : Nat) : Prop :=
  ∃ (j : Nat) (l : Text), j < i ∧ all[j]? = some l ∧ opensScript html l = true ∧
    ∀ (k : Nat) (x : Text), j < k → k < i → all[k]? = some x → closes scriptTag x = false

theorem scriptScan_at {html : Bool} {all : List Text} {o e : Text} {body post : List Text} (ho : opensScript html o = true)
    (hi : inlineContent scriptTag o = []) (he : closes scriptTag e = true) (hb : contentBefore scriptTag e = [])
    (hbody : ∀ l ∈ body, closes scriptTag l = false) (hne : body ≠ []) :
    ∀ {pre : List Text} {i : Nat} {st : Option (List Text × Nat)}, all.drop i = pre ++ o :: (body ++ e :: post) →
      (st ≠ none → OpenSince html all i) → Outside (opensScript html) (closes scriptTag) all (i + pre.length) →
      (⟨joinNl body, i + pre.length + 1⟩ : Block) ∈ scriptScan html i st (pre ++ o :: (body ++ e :: post))
  | [], i, st, hd, hst, hout => by
    have hnone : st = none := by
      by_contra h
      obtain ⟨j, l, hj, hl, hopen, hcl⟩ := hst h
      obtain ⟨k, l', hk1, hk2, hk3, hk4, _⟩ := hout j l (by simpa using hj) hl hopen
      have := hcl k l' hk1 (by simpa using hk2) hk3
      rw [hk4] at this; simp at this
    subst hnone
    rw [List.nil_append, scriptScan, if_pos ho, hi]
    have := scriptScan_body (html := html) (post := post) he hb (body := body) (i := i + 1) (start := i + 1) (content := [])
      hbody (by simpa using hne)
    simpa using this
  | l :: pre, i, st, hd, hst, hout => by
    rw [List.cons_append] at hd
    obtain ⟨hl, hd'⟩ := drop_cons hd
    have hout' : Outside (opensScript html) (closes scriptTag) all (i + 1 + pre.length) := by
      simpa [Nat.add_assoc, Nat.add_comm 1] using hout
    have hnum : i + (l :: pre).length + 1 = i + 1 + pre.length + 1 := by simp only [List.length_cons]; omega
    rw [hnum, List.cons_append]
    have hkeep : OpenSince html all i → closes scriptTag l = false → OpenSince html all (i + 1) := by
      rintro ⟨j, x, hj, hx, hox, hcl⟩ hc
      refine ⟨j, x, by omega, hx, hox, ?_⟩
      intro k y hk1 hk2 hy
      rcases Nat.lt_or_ge k i with h | h
      · exact hcl k y hk1 h hy
      · obtain rfl : k = i := by omega
        rw [hl] at hy
        obtain rfl := Option.some.inj hy
        exact hc
    cases st with
    | none =>
      rw [scriptScan]
      split
      · rename_i hop
        exact scriptScan_at ho hi he hb hbody hne hd' (fun _ => ⟨i, l, by omega, hl, hop, fun k x h1 h2 => by omega⟩) hout'
      · exact scriptScan_at ho hi he hb hbody hne hd' (by simp) hout'
    | some st =>
      obtain ⟨content, start⟩ := st
      rw [scriptScan]
      split
      · apply List.mem_append.2; right
        exact scriptScan_at ho hi he hb hbody hne hd' (by simp) hout'
      · rename_i hc
        exact scriptScan_at ho hi he hb hbody hne hd' (fun _ => hkeep (hst (by simp)) (by simpa using hc)) hout'

theorem vueBlock_at {source : Text} {pre body : List Text} (h : ScriptAt (opens scriptTag) (lines source) pre body)
    (hpre : ∀ l ∈ pre, opens scriptTag l = false) :
    vueBlock scriptTag source = some ⟨joinNl body, pre.length + 1⟩ := by
  obtain ⟨o, e, post, hl, ho, hi, he, hb, hne, hbody⟩ := h
  unfold vueBlock
  rw [hl, vueScan_body ho hi he hb hbody hpre]
  rw [if_neg (by simpa using hne)]
  simp

theorem scriptBlock_at {html : Bool} {source : Text} {pre body : List Text}
    (h : ScriptAt (opensScript html) (lines source) pre body)
    (hout : Outside (opensScript html) (closes scriptTag) (lines source) pre.length) :
    (⟨joinNl body, pre.length + 1⟩ : Block) ∈ scriptBlocks html source := by
  obtain ⟨o, e, post, hl, ho, hi, he, hb, hne, hbody⟩ := h
  unfold scriptBlocks
  have := scriptScan_at (html := html) (all := lines source) (i := 0) (st := none) ho hi he hb hbody hne
    (by rw [List.drop_zero]; exact hl) (by simp) (by simpa using hout)
  rw [← hl] at this
  simpa using this

theorem scriptUnits_covered {maxDepth : Nat} {parse : Text → Option Node} (hp : ParserFits parse) {b : Block} {t : Node}
    (ht : parse b.content = some t) {us : List CodeUnit} (hu : scriptUnits maxDepth parse b = .ok us) :
    ScriptCovered b.start (lines b.content) t us := by
  have hf := hp _ _ ht
  unfold scriptUnits at hu
  rw [ht] at hu
  simp only at hu
  cases hx : extractNode ⟨.typescript, maxDepth, true⟩ (lines b.content) none 0 t with
  | error e => rw [hx] at hu; simp [Except.map] at hu
  | ok vs =>
    rw [hx] at hu
    obtain rfl : vs.map (shift b.start) = us := by simpa [Except.map] using hu
    intro p m hfound hname
    obtain ⟨name, hn⟩ := Option.ne_none_iff_exists'.1 hname
    obtain ⟨k, hk⟩ := found_within hfound
    obtain ⟨hr1, hr2⟩ := hf k m hk
    obtain ⟨d, ws, _, hws, hsub⟩ := extractNode_found (M := ⟨.typescript, maxDepth, true⟩) hfound (by simp) (.inl rfl) hx
    refine ⟨?_, ?_, ?_⟩
    · intro hkind
      obtain ⟨u, hu, a1, a2, a3, ⟨start, a4, a4'⟩, a5, a6⟩ := extractNode_function hws hkind hn hr1 hr2
      exact ⟨shift b.start u, List.mem_map.2 ⟨u, hsub hu, rfl⟩, ⟨by simp [shift, hn, a1], by simp [shift, a3]; omega,
        start, by simp [shift, a4]; omega, a4'⟩, a2, a5, a6⟩
    · intro hkind
      obtain ⟨u, hu, a1, a2, a3, ⟨start, a4, a4'⟩, a5⟩ := extractNode_class hws hkind hn hr1 hr2
      exact ⟨shift b.start u, List.mem_map.2 ⟨u, hsub hu, rfl⟩, ⟨by simp [shift, hn, a1], by simp [shift, a3]; omega,
        start, by simp [shift, a4]; omega, a4'⟩, a2, a5⟩
    · intro hkind hpn
      subst hpn
      obtain ⟨u, hu, a1, a3, ⟨start, a4, a4'⟩, a5⟩ := extractNode_constant hws hkind hn (by simp) hr1 hr2
      refine ⟨shift b.start u, List.mem_map.2 ⟨u, hsub hu, rfl⟩, ⟨by simp [shift, hn, a1], by simp [shift, a3]; omega,
        start, by simp [shift, a4]; omega, a4'⟩, ?_⟩
      simpa [shift] using a5

theorem ScriptCovered_mono {offset : Nat} {script : List Text} {t : Node} {us vs : List CodeUnit}
    (h : ScriptCovered offset script t us) (hs : us ⊆ vs) : ScriptCovered offset script t vs := by
  intro p m hf hn
  obtain ⟨h1, h2, h3⟩ := h p m hf hn
  refine ⟨?_, ?_, ?_⟩
  · intro hk; obtain ⟨u, hu, r⟩ := h1 hk; exact ⟨u, hs hu, r⟩
  · intro hk; obtain ⟨u, hu, r⟩ := h2 hk; exact ⟨u, hs hu, r⟩
  · intro hk hp; obtain ⟨u, hu, r⟩ := h3 hk hp; exact ⟨u, hs hu, r⟩

theorem allScripts_sub {maxDepth : Nat} {parse : Text → Option Node} : ∀ {bs : List Block} {us : List CodeUnit},
    allScripts maxDepth parse bs = .ok us → ∀ b ∈ bs, ∃ vs, scriptUnits maxDepth parse b = .ok vs ∧ vs ⊆ us
  | [], us, h, b, hb => by cases hb
  | a :: bs, us, h, b, hb => by
    rw [allScripts] at h
    cases h1 : scriptUnits maxDepth parse a with
    | error e => rw [h1] at h; simp [Except.bind] at h
    | ok vs =>
      cases h2 : allScripts maxDepth parse bs with
      | error e => rw [h1, h2] at h; simp [Except.bind] at h
      | ok ws =>
        rw [h1, h2] at h
        obtain rfl : vs ++ ws = us := by simpa [Except.bind] using h
        rcases List.mem_cons.1 hb with rfl | hb
        · exact ⟨vs, h1, by simp⟩
        · obtain ⟨xs, hx, hsub⟩ := allScripts_sub h2 b hb
          exact ⟨xs, hx, fun z hz => by simp [hsub hz]⟩

end NextPlaid.Units
