import Verif.Proofs.Units3

/-! Files with embedded scripts: where the lines of a block stand in the file. -/

namespace NextPlaid.Units

open NextPlaid.Spec

def NoNl (l : Text) : Prop := '\n' ∉ l

theorem splitNl_ne : ∀ s : Text, splitNl s ≠ []
  | [] => by simp [splitNl]
  | c :: cs => by
    rw [splitNl]
    split
    · simp
    · split <;> simp

theorem splitNl_noNl : ∀ (s : Text) (l : Text), l ∈ splitNl s → NoNl l
  | [], l, h => by
    obtain rfl : l = [] := by simpa [splitNl] using h
    simp [NoNl]
  | c :: cs, l, h => by
    rw [splitNl] at h
    split at h
    · rcases List.mem_cons.1 h with rfl | h
      · simp [NoNl]
      · exact splitNl_noNl cs l h
    · rename_i hc
      split at h
      · rename_i heq
        exact absurd heq (splitNl_ne cs)
      · rename_i m ms heq
        have ih := splitNl_noNl cs
        rw [heq] at ih
        rcases List.mem_cons.1 h with rfl | h
        · have := ih m (by simp)
          unfold NoNl at this ⊢
          simp only [List.mem_cons, not_or]
          exact ⟨fun h => hc h.symm, this⟩
        · exact ih l (by simp [h])

theorem stripCr_prefix (l : Text) : stripCr l <+: l := by
  unfold stripCr
  split
  · exact List.dropLast_prefix l
  · exact List.prefix_refl l

theorem chop_get : ∀ (ps : List Text) (k : Nat) (l : Text), (chop ps)[k]? = some l → ∃ p, ps[k]? = some p ∧ l <+: p
  | [], k, l, h => by simp [chop] at h
  | [p], k, l, h => by
    rw [chop] at h
    split at h
    · simp at h
    · cases k with
      | zero => exact ⟨p, rfl, by obtain rfl : p = l := by simpa using h
                                  exact List.prefix_refl _⟩
      | succ k => simp at h
  | p :: q :: ps, k, l, h => by
    rw [chop] at h
    cases k with
    | zero =>
      obtain rfl : stripCr p = l := by simpa using h
      exact ⟨p, rfl, stripCr_prefix p⟩
    | succ k =>
      obtain ⟨r, hr, hp⟩ := chop_get (q :: ps) k l (by simpa using h)
      exact ⟨r, by simpa using hr, hp⟩

theorem lines_noNl {s l : Text} (h : l ∈ lines s) : NoNl l := by
  obtain ⟨k, hk⟩ := List.mem_iff_getElem?.1 h
  obtain ⟨p, hp, hpre⟩ := chop_get _ _ _ hk
  have := splitNl_noNl s p (List.mem_of_getElem? hp)
  exact fun hm => this (hpre.subset hm)

theorem splitNl_append : ∀ (l s : Text), NoNl l → splitNl (l ++ '\n' :: s) = l :: splitNl s
  | [], s, _ => by simp [splitNl]
  | c :: cs, s, h => by
    have hc : c ≠ '\n' := fun he => h (by simp [he])
    have hcs : NoNl cs := fun hm => h (by simp [hm])
    rw [List.cons_append, splitNl, if_neg hc, splitNl_append cs s hcs]

theorem splitNl_self : ∀ (l : Text), NoNl l → splitNl l = [l]
  | [], _ => rfl
  | c :: cs, h => by
    have hc : c ≠ '\n' := fun he => h (by simp [he])
    have hcs : NoNl cs := fun hm => h (by simp [hm])
    rw [splitNl, if_neg hc, splitNl_self cs hcs]

theorem splitNl_join : ∀ (ls : List Text), ls ≠ [] → (∀ l ∈ ls, NoNl l) → splitNl (joinNl ls) = ls
  | [], h, _ => absurd rfl h
  | [l], _, h => by rw [joinNl, splitNl_self l (h l (by simp))]
  | l :: m :: ls, _, h => by
    rw [joinNl, splitNl_append _ _ (h l (by simp)), splitNl_join (m :: ls) (by simp) (fun x hx => h x (by simp [hx]))]

/-- Reading the lines of joined lines again gives at most the same lines, each perhaps without a carriage return. -/
theorem lines_join {ls : List Text} (h : ∀ l ∈ ls, NoNl l) {k : Nat} {l : Text} (hk : (lines (joinNl ls))[k]? = some l) :
    ∃ w, ls[k]? = some w ∧ l <+: w := by
  by_cases hne : ls = []
  · subst hne; simp [joinNl, lines, splitNl, chop] at hk
  · unfold lines at hk
    rw [splitNl_join ls hne h] at hk
    exact chop_get _ _ _ hk

/-! ### Blocks -/

/-- The content lines are parts of the lines of the file from row `start` on. -/
def FitAt (all : List Text) (start : Nat) (content : List Text) : Prop :=
  ∀ k l, content[k]? = some l → ∃ w, all[start + k]? = some w ∧ l <:+: w

theorem trim_infix (s : Text) : trim s <:+: s := by
  unfold trim
  have h1 : (List.dropWhile isWs (List.dropWhile isWs s).reverse).reverse <+: s.dropWhile isWs := by
    have := List.dropWhile_suffix isWs (l := (s.dropWhile isWs).reverse)
    rw [← List.reverse_prefix] at this
    simpa using this
  exact h1.isInfix.trans (List.dropWhile_suffix isWs).isInfix

theorem afterGt_suffix : ∀ (s a : Text), afterGt s = some a → a <:+ s
  | [], a, h => by simp [afterGt] at h
  | c :: cs, a, h => by
    rw [afterGt] at h
    split at h
    · obtain rfl : cs = a := by simpa using h
      exact List.suffix_cons c cs
    · exact (afterGt_suffix cs a h).trans (List.suffix_cons c cs)

theorem before_prefix (p : Text) : ∀ (s b : Text), before p s = some b → b <+: s
  | [], b, h => by
    rw [before] at h
    split at h
    · obtain rfl : [] = b := by simpa using h
      exact List.prefix_refl _
    · simp at h
  | c :: cs, b, h => by
    rw [before] at h
    split at h
    · obtain rfl : [] = b := by simpa using h
      exact List.nil_prefix
    · cases hb : before p cs with
      | none => rw [hb] at h; simp at h
      | some b' =>
        rw [hb] at h
        obtain rfl : c :: b' = b := by simpa using h
        exact (List.prefix_cons_inj c).2 (before_prefix p cs b' hb)

theorem inline_infix {tag line l : Text} (h : l ∈ inlineContent tag line) : l <:+: line := by
  unfold inlineContent at h
  split at h
  · cases h
  · rename_i after ha
    split at h
    · cases h
    · obtain rfl : l = after := by simpa using h
      exact (afterGt_suffix _ _ ha).isInfix.trans (trim_infix line)

theorem contentBefore_prefix {tag line l : Text} (h : l ∈ contentBefore tag line) : l <+: line := by
  unfold contentBefore at h
  split at h
  · cases h
  · rename_i b hb
    split at h
    · cases h
    · obtain rfl : l = b := by simpa using h
      exact before_prefix _ _ _ hb

theorem inline_length (tag line : Text) : (inlineContent tag line).length ≤ 1 := by
  unfold inlineContent
  split
  · simp
  · split <;> simp

theorem contentBefore_length (tag line : Text) : (contentBefore tag line).length ≤ 1 := by
  unfold contentBefore
  split
  · simp
  · split <;> simp

theorem vueInside_fit (tag : Text) : ∀ (ls : List Text) (k : Nat) (l : Text), (vueInside tag ls)[k]? = some l →
    ∃ w, ls[k]? = some w ∧ l <:+: w
  | [], k, l, h => by simp [vueInside] at h
  | a :: ls, k, l, h => by
    rw [vueInside] at h
    split at h
    · have hk : k = 0 := by
        obtain ⟨h1, _⟩ := List.getElem?_eq_some_iff.1 h
        have := contentBefore_length tag a
        omega
      subst hk
      exact ⟨a, rfl, (contentBefore_prefix (List.mem_of_getElem? h)).isInfix⟩
    · cases k with
      | zero => exact ⟨a, rfl, by obtain rfl : a = l := by simpa using h
                                  exact List.infix_refl _⟩
      | succ k =>
        obtain ⟨w, hw, hi⟩ := vueInside_fit tag ls k l (by simpa using h)
        exact ⟨w, by simpa using hw, hi⟩

theorem drop_cons {all ls : List Text} {i : Nat} {l : Text} (h : all.drop i = l :: ls) :
    all[i]? = some l ∧ all.drop (i + 1) = ls := by
  constructor
  · have := congrArg (fun x => x[0]?) h
    simpa [List.getElem?_drop] using this
  · rw [← List.drop_drop, h]; rfl

theorem opening_fit {all ls : List Text} {i : Nat} {tag l : Text} (h : all.drop i = l :: ls) {content : List Text}
    (hc : ∀ k x, content[k]? = some x → ∃ w, all[i + 1 + k]? = some w ∧ x <:+: w) :
    FitAt all (if (inlineContent tag l).isEmpty then i + 1 else i) (inlineContent tag l ++ content) := by
  intro k x hx
  have hlen := inline_length tag l
  rcases hin : inlineContent tag l with _ | ⟨a, rest⟩
  · rw [hin] at hx
    simpa using hc k x (by simpa using hx)
  · rw [hin] at hx hlen
    obtain rfl : rest = [] := by
      cases rest with
      | nil => rfl
      | cons _ _ => simp at hlen
    simp only [List.isEmpty_cons, Bool.false_eq_true, if_false]
    cases k with
    | zero =>
      obtain rfl : a = x := by simpa using hx
      exact ⟨l, by simpa using (drop_cons h).1, inline_infix (tag := tag) (by rw [hin]; simp)⟩
    | succ k =>
      obtain ⟨w, hw, hi⟩ := hc k x (by simpa using hx)
      exact ⟨w, by rw [← hw]; congr 1; omega, hi⟩

theorem vueScan_fit (tag : Text) (all : List Text) : ∀ (ls : List Text) (i : Nat), all.drop i = ls →
    FitAt all (vueScan tag i ls).2 (vueScan tag i ls).1
  | [], i, _ => by intro k l h; simp [vueScan] at h
  | l :: ls, i, h => by
    rw [vueScan]
    split
    · apply opening_fit h
      intro k x hx
      obtain ⟨w, hw, hi⟩ := vueInside_fit tag ls k x hx
      refine ⟨w, ?_, hi⟩
      rw [← hw, ← (drop_cons h).2, List.getElem?_drop]
    · exact vueScan_fit tag all ls (i + 1) (drop_cons h).2

/-- A block of the file: content lines without line feeds that fit at its start. -/
def BlockOk (all : List Text) (b : Block) : Prop :=
  ∃ content : List Text, b.content = joinNl content ∧ content ≠ [] ∧ (∀ l ∈ content, NoNl l) ∧ FitAt all b.start content

theorem noNl_of_fit {source : Text} {start : Nat} {content : List Text} (h : FitAt (lines source) start content) :
    ∀ l ∈ content, NoNl l := by
  intro l hl
  obtain ⟨k, hk⟩ := List.mem_iff_getElem?.1 hl
  obtain ⟨w, hw, hi⟩ := h k l hk
  exact fun hm => lines_noNl (List.mem_of_getElem? hw) (hi.subset hm)

theorem vueBlock_ok {tag source : Text} {b : Block} (h : vueBlock tag source = some b) : BlockOk (lines source) b := by
  unfold vueBlock at h
  split at h
  · simp at h
  · rename_i hne
    obtain rfl := Option.some.inj h
    have hf := vueScan_fit tag (lines source) (lines source) 0 rfl
    exact ⟨_, rfl, by simpa using hne, noNl_of_fit hf, hf⟩

theorem scriptScan_ok (html : Bool) (all : List Text) : ∀ (ls : List Text) (i : Nat) (st : Option (List Text × Nat)),
    all.drop i = ls → (∀ content start, st = some (content, start) → FitAt all start content ∧ start + content.length = i) →
    ∀ b ∈ scriptScan html i st ls, ∃ content : List Text, b.content = joinNl content ∧ content ≠ [] ∧ FitAt all b.start content
  | [], i, st, _, _, b, hb => by
    rw [scriptScan] at hb; cases hb
  | l :: ls, i, none, hd, _, b, hb => by
    rw [scriptScan] at hb
    have hd' := (drop_cons hd).2
    split at hb
    · refine scriptScan_ok html all ls (i + 1) _ hd' ?_ b hb
      intro content start hst
      obtain ⟨rfl, rfl⟩ := Prod.mk.inj (Option.some.inj hst)
      have := opening_fit (tag := scriptTag) hd (content := []) (by simp)
      refine ⟨by simpa using this, ?_⟩
      have hlen := inline_length scriptTag l
      rcases hin : inlineContent scriptTag l with _ | ⟨a, rest⟩
      · simp
      · rw [hin] at hlen
        obtain rfl : rest = [] := by
          cases rest with
          | nil => rfl
          | cons _ _ => simp at hlen
        simp
    · exact scriptScan_ok html all ls (i + 1) none hd' (by simp) b hb
  | l :: ls, i, some (content, start), hd, hst, b, hb => by
    rw [scriptScan] at hb
    obtain ⟨hg, hd'⟩ := drop_cons hd
    obtain ⟨hf, hlen⟩ := hst content start rfl
    split at hb
    · rcases List.mem_append.1 hb with hb | hb
      · unfold mkBlock at hb
        split at hb
        · cases hb
        · rename_i hne
          obtain rfl : b = ⟨joinNl (content ++ contentBefore scriptTag l), start⟩ := by simpa using hb
          refine ⟨_, rfl, by intro h; rw [h] at hne; simp at hne, ?_⟩
          intro k x hx
          rcases Nat.lt_or_ge k content.length with hk | hk
          · rw [List.getElem?_append_left hk] at hx
            exact hf k x hx
          · rw [List.getElem?_append_right hk] at hx
            obtain ⟨h1, _⟩ := List.getElem?_eq_some_iff.1 hx
            have := contentBefore_length scriptTag l
            have hk' : k = content.length := by omega
            refine ⟨l, ?_, (contentBefore_prefix (List.mem_of_getElem? hx)).isInfix⟩
            show all[start + k]? = some l
            rw [hk', hlen]; exact hg
      · exact scriptScan_ok html all ls (i + 1) none hd' (by simp) b hb
    · refine scriptScan_ok html all ls (i + 1) _ hd' ?_ b hb
      intro content' start' hst'
      obtain ⟨rfl, rfl⟩ := Prod.mk.inj (Option.some.inj hst')
      refine ⟨?_, by simp; omega⟩
      intro k x hx
      rcases Nat.lt_or_ge k content.length with hk | hk
      · rw [List.getElem?_append_left hk] at hx
        exact hf k x hx
      · rw [List.getElem?_append_right hk] at hx
        obtain ⟨h1, _⟩ := List.getElem?_eq_some_iff.1 hx
        simp only [List.length_singleton] at h1
        have hk' : k = content.length := by omega
        subst hk'
        refine ⟨l, by rw [hlen]; exact hg, ?_⟩
        obtain rfl : l = x := by simpa using hx
        exact List.infix_refl _

theorem scriptBlocks_ok {html : Bool} {source : Text} {b : Block} (h : b ∈ scriptBlocks html source) :
    BlockOk (lines source) b := by
  obtain ⟨content, h1, h2, h3⟩ := scriptScan_ok html (lines source) (lines source) 0 none rfl (by simp) b h
  exact ⟨content, h1, h2, noNl_of_fit h3, h3⟩

/-- A unit found in the lines of a block, renumbered, is located in the file. -/
theorem located_shift {file : List Text} {b : Block} (hb : BlockOk file b) {u : CodeUnit}
    (hu : CodeIs (lines b.content) u) : Located file (shift b.start u) := by
  obtain ⟨content, hc, hne, hnl, hf⟩ := hb
  obtain ⟨h1, h2, h3⟩ := hu
  refine ⟨by simp [shift]; omega, ?_⟩
  intro k l hk
  simp only [shift] at hk ⊢
  rw [h3, ← joinNl_eq] at hk
  obtain ⟨w, hw, hpre⟩ := lines_join (fun x hx => lines_noNl ((List.drop_subset _ _) (List.take_subset _ _ hx))) hk
  have hk' : k < u.endLine + 1 - u.line := by
    obtain ⟨h, _⟩ := List.getElem?_eq_some_iff.1 hw
    simp at h; omega
  rw [List.getElem?_take, if_pos hk', List.getElem?_drop] at hw
  rw [hc] at hw
  obtain ⟨w', hw', hpre'⟩ := lines_join hnl hw
  obtain ⟨w'', hw'', hin⟩ := hf _ _ hw'
  refine ⟨by omega, w'', ?_, (hpre.trans hpre').isInfix.trans hin⟩
  rw [← hw'']; congr 1; omega

theorem located_block {file : List Text} {b : Block} (hb : BlockOk file b) (name : Text) : Located file (blockUnit name b) := by
  obtain ⟨content, hc, hne, hnl, hf⟩ := hb
  refine ⟨by simp [blockUnit], ?_⟩
  intro k l hk
  simp only [blockUnit] at hk ⊢
  obtain ⟨h, _⟩ := List.getElem?_eq_some_iff.1 hk
  rw [hc] at hk
  obtain ⟨w, hw, hpre⟩ := lines_join hnl hk
  obtain ⟨w', hw', hin⟩ := hf _ _ hw
  refine ⟨by omega, w', ?_, hpre.isInfix.trans hin⟩
  rw [← hw']; congr 1; omega

end NextPlaid.Units
