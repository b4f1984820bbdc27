import Verif.Spec.Facts
import Verif.Proofs.Units5
import Mathlib.Data.List.TakeWhile

namespace NextPlaid.Facts

open FactsSpec
open Units (Text trim)
open Scan (Language)

/-! ### Trees -/

theorem writtenAll_eq : ∀ cs : List Nd, writtenAll cs = cs.flatMap written
  | [] => by simp [writtenAll]
  | c :: cs => by simp [writtenAll, writtenAll_eq cs]

theorem sizes_eq : ∀ cs : List Nd, sizes cs = (cs.map Nd.size).sum
  | [] => by simp [sizes]
  | c :: cs => by simp [sizes, sizes_eq cs]

theorem written_cons (n : Nd) : written n = n :: n.children.flatMap written := by
  cases n with
  | mk i cs => simp [written, Nd.children, writtenAll_eq]

theorem size_cons (n : Nd) : n.size = (n.children.map Nd.size).sum + 1 := by
  cases n with
  | mk i cs => simp [Nd.size, Nd.children, sizes_eq]

theorem walk_perm : ∀ (k : Nat) (st : List Nd), (st.map Nd.size).sum ≤ k → (walk k st).Perm (st.flatMap written)
  | 0, [], _ => by simp [walk]
  | 0, n :: st, h => by
    have := size_cons n
    simp only [List.map_cons, List.sum_cons] at h
    omega
  | k + 1, [], _ => by simp [walk]
  | k + 1, n :: st, h => by
    rw [walk, List.flatMap_cons, written_cons, List.cons_append]
    refine List.Perm.cons _ ?_
    refine (walk_perm k _ ?_).trans ?_
    · rw [List.map_append, List.sum_append, List.map_reverse, List.sum_reverse]
      simp only [List.map_cons, List.sum_cons] at h
      have := size_cons n
      omega
    · rw [List.flatMap_append]
      exact (List.Perm.flatMap_right _ (List.reverse_perm _)).append_right _

theorem walkTree_perm (root : Nd) : (walkTree root).Perm (written root) := by
  have := walk_perm root.size [root] (by simp)
  simpa [walkTree] using this

theorem sizeOf_children {n c : Nd} (h : c ∈ n.children) : sizeOf c < sizeOf n := by
  cases n with
  | mk i cs =>
    have h' : c ∈ cs := h
    have := List.sizeOf_lt_of_mem h'
    simp only [Nd.mk.sizeOf_spec]
    omega

theorem under_of_written (root : Nd) : ∀ (n m : Nd), Under root n → m ∈ written n → Under root m
  | n, m, hn, hm => by
    rw [written_cons, List.mem_cons, List.mem_flatMap] at hm
    rcases hm with rfl | ⟨c, hc, hm⟩
    · exact hn
    · have := sizeOf_children hc
      exact under_of_written root c m (.child hn hc) hm
termination_by n => sizeOf n

theorem written_child : ∀ (root n c : Nd), n ∈ written root → c ∈ n.children → c ∈ written root
  | root, n, c, hn, hc => by
    rw [written_cons, List.mem_cons, List.mem_flatMap] at hn
    rcases hn with rfl | ⟨d, hd, hn⟩
    · rw [written_cons]
      refine List.mem_cons_of_mem _ (List.mem_flatMap.2 ⟨c, hc, ?_⟩)
      rw [written_cons]
      exact List.mem_cons_self
    · have := sizeOf_children hd
      rw [written_cons]
      exact List.mem_cons_of_mem _ (List.mem_flatMap.2 ⟨d, hd, written_child d n c hn hc⟩)
termination_by root => sizeOf root

theorem mem_written {root n : Nd} : n ∈ written root ↔ Under root n := by
  constructor
  · exact under_of_written root root n .here
  · intro h
    induction h with
    | here => rw [written_cons]; exact List.mem_cons_self
    | child _ hc ih => exact written_child _ _ _ ih hc

theorem mem_walkTree {root n : Nd} : n ∈ walkTree root ↔ Under root n :=
  (walkTree_perm root).mem_iff.trans mem_written

theorem under_trans {a b c : Nd} (h : Under a b) (h' : Under b c) : Under a c := by
  induction h' with
  | here => exact h
  | child _ hc ih => exact .child ih hc

/-! ### The first node of a kind -/

theorem writtenToAll_eq (d : Nat) : ∀ cs : List Nd, writtenToAll d cs = cs.flatMap (writtenTo d)
  | [] => by simp [writtenToAll]
  | c :: cs => by simp [writtenToAll, writtenToAll_eq d cs]

theorem writtenTo_zero (n : Nd) : writtenTo 0 n = [n] := by
  cases n with
  | mk i cs => simp [writtenTo]

theorem writtenTo_succ (d : Nat) (n : Nd) : writtenTo (d + 1) n = n :: n.children.flatMap (writtenTo d) := by
  cases n with
  | mk i cs => simp [writtenTo, Nd.children, writtenToAll_eq]

theorem findLoop_eq (kinds : List String) (D : Nat) : ∀ (k : Nat) (st : List (Nd × Nat)),
    (st.map fun p => p.1.size).sum ≤ k → (∀ p ∈ st, p.2 ≤ D) →
    findLoop kinds D k st = (st.flatMap fun p => writtenTo (D - p.2) p.1).find? fun n => kinds.contains n.kind
  | 0, [], _, _ => by simp [findLoop]
  | 0, p :: st, h, _ => by
    have := size_cons p.1
    simp only [List.map_cons, List.sum_cons] at h
    omega
  | k + 1, [], _, _ => by simp [findLoop]
  | k + 1, (n, d) :: st, h, hd => by
    have hs := size_cons n
    have hd0 : d ≤ D := hd (n, d) List.mem_cons_self
    simp only [List.map_cons, List.sum_cons] at h
    rw [findLoop, List.flatMap_cons]
    by_cases hk : kinds.contains n.kind = true
    · rw [if_pos hk]
      have : ∃ tl, writtenTo (D - d) n = n :: tl := by
        cases D - d with
        | zero => exact ⟨[], writtenTo_zero n⟩
        | succ e => exact ⟨_, writtenTo_succ e n⟩
      obtain ⟨tl, htl⟩ := this
      simp only [htl, List.cons_append, List.find?_cons, hk]
    · rw [if_neg hk]
      rw [Bool.not_eq_true] at hk
      by_cases hlt : d < D
      · rw [if_pos hlt]
        have e : D - d = (D - (d + 1)) + 1 := by omega
        rw [e, writtenTo_succ, List.cons_append, List.find?_cons]
        simp only [hk]
        rw [findLoop_eq kinds D k]
        · rw [List.flatMap_append, List.flatMap_map]
        · rw [List.map_append, List.sum_append, List.map_map]
          have : ((fun p : Nd × Nat => p.1.size) ∘ fun c => (c, d + 1)) = Nd.size := rfl
          rw [this]
          omega
        · intro p hp
          rcases List.mem_append.1 hp with hp | hp
          · obtain ⟨c, _, rfl⟩ := List.mem_map.1 hp
            exact hlt
          · exact hd p (List.mem_cons_of_mem _ hp)
      · rw [if_neg hlt]
        have e : D - d = 0 := by omega
        rw [e, writtenTo_zero, List.cons_append, List.find?_cons]
        simp only [hk, List.nil_append]
        rw [findLoop_eq kinds D k st]
        · omega
        · exact fun p hp => hd p (List.mem_cons_of_mem _ hp)

theorem findFirst_eq (root : Nd) (kinds : List String) (D : Nat) :
    findFirst root kinds D = (writtenTo D root).find? fun n => kinds.contains n.kind := by
  rw [findFirst, findLoop_eq kinds D root.size [(root, 0)] (by simp) (by simp)]
  simp

theorem writtenTo_sub : ∀ (d : Nat) (n m : Nd), m ∈ writtenTo d n → Under n m
  | 0, n, m, h => by
    rw [writtenTo_zero, List.mem_singleton] at h
    subst h; exact .here
  | d + 1, n, m, h => by
    rw [writtenTo_succ, List.mem_cons, List.mem_flatMap] at h
    rcases h with rfl | ⟨c, hc, h⟩
    · exact .here
    · exact under_trans (.child .here hc) (writtenTo_sub d c m h)

theorem findFirst_sound {root m : Nd} {kinds : List String} {D : Nat} (h : findFirst root kinds D = some m) :
    Under root m ∧ m.kind ∈ kinds := by
  rw [findFirst_eq] at h
  refine ⟨writtenTo_sub D root m (List.mem_of_find?_eq_some h), ?_⟩
  have := List.find?_some h
  simpa using this

/-! ### Fields -/

theorem byField_some {n m : Nd} {f : String} (h : n.byField f = some m) :
    ∃ pre post : List Nd, n.children = pre ++ m :: post ∧ m.info.field = some f ∧ ∀ c ∈ pre, c.info.field ≠ some f := by
  rw [Nd.byField, List.find?_eq_some_iff_append] at h
  obtain ⟨hf, pre, post, hc, hpre⟩ := h
  exact ⟨pre, post, hc, by simpa using hf, fun c hcp => by simpa using hpre c hcp⟩

theorem byField_of {n m : Nd} {f : String} {pre post : List Nd} (hc : n.children = pre ++ m :: post)
    (hf : m.info.field = some f) (hpre : ∀ c ∈ pre, c.info.field ≠ some f) : n.byField f = some m := by
  rw [Nd.byField, List.find?_eq_some_iff_append]
  exact ⟨by simpa using hf, pre, post, hc, fun c hcp => by simpa using hpre c hcp⟩

theorem byField_none {n : Nd} {f : String} : n.byField f = none ↔ ∀ c ∈ n.children, c.info.field ≠ some f := by
  rw [Nd.byField, List.find?_eq_none]
  simp

theorem byField_mem {n m : Nd} {f : String} (h : n.byField f = some m) : m ∈ n.children := by
  obtain ⟨pre, post, hc, _, _⟩ := byField_some h
  rw [hc]; simp

/-- The fields in turn, then the first child. -/
def pick (n : Nd) : List String → Option Nd
  | [] => n.first
  | f :: fs => (n.byField f).or (pick n fs)

theorem first_iff {n m : Nd} : n.first = some m ↔ ∃ post : List Nd, n.children = m :: post := by
  rw [Nd.first]
  cases n.children with
  | nil => simp
  | cons a l => simp

theorem pick_named {n m : Nd} : ∀ fs : List String, pick n fs = some m ↔ Named fs n m
  | [] => by
    rw [pick, first_iff, Named]
    constructor
    · exact fun h => .inr ⟨by simp, h⟩
    · rintro (⟨b, f, a, h, _⟩ | ⟨_, h⟩)
      · simp at h
      · exact h
  | f :: fs => by
    have ih := pick_named (n := n) (m := m) fs
    rw [pick]
    cases hb : n.byField f with
    | some x =>
      rw [Option.some_or]
      constructor
      · intro h
        obtain rfl : x = m := by simpa using h
        exact .inl ⟨[], f, fs, rfl, by simp, byField_some hb⟩
      · rintro (⟨b, g, a, h, hno, pre, post, hc, hf, hpre⟩ | ⟨hno, _⟩)
        · cases b with
          | nil =>
            obtain ⟨rfl, _⟩ : f = g ∧ fs = a := by simpa using h
            exact hb.symm.trans (byField_of hc hf hpre)
          | cons b bs =>
            obtain ⟨rfl, _⟩ : f = b ∧ fs = bs ++ g :: a := by simpa using h
            have := byField_none.2 (hno f (by simp))
            rw [this] at hb; exact absurd hb (by simp)
        · have := byField_none.2 (hno f (by simp))
          rw [this] at hb; exact absurd hb (by simp)
    | none =>
      have hn := byField_none.1 hb
      rw [Option.none_or, ih]
      constructor
      · rintro (⟨b, g, a, h, hno, r⟩ | ⟨hno, r⟩)
        · refine .inl ⟨f :: b, g, a, by simp [h], ?_, r⟩
          intro x hx
          rcases List.mem_cons.1 hx with rfl | hx
          · exact hn
          · exact hno x hx
        · refine .inr ⟨?_, r⟩
          intro x hx
          rcases List.mem_cons.1 hx with rfl | hx
          · exact hn
          · exact hno x hx
      · rintro (⟨b, g, a, h, hno, r⟩ | ⟨hno, r⟩)
        · cases b with
          | nil =>
            obtain ⟨rfl, _⟩ : f = g ∧ fs = a := by simpa using h
            obtain ⟨pre, post, hc, hf, _⟩ := r
            exact absurd hf (hn m (by rw [hc]; simp))
          | cons b bs =>
            obtain ⟨rfl, h2⟩ : f = b ∧ fs = bs ++ g :: a := by simpa using h
            exact .inl ⟨bs, g, a, h2, fun x hx => hno x (by simp [hx]), r⟩
        · exact .inr ⟨fun x hx => hno x (by simp [hx]), r⟩

theorem calleeOf_iff {n m : Nd} : calleeOf n = some m ↔ Named ["function", "name", "method"] n m :=
  pick_named ["function", "name", "method"]

theorem varNode_iff {lang : Language} {D : Nat} {n m : Nd} (hl : lang ≠ .c ∧ lang ≠ .cpp) :
    varNode lang D n = some m ↔ Named ["left", "name", "pattern"] n m := by
  have : ¬ (lang = .c ∨ lang = .cpp) := by tauto
  rw [varNode, if_neg this]
  exact pick_named ["left", "name", "pattern"]

/-! ### Names of calls -/

theorem afterDot_suffix (t : Text) : afterDot t <:+ t := by
  have h := List.takeWhile_prefix (fun c => c != '.') (l := t.reverse)
  have := List.reverse_suffix.2 h
  simpa [afterDot] using this

theorem afterDot_noDot (t : Text) : ∀ c ∈ afterDot t, c ≠ '.' := by
  intro c hc
  rw [afterDot, List.mem_reverse] at hc
  have := List.mem_takeWhile_imp hc
  simpa using this

theorem afterDot_append (r name : Text) (h : ∀ c ∈ name, c ≠ '.') : afterDot (r ++ '.' :: name) = name := by
  rw [afterDot, List.reverse_append, List.reverse_cons, List.append_assoc, List.takeWhile_append_of_pos]
  · simp
  · intro c hc
    simpa using h c (List.mem_reverse.1 hc)

theorem afterDot_plain (name : Text) (h : ∀ c ∈ name, c ≠ '.') : afterDot name = name := by
  rw [afterDot]
  have : name.reverse.takeWhile (fun c => c != '.') = name.reverse := by
    rw [List.takeWhile_eq_self_iff]
    intro c hc
    simpa using h c (List.mem_reverse.1 hc)
  rw [this, List.reverse_reverse]

/-- After the last full stop of `r ++ s` when `s` has none: the tail of `r`, then `s`. -/
theorem afterDot_tail (r s : Text) (h : ∀ c ∈ s, c ≠ '.') : afterDot (r ++ s) = afterDot r ++ s := by
  rw [afterDot, List.reverse_append, List.takeWhile_append_of_pos]
  · rw [List.reverse_append, List.reverse_reverse]; rfl
  · intro c hc
    simpa using h c (List.mem_reverse.1 hc)

theorem afterColons_suffix : ∀ (acc t : Text), afterColons acc t <:+ acc ++ t
  | acc, [] => by simp [afterColons]
  | acc, [c] => by simp [afterColons]
  | acc, c :: d :: t => by
    rw [afterColons]
    split
    · have := afterColons_suffix [] t
      exact this.trans ((List.nil_append t ▸ List.suffix_refl t).trans ⟨acc ++ [c, d], by simp⟩)
    · have := afterColons_suffix (acc ++ [c]) (d :: t)
      simpa using this

theorem afterColons_plain : ∀ (acc t : Text), (∀ c ∈ t, c ≠ ':') → afterColons acc t = acc ++ t
  | acc, [], _ => by simp [afterColons]
  | acc, [c], _ => by simp [afterColons]
  | acc, c :: d :: t, h => by
    rw [afterColons, if_neg (fun hc => h c (by simp) hc.1), afterColons_plain (acc ++ [c]) (d :: t) (fun x hx => h x (List.mem_cons_of_mem _ hx))]
    simp

theorem afterColons_path : ∀ (acc r name : Text), r.getLast? ≠ some ':' → (∀ c ∈ name, c ≠ ':') →
    afterColons acc (r ++ ':' :: ':' :: name) = name
  | acc, [], name, _, h => by
    rw [List.nil_append, afterColons, if_pos ⟨rfl, rfl⟩, afterColons_plain [] name h, List.nil_append]
  | acc, [c], name, hr, h => by
    have hc : c ≠ ':' := by simpa using hr
    rw [List.cons_append, List.nil_append, afterColons, if_neg (fun hx => hc hx.1), afterColons, if_pos ⟨rfl, rfl⟩,
      afterColons_plain [] name h, List.nil_append]
  | acc, c :: d :: r, name, hr, h => by
    rw [List.cons_append, List.cons_append, afterColons]
    split
    · refine afterColons_path [] r name ?_ h
      cases r with
      | nil => simp
      | cons x r => simpa [List.getLast?_cons_cons] using hr
    · have := afterColons_path (acc ++ [c]) (d :: r) name (by simpa [List.getLast?_cons_cons] using hr) h
      simpa using this

theorem dropBangs_prefix (t : Text) : dropBangs t <+: t := by
  have h := List.dropWhile_suffix (fun c => c == '!') (l := t.reverse)
  have := List.reverse_prefix.2 h
  simpa [dropBangs] using this

theorem dropBangs_plain (name : Text) (h : ∀ c ∈ name, c ≠ '!') (k : Nat) :
    dropBangs (name ++ List.replicate k '!') = name := by
  rw [dropBangs, List.reverse_append, List.reverse_replicate]
  have : (List.replicate k '!' ++ name.reverse).dropWhile (fun c => c == '!') = name.reverse := by
    rw [List.dropWhile_append_of_pos]
    · cases hr : name.reverse with
      | nil => rfl
      | cons a l =>
        have : a ∈ name := List.mem_reverse.1 (by rw [hr]; simp)
        rw [List.dropWhile_cons_of_neg]
        simpa using h a this
    · intro c hc
      simp [List.eq_of_mem_replicate hc]
  rw [this, List.reverse_reverse]

theorem callName_plain {alpha : Char → Bool} {name : Text} (h : Plain alpha name) {q : Text}
    (hq : q = [] ∨ (∃ r : Text, q = r ++ ['.']) ∨ ∃ r : Text, r.getLast? ≠ some ':' ∧ q = r ++ [':', ':']) (k : Nat) :
    callName alpha (q ++ name ++ List.replicate k '!') = some name := by
  obtain ⟨⟨c, cs, hn, hc⟩, hall⟩ := h
  have hdot : ∀ x ∈ name ++ List.replicate k '!', x ≠ '.' := by
    intro x hx
    rcases List.mem_append.1 hx with hx | hx
    · exact (hall x hx).1
    · rw [List.eq_of_mem_replicate hx]; decide
  have hcol : ∀ x ∈ name ++ List.replicate k '!', x ≠ ':' := by
    intro x hx
    rcases List.mem_append.1 hx with hx | hx
    · exact (hall x hx).2.1
    · rw [List.eq_of_mem_replicate hx]; decide
  have key : afterColons [] (afterDot (q ++ name ++ List.replicate k '!')) = name ++ List.replicate k '!' := by
    rw [List.append_assoc]
    rcases hq with rfl | ⟨r, rfl⟩ | ⟨r, hr, rfl⟩
    · rw [List.nil_append, afterDot_plain _ hdot, afterColons_plain _ _ hcol, List.nil_append]
    · rw [List.append_assoc, List.singleton_append, afterDot_append r _ hdot, afterColons_plain _ _ hcol, List.nil_append]
    · have e : r ++ [':', ':'] ++ (name ++ List.replicate k '!') = r ++ (':' :: ':' :: (name ++ List.replicate k '!')) := by simp
      rw [e, afterDot_tail]
      · refine afterColons_path [] (afterDot r) _ ?_ hcol
        obtain ⟨s, hs⟩ := afterDot_suffix r
        cases hd : afterDot r with
        | nil => simp
        | cons a l =>
          rw [hd] at hs
          rw [← hs, List.getLast?_append] at hr
          simpa using hr
      · intro x hx
        rcases List.mem_cons.1 hx with rfl | hx
        · decide
        · rcases List.mem_cons.1 hx with rfl | hx
          · decide
          · exact hdot x hx
  rw [callName, key, dropBangs_plain name (fun x hx => (hall x hx).2.2) k, hn]
  simp [hc]

theorem callName_sound {alpha : Char → Bool} {t x : Text} (h : callName alpha t = some x) :
    x <:+: t ∧ (∀ c ∈ x, c ≠ '.') ∧ ∃ c cs, x = c :: cs ∧ alpha c = true := by
  rw [callName] at h
  split at h
  · exact absurd h (by simp)
  · rename_i c cs he
    split at h
    · next ha =>
      obtain rfl : c :: cs = x := by simpa using h
      have h1 : (c :: cs) <+: afterColons [] (afterDot t) := he ▸ dropBangs_prefix _
      have h2 : afterColons [] (afterDot t) <:+ afterDot t := by simpa using afterColons_suffix [] (afterDot t)
      refine ⟨h1.isInfix.trans (h2.isInfix.trans (afterDot_suffix t).isInfix), ?_, c, cs, rfl, ha⟩
      intro y hy
      exact afterDot_noDot t y ((h1.isInfix.trans h2.isInfix).subset hy)
    · exact absurd h (by simp)

/-! ### Sorting -/

theorem mem_sortDedup {x : Text} {l : List Text} : x ∈ sortDedup l ↔ x ∈ l := by
  rw [sortDedup, Units.mem_dedupAdj, List.mem_insertionSort]

theorem sortDedup_sorted (l : List Text) : (sortDedup l).Pairwise (· < ·) :=
  Units.dedupAdj_sorted _ (List.pairwise_insertionSort _ _)

/-! ### Control flow -/

theorem flow_foldl : ∀ (l : List Nd) (f : Flow), l.foldl flowStep f =
    { complexity := f.complexity + l.countP fun n => branchKinds.contains n.kind || loopKinds.contains n.kind,
      loops := f.loops || l.any fun n => loopKinds.contains n.kind,
      branches := f.branches || l.any fun n => branchKinds.contains n.kind,
      errors := f.errors || l.any fun n => errorKinds.contains n.kind }
  | [], f => by simp
  | n :: l, f => by
    have bl : branchKinds.contains n.kind = true → loopKinds.contains n.kind = false ∧ errorKinds.contains n.kind = false := by
      intro h
      have h' : n.kind ∈ branchKinds := by simpa using h
      simp only [branchKinds, List.mem_cons, List.not_mem_nil, or_false] at h'
      rcases h' with e | e | e | e | e | e | e | e | e | e | e <;> rw [e] <;> decide
    have le : loopKinds.contains n.kind = true → errorKinds.contains n.kind = false := by
      intro h
      have h' : n.kind ∈ loopKinds := by simpa using h
      simp only [loopKinds, List.mem_cons, List.not_mem_nil, or_false] at h'
      rcases h' with e | e | e | e | e | e | e | e | e | e | e <;> rw [e] <;> decide
    rw [List.foldl_cons, flow_foldl l]
    rw [flowStep]
    cases hb : branchKinds.contains n.kind with
    | true =>
      obtain ⟨h1, h2⟩ := bl hb
      simp only [if_true, List.countP_cons, List.any_cons, hb, h1, h2, Bool.true_or, Bool.or_true, Bool.false_or]
      simp only [Flow.mk.injEq, and_true, true_and]
      omega
    | false =>
      cases hl : loopKinds.contains n.kind with
      | true =>
        have h2 := le hl
        simp only [Bool.false_eq_true, if_false, if_true, List.countP_cons, List.any_cons, hb, hl, h2, Bool.true_or, Bool.or_true, Bool.false_or]
        simp only [Flow.mk.injEq, and_true, true_and]
        omega
      | false =>
        cases he : errorKinds.contains n.kind with
        | true => simp only [Bool.false_eq_true, if_false, if_true, List.countP_cons, List.any_cons, hb, hl, he, Bool.true_or, Bool.or_true, Bool.false_or, Bool.or_false, Nat.add_zero]
        | false => simp only [Bool.false_eq_true, if_false, List.countP_cons, List.any_cons, hb, hl, he, Bool.false_or, Bool.or_false, Nat.add_zero]

theorem controlFlow_eq (root : Nd) : controlFlow root =
    { complexity := 1 + (written root).countP fun n => branchKinds.contains n.kind || loopKinds.contains n.kind,
      loops := (written root).any fun n => loopKinds.contains n.kind,
      branches := (written root).any fun n => branchKinds.contains n.kind,
      errors := (written root).any fun n => errorKinds.contains n.kind } := by
  rw [controlFlow, flow_foldl]
  have hp := walkTree_perm root
  have ha : ∀ p : Nd → Bool, (walkTree root).any p = (written root).any p := by
    intro p
    rw [Bool.eq_iff_iff, List.any_eq_true, List.any_eq_true]
    simp only [hp.mem_iff]
  simp only [Bool.false_or, hp.countP_eq, ha]

/-! ### Declarators -/

mutual
theorem declared_sound : ∀ (d : Nat) (n m : Nd), declared d n = some m → m.kind = "identifier" ∧ Under n m
  | 0, _, _, h => by simp [declared] at h
  | d + 1, .mk i cs, m, h => by
    rw [declared] at h
    split at h
    · next hk =>
      obtain rfl : Nd.mk i cs = m := by simpa using h
      exact ⟨hk, .here⟩
    · split at h
      · split at h
        · obtain ⟨hk, c, hc, hu⟩ := declaredField_sound d cs m h
          exact ⟨hk, under_trans (.child .here hc) hu⟩
        · obtain ⟨hk, c, hc, hu⟩ := declaredAny_sound d cs m h
          exact ⟨hk, under_trans (.child .here hc) hu⟩
      · exact absurd h (by simp)
theorem declaredField_sound : ∀ (d : Nat) (cs : List Nd) (m : Nd), declaredField d cs = some m →
    m.kind = "identifier" ∧ ∃ c ∈ cs, Under c m
  | _, [], _, h => by simp [declaredField] at h
  | d, c :: cs, m, h => by
    rw [declaredField] at h
    split at h
    · obtain ⟨hk, hu⟩ := declared_sound d c m h
      exact ⟨hk, c, by simp, hu⟩
    · obtain ⟨hk, x, hx, hu⟩ := declaredField_sound d cs m h
      exact ⟨hk, x, by simp [hx], hu⟩
theorem declaredAny_sound : ∀ (d : Nat) (cs : List Nd) (m : Nd), declaredAny d cs = some m →
    m.kind = "identifier" ∧ ∃ c ∈ cs, Under c m
  | _, [], _, h => by simp [declaredAny] at h
  | d, c :: cs, m, h => by
    rw [declaredAny] at h
    cases hd : declared d c with
    | some x =>
      rw [hd, Option.some_or] at h
      obtain rfl : x = m := by simpa using h
      obtain ⟨hk, hu⟩ := declared_sound d c x hd
      exact ⟨hk, c, by simp, hu⟩
    | none =>
      rw [hd, Option.none_or] at h
      obtain ⟨hk, x, hx, hu⟩ := declaredAny_sound d cs m h
      exact ⟨hk, x, by simp [hx], hu⟩
end

theorem declaredField_of (d : Nat) : ∀ (pre : List Nd) {inner : Nd} {post : List Nd}, inner.info.field = some "declarator" →
    (∀ c ∈ pre, c.info.field ≠ some "declarator") → declaredField d (pre ++ inner :: post) = declared d inner
  | [], inner, post, hf, _ => by simp [declaredField, hf]
  | c :: pre, inner, post, hf, h => by
    rw [List.cons_append, declaredField, if_neg (by simpa using h c (by simp))]
    exact declaredField_of d pre hf fun x hx => h x (by simp [hx])

theorem declared_of {k : Nat} {d id : Nd} (h : Declares k d id) : ∀ e : Nat, k < e → declared e d = some id := by
  induction h with
  | name hk =>
    rename_i n
    intro e he
    obtain ⟨e, rfl⟩ : ∃ e', e = e' + 1 := ⟨e - 1, by omega⟩
    cases n with
    | mk i cs =>
      have hk' : i.kind = "identifier" := hk
      simp [declared, hk']
  | wrap hk hc hf hpre _ ih =>
    rename_i k d inner id pre post _
    intro e he
    obtain ⟨e, rfl⟩ : ∃ e', e = e' + 1 := ⟨e - 1, by omega⟩
    cases d with
    | mk i cs =>
      have hc' : cs = pre ++ inner :: post := hc
      have hk1 : i.kind ≠ "identifier" := by
        have hk' : i.kind = "pointer_declarator" ∨ i.kind = "array_declarator" ∨ i.kind = "function_declarator" ∨
          i.kind = "parenthesized_declarator" ∨ i.kind = "reference_declarator" := hk
        rcases hk' with h | h | h | h | h <;> rw [h] <;> decide
      have hk2 : declaratorKinds.contains i.kind = true := by
        have hk' : i.kind = "pointer_declarator" ∨ i.kind = "array_declarator" ∨ i.kind = "function_declarator" ∨
          i.kind = "parenthesized_declarator" ∨ i.kind = "reference_declarator" := hk
        rcases hk' with h | h | h | h | h <;> rw [h] <;> decide
      have hany : (cs.any fun c => c.info.field == some "declarator") = true := by
        rw [List.any_eq_true]
        exact ⟨inner, by rw [hc']; simp, by simpa using hf⟩
      rw [declared, if_neg hk1, if_pos hk2, if_pos hany, hc', declaredField_of e pre hf hpre]
      exact ih e (by omega)

/-! ### Variables -/

theorem varName_iff {alpha : Char → Bool} {t x : Text} : varName alpha t = some x ↔
    x = trim t ∧ byteLen x < 50 ∧ ∃ c cs, x = c :: cs ∧ (alpha c = true ∨ c = '_') := by
  rw [varName]
  split
  · next h =>
    constructor
    · intro hx; exact absurd hx (by simp)
    · rintro ⟨rfl, _, c, cs, e, _⟩
      rw [h] at e; exact absurd e (by simp)
  · next c cs h =>
    split
    · next hc =>
      constructor
      · intro hx
        obtain rfl : c :: cs = x := by simpa using hx
        exact ⟨h.symm, hc.1, c, cs, rfl, hc.2⟩
      · rintro ⟨rfl, _⟩
        rw [h]
    · next hc =>
      constructor
      · intro hx; exact absurd hx (by simp)
      · rintro ⟨rfl, hl, d, ds, e, hd⟩
        rw [h] at e hl
        obtain ⟨rfl, rfl⟩ : c = d ∧ cs = ds := by simpa using e
        exact absurd ⟨hl, hd⟩ hc

end NextPlaid.Facts
