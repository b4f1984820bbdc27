import Verif.Model.EncodePool
import Verif.Spec.EncodePool
import Mathlib.Data.List.Perm.Basic
import Mathlib.Data.List.Nodup

namespace NextPlaid.EncodePool

open NextPlaid.Spec

variable {T E : Type}

theorem oneEach_split {A B : Type} {R : A → B → Prop} {a b : List A} {es : List B} (h : OneEach R (a ++ b) es) :
    OneEach R a (es.take a.length) ∧ OneEach R b (es.drop a.length) := by
  obtain ⟨h1, h2⟩ := h
  rw [List.length_append] at h1
  refine ⟨⟨by rw [List.length_take]; omega, ?_⟩, ⟨by rw [List.length_drop]; omega, ?_⟩⟩
  · intro i x y hx hy
    have hi : i < a.length := (List.getElem?_eq_some_iff.mp hx).1
    rw [List.getElem?_take, if_pos hi] at hy
    exact h2 i x y (by rw [List.getElem?_append_left hi]; exact hx) hy
  · intro i x y hx hy
    rw [List.getElem?_drop] at hy
    exact h2 (a.length + i) x y (by rw [List.getElem?_append_right (by omega)]; simpa using hx) hy

theorem distribute_ok {R : T → E → Prop} (es : List E) : ∀ (items : List (Nat × Item T)) (offset : Nat), offset ≤ es.length →
    OneEach R (items.flatMap fun x => x.2.texts) (es.drop offset) →
    ∃ r, distribute es offset items = .ok r ∧ r.map Prod.fst = items.map Prod.fst ∧
      ∀ x ∈ r, ∃ item es', (x.1, item) ∈ items ∧ x.2 = .embeddings es' ∧ OneEach R item.texts es' := by
  intro items
  induction items with
  | nil => intro offset _ _; exact ⟨[], rfl, rfl, by simp⟩
  | cons it items ih =>
    obtain ⟨idx, item⟩ := it
    intro offset hoff h
    rw [List.flatMap_cons] at h
    obtain ⟨h1, h2⟩ := oneEach_split h
    have hlen := h.1
    rw [List.length_append, List.length_drop] at hlen
    rw [List.drop_drop] at h2
    obtain ⟨r, hr1, hr2, hr3⟩ := ih (offset + item.texts.length) (by simp only at hlen; omega) h2
    refine ⟨(idx, .embeddings ((es.drop offset).take item.texts.length)) :: r, ?_, ?_, ?_⟩
    · rw [distribute, if_pos (by simp only at hlen; omega), hr1]
    · rw [List.map_cons, List.map_cons, hr2]
    · intro x hx
      rcases List.mem_cons.mp hx with rfl | hx
      · exact ⟨item, _, by simp, rfl, h1⟩
      · obtain ⟨item', es', h3, h4, h5⟩ := hr3 x hx
        exact ⟨item', es', List.mem_cons_of_mem _ h3, h4, h5⟩

theorem encodeGroup_ok {R : T → E → Prop} {enc : List T → Res (List E)} (henc : ∀ ts es, enc ts = .ok es → OneEach R ts es)
    (items : List (Nat × Item T)) :
    (enc (items.flatMap fun x => x.2.texts) = .error .panic ∧ encodeGroup enc items = .error .panic) ∨
    ∃ r, encodeGroup enc items = .ok r ∧ r.map Prod.fst = items.map Prod.fst ∧
      ∀ x ∈ r, ∃ item, (x.1, item) ∈ items ∧
        ((∃ es, x.2 = .embeddings es ∧ OneEach R item.texts es) ∨
          (x.2 = .failed ∧ ∃ ts, (∀ t ∈ item.texts, t ∈ ts) ∧ enc ts = .error .err)) := by
  unfold encodeGroup
  cases h : enc (items.flatMap fun x => x.2.texts) with
  | ok es =>
    right
    obtain ⟨r, h1, h2, h3⟩ := distribute_ok (R := R) es items 0 (Nat.zero_le _) (by rw [List.drop_zero]; exact henc _ _ h)
    refine ⟨r, h1, h2, ?_⟩
    intro x hx
    obtain ⟨item, es', h4, h5, h6⟩ := h3 x hx
    exact ⟨item, h4, Or.inl ⟨es', h5, h6⟩⟩
  | error f =>
    cases f with
    | panic => exact Or.inl ⟨rfl, rfl⟩
    | err =>
      right
      refine ⟨items.map fun x => (x.1, .failed), rfl, by rw [List.map_map]; rfl, ?_⟩
      intro x hx
      obtain ⟨y, hy, rfl⟩ := List.mem_map.mp hx
      refine ⟨y.2, hy, Or.inr ⟨rfl, _, ?_, h⟩⟩
      intro t ht
      exact List.mem_flatMap.mpr ⟨y, hy, ht⟩

/-- What an answer of a worker says. -/
def Fair (c : Setup T E) (Enc : Input → Option Nat → T → E → Prop) (w : Nat) (item : Item T) (a : Answer E) : Prop :=
  (∃ es, a = .embeddings es ∧ OneEach (Enc item.input (factorOf item)) item.texts es) ∨
    (a = .failed ∧ ∃ ts, (∀ t ∈ item.texts, t ∈ ts) ∧ c.encode w item.input (factorOf item) ts = .error .err)

theorem encodeGroups_ok {c : Setup T E} {Enc : Input → Option Nat → T → E → Prop} (hs : SoundModel c Enc) (w : Nat) (docs : List (Nat × Item T))
    (hd : ∀ x ∈ docs, x.2.input = .document) : ∀ keys : List (Option Nat),
    (Panics c w ∧ encodeGroups c w docs keys = .error .panic) ∨
    ∃ r, encodeGroups c w docs keys = .ok r ∧ (∀ x ∈ r, ∃ item, (x.1, item) ∈ docs ∧ Fair c Enc w item x.2) ∧
      ∀ x ∈ docs, x.2.factor ∈ keys → x.1 ∈ r.map Prod.fst := by
  intro keys
  induction keys with
  | nil => exact Or.inr ⟨[], rfl, by simp, by simp⟩
  | cons key keys ih =>
    rw [encodeGroups]
    rcases encodeGroup_ok (R := Enc .document key) (fun ts es h => hs w .document key ts es h) (docs.filter fun x => x.2.factor = key) with
      ⟨h1, h2⟩ | ⟨r1, h1, h2, h3⟩
    · left
      rw [h2]
      exact ⟨⟨_, _, _, h1⟩, rfl⟩
    · rw [h1]
      rcases ih with ⟨h4, h5⟩ | ⟨r2, h4, h5, h6⟩
      · left
        simp only [h5]
        exact ⟨h4, trivial⟩
      · right
        simp only [h4]
        refine ⟨r1 ++ r2, rfl, ?_, ?_⟩
        · intro x hx
          rcases List.mem_append.mp hx with hx | hx
          · obtain ⟨item, h7, h8⟩ := h3 x hx
            rw [List.mem_filter, decide_eq_true_eq] at h7
            have hf : factorOf item = key := by
              unfold factorOf
              rw [hd _ h7.1]
              exact h7.2
            refine ⟨item, h7.1, ?_⟩
            unfold Fair
            rw [hf, hd _ h7.1]
            exact h8
          · exact h5 x hx
        · intro x hx hk
          rw [List.map_append, List.mem_append]
          rcases List.mem_cons.mp hk with hk | hk
          · left
            rw [h2]
            exact List.mem_map.mpr ⟨x, List.mem_filter.mpr ⟨hx, by simp [hk]⟩, rfl⟩
          · exact Or.inr (h6 x hx hk)

theorem lookup_mem {A : Type} {k : Nat} : ∀ {l : List (Nat × A)}, k ∈ l.map Prod.fst → ∃ v, l.lookup k = some v ∧ (k, v) ∈ l := by
  intro l
  induction l with
  | nil => simp
  | cons x l ih =>
    intro h
    rw [List.lookup_cons]
    by_cases hk : k = x.1
    · subst hk
      exact ⟨x.2, by simp, by simp⟩
    · rw [List.map_cons, List.mem_cons] at h
      obtain ⟨v, h1, h2⟩ := ih (h.resolve_left hk)
      refine ⟨v, ?_, List.mem_cons_of_mem _ h2⟩
      rw [show (k == x.1) = false by simpa using hk]
      exact h1

theorem indexed_mem {items : List (Item T)} {i : Nat} {item : Item T} (h : (i, item) ∈ items.zipIdx.map fun x => (x.2, x.1)) : items[i]? = some item := by
  obtain ⟨⟨a, b⟩, h1, h2⟩ := List.mem_map.mp h
  simp only [Prod.mk.injEq] at h2
  obtain ⟨rfl, rfl⟩ := h2
  have := List.mem_zipIdx_iff_getElem?.mp h1
  simpa using this

/-- Every request of a batch gets its own answer. -/
theorem processBatch_ok {c : Setup T E} {Enc : Input → Option Nat → T → E → Prop} (hs : SoundModel c Enc) (ho : ∀ l, (c.order l).Perm l) (w : Nat)
    (items : List (Item T)) :
    (Panics c w ∧ processBatch c w items = .error .panic) ∨
    ∃ r, processBatch c w items = .ok r ∧ r.map Prod.fst = items ∧ ∀ x ∈ r, Fair c Enc w x.1 x.2 := by
  unfold processBatch
  simp only
  generalize hidx : (items.zipIdx.map fun x => (x.2, x.1)) = indexed
  have hq : (Panics c w ∧ (if (indexed.filter fun x => x.2.input = .query) = [] then .ok [] else
      encodeGroup (c.encode w .query none) (indexed.filter fun x => x.2.input = .query)) = .error .panic) ∨
      ∃ r, (if (indexed.filter fun x => x.2.input = .query) = [] then .ok [] else
      encodeGroup (c.encode w .query none) (indexed.filter fun x => x.2.input = .query)) = .ok r ∧
        (∀ x ∈ r, ∃ item, (x.1, item) ∈ indexed ∧ Fair c Enc w item x.2) ∧ ∀ x ∈ indexed, x.2.input = .query → x.1 ∈ r.map Prod.fst := by
    by_cases hn : (indexed.filter fun x => x.2.input = .query) = []
    · right
      rw [if_pos hn]
      refine ⟨[], rfl, by simp, ?_⟩
      intro x hx hi
      have : x ∈ indexed.filter fun x => x.2.input = .query := List.mem_filter.mpr ⟨hx, by simp [hi]⟩
      rw [hn] at this
      cases this
    · rw [if_neg hn]
      rcases encodeGroup_ok (R := Enc .query none) (fun ts es h => hs w .query none ts es h) (indexed.filter fun x => x.2.input = .query) with
        ⟨h1, h2⟩ | ⟨r1, h1, h2, h3⟩
      · exact Or.inl ⟨⟨_, _, _, h1⟩, h2⟩
      · right
        refine ⟨r1, h1, ?_, ?_⟩
        · intro x hx
          obtain ⟨item, h4, h5⟩ := h3 x hx
          rw [List.mem_filter, decide_eq_true_eq] at h4
          refine ⟨item, h4.1, ?_⟩
          have hf : factorOf item = none := by unfold factorOf; rw [show item.input = .query from h4.2]
          unfold Fair
          rw [hf, show item.input = .query from h4.2]
          exact h5
        · intro x hx hi
          rw [h2]
          exact List.mem_map.mpr ⟨x, List.mem_filter.mpr ⟨hx, by simp [hi]⟩, rfl⟩
  rcases hq with ⟨h1, h2⟩ | ⟨r1, h1, h2, h3⟩
  · left
    rw [h2]
    exact ⟨h1, rfl⟩
  · rw [h1]
    simp only
    rcases encodeGroups_ok hs w (indexed.filter fun x => x.2.input = .document) (fun x hx => by simpa using (List.mem_filter.mp hx).2)
      (c.order ((indexed.filter fun x => x.2.input = .document).map fun x => x.2.factor).dedup) with ⟨h4, h5⟩ | ⟨r2, h4, h5, h6⟩
    · left
      rw [h5]
      exact ⟨h4, rfl⟩
    · right
      rw [h4]
      refine ⟨_, rfl, ?_, ?_⟩
      · rw [List.map_map, ← hidx, List.map_map]
        exact List.zipIdx_map_fst 0 items
      · intro x hx
        obtain ⟨⟨i, item⟩, hy, rfl⟩ := List.mem_map.mp hx
        have hmem : i ∈ (r1 ++ r2).map Prod.fst := by
          rw [List.map_append, List.mem_append]
          cases hin : item.input with
          | query => exact Or.inl (h3 _ hy hin)
          | document =>
            right
            have hdoc : (i, item) ∈ indexed.filter fun x => x.2.input = .document := List.mem_filter.mpr ⟨hy, by simp [hin]⟩
            refine h6 _ hdoc ?_
            rw [(ho _).mem_iff, List.mem_dedup]
            exact List.mem_map.mpr ⟨_, hdoc, rfl⟩
        obtain ⟨v, hv1, hv2⟩ := lookup_mem hmem
        simp only [hv1, Option.getD_some]
        obtain ⟨item', h7, h8⟩ : ∃ item', (i, item') ∈ indexed ∧ Fair c Enc w item' v := by
          rcases List.mem_append.mp hv2 with h | h
          · exact h2 _ h
          · obtain ⟨item', h7, h8⟩ := h5 _ h
            exact ⟨item', (List.mem_filter.mp h7).1, h8⟩
        rw [← hidx] at h7 hy
        have e1 := indexed_mem h7
        have e2 := indexed_mem hy
        rw [e1, Option.some.injEq] at e2
        rw [← e2]
        exact h8

end NextPlaid.EncodePool
