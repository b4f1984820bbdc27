import Verif.Spec.Qml
import Verif.Proofs.Units2
import Verif.Proofs.Units4
import Verif.Proofs.Units8

/-! Lemmas for C90. -/

namespace NextPlaid.Qml
open NextPlaid.Units NextPlaid.Spec

theorem dropWhile_blank : ∀ {a : Text} (s : Text), BlankLine a → (a ++ s).dropWhile isWs = s.dropWhile isWs
  | [], _, _ => rfl
  | c :: a, s, h => by
    rw [List.cons_append, List.dropWhile_cons_of_pos (h c List.mem_cons_self)]
    exact dropWhile_blank s fun c hc => h c (List.mem_cons_of_mem _ hc)

theorem dropWhile_head {s : Text} (h : ∀ c ∈ s.head?, isWs c = false) : s.dropWhile isWs = s := by
  cases s with
  | nil => rfl
  | cons c s => rw [List.dropWhile_cons_of_neg]; rw [h c rfl]; simp

theorem trim_of {t s : Text} (h : Trimmed t s) : trim t = s := by
  obtain ⟨hne, a, b, rfl, ha, hb, h1, h2⟩ := h
  unfold trim
  have e1 : (s ++ b).dropWhile isWs = s ++ b := dropWhile_head (by
    cases s with
    | nil => exact absurd rfl hne
    | cons c s => exact h1)
  have e2 : (b.reverse ++ s.reverse).dropWhile isWs = s.reverse := by
    rw [dropWhile_blank _ (fun c hc => hb c (List.mem_reverse.1 hc)), dropWhile_head]
    rw [List.head?_reverse]; exact h2
  rw [List.append_assoc, dropWhile_blank _ ha, e1, List.reverse_append, e2, List.reverse_reverse]

theorem dropWhile_split : ∀ s : Text, ∃ a, s = a ++ s.dropWhile isWs ∧ BlankLine a ∧ ∀ c ∈ (s.dropWhile isWs).head?, isWs c = false
  | [] => ⟨[], rfl, by simp [BlankLine], by simp⟩
  | c :: s => by
    cases hc : isWs c with
    | true =>
      rw [List.dropWhile_cons_of_pos hc]
      obtain ⟨a, h1, h2, h3⟩ := dropWhile_split s
      refine ⟨c :: a, by rw [List.cons_append, ← h1], ?_, h3⟩
      intro x hx
      rcases List.mem_cons.1 hx with rfl | hx
      · exact hc
      · exact h2 x hx
    | false =>
      rw [List.dropWhile_cons_of_neg (by rw [hc]; simp)]
      exact ⟨[], rfl, by simp [BlankLine], by simp [hc]⟩

theorem trim_trimmed {t : Text} (h : trim t ≠ []) : Trimmed t (trim t) := by
  refine ⟨h, ?_⟩
  obtain ⟨a, h1, h2, h3⟩ := dropWhile_split t
  obtain ⟨b, h4, h5, h6⟩ := dropWhile_split (t.dropWhile isWs).reverse
  have e : t.dropWhile isWs = trim t ++ b.reverse := by
    have := congrArg List.reverse h4
    rw [List.reverse_reverse, List.reverse_append] at this
    exact this
  refine ⟨a, b.reverse, ?_, h2, ?_, ?_, ?_⟩
  · rw [List.append_assoc, ← e, ← h1]
  · intro c hc; exact h5 c (List.mem_reverse.1 hc)
  · intro c hc
    apply h3 c
    rw [e]
    cases ht : trim t with
    | nil => exact absurd ht h
    | cons x s => rw [ht] at hc; exact hc
  · intro c hc
    apply h6 c
    unfold trim at hc
    rw [List.getLast?_reverse] at hc
    exact hc

theorem nodeText_iff {t s : Text} : nodeText t = some s ↔ Trimmed t s := by
  unfold nodeText
  constructor
  · intro h
    split at h
    · cases h
    · next hn =>
      cases h
      exact trim_trimmed fun e => hn (by rw [e]; rfl)
  · intro h
    have := trim_of h
    rw [this, if_neg]
    intro hn
    exact h.1 (List.isEmpty_iff.1 hn)

theorem fieldText_iff {t : Option Text} {s : Text} : fieldText t = some s ↔ ∃ r, t = some r ∧ Trimmed r s := by
  unfold fieldText
  cases t with
  | none => simp
  | some r =>
    rw [Option.map_some]
    constructor
    · intro h
      rw [Option.filter_eq_some_iff] at h
      obtain ⟨h1, h2⟩ := h
      cases h1
      exact ⟨r, rfl, trim_trimmed fun e => by rw [e] at h2; simp at h2⟩
    · rintro ⟨r', h1, h2⟩
      cases h1
      rw [trim_of h2, Option.filter_eq_some_iff]
      refine ⟨rfl, ?_⟩
      have := h2.1
      cases s with
      | nil => exact absurd rfl this
      | cons c s => rfl

theorem looksLikeHandler_iff (n : Text) : looksLikeHandler n = true ↔ HandlerName n := by
  unfold HandlerName
  constructor
  · intro h
    unfold looksLikeHandler at h
    split at h
    · next c rest =>
      simp only [Char.isUpper, Bool.and_eq_true, decide_eq_true_eq] at h
      exact ⟨c, rest, rfl, h.1, h.2⟩
    · cases h
  · rintro ⟨c, rest, rfl, h1, h2⟩
    simp only [looksLikeHandler, Char.isUpper, Bool.and_eq_true, decide_eq_true_eq]
    exact ⟨h1, h2⟩

theorem plainUnit_some {q : QInfo} {ut : UnitType} {p : Option Text} {sg : Text → Text} {u : CodeUnit}
    (h : plainUnit q ut p sg = some u) (cs : List QNode) : Named (.mk q cs) u.name ∧ Trimmed q.text u.code ∧
      u.line = q.decl.startRow + 1 ∧ u.endLine = q.decl.endRow + 1 ∧ u.utype = ut ∧ u.parent = p := by
  unfold plainUnit at h
  rw [Option.bind_eq_some_iff] at h
  obtain ⟨name, hn, h⟩ := h
  rw [Option.map_eq_some_iff] at h
  obtain ⟨code, hc, rfl⟩ := h
  exact ⟨⟨fieldText_iff.1 hn, code, nodeText_iff.1 hc⟩, nodeText_iff.1 hc, rfl, rfl, rfl, rfl⟩

theorem plainUnit_named {q : QInfo} {ut : UnitType} {p : Option Text} {sg : Text → Text} {cs : List QNode} {name : Text}
    (h : Named (.mk q cs) name) : ∃ u, plainUnit q ut p sg = some u ∧ u.name = name := by
  obtain ⟨h1, s, hs⟩ := h
  unfold plainUnit
  have hf : fieldText q.name = some name := fieldText_iff.2 h1
  rw [hf, Option.bind_some]
  have : nodeText q.text = some s := nodeText_iff.2 hs
  rw [this]
  exact ⟨_, rfl, rfl⟩

theorem named_unique {m : QNode} {a b : Text} (ha : Named m a) (hb : Named m b) : a = b := by
  have := (fieldText_iff.2 ha.1).symm.trans (fieldText_iff.2 hb.1)
  exact Option.some.inj this

theorem defines_unique {m : QNode} {a b : Text} (ha : Defines m a) (hb : Defines m b) : a = b := by
  unfold Defines at ha hb
  split at ha <;> simp_all
  all_goals first
    | exact named_unique ha hb
    | exact named_unique ha.1 hb.1

/-- What is proved of the units of a node. -/
structure Good (file : List Text) (p : Option Text) (n : QNode) (us : List CodeUnit) : Prop where
  sound : ∀ u ∈ us, ∃ q m, Inside p n q m ∧ UnitFits file q m u
  complete : ∀ q m name, Inside p n q m → Defines m name → ∃ u ∈ us, UnitFits file q m u
  once : ∀ d : QNode → Bool, (∀ m, d m = true ↔ ∃ name, Defines m name) → us.length ≤ count d n

/-- The same of a list of nodes. -/
structure GoodL (file : List Text) (p : Option Text) (ns : List QNode) (us : List CodeUnit) : Prop where
  sound : ∀ u ∈ us, ∃ n ∈ ns, ∃ q m, Inside p n q m ∧ UnitFits file q m u
  complete : ∀ n ∈ ns, ∀ q m name, Inside p n q m → Defines m name → ∃ u ∈ us, UnitFits file q m u
  once : ∀ d : QNode → Bool, (∀ m, d m = true ↔ ∃ name, Defines m name) → us.length ≤ countList d ns

theorem rows_child {t c : QNode} {rows : Nat} (h : RowsFit t rows) (hc : c ∈ t.children) : RowsFit c rows :=
  fun k m hm => h (k + 1) m (.child hc hm)

theorem shallow_child {t c : QNode} {d : Nat} (h : Shallow t d) (hc : c ∈ t.children) : 1 ≤ d ∧ Shallow c (d - 1) :=
  ⟨h 1 c (.child hc (.self c)), fun k m hm => by have := h (k + 1) m (.child hc hm); omega⟩

theorem count_get {d : QNode → Bool} : ∀ {ns : List QNode} {i : Nat} {c : QNode}, ns[i]? = some c → count d c ≤ countList d ns
  | [], _, _, h => by simp at h
  | n :: ns, 0, c, h => by
    rw [List.getElem?_cons_zero] at h
    cases h
    rw [countList]
    omega
  | n :: ns, i + 1, c, h => by
    rw [List.getElem?_cons_succ] at h
    have := count_get (d := d) h
    rw [countList]
    omega

theorem count_children {d : QNode → Bool} {n : QNode} : countList d n.children ≤ count d n := by
  cases n with
  | mk q cs => rw [count]; exact Nat.le_add_left _ _

/-- A node into which the walk does not lead. -/
theorem inside_leaf {p q : Option Text} {t m : QNode} (h : Inside p t q m) (hk : t.info.kind ≠ .annotated)
    (hk1 : t.info.kind ≠ .component) (hk2 : t.info.kind ≠ .object) (hk3 : t.info.kind ≠ .other) : q = p ∧ m = t := by
  cases h with
  | here => exact ⟨rfl, rfl⟩
  | annotated h => exact absurd h hk
  | component h => exact absurd h hk1
  | object h => exact absurd h hk2
  | other h =>
    rcases h with h | h
    · exact absurd h hk3
    · exact absurd h.1 hk2

theorem good_leaf {file : List Text} {p : Option Text} {t : QNode} {us : List CodeUnit} (hk : t.info.kind ≠ .annotated)
    (hk1 : t.info.kind ≠ .component) (hk2 : t.info.kind ≠ .object) (hk3 : t.info.kind ≠ .other)
    (h : (us = [] ∧ ∀ name, ¬ Defines t name) ∨ ∃ u, us = [u] ∧ UnitFits file p t u) : Good file p t us := by
  rcases h with ⟨rfl, h⟩ | ⟨u, rfl, h⟩
  · refine ⟨by simp, ?_, fun _ _ => Nat.zero_le _⟩
    intro q m name hi hd
    obtain ⟨rfl, rfl⟩ := inside_leaf hi hk hk1 hk2 hk3
    exact absurd hd (h name)
  · refine ⟨?_, ?_, ?_⟩
    · intro v hv
      obtain rfl := List.mem_singleton.1 hv
      exact ⟨p, t, .here p t, h⟩
    · intro q m name hi _
      obtain ⟨rfl, rfl⟩ := inside_leaf hi hk hk1 hk2 hk3
      exact ⟨u, by simp, h⟩
    · intro d hd
      cases t with
      | mk q cs =>
        rw [count, if_pos ((hd _).2 ⟨_, h.1⟩)]
        simp

theorem plain_leaf {file : List Text} {p : Option Text} {q : QInfo} {cs : List QNode} {o : Option CodeUnit}
    (hk : q.kind = .signal ∨ q.kind = .property ∨ q.kind = .binding)
    (ho : ∀ u, o = some u → UnitFits file p (.mk q cs) u) (hn : o = none → ∀ name, ¬ Defines (.mk q cs) name) :
    Good file p (.mk q cs) o.toList := by
  have hne : ∀ k : QKind, (k ≠ .signal ∧ k ≠ .property ∧ k ≠ .binding) → (QNode.mk q cs).info.kind ≠ k := by
    intro k hk' e
    change q.kind = k at e
    rcases hk with h | h | h
    · exact hk'.1 (e.symm.trans h)
    · exact hk'.2.1 (e.symm.trans h)
    · exact hk'.2.2 (e.symm.trans h)
  refine good_leaf (hne _ (by simp)) (hne _ (by simp)) (hne _ (by simp)) (hne _ (by simp)) ?_
  cases o with
  | none => exact .inl ⟨rfl, hn rfl⟩
  | some u => exact .inr ⟨u, rfl, ho u rfl⟩

theorem signal_good {file : List Text} {p : Option Text} {q : QInfo} {cs : List QNode} (hk : q.kind = .signal) :
    Good file p (.mk q cs) (signalUnit file p q).toList := by
  refine plain_leaf (.inl hk) ?_ ?_
  · intro u hu
    obtain ⟨h1, h2, h3, h4, h5, h6⟩ := plainUnit_some hu cs
    simp only [UnitFits, Defines, QNode.info, hk]
    exact ⟨h1, h4, h5, h6, h2, h3⟩
  · intro h name hd
    simp only [Defines, QNode.info, hk] at hd
    obtain ⟨u, hu, _⟩ := plainUnit_named hd
    unfold signalUnit at h
    rw [hu] at h
    cases h

theorem property_good {file : List Text} {p : Option Text} {q : QInfo} {cs : List QNode} (hk : q.kind = .property) :
    Good file p (.mk q cs) (propertyUnit file p q).toList := by
  refine plain_leaf (.inr (.inl hk)) ?_ ?_
  · intro u hu
    obtain ⟨h1, h2, h3, h4, h5, h6⟩ := plainUnit_some hu cs
    simp only [UnitFits, Defines, QNode.info, hk]
    exact ⟨h1, h4, h5, h6, h2, h3⟩
  · intro h name hd
    simp only [Defines, QNode.info, hk] at hd
    obtain ⟨u, hu, _⟩ := plainUnit_named hd
    unfold propertyUnit at h
    rw [hu] at h
    cases h

theorem binding_good {file : List Text} {p : Option Text} {q : QInfo} {cs : List QNode} (hk : q.kind = .binding) :
    Good file p (.mk q cs) (bindingUnit file p q).toList := by
  refine plain_leaf (.inr (.inr hk)) ?_ ?_
  · intro u hu
    unfold bindingUnit at hu
    split at hu
    · next hl =>
      obtain ⟨h1, h2, h3, h4, h5, h6⟩ := plainUnit_some hu cs
      simp only [UnitFits, Defines, QNode.info, hk]
      have hf := fieldText_iff.2 h1.1
      change fieldText q.name = some u.name at hf
      rw [hf] at hl
      exact ⟨⟨h1, (looksLikeHandler_iff _).1 hl⟩, h4, h5, h6, h2, h3⟩
    · cases hu
  · intro h name hd
    simp only [Defines, QNode.info, hk] at hd
    obtain ⟨hnm, hh⟩ := hd
    obtain ⟨u, hu, _⟩ := plainUnit_named (ut := if p.isSome then .method else .function) (p := p) (sg := lineAt file q) hnm
    have hf : fieldText q.name = some name := fieldText_iff.2 hnm.1
    unfold bindingUnit at h
    rw [hf, if_pos (show (Option.map looksLikeHandler (some name)).getD false = true from (looksLikeHandler_iff _).2 hh), hu] at h
    cases h

theorem script_fits {file : List Text} {q : QInfo} {name : Text} {ut : UnitType} {parent : Option Text} {calls : List Text}
    (h1 : q.decl.startRow ≤ q.decl.endRow) (h2 : q.decl.startRow ≤ file.length) (ht : ut ≠ .rawCode) :
    ∃ u, declUnit .typescript file q.decl name ut parent calls = .ok u ∧ CodeIs file u ∧ u.name = name ∧ u.utype = ut ∧
      u.parent = parent ∧ u.calls = calls ∧ u.endLine = q.decl.endRow + 1 ∧
      ∃ start, u.line = start + 1 ∧ StartsAt .typescript file q.decl.startRow start := by
  obtain ⟨u, e, hok, a⟩ := declUnit_ok .typescript file q.decl name ut parent calls h1 h2 ht
  exact ⟨u, e, hok.1, a⟩

theorem leaf_ne {q : QInfo} {cs : List QNode} {k k' : QKind} (hk : q.kind = k) (h : k ≠ k') : (QNode.mk q cs).info.kind ≠ k' :=
  fun e => h (hk.symm.trans e)

theorem function_good {file : List Text} {p : Option Text} {q : QInfo} {cs : List QNode} (hk : q.kind = .function)
    (h1 : q.decl.startRow ≤ q.decl.endRow) (h2 : q.decl.startRow ≤ file.length) :
    ∃ us, functionUnits .typescript file p q.decl = .ok us ∧ Good file p (.mk q cs) us := by
  have hg : ∀ us, ((us = [] ∧ ∀ name, ¬ Defines (QNode.mk q cs) name) ∨ ∃ u, us = [u] ∧ UnitFits file p (.mk q cs) u) →
      Good file p (.mk q cs) us := fun us h =>
    good_leaf (leaf_ne hk (by simp)) (leaf_ne hk (by simp)) (leaf_ne hk (by simp)) (leaf_ne hk (by simp)) h
  unfold functionUnits
  cases hn : q.decl.name with
  | none =>
    refine ⟨[], rfl, hg _ (.inl ⟨rfl, ?_⟩)⟩
    intro name hd
    simp only [Defines, QNode.info, hk, hn] at hd
    cases hd
  | some name =>
    have key : ∀ ut par, par = p.or q.decl.receiver → (ut = if (p.or q.decl.receiver).isSome then .method else .function) →
        ∃ us, (declUnit .typescript file q.decl name ut par q.decl.calls).map (fun u => [u]) = .ok us ∧ Good file p (.mk q cs) us := by
      intro ut par hp hu
      obtain ⟨u, e, a0, a1, a2, a3, a4, a5, a6⟩ := script_fits (q := q) (name := name) (ut := ut) (parent := par)
        (calls := q.decl.calls) h1 h2 (by rw [hu]; split <;> simp)
      refine ⟨[u], by rw [e]; rfl, hg _ (.inr ⟨u, rfl, ?_⟩)⟩
      simp only [UnitFits, Defines, QNode.info, hk, hn]
      exact ⟨by rw [a1], a5, a2.trans hu, a3.trans hp, a4, a0, a6⟩
    cases p with
    | some x => exact key .method (some x) rfl rfl
    | none =>
      cases hr : q.decl.receiver with
      | some r => exact key .method (some r) (by rw [hr]; rfl) (by rw [hr]; rfl)
      | none => exact key .function none (by rw [hr]; rfl) (by rw [hr]; rfl)

theorem variable_good {file : List Text} {p : Option Text} {q : QInfo} {cs : List QNode} (hk : q.kind = .variable)
    (h1 : q.decl.startRow ≤ q.decl.endRow) (h2 : q.decl.startRow ≤ file.length) :
    ∃ us, constantUnits .typescript file q.decl = .ok us ∧ Good file p (.mk q cs) us := by
  have hg : ∀ us, ((us = [] ∧ ∀ name, ¬ Defines (QNode.mk q cs) name) ∨ ∃ u, us = [u] ∧ UnitFits file p (.mk q cs) u) →
      Good file p (.mk q cs) us := fun us h =>
    good_leaf (leaf_ne hk (by simp)) (leaf_ne hk (by simp)) (leaf_ne hk (by simp)) (leaf_ne hk (by simp)) h
  unfold constantUnits
  cases hn : q.decl.name with
  | none =>
    refine ⟨[], rfl, hg _ (.inl ⟨rfl, ?_⟩)⟩
    intro name hd
    simp only [Defines, QNode.info, hk, hn] at hd
    cases hd
  | some name =>
    have key : ∀ ut calls, (ut = if q.decl.arrow = true then .function else .constant) →
        ∃ us, (declUnit .typescript file q.decl name ut none calls).map (fun u => [u]) = .ok us ∧ Good file p (.mk q cs) us := by
      intro ut calls hu
      obtain ⟨u, e, a0, a1, a2, a3, a4, a5, a6⟩ := script_fits (q := q) (name := name) (ut := ut) (parent := none)
        (calls := calls) h1 h2 (by rw [hu]; split <;> simp)
      refine ⟨[u], by rw [e]; rfl, hg _ (.inr ⟨u, rfl, ?_⟩)⟩
      simp only [UnitFits, Defines, QNode.info, hk, hn]
      exact ⟨by rw [a1], a5, a2.trans hu, a3, a0, a6⟩
    simp only
    rw [if_neg (by simp)]
    cases ha : q.decl.arrow with
    | true => rw [if_pos ⟨trivial, rfl⟩]; exact key _ _ (by rw [ha]; rfl)
    | false => rw [if_neg (by simp)]; exact key _ _ (by rw [ha]; rfl)

theorem enum_good {file : List Text} {p : Option Text} {q : QInfo} {cs : List QNode} (hk : q.kind = .enumeration)
    (h1 : q.decl.startRow ≤ q.decl.endRow) (h2 : q.decl.startRow ≤ file.length) :
    ∃ us, enumUnits file p q = .ok us ∧ Good file p (.mk q cs) us := by
  have hg : ∀ us, ((us = [] ∧ ∀ name, ¬ Defines (QNode.mk q cs) name) ∨ ∃ u, us = [u] ∧ UnitFits file p (.mk q cs) u) →
      Good file p (.mk q cs) us := fun us h =>
    good_leaf (leaf_ne hk (by simp)) (leaf_ne hk (by simp)) (leaf_ne hk (by simp)) (leaf_ne hk (by simp)) h
  unfold enumUnits
  cases hn : q.decl.name with
  | none =>
    refine ⟨[], rfl, hg _ (.inl ⟨rfl, ?_⟩)⟩
    intro name hd
    simp only [Defines, QNode.info, hk, hn] at hd
    cases hd
  | some name =>
    obtain ⟨u, e, a0, a1, a2, a3, a4, a5, a6⟩ := script_fits (q := q) (name := name) (ut := .class) (parent := none)
      (calls := q.decl.calls) h1 h2 (by simp)
    refine ⟨[{ u with parent := p }], by unfold classUnit; simp only [e]; rfl, hg _ (.inr ⟨_, rfl, ?_⟩)⟩
    simp only [UnitFits, Defines, QNode.info, hk, hn]
    exact ⟨by rw [a1], a5, a2, trivial, a0, a6⟩

end NextPlaid.Qml
