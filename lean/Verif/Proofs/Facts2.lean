import Verif.Proofs.Facts

namespace NextPlaid.Facts

open FactsSpec
open Units (Text trim)
open Scan (Language)

theorem named_field {n p : Nd} {f : String} (hp : Named [f] n p) (hf : p.info.field = some f) : n.byField f = some p := by
  rcases hp with ⟨b, g, a, e, _, pre, post, hc, hg, hpre⟩ | ⟨hno, post, hc⟩
  · obtain rfl : g = f := by
      rw [hf] at hg
      exact (Option.some.inj hg).symm
    exact byField_of hc hg hpre
  · exact absurd hf (hno f (by simp) p (by rw [hc]; simp))

theorem paramsAt_identifier {lang : Language} {D : Nat} {c : Nd} (hk : c.kind = "identifier")
    (hn : ∀ s ∈ c.children, s.info.field ≠ some "name") :
    paramsAt lang D c = [c.text].filter fun t =>
        decide (t ≠ [] ∧ t ≠ "self".toList ∧ t ≠ "this".toList ∧ t ≠ "cls".toList) := by
  have h1 : saysParameter c.kind = true ∨ c.kind = "identifier" ∨ (lang = .ocaml ∧ c.kind = "typed") := .inr (.inl hk)
  have h2 : ¬ (lang = .go ∧ c.kind = "parameter_declaration") := by
    rintro ⟨_, h⟩
    rw [hk] at h; exact absurd h (by decide)
  have h3 : paramName lang D c = some c := by unfold paramName; rw [if_pos hk]
  rw [paramsAt, if_pos h1, if_neg h2, byField_none.2 hn, Option.none_or, h3]
  apply List.filter_congr
  intro t _
  rw [Bool.eq_iff_iff]
  simp [and_assoc]

theorem paramsAt_other {lang : Language} {D : Nat} {c : Nd} (hl : lang ≠ .ocaml) (hk : c.kind ≠ "identifier")
    (hs : saysParameter c.kind = false)
    (h1 : lang = .python → c.kind ≠ "list_splat_pattern" ∧ c.kind ≠ "dictionary_splat_pattern") :
    paramsAt lang D c = [] := by
  have e1 : ¬ (saysParameter c.kind = true ∨ c.kind = "identifier" ∨ (lang = .ocaml ∧ c.kind = "typed")) := by
    rw [hs]; simp [hk, hl]
  have e2 : ¬ (lang = .python ∧ (c.kind = "list_splat_pattern" ∨ c.kind = "dictionary_splat_pattern")) := by
    rintro ⟨h, h'⟩
    have := h1 h
    tauto
  rw [paramsAt, if_neg e1, if_neg e2]

theorem flatMap_plain {lang : Language} {D : Nat} (hl : lang ≠ .ocaml) : ∀ cs : List Nd,
    (∀ c ∈ cs, (c.kind = "identifier" ∧ ∀ s ∈ c.children, s.info.field ≠ some "name") ∨
      (c.kind ≠ "identifier" ∧ saysParameter c.kind = false ∧ c.kind ≠ "list_splat_pattern" ∧ c.kind ≠ "dictionary_splat_pattern")) →
    cs.flatMap (paramsAt lang D) = ((cs.filter fun c => c.kind = "identifier").map Nd.text).filter fun t =>
        decide (t ≠ [] ∧ t ≠ "self".toList ∧ t ≠ "this".toList ∧ t ≠ "cls".toList)
  | [], _ => by simp
  | c :: cs, h => by
    have ih := flatMap_plain (D := D) hl cs fun x hx => h x (by simp [hx])
    rw [List.flatMap_cons, ih]
    rcases h c (by simp) with ⟨hk, hn⟩ | ⟨hk, hs, h1, h2⟩
    · rw [paramsAt_identifier hk hn, List.filter_cons_of_pos (p := fun c : Nd => decide (c.kind = "identifier")) (by simpa using hk),
        List.map_cons, ← List.filter_append, List.singleton_append]
    · rw [paramsAt_other hl hk hs (fun _ => ⟨h1, h2⟩), List.filter_cons_of_neg (by simpa using hk), List.nil_append]

theorem params_plain (lang : Language)
    (hl : lang ∈ [.python, .rust, .java, .csharp, .ruby, .php, .lua, .elixir, .haskell, .typescript, .javascript, .vue, .svelte])
    (D : Nat) (n p : Nd) (hp : n.byField "parameters" = some p)
    (h : ∀ c ∈ p.children, (c.kind = "identifier" ∧ ∀ s ∈ c.children, s.info.field ≠ some "name") ∨
      (c.kind ≠ "identifier" ∧ saysParameter c.kind = false ∧ c.kind ≠ "list_splat_pattern" ∧ c.kind ≠ "dictionary_splat_pattern")) :
    parameters lang D n = ((p.children.filter fun c => c.kind = "identifier").map Nd.text).filter fun t =>
        decide (t ≠ [] ∧ t ≠ "self".toList ∧ t ≠ "this".toList ∧ t ≠ "cls".toList) := by
  have hpn : paramsNode lang n = some p := by
    simp only [List.mem_cons, List.not_mem_nil, or_false] at hl
    rcases hl with rfl | rfl | rfl | rfl | rfl | rfl | rfl | rfl | rfl | rfl | rfl | rfl | rfl <;> simp [paramsNode, hp]
  have ho : lang ≠ .ocaml := by
    rintro rfl
    simp at hl
  rw [parameters, hpn]
  exact flatMap_plain ho p.children h

theorem flatMap_go {D : Nat} : ∀ cs : List Nd,
    (∀ c ∈ cs, c.kind = "parameter_declaration" ∨ (c.kind ≠ "identifier" ∧ saysParameter c.kind = false)) →
    cs.flatMap (paramsAt .go D) = ((cs.filter fun c => c.kind = "parameter_declaration").flatMap fun c =>
        (c.children.filter fun s => s.kind = "identifier").map Nd.text).filter fun t => decide (t ≠ [])
  | [], _ => by simp
  | c :: cs, h => by
    have ih := flatMap_go (D := D) cs fun x hx => h x (by simp [hx])
    rw [List.flatMap_cons, ih]
    by_cases hk : c.kind = "parameter_declaration"
    · have e1 : saysParameter c.kind = true ∨ c.kind = "identifier" ∨ (Language.go = .ocaml ∧ c.kind = "typed") := by
        left; rw [hk]; decide +kernel
      rw [paramsAt, if_pos e1, if_pos ⟨rfl, hk⟩, List.filter_cons_of_pos (by simpa using hk), List.flatMap_cons,
        List.filter_append]
      congr 1
      rw [List.filter_map, List.filter_filter]
      congr 1
      apply List.filter_congr
      intro s _
      rw [Bool.eq_iff_iff]
      simp [and_comm]
    · have h' : c.kind ≠ "identifier" ∧ saysParameter c.kind = false := (h c (by simp)).resolve_left hk
      rw [paramsAt_other (by decide) h'.1 h'.2 (by intro h; exact absurd h (by decide)),
        List.filter_cons_of_neg (by simpa using hk), List.nil_append]

theorem params_go (D : Nat) (n p : Nd) (hp : n.byField "parameters" = some p)
    (h : ∀ c ∈ p.children, c.kind = "parameter_declaration" ∨ (c.kind ≠ "identifier" ∧ saysParameter c.kind = false)) :
    parameters .go D n = ((p.children.filter fun c => c.kind = "parameter_declaration").flatMap fun c =>
        (c.children.filter fun s => s.kind = "identifier").map Nd.text).filter fun t => decide (t ≠ []) := by
  have hpn : paramsNode .go n = some p := by simp [paramsNode, hp]
  rw [parameters, hpn]
  exact flatMap_go p.children h

mutual
theorem ocamlName_sound : ∀ (d : Nat) (n m : Nd), ocamlName d n = some m → Under n m
  | 0, _, _, h => by simp [ocamlName] at h
  | d + 1, .mk i cs, m, h => by
    rw [ocamlName] at h
    split at h
    · obtain rfl : Nd.mk i cs = m := by simpa using h
      exact .here
    · split at h
      · obtain ⟨c, hc, hu⟩ := ocamlNamed_sound d cs m h
        exact under_trans (.child .here hc) hu
      · exact absurd h (by simp)
theorem ocamlNamed_sound : ∀ (d : Nat) (cs : List Nd) (m : Nd), ocamlNamed d cs = some m → ∃ c ∈ cs, Under c m
  | _, [], _, h => by simp [ocamlNamed] at h
  | d, c :: cs, m, h => by
    rw [ocamlNamed] at h
    split at h
    · exact ⟨c, by simp, ocamlName_sound d c m h⟩
    · obtain ⟨x, hx, hu⟩ := ocamlNamed_sound d cs m h
      exact ⟨x, by simp [hx], hu⟩
end

theorem under_byField {n m : Nd} {f : String} (h : n.byField f = some m) : Under n m := .child .here (byField_mem h)

theorem under_first {n m : Nd} (h : n.first = some m) : Under n m := by
  obtain ⟨post, hc⟩ := first_iff.1 h
  exact .child .here (by rw [hc]; simp)

theorem under_find {n m : Nd} {p : Nd → Bool} (h : n.children.find? p = some m) : Under n m :=
  .child .here (List.mem_of_find?_eq_some h)

theorem paramName_under {lang : Language} {D : Nat} {c m : Nd} (h : paramName lang D c = some m) : Under c m := by
  unfold paramName at h
  split at h
  · obtain rfl : c = m := by simpa using h
    exact .here
  · cases lang <;> dsimp only at h <;>
      first
      | (simp only [reduceCtorEq] at h; done)
      | exact under_first (Option.filter_eq_some_iff.1 h).1
      | exact under_byField (Option.filter_eq_some_iff.1 h).1
      | exact ocamlName_sound _ _ _ h
      | (obtain ⟨d, hd, hm⟩ := Option.bind_eq_some_iff.1 h
         exact under_trans (under_byField hd) (declared_sound _ _ _ hm).2)

theorem paramsAt_sound {lang : Language} {D : Nat} {c : Nd} {t : Text} (h : t ∈ paramsAt lang D c) :
    t ≠ [] ∧ ∃ m, Under c m ∧ m.text = t := by
  rw [paramsAt] at h
  split at h
  · split at h
    · obtain ⟨m, hm, rfl⟩ := List.mem_map.1 h
      obtain ⟨hm, hp⟩ := List.mem_filter.1 hm
      refine ⟨?_, m, .child .here hm, rfl⟩
      intro e
      rw [e] at hp
      simp at hp
    · obtain ⟨h1, hp⟩ := List.mem_filter.1 h
      rw [Option.mem_toList, Option.map_eq_some_iff] at h1
      obtain ⟨m, hm, rfl⟩ := h1
      refine ⟨?_, m, ?_, rfl⟩
      · intro e
        rw [e] at hp
        simp at hp
      · rcases Option.or_eq_some_iff.1 hm with h2 | ⟨_, h2⟩
        · exact under_byField h2
        · exact paramName_under h2
  · split at h
    · obtain ⟨h1, hp⟩ := List.mem_filter.1 h
      rw [Option.mem_toList, Option.map_eq_some_iff] at h1
      obtain ⟨m, hm, rfl⟩ := h1
      refine ⟨?_, m, under_find hm, rfl⟩
      intro e
      rw [e] at hp
      simp at hp
    · simp at h

theorem paramsNode_under {lang : Language} {n p : Nd} (h : paramsNode lang n = some p) : Under n p := by
  have two : ∀ f g : String, (n.byField f).or (n.byField g) = some p → Under n p := by
    intro f g h
    rcases Option.or_eq_some_iff.1 h with h2 | ⟨_, h2⟩
    · exact under_byField h2
    · exact under_byField h2
  have either : ∀ (f : String) (q : Nd → Bool), (n.byField f).or (n.children.find? q) = some p → Under n p := by
    intro f q h
    rcases Option.or_eq_some_iff.1 h with h2 | ⟨_, h2⟩
    · exact under_byField h2
    · exact under_find h2
  unfold paramsNode at h
  cases lang <;> dsimp only at h <;>
    first
    | (simp only [reduceCtorEq] at h; done)
    | exact under_byField h
    | exact under_find h
    | exact two _ _ h
    | exact either _ _ h
    | (obtain ⟨d, hd, hm⟩ := Option.bind_eq_some_iff.1 h
       exact under_trans (under_byField hd) (under_byField hm))
    | (obtain rfl := Option.some.inj h
       exact .here)
    | (split at h
       · exact under_find h
       · split at h
         · obtain rfl : n = p := by simpa using h
           exact .here
         · exact absurd h (by simp))

theorem params_sound {lang : Language} {D : Nat} {n : Nd} {t : Text} (h : t ∈ parameters lang D n) :
    t ≠ [] ∧ ∃ m, Under n m ∧ m.text = t := by
  rw [parameters] at h
  split at h
  · simp at h
  · next p hp =>
    obtain ⟨c, hc, ht⟩ := List.mem_flatMap.1 h
    obtain ⟨h1, m, hm, e⟩ := paramsAt_sound ht
    exact ⟨h1, m, under_trans (.child (paramsNode_under hp) hc) hm, e⟩

/-! ### The class that is extended -/

theorem inChildren_of {n c m : Nd} {clauses names : List String} {D : Nat} {pre post : List Nd}
    (hc : n.children = pre ++ c :: post) (hk : c.kind ∈ clauses) (hpre : ∀ x ∈ pre, x.kind ∉ clauses)
    (hf : findFirst c names D = some m) : inChildren n clauses names D = some m.text := by
  rw [inChildren, hc, List.filter_append]
  have : pre.filter (fun x => clauses.contains x.kind) = [] := by
    rw [List.filter_eq_nil_iff]
    intro x hx
    simpa using hpre x hx
  rw [this, List.nil_append, List.filter_cons_of_pos (by simpa using hk), List.findSome?_cons, hf]
  rfl

theorem inChildren_sound {n : Nd} {clauses names : List String} {D : Nat} {t : Text} (h : inChildren n clauses names D = some t) :
    ∃ c m, c ∈ n.children ∧ Under c m ∧ m.text = t ∧ m.kind ∈ names := by
  rw [inChildren] at h
  obtain ⟨c, hc, hm⟩ := List.exists_of_findSome?_eq_some h
  obtain ⟨m, hm, e⟩ := Option.map_eq_some_iff.1 hm
  obtain ⟨h1, h2⟩ := findFirst_sound hm
  exact ⟨c, m, (List.mem_filter.1 hc).1, h1, e, h2⟩

theorem fieldFirst_sound {n : Nd} {f : String} {names : List String} {D : Nat} {t : Text}
    (h : ((n.byField f).bind fun s => (findFirst s names D).map Nd.text) = some t) :
    ∃ c m, c ∈ n.children ∧ Under c m ∧ m.text = t ∧ m.kind ∈ names := by
  obtain ⟨s, hs, h⟩ := Option.bind_eq_some_iff.1 h
  obtain ⟨m, hm, e⟩ := Option.map_eq_some_iff.1 h
  obtain ⟨h1, h2⟩ := findFirst_sound hm
  exact ⟨s, m, byField_mem hs, h1, e, h2⟩

theorem heritage_sound {n : Nd} {D : Nat} {t : Text}
    (h : (n.children.filter fun c => c.kind == "class_heritage").findSome? (heritage D) = some t) :
    ∃ c m, c ∈ n.children ∧ Under c m ∧ m.text = t ∧ m.kind ∈ ["identifier"] := by
  obtain ⟨c, hc, h⟩ := List.exists_of_findSome?_eq_some h
  have hcm := (List.mem_filter.1 hc).1
  rw [heritage] at h
  rcases Option.or_eq_some_iff.1 h with h | ⟨_, h⟩
  · obtain ⟨m, hm, e⟩ := Option.map_eq_some_iff.1 h
    refine ⟨c, m, hcm, under_find hm, e, ?_⟩
    have := List.find?_some hm
    simpa using this
  · obtain ⟨x, m, hx, hm, e, hk⟩ := inChildren_sound h
    exact ⟨c, m, hcm, under_trans (.child .here hx) hm, e, hk⟩

theorem parent_sound {lang : Language} {D : Nat} {n : Nd} {t : Text} (h : parentClass lang D n = some t) :
    ∃ c m, c ∈ n.children ∧ Under c m ∧ m.text = t ∧
      m.kind ∈ ["identifier", "type_identifier", "simple_identifier", "constant", "name", "qualified_name"] := by
  have up : ∀ ns : List String, (∀ k ∈ ns, k ∈ ["identifier", "type_identifier", "simple_identifier", "constant", "name", "qualified_name"]) →
      (∃ c m, c ∈ n.children ∧ Under c m ∧ m.text = t ∧ m.kind ∈ ns) →
      ∃ c m, c ∈ n.children ∧ Under c m ∧ m.text = t ∧
        m.kind ∈ ["identifier", "type_identifier", "simple_identifier", "constant", "name", "qualified_name"] := by
    rintro ns hns ⟨c, m, a, b, e, k⟩
    exact ⟨c, m, a, b, e, hns _ k⟩
  cases lang <;> simp only [parentClass] at h <;>
    first
    | (simp only [reduceCtorEq] at h; done)
    | exact up _ (by simp) (inChildren_sound h)
    | exact up _ (by simp) (fieldFirst_sound h)
    | exact up _ (by simp) (heritage_sound h)
    | (obtain ⟨s, hs, h⟩ := Option.bind_eq_some_iff.1 h
       obtain ⟨m, hm, e⟩ := Option.map_eq_some_iff.1 h
       have hk := List.find?_some hm
       exact up ["identifier"] (by simp) ⟨s, m, byField_mem hs, under_find hm, e, by simpa using hk⟩)

end NextPlaid.Facts
