import Verif.Model.Colgrep
import Mathlib.Data.List.Nodup
import Mathlib.Data.List.Basic
import Mathlib.Tactic.ByContra

/-! Lemmas on the maps, the store and the parser of the colgrep model. -/

namespace NextPlaid.Colgrep

variable {P C U H : Type} [DecidableEq P] [DecidableEq H]

/-! ### Maps -/

theorem get_nil {β : Type} (p : P) : get ([] : List (P × β)) p = none := rfl

theorem get_cons {β : Type} (k : P) (v : β) (m : List (P × β)) (p : P) :
    get ((k, v) :: m) p = if k = p then some v else get m p := by
  unfold get
  by_cases h : k = p <;> simp [h]

theorem get_filter {β : Type} (m : List (P × β)) (q : P → Bool) (p : P) :
    get (m.filter fun e => q e.1) p = if q p then get m p else none := by
  induction m with
  | nil => simp [get_nil]
  | cons e m ih =>
    obtain ⟨k, v⟩ := e
    rw [List.filter_cons]
    by_cases hq : q k
    · simp only [hq, if_true, get_cons, ih]
      by_cases hk : k = p
      · subst hk; simp [hq]
      · simp [hk]
    · simp only [hq, get_cons]
      by_cases hk : k = p
      · subst hk; simp [hq, ih]
      · simp [hk, ih]

theorem get_put {β : Type} (m : List (P × β)) (k : P) (v : β) (p : P) : get (put m k v) p = if k = p then some v else get m p := by
  unfold put
  rw [get_cons]
  by_cases h : k = p
  · simp [h]
  · simp only [h, if_false]
    have := get_filter m (fun x => decide (x ≠ k)) p
    rw [this]
    simp [Ne.symm h]

theorem get_del {β : Type} (m : List (P × β)) (ps : List P) (p : P) : get (del m ps) p = if p ∈ ps then none else get m p := by
  have := get_filter m (fun x => decide (x ∉ ps)) p
  unfold del
  rw [this]
  by_cases h : p ∈ ps <;> simp [h]

theorem get_none {β : Type} (m : List (P × β)) (p : P) : get m p = none ↔ p ∉ m.map (·.1) := by
  induction m with
  | nil => simp [get_nil]
  | cons e m ih =>
    obtain ⟨k, v⟩ := e
    rw [get_cons]
    by_cases h : k = p
    · simp [h]
    · simp [h, ih, Ne.symm h]

theorem get_mem {β : Type} {m : List (P × β)} {p : P} {v : β} (h : get m p = some v) : (p, v) ∈ m := by
  induction m with
  | nil => simp [get_nil] at h
  | cons e m ih =>
    obtain ⟨k, w⟩ := e
    rw [get_cons] at h
    by_cases hk : k = p
    · simp [hk] at h; simp [hk, h]
    · simp [hk] at h; simp [ih h]

theorem mem_get {β : Type} {m : List (P × β)} (hm : (m.map (·.1)).Nodup) {p : P} {v : β} (h : (p, v) ∈ m) : get m p = some v := by
  induction m with
  | nil => simp at h
  | cons e m ih =>
    obtain ⟨k, w⟩ := e
    rw [List.map_cons, List.nodup_cons] at hm
    rw [get_cons]
    rcases List.mem_cons.mp h with h | h
    · simp at h; simp [h]
    · have : k ≠ p := by
        rintro rfl
        exact hm.1 (List.mem_map.mpr ⟨_, h, rfl⟩)
      simp [this, ih hm.2 h]

theorem keys_filter_nodup {β : Type} {m : List (P × β)} (hm : (m.map (·.1)).Nodup) (q : P × β → Bool) : ((m.filter q).map (·.1)).Nodup :=
  List.Nodup.sublist (List.Sublist.map _ List.filter_sublist) hm

/-- A filtered map. -/
theorem get_filter' {β : Type} {m : List (P × β)} (hm : (m.map (·.1)).Nodup) (q : P × β → Bool) (p : P) :
    get (m.filter q) p = (get m p).filter fun v => q (p, v) := by
  induction m with
  | nil => simp [get_nil]
  | cons e m ih =>
    obtain ⟨k, v⟩ := e
    rw [List.map_cons, List.nodup_cons] at hm
    rw [List.filter_cons, get_cons]
    by_cases hk : k = p
    · subst hk
      have hn : get m k = none := (get_none m k).mpr hm.1
      by_cases hq : q (k, v)
      · simp [hq, get_cons, Option.filter_some]
      · simp [hq, ih hm.2, hn, Option.filter_some]
    · by_cases hq : q (k, v)
      · simp [hq, get_cons, hk, ih hm.2]
      · simp [hq, hk, ih hm.2]

theorem get_putAll {β : Type} (es : List (P × β)) (hes : (es.map (·.1)).Nodup) (m : List (P × β)) (p : P) :
    get (putAll m es) p = (get es p).or (get m p) := by
  induction es generalizing m with
  | nil => simp [putAll, get_nil]
  | cons e es ih =>
    obtain ⟨k, v⟩ := e
    rw [List.map_cons, List.nodup_cons] at hes
    have : putAll m ((k, v) :: es) = putAll (put m k v) es := rfl
    rw [this, ih hes.2, get_put, get_cons]
    by_cases hk : k = p
    · subst hk
      simp [(get_none es k).mpr hes.1]
    · simp [hk]

theorem get_map {β γ : Type} (m : List (P × β)) (f : P → β → γ) (p : P) :
    get (m.map fun e => (e.1, f e.1 e.2)) p = (get m p).map (f p) := by
  induction m with
  | nil => simp [get_nil]
  | cons e m ih =>
    obtain ⟨k, v⟩ := e
    rw [List.map_cons, get_cons, get_cons, ih]
    by_cases hk : k = p
    · subst hk; simp
    · simp [hk]

theorem keys_map {β γ : Type} (m : List (P × β)) (f : P → β → γ) : (m.map fun e => (e.1, f e.1 e.2)).map (·.1) = m.map (·.1) := by
  simp [List.map_map, Function.comp_def]

/-! ### The documents of a file -/

def docs (p : P) (d : List (P × U)) : List (P × U) := d.filter fun x => x.1 = p

theorem docs_append (p : P) (a b : List (P × U)) : docs p (a ++ b) = docs p a ++ docs p b := by simp [docs]

theorem docs_perm (p : P) {a b : List (P × U)} (h : a.Perm b) : (docs p a).Perm (docs p b) := h.filter _

theorem docs_kept (p : P) (files : List P) (d : List (P × U)) :
    docs p (d.filter fun x => x.1 ∉ files) = if p ∈ files then [] else docs p d := by
  unfold docs
  rw [List.filter_filter]
  by_cases h : p ∈ files
  · simp only [h, if_true, List.filter_eq_nil_iff]
    intro x _ hx
    simp at hx
    exact hx.2 (hx.1 ▸ h)
  · simp only [h, if_false]
    apply List.filter_congr
    intro x _
    by_cases hx : x.1 = p <;> simp [hx, h]

theorem docs_nil_all {d : List (P × U)} (h : ∀ p, docs p d = []) : d = [] := by
  cases d with
  | nil => rfl
  | cons x d =>
    have := h x.1
    simp [docs] at this

theorem docs_mem {p : P} {d : List (P × U)} {x : P × U} (h : x ∈ d) (hp : x.1 = p) : docs p d ≠ [] := by
  intro hn
  have : x ∈ docs p d := by simp [docs, h, hp]
  simp [hn] at this

/-! ### The store -/

theorem idsOf_mem (files : List P) (rows : List (P × U)) (x : (P × U) × Nat) (hx : x ∈ rows.zipIdx) :
    x.2 ∈ idsOf files rows ↔ x.1.1 ∈ files := by
  unfold idsOf
  simp only [List.mem_map, List.mem_filter, decide_eq_true_eq]
  constructor
  · rintro ⟨y, ⟨hy, hf⟩, hxy⟩
    have h1 := List.mem_zipIdx' hx
    have h2 := List.mem_zipIdx' hy
    have : y.1 = x.1 := by
      rw [h1.2, h2.2]
      congr 1
    rw [← this]; exact hf
  · intro h
    exact ⟨x, ⟨hx, h⟩, rfl⟩

theorem removeAt_idsOf (files : List P) (rows : List (P × U)) : removeAt (idsOf files rows) rows = rows.filter fun x => x.1 ∉ files := by
  have h1 : (rows.zipIdx.filter fun x => x.2 ∉ idsOf files rows) = rows.zipIdx.filter fun x => x.1.1 ∉ files := by
    apply List.filter_congr
    intro x hx
    simp [idsOf_mem files rows x hx]
  unfold removeAt
  rw [h1]
  have h2 := List.filter_map (f := (Prod.fst : (P × U) × Nat → P × U)) (p := fun x => decide (x.1 ∉ files)) (l := rows.zipIdx)
  have h3 : rows.zipIdx.map Prod.fst = rows := List.zipIdx_map_fst 0 rows
  rw [h3] at h2
  rw [h2]
  rfl

theorem idsOf_nil {files : List P} {rows : List (P × U)} (h : idsOf files rows = []) : (rows.filter fun x => x.1 ∉ files) = rows := by
  rw [← removeAt_idsOf, h]
  unfold removeAt
  simp [List.zipIdx_map_fst]

theorem deleteFiles_ok (files : List P) (l : Log P U H) (st : State P H) (v : Option (List (P × U))) (b : Bool)
    (hl : l.now = ⟨st, v, v, b⟩) :
    ∃ l', deleteFiles files l = .ok l' ∧
      l'.now = ⟨st, v.map (·.filter fun x => x.1 ∉ files), v.map (·.filter fun x => x.1 ∉ files), b⟩ := by
  unfold deleteFiles
  rw [hl]
  cases v with
  | none => exact ⟨l, rfl, by rw [hl]; rfl⟩
  | some d =>
    by_cases h : idsOf files d = []
    · refine ⟨l, by simp [h], ?_⟩
      rw [hl]
      have := idsOf_nil h
      simpa using this.symm
    · refine ⟨_, by simp only [h, if_false]; rfl, ?_⟩
      simp [write, hl, removeAt_idsOf]

theorem tryDelete_ok (files : List P) (l : Log P U H) (st : State P H) (v : Option (List (P × U))) (b : Bool)
    (hl : l.now = ⟨st, v, v, b⟩) :
    (tryDelete files l).now = ⟨st, v.map (·.filter fun x => x.1 ∉ files), v.map (·.filter fun x => x.1 ∉ files), b⟩ := by
  obtain ⟨l', h1, h2⟩ := deleteFiles_ok files l st v b hl
  unfold tryDelete
  rw [h1]; exact h2

/-- The store after an append. -/
def grown (v : Option (List (P × U))) (d : List (P × U)) : Option (List (P × U)) := if d = [] then v else some (v.getD [] ++ d)

omit [DecidableEq P] [DecidableEq H] in
theorem grown_getD (v : Option (List (P × U))) (d : List (P × U)) : (grown v d).getD [] = v.getD [] ++ d := by
  unfold grown
  split <;> simp_all

omit [DecidableEq P] [DecidableEq H] in
theorem append_ok (d : List (P × U)) (l : Log P U H) (st : State P H) (v : Option (List (P × U))) (b : Bool)
    (hl : l.now = ⟨st, v, v, b⟩) : ∃ l', append d l = .ok l' ∧ l'.now = ⟨st, grown v d, grown v d, b⟩ := by
  unfold append grown
  by_cases h : d = []
  · exact ⟨l, by simp [h], by simp [h, hl]⟩
  · simp only [h, if_false, hl]
    cases v with
    | none => exact ⟨_, by simp; rfl, by simp [write, hl]⟩
    | some w => exact ⟨_, rfl, by simp [write, hl]⟩

omit [DecidableEq P] [DecidableEq H] in
theorem encode_never (L : Lang P C U H) (units : List (P × U)) (l : Log P U H) (st : State P H) (v : Option (List (P × U))) (b : Bool)
    (hl : l.now = ⟨st, v, v, b⟩) :
    ∃ l', encode L units .never l = .ok (l', .never) ∧ l'.now = ⟨st, grown v (L.arrange units), grown v (L.arrange units), b⟩ := by
  obtain ⟨l', h1, h2⟩ := append_ok (L.arrange units) l st v b hl
  exact ⟨l', by simp [encode, h1], h2⟩

omit [DecidableEq P] [DecidableEq H] in
theorem repair_same (l : Log P U H) (st : State P H) (v : Option (List (P × U))) (b : Bool) (hl : l.now = ⟨st, v, v, b⟩) : repair l = l := by
  unfold repair
  rw [hl]
  cases v <;> simp

omit [DecidableEq P] [DecidableEq H] in
theorem reconcile_same (l : Log P U H) (st : State P H) (v : Option (List (P × U))) (b : Bool) (hl : l.now = ⟨st, v, v, b⟩) :
    reconcile l = l := by
  unfold reconcile
  rw [hl]
  cases v <;> simp

/-! ### Parsing -/

/-- The documents of a file with this content. -/
def unitDocs (L : Lang P C U H) (p : P) (f : File C) : List (P × U) := ((L.parse p f.content).getD []).map fun u => (p, u)

omit [DecidableEq H] in
theorem docs_unitDocs (L : Lang P C U H) (p q : P) (f : File C) : docs p (unitDocs L q f) = if q = p then unitDocs L q f else [] := by
  unfold docs unitDocs
  by_cases h : q = p
  · simp only [h, if_true, List.filter_eq_self, List.mem_map]
    rintro x ⟨u, _, rfl⟩
    simp
  · simp only [h, if_false, List.filter_eq_nil_iff, List.mem_map]
    rintro x ⟨u, _, rfl⟩
    simp [h]

omit [DecidableEq H] in
theorem unitsOf_docs (L : Lang P C U H) (files : List (P × File C)) (hn : (files.map (·.1)).Nodup) (p : P) :
    docs p (unitsOf (parseAll L files)) = match get files p with | some f => unitDocs L p f | none => [] := by
  induction files with
  | nil => simp [parseAll, unitsOf, docs, get_nil]
  | cons e files ih =>
    obtain ⟨k, f⟩ := e
    rw [List.map_cons, List.nodup_cons] at hn
    have h1 : unitsOf (parseAll L ((k, f) :: files)) = unitDocs L k f ++ unitsOf (parseAll L files) := by
      simp [unitsOf, parseAll, unitDocs]
    rw [h1, docs_append, ih hn.2, docs_unitDocs, get_cons]
    by_cases hk : k = p
    · subst hk
      simp [(get_none files k).mpr hn.1]
    · simp [hk]

omit [DecidableEq P] [DecidableEq H] in
theorem mem_skippedOf (L : Lang P C U H) (files : List (P × File C)) (p : P) :
    p ∈ skippedOf (parseAll L files) ↔ ∃ f, (p, f) ∈ files ∧ L.parse p f.content = none := by
  unfold skippedOf parseAll
  simp only [List.mem_map, List.mem_filter, Option.isNone_iff_eq_none]
  constructor
  · rintro ⟨x, ⟨⟨e, he, rfl⟩, hx⟩, rfl⟩
    exact ⟨e.2, he, hx⟩
  · rintro ⟨f, hf, hp⟩
    exact ⟨_, ⟨⟨_, hf, rfl⟩, hp⟩, rfl⟩

omit [DecidableEq P] [DecidableEq H] in
theorem recordsOf_eq (L : Lang P C U H) (files : List (P × File C)) :
    recordsOf L (parseAll L files) = (files.filter fun e => (L.parse e.1 e.2.content).isSome).map fun e => (e.1, infoOf L e.2) := by
  unfold recordsOf parseAll
  rw [List.filter_map, List.map_map]
  rfl

omit [DecidableEq H] in
theorem records_nodup (L : Lang P C U H) (files : List (P × File C)) (hn : (files.map (·.1)).Nodup) :
    ((recordsOf L (parseAll L files)).map (·.1)).Nodup := by
  rw [recordsOf_eq, keys_map _ (fun _ f => infoOf L f)]
  exact keys_filter_nodup hn _

omit [DecidableEq H] in
theorem get_recordsOf (L : Lang P C U H) (files : List (P × File C)) (hn : (files.map (·.1)).Nodup) (p : P) :
    get (recordsOf L (parseAll L files)) p = ((get files p).filter fun f => (L.parse p f.content).isSome).map (infoOf L) := by
  rw [recordsOf_eq, get_map _ (fun _ f => infoOf L f), get_filter' hn]

end NextPlaid.Colgrep
