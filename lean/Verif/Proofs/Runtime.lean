import Verif.Spec.Runtime
import Mathlib.Data.List.Induction
import Mathlib.Data.List.Nodup

/-!
Proofs about the set-up of ONNX Runtime.
-/

namespace NextPlaid.Ort

open NextPlaid.Spec

variable {B : Type}

theorem usable_iff (h : Host B) (w : World B) (p : Path) : usable h w p = true ↔ Loadable h w p := by
  unfold usable Loadable
  cases w.files p with
  | none => simp
  | some c => simp

theorem usable_files (h : Host B) (w w' : World B) (hf : w'.files = w.files) (p : Path) : usable h w' p = usable h w p := by
  unfold usable
  rw [hf]

theorem pin_files (b : Build) (w : World B) (p : Path) : (pin b w p).files = w.files := rfl

theorem find_files (b : Build) (h : Host B) (w w' : World B) (hf : w'.files = w.files) : findRuntime b h w' = findRuntime b h w := by
  unfold findRuntime
  congr 1
  funext p
  exact usable_files h w w' hf p

theorem cached_files (b : Build) (dir : Path) (w w' : World B) (hf : w'.files = w.files) : cached b dir w' = cached b dir w := by
  unfold cached
  rw [hf]

/-- What is at a path after some writes: the last one, or what was there. -/
theorem foldl_put (q : Path) : ∀ (ws : List (Write B)) (w : World B),
    (∃ pre c post, ws = pre ++ (q, c) :: post ∧ (∀ x ∈ post, x.1 ≠ q) ∧ (ws.foldl World.put w).files q = some c) ∨
      ((∀ x ∈ ws, x.1 ≠ q) ∧ (ws.foldl World.put w).files q = w.files q) := by
  intro ws
  induction ws using List.reverseRecOn with
  | nil => exact fun w => .inr ⟨fun x h => (List.not_mem_nil h).elim, rfl⟩
  | append_singleton ws x ih =>
    intro w
    rw [List.foldl_append]
    simp only [List.foldl_cons, List.foldl_nil]
    by_cases hx : x.1 = q
    · refine .inl ⟨ws, x.2, [], by rw [← hx], fun y h => (List.not_mem_nil h).elim, ?_⟩
      simp [World.put, hx]
    · have hput : ((ws.foldl World.put w).put x).files q = (ws.foldl World.put w).files q := by
        simp only [World.put]
        rw [if_neg fun h => hx h.symm]
      rw [hput]
      rcases ih w with ⟨pre, c, post, h1, h2, h3⟩ | ⟨h1, h2⟩
      · refine .inl ⟨pre, c, post ++ [x], by rw [h1]; simp, ?_, h3⟩
        intro y hy
        rcases List.mem_append.mp hy with hy | hy
        · exact h2 y hy
        · rw [List.mem_singleton.mp hy]
          exact hx
      · refine .inr ⟨?_, h2⟩
        intro y hy
        rcases List.mem_append.mp hy with hy | hy
        · exact h1 y hy
        · rw [List.mem_singleton.mp hy]
          exact hx

theorem foldl_put_env (ws : List (Write B)) : ∀ w : World B, (ws.foldl World.put w).ort = w.ort ∧ (ws.foldl World.put w).ld = w.ld := by
  induction ws with
  | nil => exact fun w => ⟨rfl, rfl⟩
  | cons x ws ih => exact fun w => ih (w.put x)

/-- The tables name each file once. -/
theorem wanted_nodup (b : Build) : (b.wanted.map (·.1)).Nodup ∧ (b.wanted.map (·.2)).Nodup := by
  cases b <;> decide

theorem lib_wanted (b : Build) : ∃ src, (src, b.lib) ∈ b.wanted := by
  cases b <;> exact ⟨_, List.mem_cons_self ..⟩

theorem destOf_iff (b : Build) (name dst : String) : destOf b.wanted name = some dst ↔ (stripDot name, dst) ∈ b.wanted := by
  have hn := (wanted_nodup b).1
  unfold destOf
  generalize b.wanted = l at hn
  induction l with
  | nil => simp
  | cons x l ih =>
    rw [List.map_cons, List.nodup_cons] at hn
    rw [List.find?_cons]
    by_cases hx : x.1 = stripDot name
    · have hxb : (x.1 == stripDot name) = true := by simp [hx]
      rw [hxb]
      simp only [Option.map_some, Option.some.injEq, List.mem_cons]
      constructor
      · rintro rfl
        exact .inl (by rw [← hx])
      · rintro (h | h)
        · rw [← h]
        · exact absurd (List.mem_map.mpr ⟨_, h, hx.symm⟩) hn.1
    · have hxb : (x.1 == stripDot name) = false := by simp [hx]
      rw [hxb]
      refine (ih hn.2).trans ?_
      rw [List.mem_cons]
      constructor
      · exact fun h => .inr h
      · rintro (h | h)
        · exact absurd (congrArg (·.1) h).symm hx
        · exact h

theorem dst_inj (b : Build) {s s' d : String} (h : (s, d) ∈ b.wanted) (h' : (s', d) ∈ b.wanted) : s = s' := by
  exact congrArg (·.1) (List.inj_on_of_nodup_map (wanted_nodup b).2 h h' rfl)

/-- The writes of the extraction go to wanted names, and a wanted name gets the last entry of its source. -/
theorem extract_files (b : Build) (dir : Path) (entries : List (String × B)) (w : World B) :
    (∀ q, (∀ x ∈ b.wanted, q ≠ dir ++ [x.2]) → ((extractWrites b.wanted dir entries).foldl World.put w).files q = w.files q) ∧
      ∀ src dst, (src, dst) ∈ b.wanted → (∃ e ∈ entries, stripDot e.1 = src) →
        ∃ c, LastIn entries src c ∧ ((extractWrites b.wanted dir entries).foldl World.put w).files (dir ++ [dst]) = some c := by
  have hmem : ∀ x ∈ extractWrites b.wanted dir entries, ∃ e ∈ entries, ∃ dst, (stripDot e.1, dst) ∈ b.wanted ∧ x = (dir ++ [dst], e.2) := by
    intro x hx
    obtain ⟨e, he, hx⟩ := List.mem_filterMap.mp hx
    obtain ⟨dst, hd, rfl⟩ := Option.map_eq_some_iff.mp hx
    exact ⟨e, he, dst, (destOf_iff b e.1 dst).mp hd, rfl⟩
  constructor
  · intro q hq
    rcases foldl_put q (extractWrites b.wanted dir entries) w with ⟨pre, c, post, h1, -, -⟩ | ⟨-, h2⟩
    · obtain ⟨e, -, dst, hd, hx⟩ := hmem (q, c) (by rw [h1]; simp)
      exact absurd (congrArg (·.1) hx) (hq _ hd)
    · exact h2
  · intro src dst hd
    induction entries using List.reverseRecOn generalizing w with
    | nil => rintro ⟨e, he, -⟩; exact (List.not_mem_nil he).elim
    | append_singleton es e ih =>
      rintro ⟨e', he', hs'⟩
      have happ : extractWrites b.wanted dir (es ++ [e]) = extractWrites b.wanted dir es ++ extractWrites b.wanted dir [e] := by
        simp [extractWrites, List.filterMap_append]
      rw [happ, List.foldl_append]
      by_cases hs : stripDot e.1 = src
      · refine ⟨e.2, ⟨es, e.1, [], by simp, hs, fun x hx => (List.not_mem_nil hx).elim⟩, ?_⟩
        have hde : destOf b.wanted e.1 = some dst := (destOf_iff b e.1 dst).mpr (by rw [hs]; exact hd)
        simp [extractWrites, hde, World.put]
      · have hees : e' ∈ es := by
          rcases List.mem_append.mp he' with h | h
          · exact h
          · rw [List.mem_singleton.mp h] at hs'
            exact absurd hs' hs
        obtain ⟨c, ⟨pre, name, post, h1, h2, h3⟩, h4⟩ := ih w (fun x hx => by
          obtain ⟨y, hy, hx⟩ := List.mem_filterMap.mp hx
          obtain ⟨d, hd', rfl⟩ := Option.map_eq_some_iff.mp hx
          exact ⟨y, hy, d, (destOf_iff b y.1 d).mp hd', rfl⟩) ⟨e', hees, hs'⟩
        refine ⟨c, ⟨pre, name, post ++ [e], by rw [h1]; simp, h2, ?_⟩, ?_⟩
        · intro x hx
          rcases List.mem_append.mp hx with hx | hx
          · exact h3 x hx
          · rw [List.mem_singleton.mp hx]; exact hs
        · cases hde : destOf b.wanted e.1 with
          | none =>
            have : extractWrites b.wanted dir [e] = [] := by simp [extractWrites, hde]
            rw [this]
            exact h4
          | some d =>
            have : extractWrites b.wanted dir [e] = [(dir ++ [d], e.2)] := by simp [extractWrites, hde]
            rw [this]
            simp only [List.foldl_cons, List.foldl_nil, World.put]
            rw [if_neg]
            · exact h4
            · intro heq
              have hdd : dst = d := by simpa using heq
              subst hdd
              exact hs (dst_inj b ((destOf_iff b e.1 dst).mp hde) hd)

theorem allFound_iff (wanted : List (String × String)) (entries : List (String × B)) :
    allFound wanted entries = true ↔ ∀ x ∈ wanted, ∃ e ∈ entries, stripDot e.1 = x.1 := by
  simp [allFound]

/-- The files a build requires are among those it extracts, except for CUDA on ARM. -/
theorem required_wanted (b : Build) (hb : b ≠ .linuxArmCuda) : ∀ name ∈ b.required, ∃ src, (src, name) ∈ b.wanted := by
  cases b <;> first
    | exact absurd rfl hb
    | (intro name hn
       simp only [Build.required, Build.lib, List.mem_cons, List.not_mem_nil, or_false] at hn
       first
         | (subst hn; exact ⟨_, List.mem_cons_self ..⟩)
         | (rcases hn with rfl | rfl | rfl
            · exact ⟨_, List.mem_cons_self ..⟩
            · exact ⟨_, List.mem_cons_of_mem _ (List.mem_cons_self ..)⟩
            · exact ⟨_, List.mem_cons_of_mem _ (List.mem_cons_of_mem _ (List.mem_cons_self ..))⟩))

theorem containsText_iff (p : Text) : ∀ t : Text, containsText p t = true ↔ ∃ a b, t = a ++ p ++ b
  | [] => by
    constructor
    · intro h
      have : p = [] := by simpa [containsText] using h
      exact ⟨[], [], by simp [this]⟩
    · rintro ⟨a, b, h⟩
      have : a ++ p ++ b = [] := h.symm
      simp at this
      simp [containsText, this.2.1]
  | c :: cs => by
    rw [containsText, Bool.or_eq_true, containsText_iff p cs, List.isPrefixOf_iff_prefix]
    constructor
    · rintro (⟨b, h⟩ | ⟨a, b, h⟩)
      · exact ⟨[], b, by simpa using h.symm⟩
      · exact ⟨c :: a, b, by simp [h]⟩
    · rintro ⟨a, b, h⟩
      cases a with
      | nil => exact .inl ⟨b, by simpa using h.symm⟩
      | cons x a =>
        simp only [List.cons_append, List.cons.injEq] at h
        exact .inr ⟨a, b, h.2⟩

end NextPlaid.Ort
