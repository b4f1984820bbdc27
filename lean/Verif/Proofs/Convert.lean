import Verif.Model.Convert
import Verif.Proofs.Npy

namespace NextPlaid.Convert
open NextPlaid.Npy Function

theorem map_ok {α β : Type} {f : α → β} {r : Res α} {y : β} (h : r.map f = .ok y) : ∃ x, r = .ok x ∧ f x = y := by
  rcases r with e | x
  · cases h
  · exact ⟨x, rfl, by simpa [Except.map] using h⟩

theorem raw_of_headerText {f : Bytes} {x : List Char × Nat} (h : headerText f = .ok x) : rawHeader f = .ok x := by
  unfold headerText at h
  unfold rawHeader
  split at h
  · cases h
  · rename_i h1
    split at h
    · cases h
    · rename_i h2
      rw [if_neg (by rw [not_or]; exact ⟨h1, h2⟩)]
      split at h
      · rename_i h3
        rw [if_pos h3]
        simp only at h ⊢
        split at h
        · cases h
        · rename_i h4
          rw [if_neg h4]
          exact h
      · rename_i h3
        rw [if_neg h3]
        split at h
        · split at h
          · cases h
          · rename_i h4
            rw [if_neg h4]
            simp only at h ⊢
            split at h
            · cases h
            · rename_i h5
              rw [if_neg h5]
              exact h
        · cases h

theorem raw_of_parseHeader {f : Bytes} {shape : List Nat} {off : Nat} {fo : Bool}
    (h : parseHeader f = .ok (shape, off, fo)) : rawShape f = .ok (shape, off) := by
  unfold parseHeader at h
  split at h
  · cases h
  · rename_i s stop hs
    split at h
    · cases h
    · rename_i sh hp
      cases h
      unfold rawShape
      rw [raw_of_headerText hs]
      simp only
      rw [hp]
      rfl

theorem parseUsize_lt {s : List Char} {n : Nat} (h : parseUsize s = some n) : n < 2 ^ 64 := by
  have key : ∀ t : List Char, (if t = [] then none
      else if (t.all Char.isDigit && decide (decVal t < 2 ^ 64)) = true then some (decVal t) else none) = some n → n < 2 ^ 64 := by
    intro t h
    split at h
    · cases h
    · split at h
      · rename_i _ hc
        cases h
        rw [Bool.and_eq_true, decide_eq_true_eq] at hc
        exact hc.2
      · cases h
  exact key _ h

theorem parseDims_lt : ∀ {ps : List (List Char)} {l : List Nat}, parseDims ps = .ok l → ∀ n ∈ l, n < 2 ^ 64
  | [], l, h => by
    unfold parseDims at h
    cases h
    intro n hn
    cases hn
  | p :: ps, l, h => by
    unfold parseDims at h
    split at h
    · exact parseDims_lt h
    · split at h
      · cases h
      · rename_i d hd
        obtain ⟨l', h1, rfl⟩ := map_ok h
        intro n hn
        rcases List.mem_cons.1 hn with rfl | hn
        · exact parseUsize_lt hd
        · exact parseDims_lt h1 n hn

theorem parseShape_lt {s : List Char} {l : List Nat} (h : parseShape s = .ok l) : ∀ n ∈ l, n < 2 ^ 64 := by
  unfold parseShape at h
  split at h
  · cases h
  · split at h
    · cases h
    · split at h
      · cases h
      · exact parseDims_lt h

theorem rawShape_lt {f : Bytes} {shape : List Nat} {off : Nat} (h : rawShape f = .ok (shape, off)) :
    ∀ n ∈ shape, n < 2 ^ 64 := by
  unfold rawShape at h
  split at h
  · cases h
  · obtain ⟨x, h1, h2⟩ := map_ok h
    cases h2
    exact parseShape_lt h1

/-! ### The type of a converted file -/

def Kind.modern : Kind → List Char
  | .float => ['<', 'f', '4']
  | .lengths => ['<', 'i', '4']
  | .residuals => ['|', 'u', '1']

theorem conv_modern {widen : Nat → Nat → Bytes} {k : Kind} {data : Bytes} (h : (k.conv widen data).2 = .ok ()) :
    detectDtype (k.conv widen data).1 = .ok k.modern := by
  cases k with
  | float =>
    unfold Kind.conv convF16 at h ⊢
    simp only at h ⊢
    split at h
    · cases h
    · rename_i shape off hs
      have hlt := rawShape_lt hs
      split at h
      · cases h
      · rename_i hlen
        rw [if_neg hlen]
        split at h
        · rename_i n
          exact detect_1d n _ (by decide) (hlt n (by simp)) _
        · rename_i r c
          exact detect_2d r c _ (by decide) (hlt r (by simp)) (hlt c (by simp)) _
        · cases h
  | lengths =>
    unfold Kind.conv convI64 at h ⊢
    simp only at h ⊢
    split at h
    · cases h
    · rename_i shape off hs
      have hlt := rawShape_lt hs
      split at h
      · rename_i n
        split at h
        · cases h
        · rename_i hlen
          rw [if_neg hlen]
          exact detect_1d n _ (by decide) (hlt n (by simp)) _
      · cases h
  | residuals =>
    unfold Kind.conv convU8 at h ⊢
    simp only at h ⊢
    split at h
    · cases h
    · rename_i shape off hs
      have hlt := rawShape_lt hs
      split at h
      · rename_i r c
        split at h
        · cases h
        · rename_i hlen
          rw [if_neg hlen]
          exact detect_2d r c _ (by decide) (hlt r (by simp)) (hlt c (by simp)) _
      · cases h

theorem modern_ne_legacy (k : Kind) : k.modern ≠ k.legacy := by cases k <;> decide

/-- A file that needs no conversion. -/
def Stable (widen : Nat → Nat → Bytes) (k : Kind) (data : Bytes) : Prop := convFile widen k data = (data, .ok false)

theorem stable_after {widen : Nat → Nat → Bytes} {k : Kind} {data : Bytes} {b : Bool}
    (h : (convFile widen k data).2 = .ok b) : Stable widen k (convFile widen k data).1 := by
  have hcases : ∀ t, detectDtype data = .ok t → Stable widen k (convFile widen k data).1 := by
    intro t ht
    by_cases hk : t = k.legacy
    · have e : convFile widen k data = ((k.conv widen data).1, (k.conv widen data).2.map fun _ => true) := by
        unfold convFile; rw [ht]; simp only; rw [if_pos hk]
      rw [e] at h ⊢
      obtain ⟨x, h1, _⟩ := map_ok h
      have hm := conv_modern (k := k) (widen := widen) (data := data) h1
      unfold Stable convFile
      rw [hm]
      simp only
      rw [if_neg (modern_ne_legacy k)]
    · have e : convFile widen k data = (data, .ok false) := by
        unfold convFile; rw [ht]; simp only; rw [if_neg hk]
      rw [e]
      exact e
  unfold convFile at h
  split at h
  · cases h
  · rename_i t ht
    exact hcases t ht

theorem unchanged_of_false {widen : Nat → Nat → Bytes} {k : Kind} {data : Bytes}
    (h : (convFile widen k data).2 = .ok false) : (convFile widen k data).1 = data := by
  unfold convFile at h ⊢
  split at h
  · cases h
  · rename_i t ht
    split at h
    · obtain ⟨x, _, h2⟩ := map_ok h
      cases h2
    · rename_i hk
      rw [if_neg hk]

theorem legacy_of_true {widen : Nat → Nat → Bytes} {k : Kind} {data : Bytes}
    (h : (convFile widen k data).2 = .ok true) : detectDtype data = .ok k.legacy := by
  unfold convFile at h
  split at h
  · cases h
  · rename_i t ht
    split at h
    · rename_i hk
      rw [ht, hk]
    · cases h

/-! ### The loops -/

variable {widen : Nat → Nat → Bytes}

/-- Every name has one kind. -/
def OneKind (ts : List (Name × Kind)) : Prop := ∀ n k k', (n, k) ∈ ts → (n, k') ∈ ts → k = k'

theorem oneKind_tail {t : Name × Kind} {ts : List (Name × Kind)} (h : OneKind (t :: ts)) : OneKind ts :=
  fun n k k' h1 h2 => h n k k' (List.mem_cons_of_mem _ h1) (List.mem_cons_of_mem _ h2)

theorem targets_oneKind (d : Dir) : OneKind (targets d) := by
  have hf : ∀ n ∈ floatFiles, n ≠ lengthsFile ∧ residualSuffix.isSuffixOf n = false := by decide
  have hl : residualSuffix.isSuffixOf lengthsFile = false := by decide
  intro n k k' h1 h2
  unfold targets at h1 h2
  simp only [List.mem_append, List.mem_map, List.mem_filter, List.mem_singleton, Prod.mk.injEq] at h1 h2
  rcases h1 with (⟨a, ha, rfl, rfl⟩ | ⟨rfl, rfl⟩) | ⟨a, ⟨_, ha⟩, rfl, rfl⟩ <;>
  rcases h2 with (⟨b, hb, hn, rfl⟩ | ⟨hn, rfl⟩) | ⟨b, ⟨_, hb⟩, hn, rfl⟩
  · rfl
  · exact absurd hn (hf _ ha).1
  · subst hn; rw [(hf _ ha).2] at hb; cases hb
  · subst hn; exact absurd rfl (hf _ hb).1
  · rfl
  · subst hn; rw [hl] at hb; cases hb
  · subst hn; rw [(hf _ hb).2] at ha; cases ha
  · subst hn; rw [hl] at ha; cases ha
  · rfl

/-- What a successful run does to each file. -/
theorem convAll_spec : ∀ (ts : List (Name × Kind)), OneKind ts → ∀ (files files' : Name → Option Bytes) (c b : Bool),
    convAll widen ts files c = (files', .ok b) →
    (∀ n, (∀ k, (n, k) ∉ ts) → files' n = files n) ∧
    (∀ n k, (n, k) ∈ ts → files' n = (files n).map fun x => (convFile widen k x).1) ∧
    (∀ n k x, (n, k) ∈ ts → files n = some x → ∃ b', (convFile widen k x).2 = .ok b')
  | [], _, files, files', c, b, h => by
    unfold convAll at h
    cases h
    exact ⟨fun _ _ => rfl, fun _ _ hm => (by cases hm), fun _ _ _ hm => (by cases hm)⟩
  | (n, k) :: ts, hone, files, files', c, b, h => by
    have ht := oneKind_tail hone
    unfold convAll at h
    rcases hf : files n with _ | data
    · rw [hf] at h
      simp only at h
      obtain ⟨i1, i2, i3⟩ := convAll_spec ts ht files files' c b h
      refine ⟨fun m hm => i1 m (fun j hj => hm j (List.mem_cons_of_mem _ hj)), ?_, ?_⟩
      · intro m j hmj
        rcases List.mem_cons.1 hmj with he | hmj
        · cases he
          by_cases hin : ∃ j, (n, j) ∈ ts
          · obtain ⟨j', hj'⟩ := hin
            rw [i2 n j' hj', hf]
            rfl
          · rw [i1 n (fun j hj => hin ⟨j, hj⟩), hf]
            rfl
        · exact i2 m j hmj
      · intro m j x hmj hx
        rcases List.mem_cons.1 hmj with he | hmj
        · cases he
          rw [hf] at hx
          cases hx
        · exact i3 m j x hmj hx
    · rw [hf] at h
      simp only at h
      split at h
      · cases h
      · rename_i b' hb'
        obtain ⟨i1, i2, i3⟩ := convAll_spec ts ht _ files' _ b h
        have hst := stable_after hb'
        have head : files' n = some (convFile widen k data).1 := by
          by_cases hin : ∃ j, (n, j) ∈ ts
          · obtain ⟨j', hj'⟩ := hin
            have : j' = k := hone n j' k (List.mem_cons_of_mem _ hj') List.mem_cons_self
            subst this
            rw [i2 n j' hj', update_self, Option.map_some, hst]
          · rw [i1 n (fun j hj => hin ⟨j, hj⟩), update_self]
        refine ⟨?_, ?_, ?_⟩
        · intro m hm
          have hne : m ≠ n := fun he => hm k (he ▸ List.mem_cons_self)
          rw [i1 m (fun j hj => hm j (List.mem_cons_of_mem _ hj)), update_of_ne hne]
        · intro m j hmj
          by_cases hmn : m = n
          · subst hmn
            have : j = k := hone m j k hmj List.mem_cons_self
            subst this
            rw [head, hf]
            rfl
          · rcases List.mem_cons.1 hmj with he | hmj
            · cases he
              exact absurd rfl hmn
            · rw [i2 m j hmj, update_of_ne hmn]
        · intro m j x hmj hx
          by_cases hmn : m = n
          · subst hmn
            have : j = k := hone m j k hmj List.mem_cons_self
            subst this
            rw [hf] at hx
            cases hx
            exact ⟨b', hb'⟩
          · rcases List.mem_cons.1 hmj with he | hmj
            · cases he
              exact absurd rfl hmn
            · exact i3 m j x hmj (by rw [update_of_ne hmn]; exact hx)

theorem convAll_stable : ∀ (ts : List (Name × Kind)) (files : Name → Option Bytes) (c : Bool),
    (∀ n k x, (n, k) ∈ ts → files n = some x → Stable widen k x) → convAll widen ts files c = (files, .ok c)
  | [], _, _, _ => rfl
  | (n, k) :: ts, files, c, h => by
    unfold convAll
    rcases hf : files n with _ | data
    · simp only
      exact convAll_stable ts files c (fun m j x hm => h m j x (List.mem_cons_of_mem _ hm))
    · simp only
      have hs := h n k data List.mem_cons_self hf
      unfold Stable at hs
      rw [hs]
      simp only
      rw [Bool.or_false, ← hf, update_eq_self]
      exact convAll_stable ts files c (fun m j x hm => h m j x (List.mem_cons_of_mem _ hm))

theorem convAll_report : ∀ (ts : List (Name × Kind)), OneKind ts → ∀ (files files' : Name → Option Bytes) (c b : Bool),
    convAll widen ts files c = (files', .ok b) →
    (b = false → c = false ∧ files' = files) ∧
    (b = true → c = true ∨ ∃ n k x, (n, k) ∈ ts ∧ files n = some x ∧ detectDtype x = .ok k.legacy)
  | [], _, files, files', c, b, h => by
    unfold convAll at h
    cases h
    exact ⟨fun h => ⟨h, rfl⟩, fun h => Or.inl h⟩
  | (n, k) :: ts, hone, files, files', c, b, h => by
    unfold convAll at h
    rcases hf : files n with _ | data
    · rw [hf] at h
      simp only at h
      obtain ⟨i1, i2⟩ := convAll_report ts (oneKind_tail hone) files files' c b h
      refine ⟨i1, fun hb => ?_⟩
      rcases i2 hb with h1 | ⟨m, j, x, h1, h2⟩
      · exact Or.inl h1
      · exact Or.inr ⟨m, j, x, List.mem_cons_of_mem _ h1, h2⟩
    · rw [hf] at h
      simp only at h
      split at h
      · cases h
      · rename_i b' hb'
        obtain ⟨i1, i2⟩ := convAll_report ts (oneKind_tail hone) _ files' _ b h
        constructor
        · intro hb
          obtain ⟨h1, h2⟩ := i1 hb
          rw [Bool.or_eq_false_iff] at h1
          rw [h1.2] at hb'
          rw [unchanged_of_false hb', ← hf, update_eq_self] at h2
          exact ⟨h1.1, h2⟩
        · intro hb
          rcases i2 hb with h1 | ⟨m, j, x, h1, h2, h3⟩
          · rw [Bool.or_eq_true] at h1
            rcases h1 with h1 | h1
            · exact Or.inl h1
            · rw [h1] at hb'
              exact Or.inr ⟨n, k, data, List.mem_cons_self, hf, legacy_of_true hb'⟩
          · by_cases hmn : m = n
            · subst hmn
              have : j = k := hone m j k (List.mem_cons_of_mem _ h1) List.mem_cons_self
              subst this
              rw [update_self] at h2
              cases h2
              have hst := stable_after hb'
              have key : ∀ y, detectDtype y = .ok j.legacy → ¬ Stable widen j y := by
                intro y hy hs
                unfold Stable convFile at hs
                rw [hy] at hs
                simp only at hs
                rw [if_pos trivial] at hs
                have h4 := congrArg Prod.snd hs
                obtain ⟨_, _, h5⟩ := map_ok h4
                cases h5
              exact absurd hst (key _ h3)
            · exact Or.inr ⟨m, j, x, List.mem_cons_of_mem _ h1, by rw [← h2, update_of_ne hmn], h3⟩

end NextPlaid.Convert
