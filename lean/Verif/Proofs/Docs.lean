import Verif.Spec.Docs
import Verif.Proofs.Imports
import Verif.Proofs.TextQuery
import Mathlib.Data.List.Induction

/-!
Lemmas about the comments above a piece of code.
-/

namespace NextPlaid.Docs

open Units (Text trim isWs startsWith)
open NextPlaid.Text (trimMatches trimMatches_spec trimMatches_nil)
open Imports (trimMatches_of trimEnd_split)
open DocsSpec

/-! ### Trimming -/

theorem core_trim {t s : Text} (h : Core t s) : trim t = s := by
  obtain ⟨a, b, rfl, ha, hb, h1, h2⟩ := h
  exact trimMatches_of ha hb h1 h2

theorem trim_core (t : Text) : Core t (trim t) := by
  obtain ⟨a, b, h1, h2, h3, h4, h5⟩ := trimMatches_spec isWs t
  exact ⟨a, b, h1, h2, h3, h4, h5⟩

theorem trim_white {l : Text} : trim l = [] ↔ White l := trimMatches_nil isWs l

/-- A mark: some text without white space around it. -/
structure Solid (m : Text) : Prop where
  some : m ≠ []
  first : ∀ c ∈ m.head?, isWs c = false
  last : ∀ c ∈ m.getLast?, isWs c = false

theorem solid_append {m n : Text} (hm : Solid m) (hn : n = [] ∨ Solid n) : Solid (m ++ n) := by
  refine ⟨by simp [hm.some], ?_, ?_⟩
  · intro c hc
    rw [List.head?_append_of_ne_nil _ hm.some] at hc
    exact hm.first c hc
  · rcases hn with rfl | hn
    · rw [List.append_nil]; exact hm.last
    · intro c hc
      rw [List.getLast?_append_of_ne_nil _ hn.some] at hc
      exact hn.last c hc

theorem solid_rep {m : Text} (hm : Solid m) : ∀ k, Solid (List.replicate (k + 1) m).flatten
  | 0 => by simpa using hm
  | k + 1 => by
    rw [List.replicate_succ, List.flatten_cons]
    exact solid_append hm (.inr (solid_rep hm k))

theorem trim_marked {w m r : Text} (hw : White w) (hm : Solid m) :
    ∃ r' b, r = r' ++ b ∧ White b ∧ trim (w ++ m ++ r) = m ++ r' := by
  obtain ⟨r', b, rfl, hb, hl⟩ := trimEnd_split (p := isWs) r
  refine ⟨r', b, rfl, hb, core_trim ⟨w, b, by simp, hw, hb, ?_, ?_⟩⟩
  · intro c hc
    rw [List.head?_append_of_ne_nil _ hm.some] at hc
    exact hm.first c hc
  · intro c hc
    by_cases hr : r' = []
    · subst hr; rw [List.append_nil] at hc; exact hm.last c hc
    · rw [List.getLast?_append_of_ne_nil _ hr] at hc; exact hl c hc

theorem startsWith_iff {t p : Text} : startsWith t p = true ↔ p <+: t := List.isPrefixOf_iff_prefix

theorem marked_iff {m l : Text} (hm : Solid m) : startsWith (trim l) m = true ↔ Marked m l := by
  rw [startsWith_iff]
  constructor
  · rintro ⟨r, hr⟩
    obtain ⟨a, b, h1, ha, _⟩ := trim_core l
    exact ⟨a, r ++ b, ha, by rw [h1, ← hr]; simp⟩
  · rintro ⟨w, r, hw, rfl⟩
    obtain ⟨r', b, -, -, h⟩ := trim_marked (r := r) hw hm
    exact ⟨r', h.symm⟩

theorem core_drop {r b t : Text} (hb : White b) (h : Core (r ++ b) t) : Core r t := by
  have h1 := trim_core r
  obtain ⟨x, y, e, hx, hy, h2, h3⟩ := h1
  have e' : r ++ b = x ++ trim r ++ (y ++ b) := by
    rw [← List.append_assoc, ← e]
  have hyb : White (y ++ b) := fun c hc => by
    rcases List.mem_append.1 hc with hc | hc
    · exact hy c hc
    · exact hb c hc
  have : Core (r ++ b) (trim r) := ⟨x, y ++ b, e', hx, hyb, h2, h3⟩
  rw [← core_trim h, core_trim this]
  exact trim_core r

/-! ### Removing marks -/

theorem stripLoop_rep {p r : Text} (hr : ¬ p <+: r) : ∀ (n k : Nat), n ≤ k → stripLoop p k ((List.replicate n p).flatten ++ r) = r
  | 0, 0, _ => by simp [stripLoop]
  | 0, k + 1, _ => by
    have h : startsWith r p = false := by rw [Bool.eq_false_iff]; exact fun h => hr (startsWith_iff.1 h)
    simp [stripLoop, h]
  | n + 1, k + 1, h => by
    have h1 : startsWith ((List.replicate (n + 1) p).flatten ++ r) p = true :=
      startsWith_iff.2 ⟨(List.replicate n p).flatten ++ r, by simp [List.replicate_succ]⟩
    rw [stripLoop, if_pos h1]
    have h2 : ((List.replicate (n + 1) p).flatten ++ r).drop p.length = (List.replicate n p).flatten ++ r := by
      rw [List.replicate_succ, List.flatten_cons, List.append_assoc, List.drop_left]
    rw [h2]
    exact stripLoop_rep hr n k (by omega)

theorem stripStart_rep {p r : Text} (hp : p ≠ []) (hr : ¬ p <+: r) (n : Nat) : stripStart p ((List.replicate n p).flatten ++ r) = r := by
  apply stripLoop_rep hr
  have h0 : 0 < p.length := List.length_pos_iff.2 hp
  have : ((List.replicate n p).flatten).length = n * p.length := by simp
  rw [List.length_append, this]
  exact le_trans (Nat.le_mul_of_pos_right n h0) (Nat.le_add_right _ _)

theorem stripStart_once {p r : Text} (hp : p ≠ []) (hr : ¬ p <+: r) : stripStart p (p ++ r) = r := by
  simpa using stripStart_rep hp hr 1

theorem stripStart_none {p r : Text} (hp : p ≠ []) (hr : ¬ p <+: r) : stripStart p r = r := by
  simpa using stripStart_rep hp hr 0

theorem stripEnd_once {p r : Text} (hp : p ≠ []) (hr : ¬ p <:+ r) : stripEnd p (r ++ p) = r := by
  rw [stripEnd, List.reverse_append, stripStart_once (by simpa using hp) (by simpa [List.reverse_prefix] using hr), List.reverse_reverse]

theorem stripEnd_none {p r : Text} (hp : p ≠ []) (hr : ¬ p <:+ r) : stripEnd p r = r := by
  rw [stripEnd, stripStart_none (by simpa using hp) (by simpa [List.reverse_prefix] using hr), List.reverse_reverse]

theorem marks_exist {p : Text} (hp : p ≠ []) : ∀ (n : Nat) (t : Text), t.length ≤ n →
    ∃ k r, t = (List.replicate k p).flatten ++ r ∧ ¬ p <+: r
  | 0, t, h => ⟨0, t, by simp, fun hpt => hp (List.length_eq_zero_iff.1 (by have := hpt.length_le; omega))⟩
  | n + 1, t, h => by
    by_cases hpt : p <+: t
    · obtain ⟨s, rfl⟩ := hpt
      have h0 : 0 < p.length := List.length_pos_iff.2 hp
      rw [List.length_append] at h
      obtain ⟨k, r, rfl, hr⟩ := marks_exist hp n s (by omega)
      exact ⟨k + 1, r, by simp [List.replicate_succ], hr⟩
    · exact ⟨0, t, by simp, hpt⟩

theorem content_of {m l t : Text} (hm : Solid m) (h : Content m l t) : trim (stripStart m (trim l)) = t := by
  obtain ⟨w, k, r, hw, rfl, hr, hc⟩ := h
  obtain ⟨r', b, rfl, hb, e⟩ := trim_marked (r := r) hw (solid_rep hm k)
  rw [e, stripStart_rep hm.some (fun h => hr (h.trans (List.prefix_append _ _)))]
  exact core_trim (core_drop hb hc)

theorem content_exists {m l : Text} (hm : m ≠ []) (h : Marked m l) : ∃ t, Content m l t := by
  obtain ⟨w, r, hw, rfl⟩ := h
  obtain ⟨k, r', rfl, hr⟩ := marks_exist hm r.length r le_rfl
  exact ⟨trim r', w, k, r', hw, by simp [List.replicate_succ], hr, trim_core r'⟩

/-! ### The lines above -/

theorem reads_snoc {D : Text → Prop} {S : Text → Text → Prop} {l : Text} : ∀ {b ts : List Text}, Reads D S (b ++ [l]) ts →
    (D l ∧ ∃ t ts', ts = ts' ++ [t] ∧ S l t ∧ Reads D S b ts') ∨ (¬ D l ∧ Reads D S b ts)
  | [], ts, h => by
    cases h with
    | text hl ht h => cases h; exact .inl ⟨hl, _, [], rfl, ht, .nil⟩
    | pass hl h => cases h; exact .inr ⟨hl, .nil⟩
  | a :: b, ts, h => by
    cases h with
    | text ha ht h =>
      rcases (reads_snoc h) with ⟨hl, t, ts', rfl, hs, hb⟩ | ⟨hl, hb⟩
      · exact .inl ⟨hl, t, _ :: ts', rfl, hs, .text ha ht hb⟩
      · exact .inr ⟨hl, .text ha ht hb⟩
    | pass ha h =>
      rcases (reads_snoc h) with ⟨hl, t, ts', rfl, hs, hb⟩ | ⟨hl, hb⟩
      · exact .inl ⟨hl, t, ts', rfl, hs, .pass ha hb⟩
      · exact .inr ⟨hl, .pass ha hb⟩

theorem reads_exists {D : Text → Prop} {S : Text → Text → Prop} (h : ∀ l, D l → ∃ t, S l t) : ∀ b, ∃ ts, Reads D S b ts
  | [] => ⟨[], .nil⟩
  | l :: b => by
    obtain ⟨ts, hts⟩ := reads_exists h b
    by_cases hl : D l
    · obtain ⟨t, ht⟩ := h l hl
      exact ⟨t :: ts, .text hl ht hts⟩
    · exact ⟨ts, .pass hl hts⟩

theorem above_exists (ok : Text → Prop) (lines : List Text) (row : Nat) (h : row ≤ lines.length) : ∃ block, Above ok lines row block := by
  suffices H : ∀ ls : List Text, ∃ block before, ls = before ++ block ∧ (∀ l ∈ before.getLast?, ¬ ok l) ∧ ∀ l ∈ block, ok l by
    obtain ⟨block, before, h1, h2, h3⟩ := H (lines.take row)
    exact ⟨block, h, ⟨before, h1, h2⟩, h3⟩
  intro ls
  induction ls using List.reverseRecOn with
  | nil => exact ⟨[], [], rfl, by simp, by simp⟩
  | append_singleton ls l ih =>
    by_cases hl : ok l
    · obtain ⟨block, before, rfl, h2, h3⟩ := ih
      exact ⟨block ++ [l], before, by simp, h2, by
        intro x hx
        rcases List.mem_append.1 hx with hx | hx
        · exact h3 x hx
        · rwa [List.mem_singleton.1 hx]⟩
    · exact ⟨[], ls ++ [l], by simp, by simpa using hl, by simp⟩

theorem docOf_eq (ts : List Text) : nonEmptyDoc ts = docOf ts := by
  cases ts <;> rfl

theorem above_eq {ok : Text → Prop} {lines : List Text} {row : Nat} {block : List Text} (h : Above ok lines row block) :
    ∃ up, above lines row = some (block.reverse ++ up) ∧ ∀ l ∈ up.head?, ¬ ok l := by
  obtain ⟨before, e, hb⟩ := h.split
  refine ⟨before.reverse, ?_, by simpa using hb⟩
  rw [above, if_pos h.inside, e, List.reverse_append]

theorem lineLoop_of {mark : Text} {skip : List Text} (hm : Solid mark) (hs : ∀ s ∈ skip, Solid s) {up : List Text}
    (hup : ∀ l ∈ up.head?, ¬ LineOk mark skip l) : ∀ (block ts acc : List Text), (∀ l ∈ block, LineOk mark skip l) →
    Reads (Marked mark) (Content mark) block ts → lineLoop mark skip (block.reverse ++ up) acc = ts ++ acc := by
  intro block
  induction block using List.reverseRecOn with
  | nil =>
    intro ts acc _ h
    cases h
    rw [List.reverse_nil, List.nil_append, List.nil_append]
    cases up with
    | nil => rfl
    | cons l up =>
      have hl := hup l rfl
      simp only [LineOk, not_or, not_exists, not_and] at hl
      rw [lineLoop, if_neg (fun h => hl.1 ((marked_iff hm).1 h)), if_neg]
      simp only [Bool.or_eq_true, List.any_eq_true, List.isEmpty_iff, not_or, not_exists, not_and]
      exact ⟨fun s hs' h => hl.2.2 s hs' ((marked_iff (hs s hs')).1 h), fun h => hl.2.1 (trim_white.1 h)⟩
  | append_singleton block l ih =>
    intro ts acc hall h
    have hb : ∀ x ∈ block, LineOk mark skip x := fun x hx => hall x (by simp [hx])
    have hl : LineOk mark skip l := hall l (by simp)
    rw [List.reverse_append, List.reverse_singleton, List.singleton_append, List.cons_append, lineLoop]
    rcases (reads_snoc h) with ⟨hd, t, ts', rfl, hc, hr⟩ | ⟨hd, hr⟩
    · rw [if_pos ((marked_iff hm).2 hd), content_of hm hc, ih ts' _ hb hr]
      simp
    · rw [if_neg (fun h => hd ((marked_iff hm).1 h)), if_pos, ih ts acc hb hr]
      simp only [Bool.or_eq_true, List.any_eq_true, List.isEmpty_iff]
      rcases hl with hl | hl | ⟨s, hs', hl⟩
      · exact absurd hl hd
      · exact .inr (trim_white.2 hl)
      · exact .inl ⟨s, hs', (marked_iff (hs s hs')).2 hl⟩

theorem docstring_eq {lang : Scan.Language} (hl : lang ≠ .python) (n : DNode) (lines : List Text) :
    docstring lang n lines = .ok ((above lines n.info.first).bind (docAbove lang)) := if_neg hl

end NextPlaid.Docs
