import Verif.Proofs.Docs2

/-!
Lemmas about the comments of OCaml, Haskell, Lua and Elixir, and the strings of Python.
-/

namespace NextPlaid.Docs

open Units (Text trim isWs startsWith joinNl slice)
open NextPlaid.Text (trimMatches)
open Imports (trimMatches_of trimEnd_split)
open DocsSpec

/-! ### OCaml -/

theorem ml_noOpen {r t : Text} (h : MlBody r t) : ¬ "(*".toList <+: r ++ "*)".toList := by
  obtain ⟨⟨a, b, rfl, ha, hb, _, _⟩, h2, _⟩ := h
  have e : "(*".toList = ['(', '*'] := rfl
  have e2 : "*)".toList = ['*', ')'] := rfl
  rw [e] at h2
  rw [e, e2]
  cases a with
  | cons x a =>
    rintro ⟨s, hs⟩
    simp only [List.cons_append, List.cons.injEq] at hs
    exact not_white (c := '(') (by decide) ha (by rw [hs.1]; exact List.mem_cons_self)
  | nil =>
    cases t with
    | nil =>
      cases b with
      | nil => decide
      | cons x b =>
        rintro ⟨s, hs⟩
        simp only [List.nil_append, List.cons_append, List.cons.injEq] at hs
        exact not_white (c := '(') (by decide) hb (by rw [hs.1]; exact List.mem_cons_self)
    | cons x t =>
      rintro ⟨s, hs⟩
      cases t with
      | nil =>
        simp only [List.nil_append, List.cons_append, List.cons.injEq] at hs
        exact h2 (by rw [← hs.1]; exact ⟨[], rfl⟩)
      | cons y t =>
        simp only [List.nil_append, List.cons_append, List.cons.injEq] at hs
        exact h2 (by rw [← hs.1, ← hs.2.1]; exact ⟨t ++ ['*'], rfl⟩)

theorem ml_noOpen2 {r t : Text} (h : MlBody r t) : ¬ "(**".toList <+: r ++ "*)".toList := fun hp =>
  ml_noOpen h (List.IsPrefix.trans ⟨['*'], rfl⟩ hp)

theorem ml_noEnd {r t : Text} (h : MlBody r t) : ¬ "*)".toList <:+ r := fun hs =>
  h.2.2 (core_suffix h.1 solid_mlClose (by decide) hs)

theorem ml_drop {r b t : Text} (hb : White b) (h : MlBody (r ++ b) t) : MlBody r t := ⟨core_drop hb h.1, h.2⟩

theorem noPre {p r s : Text} (h : ¬ p <+: r ++ s) : ¬ p <+: r := fun hp => h (hp.trans (List.prefix_append _ _))

/-- The text at the core of a line, as a line. -/
theorem ml_self {r t : Text} (h : MlBody r t) : MlBody t t := by
  obtain ⟨⟨a, b, _, _, _, h1, h2⟩, h3, h4⟩ := h
  exact ⟨⟨[], [], by simp, by simp [White], by simp [White], h1, h2⟩, h3, h4⟩

theorem cleanMl_opens {l t : Text} (h : MlOpens l t) : cleanMl l = t := by
  obtain ⟨w, r, hw, rfl, hb⟩ := h
  obtain ⟨r', b, rfl, hbw, e⟩ := trim_marked (r := r) hw solid_ml
  have hb' := ml_drop hbw hb
  rw [cleanMl, e, stripStart_once (by decide) (noPre (ml_noOpen2 hb')), stripStart_none (by decide) (noPre (ml_noOpen hb')),
    stripEnd_none (by decide) (ml_noEnd hb')]
  exact core_trim hb'.1

theorem cleanMl_goes {l t : Text} (h : MlBody l t) : cleanMl l = t := by
  have hs := ml_self h
  rw [cleanMl, core_trim h.1, stripStart_none (by decide) (noPre (ml_noOpen2 hs)), stripStart_none (by decide) (noPre (ml_noOpen hs)),
    stripEnd_none (by decide) (ml_noEnd hs)]
  exact core_trim hs.1

theorem cleanMl_closes_opens {l t : Text} (h : MlCloses MlOpens l t) : cleanMl l = t := by
  obtain ⟨l', w', hw', rfl, w, r, hw, rfl, hb⟩ := h
  rw [cleanMl, trim_closed hw hw' (.inr solid_ml) (fun e => absurd e (by decide)) (fun e => absurd e (by decide)) solid_mlClose,
    List.append_assoc, stripStart_once (by decide) (ml_noOpen2 hb), stripStart_none (by decide) (ml_noOpen hb),
    stripEnd_once (by decide) (ml_noEnd hb)]
  exact core_trim hb.1

/-- Trimming a line of text that ends with the closing mark. -/
theorem trim_closes {l' t w' : Text} (hw' : White w') (h : MlBody l' t) :
    ∃ x, trim (l' ++ "*)".toList ++ w') = x ++ "*)".toList ∧ MlBody x t := by
  obtain ⟨⟨a, b, rfl, ha, hb, h1, h2⟩, h3, h4⟩ := h
  by_cases ht : t = []
  · subst ht
    refine ⟨[], ?_, ⟨[], [], by simp, by simp [White], by simp [White], by simp, by simp⟩, h3, h4⟩
    have e := core_trim (t := a ++ [] ++ b ++ "*)".toList ++ w') (s := "*)".toList) ⟨a ++ b, w', by simp, by
      intro c hc
      rcases List.mem_append.1 hc with hc | hc
      · exact ha c hc
      · exact hb c hc, hw', by decide, by decide⟩
    rw [e]; rfl
  · refine ⟨t ++ b, ?_, ⟨[], b, by simp, by simp [White], hb, h1, h2⟩, h3, h4⟩
    have e := trim_closed (w := a) (m := []) (r := t ++ b) (p := "*)".toList) ha hw' (.inl rfl) (fun _ => head_of_append ht h1)
      (fun _ => by simp [ht]) solid_mlClose
    rw [← List.nil_append (t ++ b), ← e]; simp

theorem cleanMl_closes_goes {l t : Text} (h : MlCloses MlBody l t) : cleanMl l = t := by
  obtain ⟨l', w', hw', rfl, hb⟩ := h
  obtain ⟨x, e, hx⟩ := trim_closes hw' hb
  rw [cleanMl, e, stripStart_none (by decide) (ml_noOpen2 hx), stripStart_none (by decide) (ml_noOpen hx),
    stripEnd_once (by decide) (ml_noEnd hx)]
  exact core_trim hx.1

theorem goes_opensMl {l t : Text} (h : MlBody l t) : opensMl l = false := by
  rw [opensMl, Bool.eq_false_iff, core_trim h.1]
  exact fun hs => noPre (ml_noOpen2 (ml_self h)) (startsWith_iff.1 hs)

theorem closes_opensMl {l t : Text} (h : MlCloses MlBody l t) : opensMl l = false := by
  obtain ⟨l', w', hw', rfl, hb⟩ := h
  obtain ⟨x, e, hx⟩ := trim_closes hw' hb
  rw [opensMl, Bool.eq_false_iff, e]
  exact fun hs => ml_noOpen2 hx (startsWith_iff.1 hs)

theorem opens_opensMl {l t : Text} (h : MlOpens l t) : opensMl l = true := by
  obtain ⟨w, r, hw, rfl, _⟩ := h
  exact (marked_iff solid_ml).2 ⟨w, r, hw, rfl⟩

theorem mlCloses_ended {line : Text → Text → Prop} {l t : Text} (h : MlCloses line l t) : Ended "*)".toList l := by
  obtain ⟨l', w, hw, rfl, _⟩ := h
  exact ⟨w, l', hw, rfl⟩

/-! ### Haskell -/

theorem solid_bar : Solid "-- |".toList := ⟨by decide, by decide, by decide⟩
theorem solid_caret : Solid "-- ^".toList := ⟨by decide, by decide, by decide⟩
theorem solid_dashes : Solid "--".toList := ⟨by decide, by decide, by decide⟩
theorem solid_three : Solid "---".toList := ⟨by decide, by decide, by decide⟩

theorem haskellMark_iff {l : Text} :
    (startsWith (trim l) "-- |".toList || startsWith (trim l) "-- ^".toList) = true ↔ HaskellMark l := by
  rw [Bool.or_eq_true, marked_iff solid_bar, marked_iff solid_caret, HaskellMark]

theorem haskellMark_dashes {l : Text} (h : HaskellMark l) : Marked "--".toList l := by
  rcases h with ⟨w, r, hw, rfl⟩ | ⟨w, r, hw, rfl⟩
  · exact ⟨w, " |".toList ++ r, hw, by simp⟩
  · exact ⟨w, " ^".toList ++ r, hw, by simp⟩

theorem solid_rep_rep {m n : Text} (hm : Solid m) (hn : Solid n) {j k : Nat} (h : 0 < j + k) :
    Solid ((List.replicate j m).flatten ++ (List.replicate k n).flatten) := by
  cases j with
  | zero =>
    cases k with
    | zero => omega
    | succ k => simpa using solid_rep hn k
  | succ j =>
    cases k with
    | zero => simpa using solid_rep hm j
    | succ k => exact solid_append (solid_rep hm j) (.inr (solid_rep hn k))

theorem haskellSays_mark {l t : Text} (hm : HaskellMark l) (h : HaskellSays l t) :
    trim (stripStart "-- ^".toList (stripStart "-- |".toList (trim l))) = t := by
  rcases h with ⟨_, w, j, k, r, hw, hjk, rfl, h1, h2, hc⟩ | ⟨hn, _⟩
  · rw [List.append_assoc w]
    obtain ⟨r', b, rfl, hb, e⟩ := trim_marked (r := r) hw (solid_rep_rep solid_bar solid_caret hjk)
    rw [e, List.append_assoc, stripStart_rep (by decide) (fun h => h1 (h.trans (by simp))),
      stripStart_rep (by decide) (fun h => h2 (h.trans (by simp)))]
    exact core_trim (core_drop hb hc)
  · exact absurd hm hn

theorem haskellSays_plain {l t : Text} (hm : ¬ HaskellMark l) (h : HaskellSays l t) : trim (stripStart "--".toList (trim l)) = t := by
  rcases h with ⟨hn, _⟩ | ⟨_, hc⟩
  · exact absurd hn hm
  · exact content_of solid_dashes hc

theorem haskellSays_exists {l : Text} (h : Marked "--".toList l) : ∃ t, HaskellSays l t := by
  by_cases hm : HaskellMark l
  · rcases hm with ⟨w, r, hw, rfl⟩ | ⟨w, r, hw, rfl⟩
    · obtain ⟨j, r1, rfl, h1⟩ := marks_exist (p := "-- |".toList) (by decide) r.length r le_rfl
      obtain ⟨k, r2, rfl, h2⟩ := marks_exist (p := "-- ^".toList) (by decide) r1.length r1 le_rfl
      exact ⟨trim r2, .inl ⟨.inl ⟨w, _, hw, rfl⟩, w, j + 1, k, r2, hw, by omega, by simp [List.replicate_succ], h1, h2, trim_core r2⟩⟩
    · obtain ⟨k, r2, rfl, h2⟩ := marks_exist (p := "-- ^".toList) (by decide) r.length r le_rfl
      refine ⟨trim r2, .inl ⟨.inr ⟨w, _, hw, rfl⟩, w, 0, k + 1, r2, hw, by omega, by simp [List.replicate_succ], ?_, h2, trim_core r2⟩⟩
      rintro ⟨s, hs⟩
      simp [List.replicate_succ] at hs
  · obtain ⟨t, ht⟩ := content_exists (by decide) h
    exact ⟨t, .inr ⟨hm, ht⟩⟩

theorem dashOk_iff {l : Text} (h : ¬ DashOk l) :
    (startsWith (trim l) "--".toList) = false ∧ (trim l).isEmpty = false ∧ ¬ HaskellMark l ∧ ¬ Marked "---".toList l := by
  simp only [DashOk, not_or] at h
  refine ⟨?_, ?_, fun hm => h.2 (haskellMark_dashes hm), ?_⟩
  · rw [Bool.eq_false_iff]; exact fun hs => h.2 ((marked_iff solid_dashes).1 hs)
  · rw [Bool.eq_false_iff]; exact fun hs => h.1 (trim_white.1 (List.isEmpty_iff.1 hs))
  · rintro ⟨w, r, hw, rfl⟩
    exact h.2 ⟨w, '-' :: r, hw, by simp⟩

theorem white_not_marked {m l : Text} (hm : Solid m) (h : White l) : ¬ Marked m l := by
  rintro ⟨w, r, hw, rfl⟩
  cases m with
  | nil => exact hm.some rfl
  | cons c m => exact not_white (hm.first c rfl) h (by simp)

theorem haskellLoop_rest {up : List Text} (hup : ∀ l ∈ up.head?, ¬ DashOk l) : ∀ (block ts acc : List Text), acc ≠ [] →
    (∀ l ∈ block, DashOk l) → Reads (Marked "--".toList) HaskellSays block ts → haskellLoop (block.reverse ++ up) acc = ts ++ acc := by
  intro block
  induction block using List.reverseRecOn with
  | nil =>
    intro ts acc _ _ h
    cases h
    rw [List.reverse_nil, List.nil_append, List.nil_append]
    cases up with
    | nil => rfl
    | cons l up =>
      obtain ⟨h1, h2, h3, _⟩ := dashOk_iff (hup l rfl)
      rw [haskellLoop, if_neg (fun h => h3 (haskellMark_iff.1 h)), h1, if_neg (by simp), h2, if_pos (by simp)]
  | append_singleton block l ih =>
    intro ts acc hacc hall h
    have hb : ∀ x ∈ block, DashOk x := fun x hx => hall x (by simp [hx])
    have hl : DashOk l := hall l (by simp)
    rw [List.reverse_append, List.reverse_singleton, List.singleton_append, List.cons_append, haskellLoop]
    rcases reads_snoc h with ⟨hd, t, ts', rfl, hc, hr⟩ | ⟨hd, hr⟩
    · by_cases hm : HaskellMark l
      · rw [if_pos (haskellMark_iff.2 hm), haskellSays_mark hm hc, ih ts' _ (by simp) hb hr]
        simp
      · have hs := (marked_iff solid_dashes).2 hd
        rw [if_neg (fun h => hm (haskellMark_iff.1 h)), hs, if_pos (by cases acc <;> simp_all), haskellSays_plain hm hc,
          ih ts' _ (by simp) hb hr]
        simp
    · have hw : White l := hl.resolve_right hd
      have hs : startsWith (trim l) "--".toList = false := by
        rw [Bool.eq_false_iff]; exact fun h => hd ((marked_iff solid_dashes).1 h)
      rw [if_neg (fun h => hd (haskellMark_dashes (haskellMark_iff.1 h))), hs, if_neg (by simp), trim_white.2 hw, if_neg (by simp),
        ih ts acc hacc hb hr]

theorem haskellLoop_white {up : List Text} : ∀ (ws : List Text), (∀ l ∈ ws, White l) → haskellLoop (ws ++ up) [] = haskellLoop up []
  | [], _ => rfl
  | l :: ws, h => by
    have hw := h l (by simp)
    have hs : startsWith (trim l) "--".toList = false := by
      rw [Bool.eq_false_iff]; exact fun h => white_not_marked solid_dashes hw ((marked_iff solid_dashes).1 h)
    rw [List.cons_append, haskellLoop, if_neg (fun h => white_not_marked solid_dashes hw (haskellMark_dashes (haskellMark_iff.1 h))), hs,
      if_neg (by simp), trim_white.2 hw, if_neg (by simp), haskellLoop_white ws fun x hx => h x (by simp [hx])]

theorem haskellLoop_stop {l : Text} {up : List Text} (hl : ¬ White l) (hm : ¬ HaskellMark l) : haskellLoop (l :: up) [] = [] := by
  have h2 : (trim l).isEmpty = false := by
    rw [Bool.eq_false_iff]; exact fun hs => hl (trim_white.1 (List.isEmpty_iff.1 hs))
  rw [haskellLoop, if_neg (fun h => hm (haskellMark_iff.1 h)), if_neg (by simp), h2, if_pos (by simp)]

theorem reads_white {D : Text → Prop} {S : Text → Text → Prop} {b : List Text} : ∀ (ws ts : List Text), (∀ l ∈ ws, ¬ D l) →
    Reads D S (b ++ ws) ts → Reads D S b ts := by
  intro ws
  induction ws using List.reverseRecOn with
  | nil => intro ts _ h; simpa using h
  | append_singleton ws l ih =>
    intro ts hn h
    rw [← List.append_assoc] at h
    rcases reads_snoc h with ⟨hd, _⟩ | ⟨_, hr⟩
    · exact absurd hd (hn l (by simp))
    · exact ih ts (fun x hx => hn x (by simp [hx])) hr

/-! ### Lua -/

theorem luaSays_three {l t : Text} (hm : Marked "---".toList l) (h : LuaSays l t) : trim (stripStart "---".toList (trim l)) = t := by
  rcases h with ⟨_, hc⟩ | ⟨hn, _⟩
  · exact content_of solid_three hc
  · exact absurd hm hn

theorem luaSays_plain {l t : Text} (hm : ¬ Marked "---".toList l) (h : LuaSays l t) : trim (stripStart "--".toList (trim l)) = t := by
  rcases h with ⟨hn, _⟩ | ⟨_, hc⟩
  · exact absurd hn hm
  · exact content_of solid_dashes hc

theorem luaSays_exists {l : Text} (h : Marked "--".toList l) : ∃ t, LuaSays l t := by
  by_cases hm : Marked "---".toList l
  · obtain ⟨t, ht⟩ := content_exists (by decide) hm
    exact ⟨t, .inl ⟨hm, ht⟩⟩
  · obtain ⟨t, ht⟩ := content_exists (by decide) h
    exact ⟨t, .inr ⟨hm, ht⟩⟩

theorem luaLoop_of {up : List Text} (hup : ∀ l ∈ up.head?, ¬ DashOk l) : ∀ (block ts acc : List Text) (found : Bool),
    (∀ l ∈ block, DashOk l) → Reads (Marked "--".toList) LuaSays block ts →
    (luaLoop (block.reverse ++ up) acc found).1 = ts ++ acc ∧
    ((luaLoop (block.reverse ++ up) acc found).2 = true ↔ found = true ∨ ∃ l ∈ block, Marked "---".toList l) := by
  intro block
  induction block using List.reverseRecOn with
  | nil =>
    intro ts acc found _ h
    cases h
    rw [List.reverse_nil, List.nil_append, List.nil_append]
    cases up with
    | nil => simp [luaLoop]
    | cons l up =>
      obtain ⟨h1, h2, _, h4⟩ := dashOk_iff (hup l rfl)
      have h3 : ¬ startsWith (trim l) "---".toList = true := fun h => h4 ((marked_iff solid_three).1 h)
      rw [luaLoop, if_neg h3, h1, if_neg (by simp), h2, if_neg (by simp)]
      simp
  | append_singleton block l ih =>
    intro ts acc found hall h
    have hb : ∀ x ∈ block, DashOk x := fun x hx => hall x (by simp [hx])
    have hl : DashOk l := hall l (by simp)
    have hex : (∃ x ∈ block ++ [l], Marked "---".toList x) ↔ (∃ x ∈ block, Marked "---".toList x) ∨ Marked "---".toList l := by
      simp only [List.mem_append, List.mem_singleton, or_and_right, exists_or, exists_eq_left]
    rw [List.reverse_append, List.reverse_singleton, List.singleton_append, List.cons_append, luaLoop, hex]
    rcases reads_snoc h with ⟨hd, t, ts', rfl, hc, hr⟩ | ⟨hd, hr⟩
    · by_cases hm : Marked "---".toList l
      · rw [if_pos ((marked_iff solid_three).2 hm), luaSays_three hm hc]
        obtain ⟨i1, i2⟩ := ih ts' (t :: acc) true hb hr
        exact ⟨by rw [i1]; simp, i2.trans ⟨fun _ => .inr (.inr hm), fun _ => .inl rfl⟩⟩
      · rw [if_neg (fun h => hm ((marked_iff solid_three).1 h)), if_pos ((marked_iff solid_dashes).2 hd), luaSays_plain hm hc]
        obtain ⟨i1, i2⟩ := ih ts' (t :: acc) found hb hr
        exact ⟨by rw [i1]; simp, i2.trans (by rw [or_iff_left hm])⟩
    · have hw : White l := hl.resolve_right hd
      have hm : ¬ Marked "---".toList l := white_not_marked solid_three hw
      rw [if_neg (fun h => hm ((marked_iff solid_three).1 h)), if_neg (fun h => hd ((marked_iff solid_dashes).1 h)), trim_white.2 hw,
        if_pos (by simp)]
      obtain ⟨i1, i2⟩ := ih ts acc found hb hr
      exact ⟨i1, i2.trans (by rw [or_iff_left hm])⟩

/-! ### Elixir -/

theorem solid_doc : Solid "@doc".toList := ⟨by decide, by decide, by decide⟩
theorem solid_moduledoc : Solid "@moduledoc".toList := ⟨by decide, by decide, by decide⟩
theorem solid_hash : Solid ['#'] := ⟨by decide, by decide, by decide⟩
theorem solid_at : Solid ['@'] := ⟨by decide, by decide, by decide⟩

theorem elixirDoc_iff {l : Text} :
    (startsWith (trim l) "@doc".toList || startsWith (trim l) "@moduledoc".toList) = true ↔ ElixirDoc l := by
  rw [Bool.or_eq_true, marked_iff solid_doc, marked_iff solid_moduledoc, ElixirDoc]

theorem mem_trim {l : Text} {c : Char} (hc : isWs c = false) : c ∈ trim l ↔ c ∈ l := by
  obtain ⟨a, b, e, ha, hb, _⟩ := trim_core l
  conv_rhs => rw [e]
  simp only [List.mem_append]
  constructor
  · intro h; exact .inl (.inr h)
  · rintro ((h | h) | h)
    · exact absurd h (not_white hc ha)
    · exact h
    · exact absurd h (not_white hc hb)

theorem elixirDoc_at {l : Text} (h : ElixirDoc l) : Marked ['@'] l := by
  rcases h with ⟨w, r, hw, rfl⟩ | ⟨w, r, hw, rfl⟩
  · exact ⟨w, "doc".toList ++ r, hw, by simp⟩
  · exact ⟨w, "moduledoc".toList ++ r, hw, by simp⟩

theorem marked_head {c : Char} {l : Text} (hc : isWs c = false) (h : Marked [c] l) : (trim l).head? = some c := by
  obtain ⟨w, r, hw, rfl⟩ := h
  obtain ⟨r', b, -, -, e⟩ := trim_marked (m := [c]) (r := r) hw ⟨by simp, by simpa using hc, by simpa using hc⟩
  rw [e]; rfl

theorem elixir_pass {l : Text} {up : List Text} (h : ElixirPass l) : elixirLoop (l :: up) = elixirLoop up := by
  rw [elixirLoop]
  by_cases hd : ElixirDoc l
  · rw [if_pos (elixirDoc_iff.2 hd), if_neg]
    have hn : '"' ∉ l := by
      rcases h with h | h | ⟨_, h⟩
      · exact absurd (elixirDoc_at hd) (white_not_marked solid_at h)
      · have h1 := marked_head (by decide) h
        rw [marked_head (by decide) (elixirDoc_at hd)] at h1
        exact absurd h1 (by simp)
      · exact h hd
    intro hq
    exact hn ((mem_trim (by decide)).1 (by simpa using hq))
  · rw [if_neg (fun h => hd (elixirDoc_iff.1 h)), if_neg]
    rcases h with h | h | ⟨h, _⟩
    · rw [trim_white.2 h]; simp
    · have h1 : startsWith (trim l) ['#'] = true := (marked_iff solid_hash).2 h
      rw [h1]; simp
    · have h1 : startsWith (trim l) ['@'] = true := (marked_iff solid_at).2 h
      rw [h1]; simp

theorem elixir_passes {up : List Text} : ∀ ps : List Text, (∀ l ∈ ps, ElixirPass l) → elixirLoop (ps ++ up) = elixirLoop up
  | [], _ => rfl
  | l :: ps, h => by rw [List.cons_append, elixir_pass (h l (by simp)), elixir_passes ps fun x hx => h x (by simp [hx])]

theorem elixir_stop {l : Text} {up : List Text} (hd : ¬ ElixirDoc l) (h : ¬ ElixirPass l) : elixirLoop (l :: up) = none := by
  simp only [ElixirPass, not_or, not_and] at h
  have h1 : startsWith (trim l) ['#'] = false := by
    rw [Bool.eq_false_iff]; exact fun hs => h.2.1 ((marked_iff solid_hash).1 hs)
  have h2 : startsWith (trim l) ['@'] = false := by
    rw [Bool.eq_false_iff]
    exact fun hs => h.2.2 ((marked_iff solid_at).1 hs) fun hd' => absurd hd' hd
  have h3 : (trim l).isEmpty = false := by
    rw [Bool.eq_false_iff]; exact fun hs => h.1 (trim_white.1 (List.isEmpty_iff.1 hs))
  rw [elixirLoop, if_neg (fun h => hd (elixirDoc_iff.1 h)), h1, h2, h3]
  rfl

theorem elixir_found {pre t w : Text} {up : List Text} (hd : ElixirDoc (pre ++ '"' :: t ++ '"' :: w)) (hw : White w) (hp : '"' ∉ pre)
    (h1 : ∀ c ∈ t.head?, c ≠ '"') (h2 : ∀ c ∈ t.getLast?, c ≠ '"') : elixirLoop ((pre ++ '"' :: t ++ '"' :: w) :: up) = some t := by
  have hs : Solid ('"' :: t ++ ['"']) := by
    refine ⟨by simp, ?_, ?_⟩
    · intro c hc
      obtain rfl : c = '"' := by simpa using hc.symm
      decide
    · intro c hc
      rw [List.getLast?_append_of_ne_nil _ (by simp)] at hc
      obtain rfl : c = '"' := by simpa using hc.symm
      decide
  obtain ⟨a, q, rfl, ha, hq⟩ : ∃ a q, pre = a ++ q ∧ White a ∧ ∀ c ∈ q.head?, isWs c = false := by
    refine ⟨pre.takeWhile isWs, pre.dropWhile isWs, (List.takeWhile_append_dropWhile).symm, fun c hc => List.mem_takeWhile_imp hc, ?_⟩
    intro c hc
    exact Text.dropWhile_head isWs pre c hc
  have e : trim (a ++ q ++ '"' :: t ++ '"' :: w) = q ++ ('"' :: t ++ ['"']) := by
    refine core_trim ⟨a, w, by simp, ha, hw, ?_, ?_⟩
    · intro c hc
      cases q with
      | nil => exact hs.first c hc
      | cons x q => exact hq c (by simpa using hc)
    · intro c hc
      rw [List.getLast?_append_of_ne_nil _ hs.some] at hc
      exact hs.last c hc
  rw [elixirLoop, if_pos (elixirDoc_iff.2 hd), e, if_pos (by simp)]
  have hq' : ∀ c ∈ q, (c != '"') = true := by
    intro c hc
    simp only [bne_iff_ne, ne_eq]
    rintro rfl
    exact hp (by simp [hc])
  rw [List.dropWhile_append_of_pos hq', List.cons_append, List.dropWhile_cons_of_neg (by simp)]
  congr 1
  have := trimMatches_of (p := fun c => c == '"') (a := ['"']) (s := t) (b := ['"']) (by simp) (by simp)
    (fun c hc => by simpa using h1 c hc) (fun c hc => by simpa using h2 c hc)
  simpa using this

/-! ### Python -/

theorem joinNl_eq : ∀ ls : List Text, joinNl ls = ['\n'].intercalate ls
  | [] => rfl
  | [l] => by simp [joinNl]
  | l :: m :: ls => by rw [joinNl, joinNl_eq (m :: ls)]; simp [List.intercalate, List.intersperse]

theorem pythonDoc_of {n e : DNode} {lines : List Text} (h : PyString n e) (h1 : e.info.first ≤ e.info.last) (h2 : e.info.last < lines.length) :
    pythonDoc n lines = .ok (some (trim (trimMatches (fun c => c == '"' || c == '\'')
      (['\n'].intercalate ((lines.drop e.info.first).take (e.info.last + 1 - e.info.first)))))) := by
  obtain ⟨pre, post, body, stmt, more, rest, c1, c2, c3, c4, c5, c6, c7⟩ := h
  have hb : n.byField "body" = some body := by
    rw [DNode.byField, List.find?_eq_some_iff_append]
    exact ⟨by simp [c3], pre, post, c1, fun c hc => by simpa using c2 c hc⟩
  have hl : lines.isEmpty = false := by
    cases lines with
    | nil => simp at h2
    | cons => rfl
  have hmin : min e.info.last (lines.length - 1) + 1 = e.info.last + 1 := by omega
  rw [pythonDoc, hb]
  dsimp only
  rw [c4, List.head?_cons]
  dsimp only
  rw [if_pos c5, c6, List.head?_cons]
  dsimp only
  rw [if_pos c7, hl, if_neg (by simp), hmin, slice, if_pos (by omega)]
  dsimp only
  rw [joinNl_eq]

theorem pythonDoc_none {n : DNode} {lines : List Text} (h : ∀ e, ¬ PyString n e) : pythonDoc n lines = .ok none := by
  rw [pythonDoc]
  cases hb : n.byField "body" with
  | none => rfl
  | some body =>
    dsimp only
    rw [DNode.byField, List.find?_eq_some_iff_append] at hb
    obtain ⟨c3, pre, post, c1, c2⟩ := hb
    cases hs : body.children with
    | nil => rfl
    | cons stmt more =>
      rw [List.head?_cons]
      dsimp only
      by_cases hk : stmt.info.kind = "expression_statement"
      · rw [if_pos hk]
        cases he : stmt.children with
        | nil => rfl
        | cons e rest =>
          rw [List.head?_cons]
          dsimp only
          rw [if_neg]
          intro hs'
          exact h e ⟨pre, post, body, stmt, more, rest, c1, fun c hc => by simpa using c2 c hc, by simpa using c3, hs, hk, he, hs'⟩
      · rw [if_neg hk]

/-! ### Pieces -/

theorem stripLoop_suffix (p : Text) : ∀ (k : Nat) (t : Text), stripLoop p k t <:+ t
  | 0, t => List.suffix_refl t
  | k + 1, t => by
    rw [stripLoop]
    split
    · exact (stripLoop_suffix p k _).trans (List.drop_suffix _ _)
    · exact List.suffix_refl t

theorem stripEnd_prefix (p t : Text) : stripEnd p t <+: t := by
  have := List.reverse_prefix.2 (stripLoop_suffix p.reverse t.reverse.length t.reverse)
  rwa [List.reverse_reverse] at this

theorem trim_piece (t : Text) : trim t <:+: t := by
  obtain ⟨a, b, e, _⟩ := trim_core t
  exact ⟨a, b, e.symm⟩

theorem cleanC_infix (l : Text) : cleanC l <:+: l := by
  rw [cleanC]
  refine (trim_piece _).trans ((stripEnd_prefix _ _).isInfix.trans ((List.dropWhile_suffix _).isInfix.trans ?_))
  exact (stripLoop_suffix _ _ _).isInfix.trans ((stripLoop_suffix _ _ _).isInfix.trans (trim_piece l))

end NextPlaid.Docs
