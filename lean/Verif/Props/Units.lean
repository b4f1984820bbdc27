import Verif.Proofs.Units7
import Verif.Proofs.Units8

/-!
C62: every line of a source file is in a unit that can be found. C63: a unit says where its code is. C64: the call graph.

Sources are written as lists of lines in the examples; `node` builds a syntax tree.
-/

namespace NextPlaid.Props

open NextPlaid.Units NextPlaid.Spec

/-! ### Concrete files for the examples -/

namespace UnitsExample

def node (kind : Kind) (name : Option String) (a b : Nat) (body : Option Nat) (calls : List String) (cs : List Node) : Node :=
  .mk ⟨kind, name.map String.toList, false, body, none, false, calls.map String.toList, a, b⟩ cs

def src (ls : List String) : Text := joinNl (ls.map String.toList)

/-- A Python file: an import, a decorated function, a class with a method, a constant, a statement. -/
def python : Text := src ["import os", "", "@cached", "def f():", "    return g()", "class K:", "    def m(self):", "        f()",
  "X = 1", "", "print(X)", "", "f()"]

def tree : Node :=
  node .other none 0 12 none []
    [node .other none 0 0 none [] [],
     node .function (some "f") 3 4 none ["g"] [node .other none 4 4 none [] []],
     node .class (some "K") 5 7 (some 1) ["f"]
       [node .other none 5 5 none [] [],
        node .other none 6 7 none [] [node .function (some "m") 6 7 none ["f"] []]],
     node .constant (some "X") 8 8 none [] [],
     node .other none 10 10 none [] [],
     node .other none 12 12 none [] []]

mutual
def checkNode (rows d : Nat) : Node → Bool
  | .mk info cs => decide (info.startRow ≤ info.endRow) && decide (info.startRow ≤ rows) && checkList rows d cs
def checkList (rows : Nat) : Nat → List Node → Bool
  | _, [] => true
  | 0, _ :: _ => false
  | d + 1, c :: cs => checkNode rows d c && checkList rows (d + 1) cs
end

theorem checkList_mem {rows d : Nat} {c : Node} : ∀ {cs : List Node}, checkList rows d cs = true → c ∈ cs →
    ∃ e, d = e + 1 ∧ checkNode rows e c = true
  | [], _, h => by cases h
  | a :: cs, h, hc => by
    cases d with
    | zero => simp [checkList] at h
    | succ d =>
      rw [checkList, Bool.and_eq_true] at h
      rcases List.mem_cons.1 hc with rfl | hc
      · exact ⟨d, rfl, h.1⟩
      · obtain ⟨e, he, hn⟩ := checkList_mem h.2 hc
        exact ⟨e, he, hn⟩

theorem checkNode_sound {rows : Nat} {k : Nat} {t m : Node} (hm : WithinAt k t m) : ∀ {d : Nat}, checkNode rows d t = true →
    (m.info.startRow ≤ m.info.endRow ∧ m.info.startRow ≤ rows) ∧ k ≤ d := by
  induction hm with
  | self t =>
    intro d h
    obtain ⟨info, cs⟩ := t
    rw [checkNode] at h
    simp only [Bool.and_eq_true, decide_eq_true_eq] at h
    exact ⟨h.1, Nat.zero_le _⟩
  | @child k t c m hc _ ih =>
    intro d h
    obtain ⟨info, cs⟩ := t
    rw [checkNode] at h
    simp only [Bool.and_eq_true, decide_eq_true_eq] at h
    obtain ⟨e, rfl, he⟩ := checkList_mem h.2 hc
    obtain ⟨h1, h2⟩ := ih he
    exact ⟨h1, by omega⟩

theorem fits_of {rows d : Nat} {t : Node} (h : checkNode rows d t = true) : Fits t rows :=
  fun _ _ hm => (checkNode_sound hm h).1

theorem notDeeper_of {rows d : Nat} {t : Node} (h : checkNode rows d t = true) : NotDeeper t d :=
  fun _ _ hm => (checkNode_sound hm h).2

theorem tree_checked : checkNode (lines python).length 10 tree = true := by decide +kernel

end UnitsExample

open UnitsExample

/-! ### C62 -/

/-- **C62 (coverage), for files of the languages with a grammar.** Take any source and any syntax tree whose rows are rows
of the source and that is nested no deeper than the limit. Then the file is cut into units without a panic, and every line
that is not blank is in the range of a unit and is one of the lines of that unit's code.

Missing for the full property: files nested deeper than the limit (`C62_deep_file_refuted`), and Vue, Svelte and HTML files,
for which it is false (`C62_vue_refuted`, `C62_one_line_script_refuted`, `C62_svelte_refuted`). QML is not modelled. -/
theorem C62_every_line_partial (lang : Lang) (maxDepth : Nat) (source : Text) (t : Node)
    (hf : Fits t (lines source).length) (hd : NotDeeper t maxDepth) :
    ∃ units, extractUnits lang maxDepth source (some t) = .ok units ∧
      ∀ n l, TextAt (lines source) n l → ∃ u ∈ units, Covers u n ∧ HasLine u.code l := by
  obtain ⟨decls, raws, _, he, hdecl, hg⟩ := extractUnits_ok (lang := lang) hf hd
  refine ⟨_, he, ?_⟩
  intro n l ht
  have hn := (textAt_le ⟨l, ht⟩).2
  by_cases hc : covered (lines source).length decls n = true
  · obtain ⟨u, hu, hcov⟩ := (covered_iff hn).1 hc
    exact ⟨u, List.mem_append.2 (.inl hu), hcov, codeIs_hasLine (hdecl u hu).1 hcov ht.2.1⟩
  · obtain ⟨u, hu, hcov⟩ := hg.2.1 n (by have := ht.1; omega) ⟨l, ht⟩ (by simpa using hc)
    exact ⟨u, List.mem_append.2 (.inr hu), hcov, codeIs_hasLine (hg.1 u hu).2.2.2.1 hcov ht.2.1⟩

/-- The file of the example meets the hypotheses, and its units are what one expects. -/
example : Fits tree (lines python).length ∧ NotDeeper tree 10 ∧
    (extractUnits .python 10 python (some tree)).toOption.map
      (fun us => us.map fun u => (String.ofList u.name, u.line, u.endLine, u.utype)) =
    some [("f", 3, 5, .function), ("K", 6, 8, .class), ("m", 7, 8, .method), ("X", 9, 9, .constant),
      ("raw_code_1", 1, 1, .rawCode), ("raw_code_11", 11, 13, .rawCode)] :=
  ⟨fits_of tree_checked, notDeeper_of tree_checked, by decide +kernel⟩

/-- **C62 (coverage), text and configuration files.** The file is one unit with all its lines, unless it is blank. -/
theorem C62_text (title source : Text) :
    (textUnits title source = [] ↔ ∀ l ∈ lines source, BlankLine l) ∧
    (∀ u ∈ textUnits title source, u.line = 1 ∧ u.endLine = (lines source).length ∧ CodeIs (lines source) u) ∧
    ∀ n l, TextAt (lines source) n l → ∃ u ∈ textUnits title source, Covers u n ∧ HasLine u.code l := by
  have hall : (lines source).all blank = true ↔ ∀ l ∈ lines source, BlankLine l := by
    rw [List.all_eq_true]
    exact forall₂_congr fun l _ => blank_iff l
  have hunit : ∀ u ∈ textUnits title source, u.line = 1 ∧ u.endLine = (lines source).length ∧ CodeIs (lines source) u := by
    intro u hu
    unfold textUnits at hu
    split at hu
    · cases hu
    · rename_i hb
      obtain rfl := List.mem_singleton.1 hu
      refine ⟨rfl, rfl, le_rfl, ?_, ?_⟩
      · show 1 ≤ (lines source).length
        by_contra h
        have : lines source = [] := List.length_eq_zero_iff.1 (by omega)
        rw [this] at hb; simp at hb
      · show joinNl _ = _
        rw [joinNl_eq]; simp
  refine ⟨?_, hunit, ?_⟩
  · rw [← hall]
    unfold textUnits
    split <;> simp_all
  · intro n l ht
    have hne : textUnits title source ≠ [] := by
      intro h
      unfold textUnits at h
      split at h
      · rename_i hb
        exact ht.2.2 (hall.1 hb l (List.mem_of_getElem? ht.2.1))
      · simp at h
    obtain ⟨u, hu⟩ := List.exists_mem_of_ne_nil _ hne
    obtain ⟨h1, h2, h3⟩ := hunit u hu
    have hcov : Covers u n := ⟨by rw [h1]; exact ht.1, by rw [h2]; exact (textAt_le ⟨l, ht⟩).2⟩
    exact ⟨u, hu, hcov, codeIs_hasLine h3 hcov ht.2.1⟩

example : TextAt (lines (src ["# Title", "", "text"])) 3 "text".toList ∧
    (textUnits "readme".toList (src ["# Title", "", "text"])).map (fun u => (u.line, u.endLine)) = [(1, 3)] := by
  refine ⟨⟨by decide, by decide +kernel, ?_⟩, by decide +kernel⟩
  rw [← blank_iff]; decide +kernel

/-- **C62 (one unit for each definition).** In a file as above, a function with a name has its own unit: its name, its lines
with the attributes above it, the names it calls, and the class it belongs to. The same holds for classes and for constants that are in no
class. A reader reaches the definition from the root of the file, and a function also through the bodies of classes
that are not abstract types (`Reached`). For Python only constants in capitals count. -/
theorem C62_definitions (lang : Lang) (maxDepth : Nat) (source : Text) (t : Node) (hf : Fits t (lines source).length)
    (hd : NotDeeper t maxDepth) : ∃ units, extractUnits lang maxDepth source (some t) = .ok units ∧
      ∀ (p : Option Text) (m : Node), Reached false none t p m → m.info.name ≠ none →
        (m.info.kind = .function → ∃ u ∈ units, UnitFor lang (lines source) m u ∧ u.calls = m.info.calls ∧ u.parent = p.or m.info.receiver ∧
          u.utype = if (p.or m.info.receiver).isSome then .method else .function) ∧
        (m.info.kind = .class → p = none → ∃ u ∈ units, UnitFor lang (lines source) m u ∧ u.calls = m.info.calls ∧ u.utype = .class) ∧
        (m.info.kind = .constant → p = none →
          (lang = .python → ∀ name, m.info.name = some name → Capitals name) →
          ∃ u ∈ units, UnitFor lang (lines source) m u ∧
            u.utype = if lang = .typescript ∧ m.info.arrow = true then .function else .constant) := by
  obtain ⟨decls, raws, hx, he, hdecl, hg⟩ := extractUnits_ok (lang := lang) hf hd
  refine ⟨_, he, ?_⟩
  intro p m hfound hname
  obtain ⟨name, hn⟩ := Option.ne_none_iff_exists'.1 hname
  obtain ⟨k, hk⟩ := found_within hfound
  obtain ⟨hr1, hr2⟩ := hf k m hk
  refine ⟨?_, ?_, ?_⟩
  · intro hkind
    have hfun : hasFunction m = true := by
      obtain ⟨info, cs⟩ := m
      simp only [Node.info] at hkind
      rw [hasFunction, hkind]; simp
    obtain ⟨d, vs, _, hvs, hsub⟩ := extractNode_found (M := ⟨lang, maxDepth, false⟩) hfound (by simp) (.inr (.inl hfun)) hx
    obtain ⟨u, hu, a1, a2, a3, a4, a5, a6⟩ := extractNode_function hvs hkind hn hr1 hr2
    exact ⟨u, List.mem_append.2 (.inl (hsub hu)), ⟨by rw [hn, a1], a3, a4⟩, a2, a5, a6⟩
  · intro hkind hp
    obtain ⟨d, vs, _, hvs, hsub⟩ := extractNode_found (M := ⟨lang, maxDepth, false⟩) hfound (by simp) (.inr (.inr hp)) hx
    obtain ⟨u, hu, a1, a2, a3, a4, a5⟩ := extractNode_class hvs hkind hn hr1 hr2
    exact ⟨u, List.mem_append.2 (.inl (hsub hu)), ⟨by rw [hn, a1], a3, a4⟩, a2, a5⟩
  · intro hkind hp hpy
    obtain ⟨d, vs, _, hvs, hsub⟩ := extractNode_found (M := ⟨lang, maxDepth, false⟩) hfound (by simp) (.inr (.inr hp)) hx
    subst hp
    obtain ⟨u, hu, a1, a2, a3, a4⟩ := extractNode_constant hvs hkind hn (fun h => (capitals_iff name).2 (hpy h name hn)) hr1 hr2
    exact ⟨u, List.mem_append.2 (.inl (hsub hu)), ⟨by rw [hn, a1], a2, a3⟩, a4⟩

/-- **C62 (only definitions have units).** Conversely every unit that is not raw describes one definition of the file that a reader
reaches: a function with the class it belongs to, a class, or a constant that is in no class; for Python the constant has a name in
capitals. -/
theorem C62_only_definitions (lang : Lang) (maxDepth : Nat) (source : Text) (t : Node) (units : List CodeUnit)
    (hf : Fits t (lines source).length) (hd : NotDeeper t maxDepth)
    (h : extractUnits lang maxDepth source (some t) = .ok units) :
    ∀ u ∈ units, u.utype ≠ .rawCode → ∃ p m, Reached false none t p m ∧ UnitOf lang (lines source) p m u := by
  obtain ⟨decls, raws, hx, he, _, hg⟩ := extractUnits_ok (lang := lang) hf hd
  rw [h] at he
  obtain rfl : units = decls ++ raws := by simpa using he
  intro u hu ht
  rcases List.mem_append.1 hu with h | h
  · exact extractNode_sound ⟨lang, maxDepth, false⟩ (lines source) t none 0 decls hx u h
  · exact absurd (hg.1 u h).2.1 ht

/-- In Python a name in small letters is no constant. -/
example : Capitals "MAX_2".toList ∧ ¬ Capitals "max".toList ∧ ¬ Capitals "_".toList := by
  rw [← capitals_iff, ← capitals_iff, ← capitals_iff]; decide +kernel

/-- The method `m` of the class `K` of the example is reached. -/
example : ∃ p m, Reached false none tree p m ∧ p = some "K".toList ∧ m.info.name = some "m".toList ∧ m.info.kind = .function := by
  refine ⟨some "K".toList, node .function (some "m") 6 7 none ["f"] [], ?_, rfl, rfl, rfl⟩
  refine .inner (t := tree) (c := node .class (some "K") 5 7 (some 1) ["f"]
       [node .other none 5 5 none [] [],
        node .other none 6 7 none [] [node .function (some "m") 6 7 none ["f"] []]]) (by simp [tree, node, Node.children])
    (by simp [tree, node, Node.info]) (by simp [tree, node, Node.info]) ?_
  exact .member (name := "K".toList) (i := 1) rfl rfl (fun _ => rfl) rfl rfl (List.mem_singleton.2 rfl) (.here _ _)

/-- **C62 (the rest of the file).** The lines that belong to no definition are gathered in raw units: a raw unit starts and
ends with such a line and contains no line of a definition; each such line is in exactly one raw unit; and two of them with no
line of a definition between are in the same one. -/
theorem C62_raw (lang : Lang) (maxDepth : Nat) (source : Text) (t : Node) (hf : Fits t (lines source).length)
    (hd : NotDeeper t maxDepth) : ∃ units, extractUnits lang maxDepth source (some t) = .ok units ∧
      (∀ u ∈ units, u.utype = .rawCode → Loose (lines source) units u.line ∧ Loose (lines source) units u.endLine ∧
        ∀ n, Covers u n → ¬ Declared units n) ∧
      (∀ n, Loose (lines source) units n →
        (units.filter fun u => decide (u.utype = .rawCode ∧ u.line ≤ n ∧ n ≤ u.endLine)).length = 1) ∧
      ∀ n m, Loose (lines source) units n → Loose (lines source) units m → n ≤ m →
        (∀ k, n ≤ k → k ≤ m → ¬ Declared units k) → ∃ u ∈ units, u.utype = .rawCode ∧ Covers u n ∧ Covers u m := by
  obtain ⟨decls, raws, _, he, hdecl, hg⟩ := extractUnits_ok (lang := lang) hf hd
  have hr : ∀ u ∈ raws, u.utype = .rawCode := fun u hu => (hg.1 u hu).2.1
  refine ⟨_, he, ?_, fun n hn => loose_once hdecl hg hn, ?_⟩
  · intro u hu ht
    have hu' := raw_mem hdecl hu ht
    obtain ⟨_, _, _, hcode, hlen, hs, he', hcov⟩ := hg.1 u hu'
    have hle := hcode.2.1
    refine ⟨⟨hs, ?_⟩, ⟨he', ?_⟩, ?_⟩
    · exact (cov_false hdecl hr (by omega)).1 (hcov _ le_rfl hle)
    · exact (cov_false hdecl hr hlen).1 (hcov _ hle le_rfl)
    · rintro n ⟨h1, h2⟩
      exact (cov_false hdecl hr (by omega)).1 (hcov n h1 h2)
  · intro n m hn hm hnm hb
    obtain ⟨u, hu, h1, h2⟩ := loose_same hdecl hg hn hm hnm hb
    exact ⟨u, List.mem_append.2 (.inr hu), hr u hu, h1, h2⟩

/-- Lines 11 and 13 of the example are in the same raw unit, with the blank line between them. -/
example : (extractUnits .python 10 python (some tree)).toOption.map
      (fun us => (us.filter fun u => decide (u.utype = .rawCode ∧ u.line ≤ 13 ∧ 13 ≤ u.endLine)).map
        fun u => (u.line, String.ofList u.code)) = some [(11, "print(X)\n\nf()")] := by decide +kernel

/-- **C62 is false for a file nested deeper than the limit**: it has no units at all, although the tree is a tree of the
file. (The code prints a warning and skips the file. The default limit is 1024 levels; here it is 1.) -/
theorem C62_deep_file_refuted : ∃ (source : Text) (t : Node), Fits t (lines source).length ∧
    (∃ n l, TextAt (lines source) n l) ∧ extractUnits .python 1 source (some t) = .ok [] := by
  refine ⟨python, tree, fits_of tree_checked, ⟨1, "import os".toList, le_rfl, by decide +kernel, ?_⟩, by decide +kernel⟩
  rw [← blank_iff]; decide +kernel

/-- **C62 (Vue: the template).** Every line that is not blank and stands after the first line that opens a template and before
the first line that closes one is in the template's unit, at its own place, if the script can be parsed within the limit. -/
theorem C62_vue_template (maxDepth : Nat) (parse : Text → Option Node) (hp : ParserFits parse)
    (hs : ParserShallow parse maxDepth) (source : Text) (a r : Nat) (o l : Text)
    (ha : (lines source)[a]? = some o) (ho : opens templateTag o = true)
    (hfirst : ∀ (j : Nat) (x : Text), j < a → (lines source)[j]? = some x → opens templateTag x = false)
    (har : a < r) (hr : (lines source)[r]? = some l) (hb : ¬ BlankLine l)
    (hopen : ∀ (j : Nat) (x : Text), a < j → j ≤ r → (lines source)[j]? = some x → closes templateTag x = false) :
    ∃ units, vueUnits maxDepth parse source = .ok units ∧
      ∃ u ∈ units, u.name = templateTag ∧ Covers u (r + 1) ∧ HasLine u.code l := by
  obtain ⟨k, hk, hget⟩ := vueScan_get templateTag (lines source) (lines source) 0 a r o l rfl (Nat.zero_le _) ha ho
    (fun j x _ h => hfirst j x h) har hr hopen
  have hblock : ∃ b, vueBlock templateTag source = some b ∧
      b = ⟨joinNl (vueScan templateTag 0 (lines source)).1, (vueScan templateTag 0 (lines source)).2⟩ := by
    refine ⟨_, ?_, rfl⟩
    unfold vueBlock
    rw [if_neg]
    intro h
    rw [List.isEmpty_iff] at h
    rw [h] at hget; simp at hget
  obtain ⟨b, hb', rfl⟩ := hblock
  have hfit := vueScan_fit templateTag (lines source) (lines source) 0 rfl
  have hne : l ≠ [] := by rintro rfl; exact hb (by simp [BlankLine])
  have hlen := lines_join_length (noNl_of_fit hfit) hget hne
  have hunit : blockUnit templateTag ⟨joinNl (vueScan templateTag 0 (lines source)).1, (vueScan templateTag 0 (lines source)).2⟩ ∈
      (vueBlock templateTag source).toList.map (blockUnit templateTag) := by
    rw [hb']; simp
  have hcov : Covers (blockUnit templateTag ⟨joinNl (vueScan templateTag 0 (lines source)).1, (vueScan templateTag 0 (lines source)).2⟩) (r + 1) := by
    constructor
    · show _ + 1 ≤ r + 1
      simp only; omega
    · show r + 1 ≤ _ + 1 + (_ - 1)
      simp only; omega
  have hline := hasLine_join _ _ (List.mem_of_getElem? hget)
  unfold vueUnits
  cases hsb : vueBlock scriptTag source with
  | none => exact ⟨_, rfl, _, hunit, rfl, hcov, hline⟩
  | some sb =>
    obtain ⟨us, hus⟩ := scriptUnits_shallow hp hs sb
    simp only [hus]
    exact ⟨_, rfl, _, List.mem_append.2 (.inr hunit), rfl, hcov, hline⟩

/-- A Vue file and a parser for its script. -/
def vueFile : Text := src ["<template>", "  <p>hi</p>", "</template>", "<script>", "import x from 'x'", "function f() {", "}",
  "</script>", "<style>", "p { color: red }", "</style>"]

def vueParse (s : Text) : Option Node :=
  if s = src ["import x from 'x'", "function f() {", "}"] then
    some (node .other none 0 2 none [] [node .other none 0 0 none [] [], node .function (some "f") 1 2 none [] []])
  else none

theorem vueParse_checked (s : Text) (t : Node) (h : vueParse s = some t) : checkNode (lines s).length 10 t = true := by
  unfold vueParse at h
  split at h
  · rename_i hs
    obtain rfl := Option.some.inj h
    subst hs
    decide +kernel
  · simp at h

example : ParserFits vueParse ∧ ParserShallow vueParse 10 ∧ opens templateTag "<template>".toList = true ∧
    (vueUnits 10 vueParse vueFile).toOption.map (fun us => us.map fun u => (String.ofList u.name, u.line, u.endLine)) =
    some [("f", 6, 7), ("template", 2, 2)] :=
  ⟨fun s t h => fits_of (vueParse_checked s t h), fun s t h => notDeeper_of (vueParse_checked s t h), by decide +kernel,
    by decide +kernel⟩

/-- **C62 (Vue: the script).** Every definition of the first script of a Vue file has its own unit, with the lines it has in the file. -/
theorem C62_vue_script (maxDepth : Nat) (parse : Text → Option Node) (hp : ParserFits parse)
    (hs : ParserShallow parse maxDepth) (source : Text) (pre body : List Text)
    (h : ScriptAt (opens scriptTag) (lines source) pre body) (hfirst : ∀ l ∈ pre, opens scriptTag l = false) (t : Node)
    (ht : parse (joinNl body) = some t) :
    ∃ units, vueUnits maxDepth parse source = .ok units ∧ ScriptCovered (pre.length + 1) (lines (joinNl body)) t units := by
  obtain ⟨us, hus⟩ := scriptUnits_shallow hp hs ⟨joinNl body, pre.length + 1⟩
  unfold vueUnits
  rw [vueBlock_at h hfirst]
  simp only [hus]
  exact ⟨_, rfl, ScriptCovered_mono (scriptUnits_covered hp (b := ⟨joinNl body, pre.length + 1⟩) ht hus) (by simp)⟩

/-- The script of the Vue file is a script on lines of its own. -/
example : ScriptAt (opens scriptTag) (lines vueFile) (["<template>", "  <p>hi</p>", "</template>"].map String.toList)
      (["import x from 'x'", "function f() {", "}"].map String.toList) ∧
    (∀ l ∈ ["<template>", "  <p>hi</p>", "</template>"].map String.toList, opens scriptTag l = false) ∧
    (vueParse (joinNl (["import x from 'x'", "function f() {", "}"].map String.toList))).isSome = true := by
  refine ⟨⟨"<script>".toList, "</script>".toList, ["<style>", "p { color: red }", "</style>"].map String.toList, ?_⟩, ?_⟩
  · decide +kernel
  · decide +kernel

/-- **C62 (HTML and Svelte: the scripts).** Every definition of every script on lines of its own has its unit, with the lines it has in
the file. -/
theorem C62_page_scripts (html : Bool) (maxDepth : Nat) (parse : Text → Option Node) (hp : ParserFits parse)
    (hs : ParserShallow parse maxDepth) (source : Text) :
    ∃ units, pageUnits html maxDepth parse source = .ok units ∧ ∀ (pre body : List Text) (t : Node),
      ScriptAt (opensScript html) (lines source) pre body →
      Outside (opensScript html) (closes scriptTag) (lines source) pre.length → parse (joinNl body) = some t →
      ScriptCovered (pre.length + 1) (lines (joinNl body)) t units := by
  obtain ⟨scripts, hsc⟩ := allScripts_shallow hp hs (scriptBlocks html source)
  unfold pageUnits
  simp only [hsc]
  refine ⟨_, rfl, ?_⟩
  intro pre body t h hout ht
  obtain ⟨vs, hvs, hsub⟩ := allScripts_sub hsc _ (scriptBlock_at h hout)
  exact ScriptCovered_mono (scriptUnits_covered hp (b := ⟨joinNl body, pre.length + 1⟩) ht hvs) fun x hx =>
    List.mem_append.2 (.inl (hsub hx))

/-- **C62 is false for Vue files**: the statement `import x from 'x'` at the top of the script and the style rules are in no
unit; the comment of `extract_units` promises units "covering the entire file". -/
theorem C62_vue_refuted : ParserFits vueParse ∧ ParserShallow vueParse 10 ∧
    ∃ units, vueUnits 10 vueParse vueFile = .ok units ∧
      ∃ n l, TextAt (lines vueFile) n l ∧ l = "import x from 'x'".toList ∧ ∀ u ∈ units, ¬ Covers u n ∧ ¬ l <:+: u.code := by
  refine ⟨fun s t h => fits_of (vueParse_checked s t h), fun s t h => notDeeper_of (vueParse_checked s t h), ?_⟩
  refine ⟨[⟨"f".toList, 6, 7, .function, none, "function f() {".toList, [], [], "function f() {\n}".toList⟩,
    ⟨"template".toList, 2, 2, .rawCode, none, "<p>hi</p>".toList, [], [], "  <p>hi</p>".toList⟩], by decide +kernel,
    5, "import x from 'x'".toList, ⟨by decide, by decide +kernel, ?_⟩, rfl, ?_⟩
  · rw [← blank_iff]; decide +kernel
  · unfold Covers; decide +kernel

/-- **C62 (HTML: outside the scripts).** Every line that is not blank and stands outside every script is in the structure unit of
the page, and so is every line that opens a script, if the scripts can be parsed within the limit. A script counts as closed only by a later line than the one that
opened it (`Outside`); see `C62_one_line_script_refuted`. -/
theorem C62_html_outside (maxDepth : Nat) (parse : Text → Option Node) (hp : ParserFits parse)
    (hs : ParserShallow parse maxDepth) (source : Text) (r : Nat) (l : Text) (hl : (lines source)[r]? = some l)
    (hb : ¬ BlankLine l)
    (ho : Outside (opensScript true) (closes scriptTag) (lines source) r ∨ opensScript true l = true) :
    ∃ units, pageUnits true maxDepth parse source = .ok units ∧
      ∃ u ∈ units, u.utype = .rawCode ∧ ∃ rows, Selection (lines source) rows u ∧ r ∈ rows := by
  obtain ⟨scripts, _, he⟩ := pageUnits_shallow (html := true) hp hs source
  have hmem := htmlKeep_complete (lines source) (lines source) 0 false rfl openInv_false r l (Nat.zero_le _) hl hb ho
  obtain ⟨b, hkb⟩ := keptBlock_some hmem
  refine ⟨_, he, blockUnit "html_structure".toList b, ?_, rfl, _, keptBlock_selection (htmlKeep_ok _ _ 0 false rfl) hkb _,
    List.mem_map.2 ⟨_, hmem, rfl⟩⟩
  simp [hkb]

/-- **C62 (Svelte: the template).** Every line that is not blank, opens no script or style block and stands outside all of them is
in the template's unit. -/
theorem C62_svelte_outside (maxDepth : Nat) (parse : Text → Option Node) (hp : ParserFits parse)
    (hs : ParserShallow parse maxDepth) (source : Text) (r : Nat) (l : Text) (hl : (lines source)[r]? = some l)
    (hb : ¬ BlankLine l) (ho : Outside (opensScript false) (closes scriptTag) (lines source) r)
    (ho' : Outside (opens styleTag) closesStyle (lines source) r) (hn : opensScript false l = false)
    (hn' : opens styleTag l = false) :
    ∃ units, pageUnits false maxDepth parse source = .ok units ∧
      ∃ u ∈ units, u.utype = .rawCode ∧ ∃ rows, Selection (lines source) rows u ∧ r ∈ rows := by
  obtain ⟨scripts, _, he⟩ := pageUnits_shallow (html := false) hp hs source
  have hmem := svelteKeep_complete (lines source) (lines source) 0 false false rfl openInv_false openInv_false r l (Nat.zero_le _)
    hl hb ho ho' hn hn'
  obtain ⟨b, hkb⟩ := keptBlock_some hmem
  refine ⟨_, he, blockUnit templateTag b, ?_, rfl, _, keptBlock_selection (svelteKeep_ok _ _ 0 false false rfl) hkb _,
    List.mem_map.2 ⟨_, hmem, rfl⟩⟩
  simp [hkb]

def page : Text := src ["<p>one</p>", "", "<script>", "f()", "</script>", "<p>two</p>"]

/-- The last line of `page` is outside its script. -/
example : Outside (opensScript true) (closes scriptTag) (lines page) 5 ∧ (lines page)[5]? = some "<p>two</p>".toList ∧
    (pageUnits true 10 (fun _ => none) page).toOption.map (fun us => us.map fun u => String.ofList u.code) =
      some ["<p>one</p>\n<script>\n</script>\n<p>two</p>"] := by
  refine ⟨?_, by decide +kernel, by decide +kernel⟩
  intro j l hj hl ho
  have hcases : j = 0 ∨ j = 1 ∨ j = 2 ∨ j = 3 ∨ j = 4 := by omega
  have hk : (lines page)[4]? = some "</script>".toList := by decide +kernel
  rcases hcases with rfl | rfl | rfl | rfl | rfl
  · rw [show (lines page)[0]? = some "<p>one</p>".toList by decide +kernel] at hl
    obtain rfl := Option.some.inj hl
    exact absurd ho (by decide +kernel)
  · exact ⟨4, _, by omega, by omega, hk, by decide +kernel, by decide +kernel⟩
  · exact ⟨4, _, by omega, by omega, hk, by decide +kernel, by decide +kernel⟩
  · exact ⟨4, _, by omega, by omega, hk, by decide +kernel, by decide +kernel⟩
  · rw [hk] at hl
    obtain rfl := Option.some.inj hl
    exact absurd ho (by decide +kernel)

/-- The script of `page` is a script on lines of its own, outside others. -/
example : ScriptAt (opensScript true) (lines page) (["<p>one</p>", ""].map String.toList) (["f()"].map String.toList) ∧
    Outside (opensScript true) (closes scriptTag) (lines page) 2 := by
  refine ⟨⟨"<script>".toList, "</script>".toList, ["<p>two</p>"].map String.toList, by decide +kernel⟩, ?_⟩
  intro j l hj hl ho
  rcases (by omega : j = 0 ∨ j = 1) with rfl | rfl
  · rw [show (lines page)[0]? = some "<p>one</p>".toList by decide +kernel] at hl
    obtain rfl := Option.some.inj hl
    exact absurd ho (by decide +kernel)
  · rw [show (lines page)[1]? = some [] by decide +kernel] at hl
    obtain rfl := Option.some.inj hl
    exact absurd ho (by decide +kernel)

/-- **C62 is false for HTML pages with a script on one line**: the parser goes on as if the script were open, so a paragraph after
it is in no unit, whatever the JavaScript parser does. -/
theorem C62_one_line_script_refuted (maxDepth : Nat) (parse : Text → Option Node) :
    ∃ (source l : Text) (n : Nat) (units : List CodeUnit), TextAt (lines source) n l ∧ l = "<p>hello</p>".toList ∧
      pageUnits true maxDepth parse source = .ok units ∧ ∀ u ∈ units, ¬ Covers u n ∧ ¬ l <:+: u.code := by
  have hscripts : allScripts maxDepth parse (scriptBlocks true (src ["<script>f()</script>", "<p>hello</p>"])) = .ok [] := by
    rw [show scriptBlocks true (src ["<script>f()</script>", "<p>hello</p>"]) = [] by decide +kernel]; rfl
  refine ⟨src ["<script>f()</script>", "<p>hello</p>"], "<p>hello</p>".toList, 2,
    [⟨"html_structure".toList, 1, 1, .rawCode, none, "<script>f()</script>".toList, [], [], "<script>f()</script>".toList⟩],
    ⟨by decide, by decide +kernel, ?_⟩, rfl, ?_, ?_⟩
  · rw [← blank_iff]; decide +kernel
  · unfold pageUnits
    simp only [hscripts]
    decide +kernel
  · unfold Covers; decide +kernel

/-- **C62 is false for Svelte components**: the style rules are in no unit. -/
theorem C62_svelte_refuted (maxDepth : Nat) (parse : Text → Option Node) :
    ∃ (source l : Text) (n : Nat) (units : List CodeUnit), TextAt (lines source) n l ∧ l = "p { color: red }".toList ∧
      pageUnits false maxDepth parse source = .ok units ∧ ∀ u ∈ units, ¬ Covers u n ∧ ¬ l <:+: u.code := by
  have hscripts : allScripts maxDepth parse
      (scriptBlocks false (src ["<p>hi</p>", "<style>", "p { color: red }", "</style>"])) = .ok [] := by
    rw [show scriptBlocks false (src ["<p>hi</p>", "<style>", "p { color: red }", "</style>"]) = [] by decide +kernel]; rfl
  refine ⟨src ["<p>hi</p>", "<style>", "p { color: red }", "</style>"], "p { color: red }".toList, 3,
    [⟨"template".toList, 1, 1, .rawCode, none, "<p>hi</p>".toList, [], [], "<p>hi</p>".toList⟩],
    ⟨by decide, by decide +kernel, ?_⟩, rfl, ?_, ?_⟩
  · rw [← blank_iff]; decide +kernel
  · unfold pageUnits
    simp only [hscripts]
    decide +kernel
  · unfold Covers; decide +kernel

/-! ### C63 -/

/-- **C63 (location), languages with a grammar.** Whatever the parser returns and however deep the file is nested, there is no
panic and the code of each unit is exactly the lines of its range. -/
theorem C63_code (lang : Lang) (maxDepth : Nat) (source : Text) (tree : Option Node)
    (hf : ∀ t, tree = some t → Fits t (lines source).length) :
    ∃ units, extractUnits lang maxDepth source tree = .ok units ∧ ∀ u ∈ units, CodeIs (lines source) u := by
  cases tree with
  | none => exact ⟨[], rfl, by simp⟩
  | some t =>
    have hf := hf t rfl
    obtain ⟨h1, h2, _⟩ := extractNode_outcome ⟨lang, maxDepth, false⟩ (lines source) t none 0 hf
    unfold extractUnits
    simp only
    cases he : extractNode ⟨lang, maxDepth, false⟩ (lines source) none 0 t with
    | error e =>
      cases e with
      | err => exact ⟨[], rfl, by simp⟩
      | panic => exact absurd he h2
    | ok decls =>
      have hdecl := h1 decls he
      simp only
      unfold fillGaps
      split
      · exact ⟨decls, rfl, fun u hu => (hdecl u hu).1⟩
      · split
        · rename_i hb
          rw [List.any_eq_true] at hb
          obtain ⟨u, hu, hbad⟩ := hb
          have := (hdecl u hu).1.2.1
          unfold badRange at hbad
          simp only [decide_eq_true_eq] at hbad
          omega
        · refine ⟨_, rfl, ?_⟩
          intro u hu
          have hg := gaps_ok (lines source) (covered (lines source).length decls) (lines source) 0 none rfl (Nat.zero_le _) trivial
          rcases List.mem_append.1 hu with hu | hu
          · exact (hdecl u hu).1
          · exact (hg.1 u hu).2.2.2.1

example : ∃ units, extractUnits .python 10 python (some tree) = .ok units ∧ units.length = 6 ∧
    ∃ u ∈ units, u.line = 3 ∧ u.code = "@cached\ndef f():\n    return g()".toList := by
  refine ⟨_, rfl, ?_⟩
  decide +kernel

/-- **C63 (location), Vue.** Every unit of a Vue file is where it says it is: line `k` of its code is a part of the line of the file
with the number `line + k`, and that number is in the range of the unit. -/
theorem C63_vue (maxDepth : Nat) (parse : Text → Option Node) (hp : ParserFits parse) (source : Text) :
    ∃ units, vueUnits maxDepth parse source = .ok units ∧ ∀ u ∈ units, Located (lines source) u :=
  vueUnits_ok hp source

/-- **C63 (location), Svelte and HTML: the definitions in scripts.** -/
theorem C63_scripts (html : Bool) (maxDepth : Nat) (parse : Text → Option Node) (hp : ParserFits parse) (source : Text) :
    ∃ units, pageUnits html maxDepth parse source = .ok units ∧
      ∀ u ∈ units, u.utype ≠ .rawCode → Located (lines source) u := by
  obtain ⟨us, he, h⟩ := pageUnits_ok (html := html) (maxDepth := maxDepth) hp source
  refine ⟨us, he, ?_⟩
  rcases h with rfl | ⟨scripts, hsc, rfl⟩
  · simp
  · intro u hu ht
    rcases List.mem_append.1 hu with hu | hu
    · exact (hsc u hu).1
    · obtain ⟨b, _, rfl⟩ := List.mem_map.1 hu
      exact absurd rfl ht

/-- A page with a script that starts on the line of its tag; the function in it is located. -/
example : (pageUnits true 10 (fun s => if s = "let y = 1\nfunction f() {}".toList then
      some (node .other none 0 1 none [] [node .function (some "f") 1 1 none [] []]) else none)
      (src ["<b>", "", "<script>let y = 1", "function f() {}", "</script>"])).toOption.map
      (fun us => us.map fun u => (String.ofList u.name, u.line, String.ofList u.code)) =
    some [("f", 4, "function f() {}"), ("html_structure", 1, "<b>\n<script>let y = 1\n</script>")] := by decide +kernel

/-- **C63 (location), Svelte and HTML: the structure of the page.** Its code is a choice of lines of the file in their order, and it
starts at the first of them.

Missing: its last line. The range is as long as the choice, so it is wrong as soon as a line was left out
(`C63_structure_range_refuted`). -/
theorem C63_structure_partial (html : Bool) (maxDepth : Nat) (parse : Text → Option Node) (hp : ParserFits parse)
    (source : Text) : ∃ units, pageUnits html maxDepth parse source = .ok units ∧
      ∀ u ∈ units, u.utype = .rawCode → ∃ rows, Selection (lines source) rows u := by
  obtain ⟨us, he, h⟩ := pageUnits_ok (html := html) (maxDepth := maxDepth) hp source
  refine ⟨us, he, ?_⟩
  rcases h with rfl | ⟨scripts, hsc, rfl⟩
  · simp
  · intro u hu ht
    rcases List.mem_append.1 hu with hu | hu
    · exact absurd ht (hsc u hu).2
    · obtain ⟨b, hb, rfl⟩ := List.mem_map.1 hu
      refine ⟨_, keptBlock_selection ?_ (Option.mem_toList.1 hb) _⟩
      cases html
      · exact svelteKeep_ok _ _ 0 false false rfl
      · exact htmlKeep_ok _ _ 0 false rfl

/-- **C63 is false for the structure of an HTML page or Svelte component with a blank line**: the unit says lines 1 to 2, but its code has
line 3 of the file, and what stands at line 2 of the unit's code is not line 2 of the file. -/
theorem C63_structure_range_refuted (html : Bool) (maxDepth : Nat) (parse : Text → Option Node) :
    ∃ (source : Text) (u : CodeUnit), pageUnits html maxDepth parse source = .ok [u] ∧
      (∃ l, TextAt (lines source) 3 l ∧ HasLine u.code l) ∧ ¬ Covers u 3 ∧ ¬ Located (lines source) u := by
  have hscripts : ∀ h, allScripts maxDepth parse (scriptBlocks h (src ["<p>", "", "</p>"])) = .ok [] := by
    intro h
    rw [show scriptBlocks h (src ["<p>", "", "</p>"]) = [] by cases h <;> decide +kernel]; rfl
  generalize hname : (if html then "html_structure".toList else "template".toList) = name
  refine ⟨src ["<p>", "", "</p>"], ⟨name, 1, 2, .rawCode, none, "<p>".toList, [], [], "<p>\n</p>".toList⟩, ?_, ⟨"</p>".toList, ⟨by decide, by decide +kernel, ?_⟩, "<p>\n".toList, [], ?_,
      by decide +kernel, by simp⟩, by simp [Covers], ?_⟩
  · unfold pageUnits
    simp only [hscripts]
    subst hname
    cases html <;> decide +kernel
  · rw [← blank_iff]; decide +kernel
  · show "<p>\n</p>".toList = _
    decide +kernel
  · rintro ⟨_, h⟩
    obtain ⟨_, w, hw, hin⟩ := h 1 "</p>".toList (show (lines "<p>\n</p>".toList)[1]? = _ by decide +kernel)
    simp only [Nat.reduceAdd, Nat.add_one_sub_one] at hw
    rw [show (lines (src ["<p>", "", "</p>"]))[1]? = some [] by decide +kernel] at hw
    obtain rfl := Option.some.inj hw
    have := List.infix_nil.1 hin
    revert this
    decide +kernel

/-! ### C64 -/

/-- **C64 (call graph).** Of units that have no callers yet, the call graph gives each unit the names of exactly those units of the same
run that call its name, in strictly increasing order, and changes nothing else. -/
theorem C64_called_by (units : List CodeUnit) (hnew : ∀ u ∈ units, u.calledBy = []) :
    List.Forall₂ (fun u v : CodeUnit => v = { u with calledBy := v.calledBy } ∧ v.calledBy.Pairwise (· < ·) ∧
      ∀ x, x ∈ v.calledBy ↔ CalledFrom units u.name x) units (buildCallGraph units) := by
  unfold buildCallGraph
  rw [List.forall₂_map_right_iff, List.forall₂_same]
  intro u hu
  split
  · rename_i he
    rw [List.isEmpty_iff] at he
    refine ⟨rfl, by simp [hnew u hu], ?_⟩
    intro x
    rw [hnew u hu, ← mem_callersOf, he]
  · refine ⟨rfl, dedupAdj_sorted _ (List.pairwise_insertionSort _ _), ?_⟩
    intro x
    rw [mem_dedupAdj, (List.perm_insertionSort _ _).mem_iff, mem_callersOf]

def fnUnit (name : String) (calls : List String) : CodeUnit :=
  ⟨name.toList, 1, 1, .function, none, [], calls.map String.toList, [], []⟩

example : (∀ u ∈ [fnUnit "f" ["g", "g"], fnUnit "g" ["g"], fnUnit "a" ["g", "h"]], u.calledBy = []) ∧
    (buildCallGraph [fnUnit "f" ["g", "g"], fnUnit "g" ["g"], fnUnit "a" ["g", "h"]]).map
      (fun u => u.calledBy.map String.ofList) = [[], ["a", "f", "g"], []] := by decide +kernel

/-- **C64 (updates).** Running the call graph on two parts of a project gives the same as running it on the whole, provided neither part
calls a name of the other. -/
theorem C64_parts_partial (old new : List CodeUnit) (h1 : ∀ u ∈ old, ∀ v ∈ new, u.name ∉ v.calls)
    (h2 : ∀ u ∈ new, ∀ v ∈ old, u.name ∉ v.calls) :
    buildCallGraph (old ++ new) = buildCallGraph old ++ buildCallGraph new := graph_append h1 h2

example : (∀ u ∈ [fnUnit "f" ["f"]], ∀ v ∈ [fnUnit "g" ["g", "h"]], u.name ∉ v.calls) ∧
    (∀ u ∈ [fnUnit "g" ["g", "h"]], ∀ v ∈ [fnUnit "f" ["f"]], u.name ∉ v.calls) := by decide +kernel

/-- **C64 is false across an incremental update.** An update runs the call graph on the new units only
(/repo/colgrep/src/index/mod.rs:2617), so a function that was indexed before does not get its new caller, and a new function does
not get its old callers; an index built from scratch has both. The text that is embedded for a unit contains these names
(/repo/colgrep/src/embed.rs:178). -/
theorem C64_incremental_refuted : ∃ old new : List CodeUnit, (∀ u ∈ old ++ new, u.calledBy = []) ∧
    (∃ (i : Nat) (u v : CodeUnit), i < old.length ∧ (buildCallGraph (old ++ new))[i]? = some u ∧
      (buildCallGraph old ++ buildCallGraph new)[i]? = some v ∧ u.calledBy ≠ v.calledBy) ∧
    ∃ (i : Nat) (u v : CodeUnit), old.length ≤ i ∧ (buildCallGraph (old ++ new))[i]? = some u ∧
      (buildCallGraph old ++ buildCallGraph new)[i]? = some v ∧ u.calledBy ≠ v.calledBy := by
  refine ⟨[fnUnit "f" ["g"]], [fnUnit "g" ["f"]], by decide +kernel,
    ⟨0, { fnUnit "f" ["g"] with calledBy := ["g".toList] }, fnUnit "f" ["g"], by decide, by decide +kernel, by decide +kernel,
      by decide +kernel⟩,
    ⟨1, { fnUnit "g" ["f"] with calledBy := ["f".toList] }, fnUnit "g" ["f"], by decide, by decide +kernel, by decide +kernel,
      by decide +kernel⟩⟩

end NextPlaid.Props
