import Verif.Proofs.Docs3

/-!
C94: the docstring of a unit is what the comment above it says.
-/

namespace NextPlaid.Props

open Units (Text trim isWs)
open Scan (Language)
open Docs DocsSpec

namespace ToyDocs

def file (ls : List String) : List Text := ls.map String.toList
def at_ (row : Nat) : DNode := .mk ⟨"function", none, row, row⟩ []

/-- A Rust file. -/
def rust : List Text := file ["fn a() {}", "/// Adds two", "/// numbers.", "#[inline]", "fn add() {}"]
/-- A Go file: a remark, a blank line, the comment of a function. -/
def go : List Text := file ["// TODO: tidy up.", "", "// Add adds.", "func Add() {}"]
/-- A JavaScript file. -/
def js : List Text := file ["/**", " * Adds two", " * numbers.", " */", "function add() {}"]
/-- The same comment, closed on its last line of text. -/
def jsClosed : List Text := file ["/** Adds two", " * numbers. */", "function add() {}"]
/-- A JavaScript file with a comment at the end of a line of code. -/
def jsCode : List Text := file ["/* Licence */", "setup();", "run(); /* once */", "function add() {}"]
/-- An OCaml file. -/
def ml : List Text := file ["(** Adds two", "    numbers.", "*)", "let add a b = a + b"]
/-- A Haskell file. -/
def hs : List Text := file ["-- | Adds two", "-- numbers.", "add a b = a + b"]
/-- A Lua file. -/
def lua : List Text := file ["--- Adds two", "-- numbers.", "function add(a, b) end"]
/-- Elixir files. -/
def ex : List Text := file ["defmodule M do", "  @doc \"Adds.\"", "  @spec add(integer) :: integer", "  def add(a), do: a"]
def exFalse : List Text := file ["defmodule M do", "  @moduledoc \"All of M.\"", "", "  @doc false", "  def helper(a), do: a"]
def exHeredoc : List Text := file ["defmodule M do", "  @doc \"\"\"", "  Adds.", "  \"\"\"", "  def add(a), do: a"]
/-- `def add(a, b):` with a docstring in the second line. -/
def py : List Text := file ["def add(a, b):", "    \"\"\"Adds two numbers.\"\"\"", "    return a + b"]
def pyString : DNode := .mk ⟨"string", none, 1, 1⟩ []
def pyNode : DNode := .mk ⟨"function_definition", none, 0, 2⟩
  [.mk ⟨"identifier", some "name", 0, 0⟩ [], .mk ⟨"block", some "body", 1, 2⟩ [.mk ⟨"expression_statement", none, 1, 1⟩ [pyString]]]

end ToyDocs

open ToyDocs

/-! ### Comments with a mark on each line -/

/-- In Rust, Swift, Go and Ruby: take the lines directly above the unit that are comments, blank or (in Rust) attributes, as
many as there are. The docstring is what the comments among them say, in order, with spaces between; there is none if none
of them is a comment. -/
theorem C94_lines (lang : Language) (mark : Text) (skip : List Text) (hl : (lang, mark, skip) ∈ lineComments) (n : DNode)
    (lines block ts : List Text) (ha : Above (LineOk mark skip) lines n.info.first block)
    (hr : Reads (Marked mark) (Content mark) block ts) : docstring lang n lines = .ok (docOf ts) := by
  obtain ⟨up, e, hup⟩ := above_eq ha
  have hs : Solid mark ∧ ∀ s ∈ skip, Solid s := by
    simp only [lineComments, List.mem_cons, List.not_mem_nil, or_false, Prod.mk.injEq] at hl
    rcases hl with ⟨-, rfl, rfl⟩ | ⟨-, rfl, rfl⟩ | ⟨-, rfl, rfl⟩ | ⟨-, rfl, rfl⟩
    · refine ⟨⟨by decide, by decide, by decide⟩, fun s hs => ?_⟩
      simp only [List.mem_cons, List.not_mem_nil, or_false] at hs
      rcases hs with rfl | rfl
      · exact ⟨by decide, by decide, by decide⟩
      · exact ⟨by decide, by decide, by decide⟩
    · exact ⟨⟨by decide, by decide, by decide⟩, by simp⟩
    · exact ⟨⟨by decide, by decide, by decide⟩, by simp⟩
    · exact ⟨⟨by decide, by decide, by decide⟩, by simp⟩
  have hp : lang ≠ .python := by
    rintro rfl
    revert hl
    simp [lineComments]
  have hloop := lineLoop_of hs.1 hs.2 hup block ts [] ha.all hr
  rw [List.append_nil] at hloop
  have hd : docAbove lang (block.reverse ++ up) = nonEmptyDoc (lineLoop mark skip (block.reverse ++ up) []) := by
    simp only [lineComments, List.mem_cons, List.not_mem_nil, or_false, Prod.mk.injEq] at hl
    rcases hl with ⟨rfl, rfl, rfl⟩ | ⟨rfl, rfl, rfl⟩ | ⟨rfl, rfl, rfl⟩ | ⟨rfl, rfl, rfl⟩ <;> rfl
  rw [docstring_eq hp, e, Option.bind_some, hd, hloop, docOf_eq]

/-- Such lines, and what they say, there are for every file and every row in it. -/
theorem C94_lines_covers (mark : Text) (hm : mark ≠ []) (skip lines : List Text) (row : Nat) (h : row ≤ lines.length) :
    ∃ block ts, Above (LineOk mark skip) lines row block ∧ Reads (Marked mark) (Content mark) block ts := by
  obtain ⟨block, hb⟩ := above_exists (LineOk mark skip) lines row h
  obtain ⟨ts, ht⟩ := reads_exists (fun l hl => content_exists hm hl) block
  exact ⟨block, ts, hb, ht⟩

example : docstring .rust (at_ 4) rust = .ok (some "Adds two numbers.".toList) := by rfl

/-- So comments that belong to something else are taken in, if only blank lines are between. -/
theorem C94_detached : docstring .go (at_ 3) go = .ok (some "TODO: tidy up. Add adds.".toList) := by rfl

/-- In C and C++: comments with `///` as in Swift. -/
theorem C94_c_lines (lang : Language) (hl : lang = .c ∨ lang = .cpp) (n : DNode) (lines block ts : List Text)
    (ha : Above (LineOk "///".toList []) lines n.info.first block)
    (hr : Reads (Marked "///".toList) (Content "///".toList) block ts) (ht : ts ≠ []) :
    docstring lang n lines = .ok (some ([' '].intercalate ts)) := by
  obtain ⟨up, e, hup⟩ := above_eq ha
  have hloop := lineLoop_of (mark := "///".toList) (skip := []) ⟨by decide, by decide, by decide⟩ (by simp) hup block ts [] ha.all hr
  rw [List.append_nil] at hloop
  have hd : nonEmptyDoc ts = some ([' '].intercalate ts) := by
    rw [docOf_eq, docOf, if_neg ht]
  have hp : lang ≠ .python := by rcases hl with rfl | rfl <;> simp
  rw [docstring_eq hp, e, Option.bind_some]
  rcases hl with rfl | rfl <;>
  · simp only [docAbove]
    rw [hloop, hd]

/-- Without such comments, as in JavaScript. -/
theorem C94_c_block (lang : Language) (hl : lang = .c ∨ lang = .cpp) (n : DNode) (lines block : List Text)
    (ha : Above (LineOk "///".toList []) lines n.info.first block) (hr : ∀ l ∈ block, ¬ Marked "///".toList l) :
    docstring lang n lines = docstring .javascript n lines := by
  obtain ⟨up, e, hup⟩ := above_eq ha
  have hreads : Reads (Marked "///".toList) (Content "///".toList) block [] := by
    clear ha e
    induction block with
    | nil => exact .nil
    | cons l block ih => exact .pass (hr l (by simp)) (ih fun x hx => hr x (by simp [hx]))
  have hloop := lineLoop_of (mark := "///".toList) (skip := []) ⟨by decide, by decide, by decide⟩ (by simp) hup block [] [] ha.all hreads
  rw [List.append_nil] at hloop
  have hp : lang ≠ .python := by rcases hl with rfl | rfl <;> simp
  rw [docstring_eq hp, docstring_eq (by simp), e, Option.bind_some, Option.bind_some]
  rcases hl with rfl | rfl <;>
  · simp only [docAbove]
    rw [hloop]
    rfl

example : docstring .cpp (at_ 2) (file ["", "/// Adds.", "int add();"]) = .ok (some "Adds.".toList) := by rfl
example : docstring .cpp (at_ 2) jsClosed = .ok (some "Adds two numbers.".toList) := by rfl

/-! ### Comments between two marks -/

/-- In the languages with comments like `/** … */`: if the lines directly above the unit are a comment whose last line has
text before the closing mark, the docstring is the text of its lines. (Missing: comments that are closed on a line of their
own, see `C94_block_slash`.) -/
theorem C94_block_partial (lang : Language) (hl : lang ∈ blockComments) (n : DNode) (lines before : List Text)
    (hrow : n.info.first ≤ lines.length) (ts : List Text)
    (h : (∃ l t, lines.take n.info.first = before ++ [l] ∧ Closes Opens l t ∧ ts = [t]) ∨
      ∃ first mid last t0 tm t1, lines.take n.info.first = before ++ first :: (mid ++ [last]) ∧ Opens first t0 ∧
        List.Forall₂ Goes mid tm ∧ Closes Goes last t1 ∧ ts = t0 :: (tm ++ [t1])) :
    docstring lang n lines = .ok (some ([' '].intercalate (ts.filter fun t => !t.isEmpty))) := by
  have hp : lang ≠ .python := by rintro rfl; revert hl; simp [blockComments]
  have hd : ∀ up, docAbove lang up = blockDoc opensC "*/".toList cleanC up := by
    intro up
    simp only [blockComments, List.mem_cons, List.not_mem_nil, or_false] at hl
    rcases hl with rfl | rfl | rfl | rfl | rfl | rfl | rfl | rfl | rfl <;> rfl
  rw [docstring_eq hp, above, if_pos hrow, Option.bind_some, hd]
  congr 1
  rcases h with ⟨l, t, e, hc, rfl⟩ | ⟨first, mid, last, t0, tm, t1, e, ho, hm, hc, rfl⟩
  · rw [e, List.reverse_append]
    have ho : opensC l = true := by
      obtain ⟨_, l', w', _, rfl, w, m, r, hw, hm, rfl, _⟩ := hc
      rw [opensC_iff]
      rcases hm with rfl | rfl
      · exact ⟨w, '*' :: r ++ "*/".toList ++ w', hw, by simp⟩
      · exact ⟨w, r ++ "*/".toList ++ w', hw, by simp⟩
    exact blockDoc_of (rest := []) ho (by simp) (by
      intro x hx
      obtain rfl : l = x := by simpa using hx
      exact (ended_iff solid_close).2 (closes_ended hc)) (by simp [clean_closes_opens hc])
  · rw [e, List.reverse_append, List.reverse_cons, List.append_assoc, List.singleton_append]
    have hmid : mid.map cleanC = tm := by
      clear e
      induction hm with
      | nil => rfl
      | cons h _ ih => rw [List.map_cons, clean_goes h, ih]
    have hno : ∀ x ∈ mid, opensC x = false := by
      clear e hmid
      induction hm with
      | nil => simp
      | cons h _ ih =>
        intro x hx
        rcases List.mem_cons.1 hx with rfl | hx
        · exact goes_opensC h
        · exact ih x hx
    refine blockDoc_of (rest := mid ++ [last]) (opens_opensC ho) ?_ ?_ ?_
    · intro x hx
      rcases List.mem_append.1 hx with hx | hx
      · exact hno x hx
      · rw [List.mem_singleton.1 hx]; exact closes_opensC hc
    · intro x hx
      rw [← List.cons_append, List.getLast?_append_of_ne_nil _ (by simp)] at hx
      obtain rfl : last = x := by simpa using hx
      exact (ended_iff solid_close).2 (closes_ended hc)
    · rw [List.map_cons, List.map_append, List.map_singleton, clean_opens ho, hmid, clean_closes_goes hc]

example : docstring .java (at_ 2) jsClosed = .ok (some "Adds two numbers.".toList) := by rfl

/-- If the closing mark has a line of its own, as is usual, there is a slash after the text. -/
theorem C94_block_slash (lang : Language) (hl : lang ∈ blockComments) (n : DNode) (lines before : List Text)
    (hrow : n.info.first ≤ lines.length) (first last t0 : Text) (mid tm : List Text)
    (e : lines.take n.info.first = before ++ first :: (mid ++ [last])) (ho : Opens first t0) (hm : List.Forall₂ Goes mid tm)
    (hc : BareClose last) :
    docstring lang n lines = .ok (some ([' '].intercalate (((t0 :: tm).filter fun t => !t.isEmpty) ++ [['/']]))) := by
  have hp : lang ≠ .python := by rintro rfl; revert hl; simp [blockComments]
  have hd : ∀ up, docAbove lang up = blockDoc opensC "*/".toList cleanC up := by
    intro up
    simp only [blockComments, List.mem_cons, List.not_mem_nil, or_false] at hl
    rcases hl with rfl | rfl | rfl | rfl | rfl | rfl | rfl | rfl | rfl <;> rfl
  rw [docstring_eq hp, above, if_pos hrow, Option.bind_some, hd, e, List.reverse_append, List.reverse_cons, List.append_assoc,
    List.singleton_append]
  have hmid : mid.map cleanC = tm := by
    clear e
    induction hm with
    | nil => rfl
    | cons h _ ih => rw [List.map_cons, clean_goes h, ih]
  have hno : ∀ x ∈ mid, opensC x = false := by
    clear e hmid
    induction hm with
    | nil => simp
    | cons h _ ih =>
      intro x hx
      rcases List.mem_cons.1 hx with rfl | hx
      · exact goes_opensC h
      · exact ih x hx
  have h := blockDoc_of (close := "*/".toList) (clean := cleanC) (up := before.reverse) (rest := mid ++ [last])
    (ts := (t0 :: tm) ++ [['/']]) (opens_opensC ho) (by
      intro x hx
      rcases List.mem_append.1 hx with hx | hx
      · exact hno x hx
      · rw [List.mem_singleton.1 hx]; exact bare_opensC hc) (by
      intro x hx
      rw [← List.cons_append, List.getLast?_append_of_ne_nil _ (by simp)] at hx
      obtain rfl : last = x := by simpa using hx
      exact (ended_iff solid_close).2 (bare_ended hc)) (by
      rw [List.map_cons, List.map_append, List.map_singleton, clean_opens ho, hmid, clean_bare hc]; rfl)
  rw [h, List.filter_append]
  rfl

example : docstring .javascript (at_ 4) js = .ok (some "Adds two numbers. /".toList) := by rfl

/-- If there is a docstring, the line directly above the unit ends with the closing mark, and the docstring is made of pieces
of the lines from the nearest one that begins with an opening mark. -/
theorem C94_block_sound (lang : Language) (hl : lang ∈ blockComments) (n : DNode) (lines : List Text) (d : Text)
    (h : docstring lang n lines = .ok (some d)) : ∃ before first rest ps, lines.take n.info.first = before ++ first :: rest ∧
      Marked "/*".toList first ∧ (∀ l ∈ rest, ¬ Marked "/*".toList l) ∧ (∀ l ∈ (first :: rest).getLast?, Ended "*/".toList l) ∧
      List.Forall₂ (fun p l => p <:+: l) ps (first :: rest) ∧ d = [' '].intercalate (ps.filter fun t => !t.isEmpty) := by
  have hp : lang ≠ .python := by rintro rfl; revert hl; simp [blockComments]
  have hd : ∀ up, docAbove lang up = blockDoc opensC "*/".toList cleanC up := by
    intro up
    simp only [blockComments, List.mem_cons, List.not_mem_nil, or_false] at hl
    rcases hl with rfl | rfl | rfl | rfl | rfl | rfl | rfl | rfl | rfl <;> rfl
  rw [docstring_eq hp] at h
  have h := Except.ok.inj h
  obtain ⟨up, hup, h⟩ := Option.bind_eq_some_iff.1 h
  rw [above] at hup
  split at hup
  · obtain rfl := (Option.some.inj hup).symm
    rw [hd] at h
    obtain ⟨ls, first, rest, up', h1, h2, h3, h4, h5⟩ : ∃ ls first rest up', (lines.take n.info.first).reverse = rest.reverse ++ first :: up' ∧
        opensC first = true ∧ (∀ l ∈ rest, opensC l = false) ∧ (∀ l ∈ (lines.take n.info.first).reverse.head?, endsWith (trim l) "*/".toList = true) ∧
        (ls = (first :: rest).map cleanC ∧ d = [' '].intercalate (ls.filter fun t => !t.isEmpty)) := by
      cases hc : (lines.take n.info.first).reverse with
      | nil => rw [hc] at h; simp [blockDoc] at h
      | cons l ups =>
        rw [hc, blockDoc] at h
        split at h
        · next he =>
          obtain ⟨ls, hu, hj⟩ := Option.map_eq_some_iff.1 h
          obtain ⟨first, rest, up', g1, g2, g3, g4⟩ := upTo_some _ _ _ hu
          rw [List.append_nil] at g2
          exact ⟨ls.map cleanC, first, rest, up', g1, g3, g4, by simpa using he, by rw [g2], hj.symm⟩
        · exact absurd h (by simp)
    obtain ⟨rfl, h5⟩ := h5
    have e : lines.take n.info.first = up'.reverse ++ first :: rest := by
      rw [← List.reverse_reverse (lines.take n.info.first), h1]; simp
    refine ⟨up'.reverse, first, rest, _, e, opensC_iff.1 h2, fun l hm ho => ?_, fun l hm => ?_, ?_, h5⟩
    · have := h3 l hm
      rw [opensC_iff.2 ho] at this
      exact absurd this (by simp)
    · refine (ended_iff solid_close).1 (h4 l ?_)
      rw [List.head?_reverse, e, List.getLast?_append_of_ne_nil _ (by simp)]
      exact hm
    · generalize first :: rest = ls
      induction ls with
      | nil => exact .nil
      | cons l ls ih => exact .cons (cleanC_infix l) ih
  · exact absurd hup (by simp)

/-- But a comment at the end of a line of code counts too, and then everything from the nearest line that begins with an
opening mark is taken for the comment. -/
theorem C94_code : docstring .javascript (at_ 3) jsCode = .ok (some "Licence setup(); run(); /* once".toList) := by rfl

/-- In OCaml: if the lines directly above the unit are a comment, the docstring is the text of its lines. -/
theorem C94_ocaml (n : DNode) (lines before : List Text) (hrow : n.info.first ≤ lines.length) (ts : List Text)
    (h : (∃ l t, lines.take n.info.first = before ++ [l] ∧ MlCloses MlOpens l t ∧ ts = [t]) ∨
      ∃ first mid last t0 tm t1, lines.take n.info.first = before ++ first :: (mid ++ [last]) ∧ MlOpens first t0 ∧
        List.Forall₂ MlBody mid tm ∧ MlCloses MlBody last t1 ∧ ts = t0 :: (tm ++ [t1])) :
    docstring .ocaml n lines = .ok (some ([' '].intercalate (ts.filter fun t => !t.isEmpty))) := by
  rw [docstring_eq (by simp), above, if_pos hrow, Option.bind_some]
  congr 1
  show blockDoc opensMl "*)".toList cleanMl _ = _
  rcases h with ⟨l, t, e, hc, rfl⟩ | ⟨first, mid, last, t0, tm, t1, e, ho, hm, hc, rfl⟩
  · rw [e, List.reverse_append]
    have ho : opensMl l = true := by
      obtain ⟨l', w', _, rfl, w, r, hw, rfl, _⟩ := hc
      exact (marked_iff solid_ml).2 ⟨w, r ++ "*)".toList ++ w', hw, by simp⟩
    exact blockDoc_of (rest := []) ho (by simp) (by
      intro x hx
      obtain rfl : l = x := by simpa using hx
      exact (ended_iff solid_mlClose).2 (mlCloses_ended hc)) (by simp [cleanMl_closes_opens hc])
  · rw [e, List.reverse_append, List.reverse_cons, List.append_assoc, List.singleton_append]
    have hmid : mid.map cleanMl = tm ∧ ∀ x ∈ mid, opensMl x = false := by
      clear e
      induction hm with
      | nil => simp
      | cons h _ ih =>
        refine ⟨by rw [List.map_cons, cleanMl_goes h, ih.1], fun x hx => ?_⟩
        rcases List.mem_cons.1 hx with rfl | hx
        · exact goes_opensMl h
        · exact ih.2 x hx
    refine blockDoc_of (rest := mid ++ [last]) (opens_opensMl ho) ?_ ?_ ?_
    · intro x hx
      rcases List.mem_append.1 hx with hx | hx
      · exact hmid.2 x hx
      · rw [List.mem_singleton.1 hx]; exact closes_opensMl hc
    · intro x hx
      rw [← List.cons_append, List.getLast?_append_of_ne_nil _ (by simp)] at hx
      obtain rfl : last = x := by simpa using hx
      exact (ended_iff solid_mlClose).2 (mlCloses_ended hc)
    · rw [List.map_cons, List.map_append, List.map_singleton, cleanMl_opens ho, hmid.1, cleanMl_closes_goes hc]

example : docstring .ocaml (at_ 3) ml = .ok (some "Adds two numbers.".toList) := by rfl

/-! ### Haskell, Lua, Elixir -/

/-- In Haskell: take the lines directly above the unit that are comments or blank. If the nearest one that is not blank begins
with `-- |` or `-- ^`, the docstring is what all of them say. -/
theorem C94_haskell (n : DNode) (lines up white ts : List Text) (l : Text)
    (ha : Above DashOk lines n.info.first (up ++ l :: white)) (hw : ∀ x ∈ white, White x) (hm : HaskellMark l)
    (hr : Reads (Marked "--".toList) HaskellSays (up ++ l :: white) ts) :
    docstring .haskell n lines = .ok (some ([' '].intercalate ts)) := by
  obtain ⟨above', e, hup⟩ := above_eq ha
  rw [docstring_eq (by simp), e, Option.bind_some]
  congr 1
  show nonEmptyDoc (haskellLoop _ []) = _
  have hr' : Reads (Marked "--".toList) HaskellSays (up ++ [l]) ts := by
    refine reads_white white ts (fun x hx => white_not_marked solid_dashes (hw x hx)) ?_
    simpa using hr
  have hloop : haskellLoop ((up ++ l :: white).reverse ++ above') [] = ts := by
    rw [List.reverse_append, List.reverse_cons, List.append_assoc, List.append_assoc,
      haskellLoop_white _ (fun x hx => hw x (List.mem_reverse.1 hx)), List.singleton_append, haskellLoop, if_pos (haskellMark_iff.2 hm)]
    rcases reads_snoc hr' with ⟨_, t, ts', rfl, hc, hr''⟩ | ⟨hd, _⟩
    · rw [haskellSays_mark hm hc, haskellLoop_rest hup up ts' [t] (by simp) (fun x hx => ha.all x (by simp [hx])) hr'']
    · exact absurd (haskellMark_dashes hm) hd
  have hne : ts ≠ [] := by
    rcases reads_snoc hr' with ⟨_, t, ts', rfl, _⟩ | ⟨hd, _⟩
    · simp
    · exact absurd (haskellMark_dashes hm) hd
  rw [hloop, docOf_eq, docOf, if_neg hne]

example : docstring .haskell (at_ 1) (file ["-- | Adds.", "add a b = a + b"]) = .ok (some "Adds.".toList) := by rfl

/-- If it does not, there is no docstring: the usual comment, with `-- |` in the first line only, is lost. -/
theorem C94_haskell_lost (n : DNode) (lines up white : List Text) (l : Text) (hrow : n.info.first ≤ lines.length)
    (e : lines.take n.info.first = up ++ l :: white) (hw : ∀ x ∈ white, White x) (hl : ¬ White l) (hm : ¬ HaskellMark l) :
    docstring .haskell n lines = .ok none := by
  rw [docstring_eq (by simp), above, if_pos hrow, Option.bind_some, e, List.reverse_append, List.reverse_cons, List.append_assoc]
  show Except.ok (nonEmptyDoc (haskellLoop _ [])) = _
  rw [haskellLoop_white _ (fun x hx => hw x (List.mem_reverse.1 hx)), List.singleton_append, haskellLoop_stop hl hm]
  rfl

example : docstring .haskell (at_ 2) hs = .ok none := by rfl

/-- In Lua: take the lines directly above the unit that are comments or blank. If one of them begins with `---`, the
docstring is what all of them say; if not, there is none. -/
theorem C94_lua (n : DNode) (lines block ts : List Text) (ha : Above DashOk lines n.info.first block)
    (hr : Reads (Marked "--".toList) LuaSays block ts) :
    ((∃ l ∈ block, Marked "---".toList l) → docstring .lua n lines = .ok (some ([' '].intercalate ts))) ∧
    ((∀ l ∈ block, ¬ Marked "---".toList l) → docstring .lua n lines = .ok none) := by
  obtain ⟨up, e, hup⟩ := above_eq ha
  obtain ⟨h1, h2⟩ := luaLoop_of hup block ts [] false ha.all hr
  rw [docstring_eq (by simp), e, Option.bind_some]
  have hd : docAbove .lua (block.reverse ++ up) =
      nonEmptyDoc (if (luaLoop (block.reverse ++ up) [] false).2 then (luaLoop (block.reverse ++ up) [] false).1 else []) := rfl
  rw [hd]
  constructor
  · rintro ⟨l, hl, hm⟩
    rw [if_pos (h2.2 (.inr ⟨l, hl, hm⟩)), h1, List.append_nil, docOf_eq, docOf, if_neg]
    rintro rfl
    have hdash : Marked "--".toList l := by
      obtain ⟨w, r, hw, rfl⟩ := hm
      exact ⟨w, '-' :: r, hw, by simp⟩
    have : ∀ (b : List Text), Reads (Marked "--".toList) LuaSays b [] → ∀ x ∈ b, ¬ Marked "--".toList x := by
      intro b
      induction b with
      | nil => simp
      | cons y b ih =>
        intro h x hx
        cases h with
        | pass hy h =>
          rcases List.mem_cons.1 hx with rfl | hx
          · exact hy
          · exact ih h x hx
    exact this block hr l hl hdash
  · intro hno
    rw [if_neg]
    · rfl
    · intro h
      rcases h2.1 h with h | ⟨l, hl, hm⟩
      · exact absurd h (by simp)
      · exact hno l hl hm

/-- Such lines, and what they say, there are for every file and every row in it, in Haskell and in Lua. -/
theorem C94_dashes_covers (lines : List Text) (row : Nat) (h : row ≤ lines.length) : ∃ block, Above DashOk lines row block ∧
    (∃ ts, Reads (Marked "--".toList) HaskellSays block ts) ∧ ∃ ts, Reads (Marked "--".toList) LuaSays block ts := by
  obtain ⟨block, hb⟩ := above_exists DashOk lines row h
  exact ⟨block, hb, reads_exists (fun l hl => haskellSays_exists hl) block, reads_exists (fun l hl => luaSays_exists hl) block⟩

example : docstring .lua (at_ 2) lua = .ok (some "Adds two numbers.".toList) := by rfl

/-- In Elixir: the text between the quotes in the nearest line above the unit with `@doc` or `@moduledoc` and a quote, if
nothing is between but blank lines, comments and lines that begin with `@`. -/
theorem C94_elixir (n : DNode) (lines up between : List Text) (pre t w : Text) (hrow : n.info.first ≤ lines.length)
    (e : lines.take n.info.first = up ++ (pre ++ '"' :: t ++ '"' :: w) :: between) (hb : ∀ x ∈ between, ElixirPass x)
    (hd : ElixirDoc (pre ++ '"' :: t ++ '"' :: w)) (hp : '"' ∉ pre) (hw : White w) (h1 : ∀ c ∈ t.head?, c ≠ '"')
    (h2 : ∀ c ∈ t.getLast?, c ≠ '"') : docstring .elixir n lines = .ok (some t) := by
  rw [docstring_eq (by simp), above, if_pos hrow, Option.bind_some, e, List.reverse_append, List.reverse_cons, List.append_assoc]
  show Except.ok (elixirLoop _) = _
  rw [elixir_passes _ (fun x hx => hb x (List.mem_reverse.1 hx)), List.singleton_append, elixir_found hd hw hp h1 h2]

example : docstring .elixir (at_ 3) ex = .ok (some "Adds.".toList) := by rfl

/-- Otherwise there is none: if anything else is between, or there is no such line. -/
theorem C94_elixir_none (n : DNode) (lines between : List Text) (hrow : n.info.first ≤ lines.length)
    (hb : ∀ x ∈ between, ElixirPass x)
    (h : lines.take n.info.first = between ∨ ∃ up l, lines.take n.info.first = up ++ l :: between ∧ ¬ ElixirDoc l ∧ ¬ ElixirPass l) :
    docstring .elixir n lines = .ok none := by
  rw [docstring_eq (by simp), above, if_pos hrow, Option.bind_some]
  show Except.ok (elixirLoop _) = _
  have hb' : ∀ x ∈ between.reverse, ElixirPass x := fun x hx => hb x (List.mem_reverse.1 hx)
  rcases h with e | ⟨up, l, e, hd, hp⟩
  · rw [e]
    have := elixir_passes (up := []) _ hb'
    rw [List.append_nil] at this
    rw [this]
    rfl
  · rw [e, List.reverse_append, List.reverse_cons, List.append_assoc, elixir_passes _ hb', List.singleton_append, elixir_stop hd hp]

/-- So a function with `@doc false` has the documentation of the module, and one that is documented over several lines has
none. -/
theorem C94_elixir_false : docstring .elixir (at_ 4) exFalse = .ok (some "All of M.".toList) ∧
    docstring .elixir (at_ 4) exHeredoc = .ok none := ⟨rfl, rfl⟩

/-! ### Python -/

/-- In Python, there is a docstring exactly if the body begins with a string, and reading it does not panic. -/
theorem C94_python_some (n : DNode) (lines : List Text)
    (hin : ∀ e, PyString n e → e.info.first ≤ e.info.last ∧ e.info.last < lines.length) :
    ∃ o, docstring .python n lines = .ok o ∧ (o.isSome = true ↔ ∃ e, PyString n e) := by
  have hp : docstring .python n lines = pythonDoc n lines := if_pos rfl
  rw [hp]
  by_cases h : ∃ e, PyString n e
  · obtain ⟨e, he⟩ := h
    exact ⟨_, pythonDoc_of he (hin e he).1 (hin e he).2, by simp; exact ⟨e, he⟩⟩
  · exact ⟨none, pythonDoc_none fun e he => h ⟨e, he⟩, by simp at h ⊢; exact h⟩

/-- But a docstring that is indented, as it must be on a line of its own, keeps its opening quotes. -/
theorem C94_python_quotes (n e : DNode) (lines : List Text) (h : PyString n e) (h1 : e.info.first ≤ e.info.last)
    (h2 : e.info.last < lines.length) (w q t v q' : Text)
    (ht : ['\n'].intercalate ((lines.drop e.info.first).take (e.info.last + 1 - e.info.first)) = w ++ q ++ t ++ v ++ q')
    (hw : White w) (hw0 : w ≠ []) (hq : ∀ c ∈ q ++ q', c = '"' ∨ c = '\'') (hq0 : q ≠ []) (hv : White v) (ht0 : t ≠ [])
    (hl : ∀ c ∈ t.getLast?, isWs c = false ∧ c ≠ '"' ∧ c ≠ '\'') : docstring .python n lines = .ok (some (q ++ t)) := by
  have hp : docstring .python n lines = pythonDoc n lines := if_pos rfl
  rw [hp, pythonDoc_of h h1 h2, ht]
  have hwhite : ∀ c : Char, isWs c = true → c ≠ '"' ∧ c ≠ '\'' := by
    intro c hc
    constructor <;> rintro rfl <;> exact absurd hc (by decide)
  have e1 : Text.trimMatches (fun c => c == '"' || c == '\'') (w ++ q ++ t ++ v ++ q') = w ++ q ++ t ++ v := by
    have := Imports.trimMatches_of (p := fun c => c == '"' || c == '\'') (a := []) (s := w ++ q ++ t ++ v) (b := q') (by simp)
      (fun c hc => by simpa using hq c (by simp [hc])) (by
        intro c hc
        cases w with
        | nil => exact absurd rfl hw0
        | cons x w =>
          obtain rfl : x = c := by simpa using hc
          have := hwhite x (hw x (by simp))
          simpa using this) (by
        intro c hc
        rcases List.eq_nil_or_concat v with rfl | ⟨v', x, rfl⟩
        · rw [List.append_nil, List.getLast?_append_of_ne_nil _ ht0] at hc
          have := hl c hc
          simpa using this.2
        · obtain rfl : x = c := by simpa using hc
          have := hwhite x (hv x (by simp))
          simpa using this)
    simpa using this
  rw [e1]
  congr 2
  refine core_trim ⟨w, v, by simp, hw, hv, ?_, ?_⟩
  · intro c hc
    rw [List.head?_append_of_ne_nil _ hq0] at hc
    have := hq c (List.mem_append_left _ (List.mem_of_mem_head? hc))
    rcases this with rfl | rfl <;> decide
  · intro c hc
    rw [List.getLast?_append_of_ne_nil _ ht0] at hc
    exact (hl c hc).1

example : docstring .python pyNode py = .ok (some "\"\"\"Adds two numbers.".toList) := by rfl

/-! ### All languages -/

/-- In the other languages there are no docstrings; and none of the rest ever panics. -/
theorem C94_other (lang : Language) (n : DNode) (lines : List Text) : (lang ∉ documented → docstring lang n lines = .ok none) ∧
    (lang ≠ .python → ∃ o, docstring lang n lines = .ok o) := by
  refine ⟨fun h => ?_, fun h => ⟨_, docstring_eq h n lines⟩⟩
  have hp : lang ≠ .python := by rintro rfl; exact h (by decide)
  rw [docstring_eq hp]
  congr 1
  cases above lines n.info.first with
  | none => rfl
  | some up =>
    rw [Option.bind_some]
    cases lang <;> first
      | rfl
      | exact absurd (by decide) h

end NextPlaid.Props
