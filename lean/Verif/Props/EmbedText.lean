import Verif.Proofs.EmbedText

/-!
C79: the text that is embedded for a code unit says what is known of the unit, and is never longer than 8192 characters.
-/

namespace NextPlaid.Props
open NextPlaid.Spec NextPlaid.EmbedText

section
variable {A : Alphabet}

/-- No text is longer than 8192 characters. -/
theorem C79_limit (u : CodeUnit) : (buildText A u).length ≤ 8192 := by
  unfold buildText
  split <;> exact truncate_length _

/-- The text of a function, method, class, document or section: its kind and name, a line for each thing known of it, in this order, its
path in words and its code, cut to 8192 characters. -/
theorem C79_text (hA : Alphabet.Lawful A) (u : CodeUnit) (word : String) (hk : kindWord u.kind = some word) (hn : NamesGiven u) :
    ∃ path, PathText A (lastFour u.file) path ∧ CutTo A 8192 cutMark (wholeText u word.toList path) (buildText A u) := by
  obtain ⟨h1, h2⟩ := buildText_full (A := A) u word hk
  refine ⟨normalizePath A (lastFour u.file), path_spec hA _, ?_⟩
  rw [h1, fullText_eq u hn, h2]
  exact truncate_cut _

/-- The text of a block of code or of a constant is its code, cut to 8192 characters. -/
theorem C79_code_only (u : CodeUnit) (hk : kindWord u.kind = none) : CutTo A 8192 cutMark u.code (buildText A u) := by
  rw [buildText_code u hk]
  exact truncate_cut _

/-- If what is said before the code has at most 8192 characters less those of the mark, and does not end in white space, the text begins
with all of it, with the path too: only the end of the code is lost. -/
theorem C79_head_kept_partial (hA : Alphabet.Lawful A) (u : CodeUnit) (word : String) (hk : kindWord u.kind = some word)
    (hn : NamesGiven u) :
    ∃ path, PathText A (lastFour u.file) path ∧
      ((preamble u word.toList path).length ≤ 8192 - cutMark.length →
        (∀ c, (preamble u word.toList path).getLast? = some c → A.white c = false) →
        preamble u word.toList path <+: buildText A u) := by
  obtain ⟨h1, h2⟩ := buildText_full (A := A) u word hk
  refine ⟨normalizePath A (lastFour u.file), path_spec hA _, fun hl hw => ?_⟩
  rw [h1, fullText_eq u hn, h2]
  exact truncate_keeps _ _ hl hw

/-- In general the path is not kept: the text of a unit with a description of 8192 characters or more says nothing of its file, nor of its
code. -/
theorem C79_path_lost (u : CodeUnit) (file : List (List Char)) (code description : List Char) (hk : (kindWord u.kind).isSome)
    (hd : u.docstring = some description) (hl : 8192 ≤ description.length) :
    buildText A { u with file := file, code := code } = buildText A u := by
  obtain ⟨w, hw⟩ := Option.isSome_iff_exists.1 hk
  obtain ⟨a, b, b', ha, h1, h2⟩ := fullText_common (A := A) u file code description hd hl
  rw [(buildText_full u w hw).1, (buildText_full { u with file := file, code := code } w hw).1, h1, h2]
  exact truncate_same a b' b ha

/-- What is taken for the extension of a file may be most of its path: if the last dot is in the name of a directory, what follows it
there and the directories below it are not in the text. -/
theorem C79_directories_lost (u : CodeUnit) (x a b m m' name : List Char) (ha : '.' ∉ a) (hb : '.' ∉ b) (hm : '.' ∉ m) (hm' : '.' ∉ m')
    (hn : '.' ∉ name) (hs : ∀ c ∈ name, c ≠ '/' ∧ c ≠ '\\') :
    buildText A { u with file := [x ++ '.' :: a, m, name] } = buildText A { u with file := [x ++ '.' :: b, m', name] } := by
  have hs' : ∀ c ∈ name, isSlash c = false := by
    intro c hc
    have := hs c hc
    unfold isSlash
    simp [this.1, this.2]
  have key : ∀ a m : List Char, '.' ∉ a → '.' ∉ m → normalizePath A (shortenPath [x ++ '.' :: a, m, name]) =
      A.low (List.intercalate [' '] (wordsFrom A.white [] (pathLoop A [] none x))) ++ ' ' :: name := by
    intro a m ha hm
    have : shortenPath [x ++ '.' :: a, m, name] = x ++ '.' :: ((a ++ '/' :: m) ++ '/' :: name) := by
      simp [shortenPath, List.intercalate]
    rw [this]
    apply normalize_dotted _ _ _ _ hn hs'
    intro h
    rcases List.mem_append.1 h with h | h
    · exact ha h
    · rcases List.mem_cons.1 h with h | h
      · cases h
      · exact hm h
  unfold buildText headParts
  simp only [key a m ha hm, key b m' hb hm']

end

/-! ### Concrete cases -/

namespace EmbedText

def ascii : Alphabet where
  white c := c == ' ' || c == '\n' || c == '\t'
  upper c := 'A'.toNat ≤ c.toNat && c.toNat ≤ 'Z'.toNat
  lower c := 'a'.toNat ≤ c.toNat && c.toNat ≤ 'z'.toNat
  low s := s.map fun c => if 'A'.toNat ≤ c.toNat && c.toNat ≤ 'Z'.toNat then Char.ofNat (c.toNat + 32) else c

theorem ascii_lawful : Alphabet.Lawful ascii := by
  have key : ∀ c d : Char, (ascii.upper c = true ∨ ascii.lower c = true) →
      d ∈ [' ', '\n', '\t', '/', '\\', '_', '-', '.'] → c ≠ d := by
    intro c d h hd he
    subst he
    have : ∀ d ∈ [' ', '\n', '\t', '/', '\\', '_', '-', '.'], ascii.upper d = false ∧ ascii.lower d = false := by decide
    have := this c hd
    rw [this.1, this.2] at h
    rcases h with h | h <;> cases h
  refine ⟨rfl, ?_, ?_⟩
  · intro c h
    have h1 := key c ' ' h (by simp)
    have h2 := key c '\n' h (by simp)
    have h3 := key c '\t' h (by simp)
    show (c == ' ' || c == '\n' || c == '\t') = false
    simp [h1, h2, h3]
  · intro c h hc
    refine key c c h ?_ rfl
    simp only [List.mem_cons, List.not_mem_nil, or_false] at hc ⊢
    rcases hc with h | h | h | h | h <;> simp [h]

def unit : CodeUnit where
  kind := .function
  name := "fetch".toList
  signature := "def fetch(url)".toList
  extends_ := none
  parentClass := none
  docstring := some "Gets a page.".toList
  parameters := ["url".toList, "timeout".toList]
  returnType := none
  calls := ["open".toList]
  calledBy := []
  variables := []
  imports := []
  file := ["home".toList, "me".toList, "my-project".toList, "src".toList, "httpTools".toList, "HttpClient_v2.py".toList]
  code := "def fetch(url):\n  return open(url)".toList

example : NamesGiven unit ∧ kindWord unit.kind = some "Function" := by
  constructor
  · unfold NamesGiven; decide
  · rfl

/-- The whole text. -/
example : buildText ascii unit =
    ("Function: fetch\nSignature: def fetch(url)\nDescription: Gets a page.\nParameters: url, timeout\nCalls: open\n" ++
      "File: my project src http tools http client v2 HttpClient_v2.py\nCode:\ndef fetch(url):\n  return open(url)").toList := by
  decide +kernel

/-- Directories that are not in the text. -/
example : normalizePath ascii "v1.2/deploy/Makefile".toList = "v1 Makefile".toList := by decide +kernel
example : normalizePath ascii "v12/deploy/Makefile".toList = "v12 deploy makefile Makefile".toList := by decide +kernel

/-- A description that hides the file. -/
example : buildText ascii { unit with docstring := some (List.replicate 8192 'x'), file := ["a".toList] } =
    buildText ascii { unit with docstring := some (List.replicate 8192 'x') } :=
  C79_path_lost { unit with docstring := some (List.replicate 8192 'x') } ["a".toList] _ _ rfl rfl (by rw [List.length_replicate]; decide)

end EmbedText

end NextPlaid.Props
