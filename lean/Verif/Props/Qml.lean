import Verif.Proofs.Qml2

/-! C90: the units of a QML file. -/

namespace NextPlaid.Props
open NextPlaid.Qml NextPlaid.Units NextPlaid.Spec

/-- C90: every definition of the file that is not in a value or in a function has a unit with its name, its place, its code
and the object it is in, if the file is not too deep. -/
theorem C90_definitions (maxDepth : Nat) (source : Text) (t : QNode) (hr : RowsFit t (lines source).length)
    (hs : Shallow t maxDepth) : ∃ units, qmlUnits maxDepth source (some t) = .ok units ∧
      ∀ p m name, Inside none t p m → Defines m name → ∃ u ∈ units, u.name = name ∧ UnitFits (lines source) p m u := by
  obtain ⟨h1, h2, h3⟩ := extract_out (lines source) maxDepth t none 0 hr
  have h2 := h2 ⟨maxDepth, hs, by omega⟩
  unfold qmlUnits
  simp only
  cases he : extract (lines source) maxDepth none 0 t with
  | error e =>
    rw [he] at h1 h2
    cases e with
    | panic => exact absurd rfl h1
    | err => exact absurd rfl h2
  | ok us =>
    refine ⟨us, rfl, ?_⟩
    intro p m name hi hd
    obtain ⟨u, hu, hf⟩ := (h3 us he).complete p m name hi hd
    exact ⟨u, hu, defines_unique hf.1 hd, hf⟩

/-- C90: there are no other units, no more of them than definitions in the file, and a file gives the units of all its
definitions or none. -/
theorem C90_only (maxDepth : Nat) (source : Text) (t : QNode) (hr : RowsFit t (lines source).length) :
    ∃ units, qmlUnits maxDepth source (some t) = .ok units ∧
      (∀ u ∈ units, ∃ p m, Inside none t p m ∧ UnitFits (lines source) p m u) ∧
      (∀ d : QNode → Bool, (∀ m, d m = true ↔ ∃ name, Defines m name) → units.length ≤ count d t) ∧
      (units = [] ∨ ∀ p m name, Inside none t p m → Defines m name → ∃ u ∈ units, u.name = name ∧ UnitFits (lines source) p m u) := by
  obtain ⟨h1, _, h3⟩ := extract_out (lines source) maxDepth t none 0 hr
  unfold qmlUnits
  simp only
  cases he : extract (lines source) maxDepth none 0 t with
  | error e =>
    rw [he] at h1
    cases e with
    | panic => exact absurd rfl h1
    | err => exact ⟨[], rfl, by simp, fun _ _ => Nat.zero_le _, .inl rfl⟩
  | ok us =>
    have hg := h3 us he
    refine ⟨us, rfl, hg.sound, hg.once, .inr ?_⟩
    intro p m name hi hd
    obtain ⟨u, hu, hf⟩ := hg.complete p m name hi hd
    exact ⟨u, hu, defines_unique hf.1 hd, hf⟩

/-- C90: the lines of a unit's code are where the unit says, if the text of each node is that of its rows. -/
theorem C90_located (maxDepth : Nat) (source : Text) (t : QNode) (hr : RowsFit t (lines source).length)
    (ht : TextFits (lines source) t) : ∃ units, qmlUnits maxDepth source (some t) = .ok units ∧
      ∀ u ∈ units, Located (lines source) u := by
  obtain ⟨units, he, hs, _⟩ := C90_only maxDepth source t hr
  refine ⟨units, he, ?_⟩
  intro u hu
  obtain ⟨p, m, hi, hf⟩ := hs u hu
  obtain ⟨k, hb⟩ := inside_below hi
  obtain ⟨ht1, ht2⟩ := ht k m hb ⟨_, hf.1⟩
  have plain : Trimmed m.info.text u.code → u.line = m.info.decl.startRow + 1 → Located (lines source) u := by
    intro h1 h2
    have e : u.code = m.info.text := (trim_of h1).symm.trans (trim_of ht1)
    refine ⟨by omega, ?_⟩
    intro k l hk
    rw [e] at hk
    obtain ⟨a, w, b, c⟩ := ht2 k l hk
    refine ⟨by rw [hf.2.1]; omega, w, ?_, c⟩
    rw [← b]
    congr 1
    omega
  have h3 := hf.2.2
  split at h3
  · exact plain h3.2.2.1 h3.2.2.2
  · exact plain h3.2.2.1 h3.2.2.2
  · exact plain h3.2.2.1 h3.2.2.2
  · exact plain h3.2.2.1 h3.2.2.2
  · exact plain h3.2.2.1 h3.2.2.2
  · exact codeIs_located h3.2.2.2.1
  · exact codeIs_located h3.2.2.1
  · exact codeIs_located h3.2.2.1
  · exact h3.elim
  · exact h3.elim

/-- C90: the imports named by a function are those of the file's that its code mentions before a dot or a space, each once. -/
theorem C90_imports (imports : List Text) (code : Text) : (importsUsed imports code).Nodup ∧
    ∀ x, x ∈ importsUsed imports code ↔ x ∈ imports ∧ (x ++ ['.'] <:+: code ∨ x ++ [' '] <:+: code) := by
  obtain ⟨a, b⟩ := importsUsed_aux code imports [] List.nodup_nil
  refine ⟨a, fun x => ?_⟩
  unfold importsUsed
  rw [b x]
  simp

/-- C90 fails for names inside other names: a function that mentions `myQt.x` is said to use the import `Qt`. -/
theorem C90_import_inside : importsUsed ["Qt".toList] "return myQt.x".toList = ["Qt".toList] := by decide +kernel

/-! ### A concrete case -/

namespace ToyQml

def info (name : Option String) (a b : Nat) : Info := ⟨.other, name.map String.toList, false, none, none, false, [], a, b⟩

def leaf (k : QKind) (name text : String) (a b : Nat) : QNode :=
  .mk ⟨k, some name.toList, text.toList, none, none, info (some name) a b⟩ []

/-- The file:

import QtQuick
Item {
  property int n: 1
  delegate: Text { function g() {} }
  onClicked: go()
}
-/
def file : Text := "import QtQuick\nItem {\n  property int n: 1\n  delegate: Text { function g() {} }\n  onClicked: go()\n}\n".toList

def inner : QNode := .mk ⟨.object, some "Text".toList, "Text { function g() {} }".toList, none, some 0, info none 3 3⟩
  [.mk ⟨.other, none, [], none, none, info none 3 3⟩ [leaf .function "g" "function g() {}" 3 3]]

def delegate : QNode := .mk ⟨.binding, some "delegate".toList, "delegate: Text { function g() {} }".toList, none, none, info none 3 3⟩ [inner]

def itemText : Text := "Item {\n  property int n: 1\n  delegate: Text { function g() {} }\n  onClicked: go()\n}".toList

def item : QNode := .mk ⟨.object, some "Item".toList, itemText, none, some 0, info none 1 5⟩
  [.mk ⟨.other, none, [], none, none, info none 1 5⟩
    [leaf .property "n" "property int n: 1" 2 2, delegate, leaf .binding "onClicked" "onClicked: go()" 4 4]]

def tree : QNode := .mk ⟨.other, none, [], none, none, info none 0 5⟩ [item]

def units : List CodeUnit :=
  [⟨"Item".toList, 2, 6, .class, none, "Item {".toList, [], [], itemText⟩,
   ⟨"n".toList, 3, 3, .constant, some "Item".toList, "property int n: 1".toList, [], [], "property int n: 1".toList⟩,
   ⟨"onClicked".toList, 5, 5, .method, some "Item".toList, "onClicked: go()".toList, [], [], "onClicked: go()".toList⟩]

theorem units_of : qmlUnits 10 file (some tree) = .ok units := by decide +kernel

mutual
/-- All facts about the nodes of a tree, checked node by node. -/
def checkAll (f : Nat → QNode → Bool) : Nat → QNode → Bool
  | k, .mk q cs => f k (.mk q cs) && checkList f (k + 1) cs
def checkList (f : Nat → QNode → Bool) : Nat → List QNode → Bool
  | _, [] => true
  | k, n :: ns => checkAll f k n && checkList f k ns
end

theorem checkList_mem {f : Nat → QNode → Bool} {k : Nat} {c : QNode} : ∀ {ns : List QNode}, checkList f k ns = true → c ∈ ns →
    checkAll f k c = true
  | [], _, h => by cases h
  | n :: ns, h, hc => by
    rw [checkList, Bool.and_eq_true] at h
    rcases List.mem_cons.1 hc with rfl | hc
    · exact h.1
    · exact checkList_mem h.2 hc

theorem checkAll_below {f : Nat → QNode → Bool} {k : Nat} {t m : QNode} (hb : BelowAt k t m) : ∀ j, checkAll f j t = true →
    f (j + k) m = true := by
  induction hb with
  | self t =>
    intro j h
    cases t with
    | mk q cs => rw [checkAll, Bool.and_eq_true] at h; exact h.1
  | @child k t c m hc _ ih =>
    intro j h
    cases t with
    | mk q cs =>
      rw [checkAll, Bool.and_eq_true] at h
      have := ih (j + 1) (checkList_mem h.2 hc)
      rw [show j + (k + 1) = j + 1 + k by omega]
      exact this

/-- The tree meets the hypotheses of the theorems. -/
example : RowsFit tree (lines file).length ∧ Shallow tree 10 := by
  have h : checkAll (fun k m => decide (m.info.decl.startRow ≤ m.info.decl.endRow ∧ m.info.decl.startRow ≤ (lines file).length ∧
      k ≤ 10)) 0 tree = true := by decide +kernel
  constructor
  · intro k m hm
    have := of_decide_eq_true (checkAll_below hm 0 h)
    exact ⟨this.1, this.2.1⟩
  · intro k m hm
    have := of_decide_eq_true (checkAll_below hm 0 h)
    omega

/-- So it does those on the texts. -/
example : TextFits (lines file) tree := by
  have h : checkAll (fun _ m => (m.info.text.isEmpty && m.info.kind == .other) || (decide (trim m.info.text = m.info.text ∧ m.info.text ≠ []) &&
      (List.range (lines m.info.text).length).all fun k => decide (m.info.decl.startRow + k ≤ m.info.decl.endRow) &&
        containsText ((lines m.info.text)[k]?.getD []) ((lines file)[m.info.decl.startRow + k]?.getD []) &&
        decide (m.info.decl.startRow + k < (lines file).length))) 0 tree = true := by
    decide +kernel
  intro k m hm hd
  have := checkAll_below hm 0 h
  rw [Bool.or_eq_true] at this
  rcases this with this | this
  · rw [Bool.and_eq_true] at this
    obtain ⟨name, hd⟩ := hd
    have hk : m.info.kind = .other := by simpa using this.2
    simp only [Defines, hk] at hd
  · rw [Bool.and_eq_true] at this
    obtain ⟨h1, h2⟩ := this
    obtain ⟨h1, h1'⟩ := of_decide_eq_true h1
    refine ⟨?_, ?_⟩
    · have := trim_trimmed (t := m.info.text) (by rw [h1]; exact h1')
      rwa [h1] at this
    · intro k l hk
      have hlt : k < (lines m.info.text).length := (List.getElem?_eq_some_iff.1 hk).1
      rw [List.all_eq_true] at h2
      have := h2 k (List.mem_range.2 hlt)
      rw [Bool.and_eq_true, Bool.and_eq_true] at this
      obtain ⟨⟨a, b⟩, c⟩ := this
      have c := of_decide_eq_true c
      refine ⟨of_decide_eq_true a, (lines file)[m.info.decl.startRow + k], List.getElem?_eq_getElem c, ?_⟩
      rw [hk, List.getElem?_eq_getElem c] at b
      exact (containsText_iff _ _).1 b

example : Inside none tree (some "Item".toList) (leaf .binding "onClicked" "onClicked: go()" 4 4) ∧
    Defines (leaf .binding "onClicked" "onClicked: go()" 4 4) "onClicked".toList := by
  have hn : ∀ k a b t s, trim (String.toList t) = t.toList → t.toList ≠ [] → trim (String.toList s) = s.toList → s.toList ≠ [] →
      Named (leaf k t s a b) t.toList := by
    intro k a b t s h1 h2 h3 h4
    refine ⟨⟨_, rfl, ?_⟩, s.toList, ?_⟩
    · have := trim_trimmed (t := t.toList) (by rw [h1]; exact h2)
      rwa [h1] at this
    · have := trim_trimmed (t := s.toList) (by rw [h3]; exact h4)
      rwa [h3] at this
  refine ⟨?_, hn _ _ _ _ _ (by decide +kernel) (by decide +kernel) (by decide +kernel) (by decide +kernel), 'C', "licked".toList,
    by decide +kernel, by decide +kernel, by decide +kernel⟩
  refine .other (.inl rfl) (c := item) (by simp [tree, QNode.children]) (.object (j := 0) (name := "Item".toList) rfl ⟨⟨_, rfl, ?_⟩, itemText, ?_⟩ rfl rfl ?_ (.here _ _))
  · have := trim_trimmed (t := "Item".toList) (by decide +kernel)
    rwa [show trim "Item".toList = "Item".toList by decide +kernel] at this
  · have := trim_trimmed (t := itemText) (by decide +kernel)
    rwa [show trim itemText = itemText by decide +kernel] at this
  · simp [QNode.children]

end ToyQml

open ToyQml in
/-- C90 fails: a function in an object that is the value of a binding has no unit of its own. -/
theorem C90_value_lost : ∃ k m units, BelowAt k tree m ∧ m.info.kind = .function ∧ Defines m "g".toList ∧
    qmlUnits 10 file (some tree) = .ok units ∧ ∀ u ∈ units, u.name ≠ "g".toList := by
  refine ⟨6, leaf .function "g" "function g() {}" 3 3, units, ?_, rfl, rfl, units_of, by decide +kernel⟩
  refine .child (c := item) (by simp [tree, QNode.children]) (.child (c := item.children.headD item) (by simp [item, QNode.children])
    (.child (c := delegate) (by simp [item, QNode.children]) (.child (c := inner) (by simp [delegate, QNode.children])
      (.child (c := inner.children.headD inner) (by simp [inner, QNode.children]) (.child (by simp [inner, QNode.children]) (.self _))))))

open ToyQml in
/-- C90 fails (and with it C62 for QML): lines outside of objects, such as the imports, are in no unit. -/
theorem C90_outside_lost : ∃ n l units, TextAt (lines file) n l ∧ qmlUnits 10 file (some tree) = .ok units ∧
    ∀ u ∈ units, ¬ Covers u n ∧ ¬ l <:+: u.code := by
  refine ⟨1, "import QtQuick".toList, units, ⟨by decide, by decide +kernel, ?_⟩, units_of, ?_⟩
  · rw [← blank_iff]; decide +kernel
  · unfold Covers; decide +kernel

end NextPlaid.Props
