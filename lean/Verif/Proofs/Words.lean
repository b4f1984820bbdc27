import Verif.Spec.Words
import Verif.Proofs.Fts2

/-! Words of texts and of JSON values. -/

namespace NextPlaid.Words
open NextPlaid NextPlaid.Db NextPlaid.Spec
open NextPlaid.JsonText (J)

variable {R : Type} (A : Letters) (N : Numbers R)

theorem wordsFrom_sep (a : List Char) (c : Char) (hc : A.isWord c = false) (b : List Char) : ∀ cur : List Char,
    wordsFrom A cur (a ++ c :: b) = wordsFrom A cur a ++ words A b := by
  induction a with
  | nil => intro cur; simp [wordsFrom, hc, words]
  | cons x a ih =>
    intro cur
    rw [List.cons_append, wordsFrom, wordsFrom]
    split
    · exact ih _
    · rw [ih, List.append_assoc]

theorem words_sep (a : List Char) {c : Char} (hc : A.isWord c = false) (b : List Char) :
    words A (a ++ c :: b) = words A a ++ words A b := wordsFrom_sep A a c hc b []

theorem words_nil : words A [] = [] := rfl

theorem words_cons {c : Char} (hc : A.isWord c = false) (b : List Char) : words A (c :: b) = words A b := by
  have := words_sep A [] hc b
  simpa [words_nil] using this

theorem words_snoc (a : List Char) {c : Char} (hc : A.isWord c = false) : words A (a ++ [c]) = words A a := by
  have := words_sep A a hc []
  simpa [words_nil] using this

/-- The words of joined parts. -/
theorem words_join : ∀ ps : List (List Char), words A ([' '].intercalate ps) = ps.flatMap (words A)
  | [] => rfl
  | [p] => by simp
  | p :: q :: ps => by
    have ih := words_join (q :: ps)
    have e : [' '].intercalate (p :: q :: ps) = p ++ ' ' :: [' '].intercalate (q :: ps) := by
      simp [List.intercalate, List.intersperse]
    rw [e, words_sep A p (by rfl), ih]; simp

/-! ### Quoted texts -/

/-- The escaped form of a character has the same words: it is the character, or it consists of separators like the character. -/
theorem wordsFrom_escape {c : Char} (hc : 32 ≤ c.toNat) (s : List Char) (cur : List Char) :
    wordsFrom A cur (JsonText.escape c ++ s) = wordsFrom A cur (c :: s) := by
  unfold JsonText.escape
  have bs : A.isWord '\\' = false := rfl
  have bq : A.isWord '"' = false := rfl
  by_cases h1 : c = '"'
  · subst h1
    simp [wordsFrom, bs, bq, flush]
  · rw [if_neg h1]
    by_cases h2 : c = '\\'
    · subst h2
      simp [wordsFrom, bs, flush]
    · rw [if_neg h2, if_neg (by omega), if_neg (by omega), if_neg (by omega), if_neg (by omega), if_neg (by omega), if_neg (by omega)]
      rfl

theorem wordsFrom_escaped : ∀ (s : List Char), (∀ c ∈ s, 32 ≤ c.toNat) → ∀ (cur : List Char),
    wordsFrom A cur (s.flatMap JsonText.escape) = wordsFrom A cur s
  | [], _, _ => rfl
  | c :: s, h, cur => by
    rw [List.flatMap_cons, wordsFrom_escape A (h c (by simp)), wordsFrom, wordsFrom]
    have ih := wordsFrom_escaped s fun d hd => h d (by simp [hd])
    split
    · exact ih _
    · rw [ih]

theorem words_quote {s : List Char} (h : ∀ c ∈ s, 32 ≤ c.toNat) : words A (JsonText.quote s) = words A s := by
  unfold JsonText.quote
  rw [words_cons A (by rfl), words_snoc A _ (by rfl)]
  exact wordsFrom_escaped A s h []

theorem words_quote_sep {s : List Char} (h : ∀ c ∈ s, 32 ≤ c.toNat) (b : List Char) :
    words A (JsonText.quote s ++ b) = words A s ++ words A b := by
  unfold JsonText.quote
  rw [List.cons_append, words_cons A (by rfl), List.append_assoc, List.singleton_append, words_sep A _ (by rfl)]
  congr 1
  exact wordsFrom_escaped A s h []

/-! ### Values -/

theorem words_true : words A ['t', 'r', 'u', 'e'] = [['t', 'r', 'u', 'e']] := rfl
theorem words_false : words A ['f', 'a', 'l', 's', 'e'] = [['f', 'a', 'l', 's', 'e']] := rfl
theorem words_null : words A ['n', 'u', 'l', 'l'] = [['n', 'u', 'l', 'l']] := rfl

mutual

theorem collect_words : ∀ v : J R, (collect N v).flatMap (words A) = valueWords A N false v
  | .null => rfl
  | .bool true => rfl
  | .bool false => rfl
  | .int i => by simp [collect, valueWords]
  | .real r => by simp [collect, valueWords]
  | .str s => by
    rw [collect, valueWords]
    by_cases h : s = []
    · subst h; rfl
    · simp [h]
  | .arr l => by rw [collect, valueWords]; exact collectItems_words l
  | .obj l => by rw [collect, valueWords]; exact collectMembers_words l

theorem collectItems_words : ∀ l : List (J R), (collectItems N l).flatMap (words A) = itemWords A N false l
  | [] => rfl
  | v :: l => by rw [collectItems, itemWords, List.flatMap_append, collect_words v, collectItems_words l]

theorem collectMembers_words : ∀ l : List (List Char × J R), (collectMembers N l).flatMap (words A) = memberWords A N false l
  | [] => rfl
  | (k, v) :: l => by
    rw [collectMembers, memberWords, List.flatMap_append, collect_words v, collectMembers_words l]
    simp

end

mutual

theorem render_words : ∀ v : J R, OneLine v → words A (JsonText.render N.real none v) = valueWords A N true v
  | .null, _ => rfl
  | .bool true, _ => rfl
  | .bool false, _ => rfl
  | .int i, _ => rfl
  | .real r, _ => rfl
  | .str s, h => by rw [JsonText.render, valueWords]; exact words_quote A h
  | .arr [], _ => rfl
  | .arr (v :: l), h => by
    rw [JsonText.render, valueWords, itemWords, words_cons A (by rfl)]
    exact renderItems_words l h.2 _ _ (render_words v h.1)
  | .obj [], _ => rfl
  | .obj ((k, v) :: l), h => by
    rw [JsonText.render, valueWords, memberWords, words_cons A (by rfl), JsonText.renderEntry]
    refine renderMembers_words l h.2.2 _ _ ?_
    show words A (JsonText.quote k ++ [':'] ++ JsonText.render N.real none v) = _
    rw [List.append_assoc, words_quote_sep A h.1, List.singleton_append, words_cons A (by rfl), render_words v h.2.1]
    simp

theorem renderItems_words : ∀ (l : List (J R)), OneLineItems l → ∀ (t : List Char) (ws : List (List Char)), words A t = ws →
    words A (([] : List Char) ++ t ++ JsonText.renderItems N.real none l) = ws ++ itemWords A N true l
  | [], _, t, ws, h => by
    show words A (t ++ [']']) = _
    rw [words_snoc A _ (by rfl), h, itemWords, List.append_nil]
  | v :: l, hl, t, ws, h => by
    rw [JsonText.renderItems, List.nil_append, words_sep A _ (by rfl), h, itemWords]
    congr 1
    exact renderItems_words l hl.2 _ _ (render_words v hl.1)

theorem renderMembers_words : ∀ (l : List (List Char × J R)), OneLineMembers l → ∀ (t : List Char) (ws : List (List Char)),
    words A t = ws → words A (([] : List Char) ++ t ++ JsonText.renderMembers N.real none l) = ws ++ memberWords A N true l
  | [], _, t, ws, h => by
    show words A (t ++ ['}']) = _
    rw [words_snoc A _ (by rfl), h, memberWords, List.append_nil]
  | (k, v) :: l, hl, t, ws, h => by
    rw [JsonText.renderMembers, List.nil_append, words_sep A _ (by rfl), h, memberWords, JsonText.renderEntry]
    congr 1
    refine renderMembers_words l hl.2.2 _ _ ?_
    show words A (JsonText.quote k ++ [':'] ++ JsonText.render N.real none v) = _
    rw [List.append_assoc, words_quote_sep A hl.1, List.singleton_append, words_cons A (by rfl), render_words v hl.2.1]
    simp

end

mutual

theorem value_sublist : ∀ v : J R, (valueWords A N false v).Sublist (valueWords A N true v)
  | .null => by simp [valueWords]
  | .bool true => .refl _
  | .bool false => .refl _
  | .int i => .refl _
  | .real r => .refl _
  | .str s => .refl _
  | .arr l => by rw [valueWords, valueWords]; exact items_sublist l
  | .obj l => by rw [valueWords, valueWords]; exact members_sublist l

theorem items_sublist : ∀ l : List (J R), (itemWords A N false l).Sublist (itemWords A N true l)
  | [] => .refl _
  | v :: l => by rw [itemWords, itemWords]; exact (value_sublist v).append (items_sublist l)

theorem members_sublist : ∀ l : List (List Char × J R), (memberWords A N false l).Sublist (memberWords A N true l)
  | [] => .refl _
  | (k, v) :: l => by
    rw [memberWords, memberWords]
    exact ((List.nil_sublist _).append (value_sublist v)).append (members_sublist l)

end

mutual

theorem value_noKeys : ∀ v : J R, NoKeys v → valueWords A N true v = valueWords A N false v
  | .null, h => h.elim
  | .bool true, _ => rfl
  | .bool false, _ => rfl
  | .int i, _ => rfl
  | .real r, _ => rfl
  | .str s, _ => rfl
  | .arr l, h => by rw [valueWords, valueWords]; exact items_noKeys l h
  | .obj l, h => h.elim

theorem items_noKeys : ∀ l : List (J R), NoKeysItems l → itemWords A N true l = itemWords A N false l
  | [], _ => rfl
  | v :: l, h => by rw [itemWords, itemWords, value_noKeys v h.1, items_noKeys l h.2]

end

/-! ### Columns -/

theorem added_words (v : J R) : (env A N).parts v = valueWords A N false v := by
  show words A ([' '].intercalate (collect N v)) = _
  rw [words_join, collect_words]

theorem columnText_str (s : List Char) : (columnText N (.str s)).flatMap (words A) = words A s := by
  unfold columnText
  by_cases h : s = []
  · subst h; rfl
  · simp [h]

theorem stored_text {ty : Json.Ty} {s : List Char} (h : N.lite.parse s = none) :
    Json.read N.lite (Json.store N.lite ty (.text s)) = .str s := by
  cases ty <;> simp [Json.store, h, Json.read]

/-- A text that is not a number is kept by every column. -/
theorem cell_text (ty : Json.Ty) {s : List Char} (h : N.lite.parse s = none) : (sql N).cell ty (.str s) = .str s := by
  show long (Json.read N.lite (Json.store N.lite ty (.text s))) = _
  rw [stored_text N h]
  rfl

theorem compact_head {v : J R} (h : Tree v) : ∃ s, JsonText.compact N.real v = '[' :: s ∨ JsonText.compact N.real v = '{' :: s := by
  cases v with
  | arr l => cases l <;> exact ⟨_, .inl rfl⟩
  | obj l => cases l <;> exact ⟨_, .inr rfl⟩
  | _ => exact h.elim

theorem cell_tree (hN : LawfulNumbers N) (ty : Json.Ty) {v : J R} (h : Tree v) :
    (sql N).cell ty v = .str (JsonText.compact N.real v) := by
  have hp : N.lite.parse (JsonText.compact N.real v) = none := by
    obtain ⟨s, hs | hs⟩ := compact_head N h
    · rw [hs]; exact (hN.noNumber s).1
    · rw [hs]; exact (hN.noNumber s).2
  have e : short N v = .tree (JsonText.compact N.real v) := by
    cases v with
    | arr l => rfl
    | obj l => rfl
    | _ => exact h.elim
  show long (Json.read N.lite (Json.store N.lite ty (Json.toSql N.lite (short N v)))) = _
  rw [e]
  show long (Json.read N.lite (Json.store N.lite ty (.text _))) = _
  rw [stored_text N hp]
  rfl

theorem tree_words (hN : LawfulNumbers N) (ty : Json.Ty) {v : J R} (h : Tree v) (h1 : OneLine v) :
    (env A N).colParts ((sql N).cell ty v) = valueWords A N true v := by
  rw [cell_tree N hN ty h]
  show (columnText N (.str _)).flatMap (words A) = _
  rw [columnText_str]
  exact render_words A N v h1

theorem int_words (hN : LawfulNumbers N) (ty : Json.Ty) {i : Int} (h1 : -2 ^ 53 ≤ i) (h2 : i ≤ 2 ^ 53) :
    (env A N).colParts ((sql N).cell ty (.int i)) = words A (JsonText.showInt i) := by
  show (columnText N (long (Json.read N.lite (Json.store N.lite ty (Json.toSql N.lite (.int i)))))).flatMap (words A) = _
  have hi : i < 2 ^ 63 := by omega
  rw [Json.toSql, if_pos hi]
  cases ty with
  | integer => simp [Json.store, Json.read, long, columnText]
  | blob => simp [Json.store, Json.read, long, columnText]
  | text =>
    rw [Json.store, Json.read, long, columnText_str, hN.decimal]
  | real =>
    obtain ⟨e1, e2⟩ := hN.exact i h1 h2
    simp [Json.store, Json.read, long, columnText, e1, e2]

theorem real_words (ty : Json.Ty) {r : R} {t : List Char} (hf : N.lite.finite r = true) (ha : N.lite.asInt r = none)
    (h1 : words A (N.display r) = words A t) (h2 : words A (N.lite.showReal r) = words A t) :
    (env A N).colParts ((sql N).cell ty (.real r)) = words A t := by
  show (columnText N (long (Json.read N.lite (Json.store N.lite ty (.real r))))).flatMap (words A) = _
  cases ty with
  | integer => simp [Json.store, Json.intAffinity, ha, Json.read, hf, long, columnText, h1]
  | blob => simp [Json.store, Json.read, hf, long, columnText, h1]
  | real => simp [Json.store, Json.read, hf, long, columnText, h1]
  | text => rw [Json.store, Json.read, long, columnText_str, h2]

theorem steady_words (hN : LawfulNumbers N) (ty : Json.Ty) {v : J R} (h : Steady A N v) :
    (env A N).colParts ((sql N).cell ty v) = (env A N).parts v := by
  rw [added_words]
  cases v with
  | null => cases ty <;> rfl
  | bool b => exact h.elim
  | int i => exact int_words A N hN ty h.1 h.2
  | real r =>
    obtain ⟨h1, h2, t, h3, h4, h5⟩ := h
    rw [real_words A N ty h1 h2 h4 h5, valueWords, h3, Option.getD_some]
  | str s =>
    rw [cell_text N ty h]
    exact columnText_str A N s
  | arr l =>
    rw [tree_words A N hN ty (v := .arr l) trivial h.2]
    exact value_noKeys A N (.arr l) h.1
  | obj l => exact h.elim

theorem steadyRow_plain (hN : LawfulNumbers N) {it : Item (sql N)} (h : SteadyRow A N it) : PlainRow (env A N) it :=
  ⟨h.1, fun p hp ty => steady_words A N hN ty (h.2 p hp)⟩

theorem overwrite_plain {S : Sql} {T : TextEnv S} {upd : List (String × S.V)} (h : PlainRow T (overwrite upd (none : Item S)))
    {it : Item S} (hi : PlainRow T it) : PlainRow T (overwrite upd it) := by
  obtain ⟨h1, h2⟩ := h
  obtain ⟨i1, i2⟩ := hi
  have e : (overwrite upd (none : Item S)).getD [] = upd := by simp [overwrite]
  rw [e] at h1 h2
  have e' : (overwrite upd it).getD [] = upd ++ (it.getD []).filter fun p => !(upd.any fun u => u.1 == p.1) := rfl
  refine ⟨?_, ?_⟩
  · rw [e', List.map_append, List.nodup_append]
    refine ⟨h1, i1.sublist (List.filter_sublist.map _), ?_⟩
    intro a ha b hb hab
    subst hab
    obtain ⟨p, hp, rfl⟩ := List.mem_map.1 hb
    have := (List.mem_filter.1 hp).2
    obtain ⟨u, hu, hup⟩ := List.mem_map.1 ha
    rw [List.any_eq_true.2 ⟨u, hu, by simpa using hup⟩] at this
    cases this
  · intro p hp ty
    rw [e'] at hp
    rcases List.mem_append.1 hp with hp | hp
    · exact h2 p hp ty
    · exact i2 p (List.mem_filter.1 hp).1 ty

/-- Rows of steady values keep their words. -/
theorem together_plain (hN : LawfulNumbers N) {E : Index.Env} {use : Tokenizer → Prop} {s : Store E (env A N)} {rows}
    (h : Together use (SteadyRow A N) s rows) : Together use (PlainRow (env A N)) s rows := by
  induction h with
  | start => exact .start
  | add _ h1 h2 h3 h4 h5 ih => exact .add ih h1 h2 h3 (fun it hit => steadyRow_plain A N hN (h4 it hit)) h5
  | delete _ h1 h2 ih => exact .delete ih h1 h2
  | change _ h1 h2 h3 ih =>
    refine .change ih h1 (fun it hit => overwrite_plain (steadyRow_plain A N hN (h2 none ⟨List.nodup_nil, ?_⟩)) hit) h3
    intro p hp
    cases hp

theorem sql_lawful : (sql N).Lawful where
  cell_null := by intro ty; cases ty <;> rfl

theorem env_lawful : (env A N).Lawful where
  null_parts := rfl

end NextPlaid.Words

namespace NextPlaid.Words
open NextPlaid NextPlaid.Db NextPlaid.Spec NextPlaid.Index

/-- What a successful extension leaves alone, and the ids it gives out. -/
theorem extend_ok {E : Env} {S : Sql} {T : TextEnv S} (hE : E.Lawful) {s s' : Store E T} {docs items cfg out} {raw : List (List E.Row)}
    (hd : DiskOk s.disk raw) (hdocs : docs ≠ []) (hb : 0 < cfg.batchSize) (h : Store.extend s docs items cfg = (s', .ok out)) :
    s'.fts = s.fts ∧ out = idRange raw.length docs.length := by
  unfold Store.extend at h
  split at h
  · cases h
  · split at h
    · cases h
    · next x hx =>
      split at h
      · cases h
      · next d ids hu =>
        split at h
        · cases h
        · next db n hdb =>
          cases h
          refine ⟨rfl, ?_⟩
          rcases hd with ⟨hd, rfl⟩ | hd
          · rw [hd] at hx; cases hx
          · have hm : ∃ m, s.disk.metadata = some m := by
              cases hm : s.disk.metadata with
              | some m => exact ⟨m, rfl⟩
              | none =>
                unfold load loadMeta at hx
                rw [hm] at hx
                cases hx
            obtain ⟨m, hm⟩ := hm
            have hu' : updateOrCreate s.disk docs cfg = .ok (d, out) := by
              unfold updateOrCreate
              rw [hm]
              simp only [hx, bind, Except.bind]
              exact hu
            exact (updateOrCreate_inv hE hd hdocs hb hu').2

end NextPlaid.Words
