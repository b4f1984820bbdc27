import Verif.Proofs.Globs

namespace NextPlaid.Globs

open NextPlaid.Regex NextPlaid.Spec

theorem denotes_of_describes : ∀ (ts : List Tok) (s : List Char), '\n' ∉ s → Describes ts s → Denotes ts s := by
  intro ts
  induction ts with
  | nil => intro s _ h; exact h
  | cons t ts ih =>
    intro s hs h
    cases t with
    | lit c => obtain ⟨s', rfl, h⟩ := h; exact ⟨s', rfl, ih s' (fun hn => hs (by simp [hn])) h⟩
    | one => obtain ⟨c, s', rfl, _, h⟩ := h; exact ⟨c, s', rfl, fun hc => hs (by simp [hc]), ih s' (fun hn => hs (by simp [hn])) h⟩
    | run => obtain ⟨u, s', rfl, hu, h⟩ := h; exact ⟨u, s', rfl, hu, ih s' (fun hn => hs (by simp [hn])) h⟩
    | deep => obtain ⟨u, s', rfl, h⟩ := h; exact ⟨u, s', rfl, fun hn => hs (by simp [hn]), ih s' (fun hn => hs (by simp [hn])) h⟩
    | dirs =>
      rcases h with h | ⟨u, s', rfl, h⟩
      · exact .inl (ih s hs h)
      · exact .inr ⟨u, s', rfl, fun hn => hs (by simp [hn]), ih s' (fun hn => hs (by simp [hn])) h⟩

theorem describes_of_denotes : ∀ (ts : List Tok) (s : List Char), Tok.one ∉ ts → Denotes ts s → Describes ts s := by
  intro ts
  induction ts with
  | nil => intro s _ h; exact h
  | cons t ts ih =>
    intro s hts h
    have hts' : Tok.one ∉ ts := fun h => hts (by simp [h])
    cases t with
    | lit c => obtain ⟨s', rfl, h⟩ := h; exact ⟨s', rfl, ih s' hts' h⟩
    | one => exact absurd (by simp) hts
    | run => obtain ⟨u, s', rfl, hu, h⟩ := h; exact ⟨u, s', rfl, hu, ih s' hts' h⟩
    | deep => obtain ⟨u, s', rfl, _, h⟩ := h; exact ⟨u, s', rfl, ih s' hts' h⟩
    | dirs =>
      rcases h with h | ⟨u, s', rfl, _, h⟩
      · exact .inl (ih s hts' h)
      · exact .inr ⟨u, s', rfl, ih s' hts' h⟩

theorem tokens_one (p : List Char) (h : '?' ∉ p) : Tok.one ∉ tokens p := by
  fun_induction tokens p <;> simp_all

/-- `(^|.*/)` -/
def anywhereRx : Rx := .alt (.cat .bol .eps) slashed

/-- `(^|/)` -/
def boundaryRx : Rx := .alt (.cat .bol .eps) (.cat (.chr '/') .eps)

def fileHead (p : List Char) : List Rx := if anyDir.isPrefixOf p || ['/'].isPrefixOf p then [] else [anywhereRx]

def filePieces (p : List Char) : List Rx := fileHead p ++ ((tokens p).map tokRx ++ [.eol])

theorem stands_nil : Stands [] [] := by intro top outer; simp [addAll, parseFrom]

theorem stands_body (p : List Char) : Stands (globBody p) ((tokens p).map tokRx) := by
  intro top outer
  rw [globBody_tokens]
  exact parse_toks _ (tokens_lit p) top outer

theorem stands_anywhere : Stands anywhere [anywhereRx] := by intro top outer; rfl
theorem stands_boundary : Stands ['(', '^', '|', '/', ')'] [boundaryRx] := by intro top outer; rfl
theorem stands_eol : Stands ['$'] [.eol] := by intro top outer; rfl
theorem stands_slash : Stands ['/'] [.chr '/'] := by intro top outer; rfl
theorem stands_bol : Stands ['^'] [.bol] := by intro top outer; rfl
theorem stands_level : Stands ['^', '[', '^', '/', ']', '*', '/'] ([.bol] ++ [Tok.run, Tok.lit '/'].map tokRx) := by intro top outer; rfl

theorem stands_file (p : List Char) : Stands (globToRegex p) (filePieces p) := by
  simp only [globToRegex, filePieces, fileHead, List.append_assoc]
  split
  · exact stands_nil.append ((stands_body p).append stands_eol)
  · exact stands_anywhere.append ((stands_body p).append stands_eol)

theorem stands_escape (p : List Char) : Stands (escape p) (p.map .chr) := by
  induction p with
  | nil => exact stands_nil
  | cons c p ih =>
    have h1 : Stands (if c ∈ metas then ['\\', c] else [c]) [.chr c] := by
      intro top outer
      split
      · rename_i hm
        simp [parseFrom, step, step0, hm, addAll, Frame.add]
      · rename_i h
        simp only [metas, List.mem_cons, List.not_mem_nil, or_false, not_or] at h
        obtain ⟨h1, h2, h3, h4, h5, h6, h7, h8, h9, h10, h11, h12, h13, h14, _⟩ := h
        simp only [parseFrom, step, step0, h1, h2, h3, h4, h5, h6, h7, h8, h9, h11, h13, h14, if_false]
        rfl
    simp only [escape, List.flatMap_cons, List.map_cons]
    exact h1.append ih

theorem after_start (u v : List Char) (h : (placeAfter none u v).1 = none) : u = [] := by
  rcases List.eq_nil_or_concat u with rfl | ⟨w, c, rfl⟩
  · rfl
  · simp [placeAfter] at h

theorem matches_bol {f : Flags} (hm : f.multi = false) (p q : Place) : Matches f .bol p q ↔ p = q ∧ p.1 = none := by
  simp [Matches, hm]

theorem matches_end {f : Flags} (hm : f.multi = false) (p q : Place) : Matches f (pieces [.eol]) p q ↔ p = q ∧ p.2 = [] := by
  simp only [pieces_cons, Matches, hm]
  constructor
  · rintro ⟨m, ⟨rfl, h⟩, rfl⟩; exact ⟨rfl, by simpa using h⟩
  · rintro ⟨rfl, h⟩; exact ⟨p, ⟨rfl, .inl h⟩, rfl⟩

theorem matches_last {f : Flags} (hf : f.fold = id) (p : Place) : (∃ q, Matches f (pieces [.chr '/']) p q) ↔ ∃ r, p.2 = '/' :: r := by
  simp only [pieces_cons, matches_slash hf]
  constructor
  · rintro ⟨q, m, ⟨h, _⟩, _⟩; exact ⟨m.2, h⟩
  · rintro ⟨r, h⟩; exact ⟨(some '/', r), (some '/', r), ⟨h, rfl⟩, rfl⟩

/-- A piece that may stand before a pattern: the rest begins at the start or after a `/`. -/
def IsHead (f : Flags) (H : Rx) : Prop :=
  (∀ path u v m, path = u ++ v → Matches f H (placeAfter none u v) m → ∃ pre, path = pre ++ m.2 ∧ m = placeAfter none pre m.2 ∧ (pre = [] ∨ pre.getLast? = some '/')) ∧
  (∀ path pre rest, '\n' ∉ path → path = pre ++ rest → (pre = [] ∨ pre.getLast? = some '/') →
    ∃ u v, path = u ++ v ∧ Matches f H (placeAfter none u v) (placeAfter none pre rest))

theorem last_slash {pre : List Char} (h : pre.getLast? = some '/') : ∃ dir, pre = dir ++ ['/'] := by
  rcases List.eq_nil_or_concat pre with rfl | ⟨w, c, rfl⟩
  · simp at h
  · simp at h; exact ⟨w, by simp [h]⟩

theorem isHead_anywhere {f : Flags} (hf : f.fold = id) (hm : f.multi = false) : IsHead f anywhereRx := by
  constructor
  · rintro path u v m rfl (⟨m', h1, rfl⟩ | h)
    · obtain ⟨rfl, h2⟩ := (matches_bol hm _ _).mp h1
      have := after_start u v h2
      subst this
      exact ⟨[], rfl, rfl, .inl rfl⟩
    · obtain ⟨s, h1, h2, h3⟩ := (matches_slashed hf _ _).mp h
      refine ⟨u ++ (s ++ ['/']), ?_, ?_, .inr (by simp)⟩
      · simp only [placeAfter] at h1; rw [h1]; simp
      · exact Prod.ext (by simp [placeAfter, h3]) rfl
  · rintro path pre rest hn rfl (rfl | h)
    · exact ⟨[], rest, rfl, .inl ⟨_, (matches_bol hm _ _).mpr ⟨rfl, rfl⟩, rfl⟩⟩
    · obtain ⟨dir, rfl⟩ := last_slash h
      exact ⟨[], _, rfl, .inr ((matches_slashed hf _ _).mpr ⟨dir, by simp [placeAfter], fun hd => hn (by simp [hd]), by simp [placeAfter]⟩)⟩

theorem isHead_boundary {f : Flags} (hf : f.fold = id) (hm : f.multi = false) : IsHead f boundaryRx := by
  constructor
  · rintro path u v m rfl (⟨m', h1, rfl⟩ | ⟨m', h1, rfl⟩)
    · obtain ⟨rfl, h2⟩ := (matches_bol hm _ _).mp h1
      have := after_start u v h2
      subst this
      exact ⟨[], rfl, rfl, .inl rfl⟩
    · obtain ⟨h2, h3⟩ := (matches_slash hf _ _).mp h1
      refine ⟨u ++ ['/'], ?_, ?_, .inr (by simp)⟩
      · simp only [placeAfter] at h2; rw [h2]; simp
      · exact Prod.ext (by simp [placeAfter, h3]) rfl
  · rintro path pre rest hn rfl (rfl | h)
    · exact ⟨[], rest, rfl, .inl ⟨_, (matches_bol hm _ _).mpr ⟨rfl, rfl⟩, rfl⟩⟩
    · obtain ⟨dir, rfl⟩ := last_slash h
      refine ⟨dir, '/' :: rest, by simp, .inr ⟨_, (matches_slash hf _ _).mpr ⟨rfl, ?_⟩, rfl⟩⟩
      simp [placeAfter]

theorem endOf_iff (rest path : List Char) : EndOf rest path ↔ ∃ pre, path = pre ++ rest ∧ (pre = [] ∨ pre.getLast? = some '/') := by
  constructor
  · rintro (rfl | ⟨dir, rfl⟩)
    · exact ⟨[], rfl, .inl rfl⟩
    · exact ⟨dir ++ ['/'], by simp, .inr (by simp)⟩
  · rintro ⟨pre, rfl, rfl | h⟩
    · exact .inl rfl
    · obtain ⟨dir, rfl⟩ := last_slash h
      exact .inr ⟨dir, by simp⟩

theorem found_headed {f : Flags} (hf : f.fold = id) {H : Rx} (hH : IsHead f H) (ts : List Tok) (tail : List Rx) (path : List Char)
    (hn : '\n' ∉ path) :
    Found f (pieces (H :: (ts.map tokRx ++ tail))) path ↔
      ∃ pre t v q, path = pre ++ (t ++ v) ∧ (pre = [] ∨ pre.getLast? = some '/') ∧ Denotes ts t ∧ Matches f (pieces tail) (placeAfter none (pre ++ t) v) q := by
  simp only [Found, pieces_cons, matches_toks hf]
  constructor
  · rintro ⟨u, v, q, h1, m, h2, t, v', h3, h4, h5⟩
    obtain ⟨pre, h6, h7, h8⟩ := hH.1 path u v m h1 h2
    refine ⟨pre, t, v', q, by rw [h6, h3], h8, h4, ?_⟩
    have h7' : m = placeAfter none pre (t ++ v') := by rw [← h3]; exact h7
    rwa [h7', after_append] at h5
  · rintro ⟨pre, t, v, q, h1, h2, h3, h4⟩
    obtain ⟨u, v', h5, h6⟩ := hH.2 path pre (t ++ v) hn h1 h2
    exact ⟨u, v', q, h5, _, h6, t, v, rfl, h3, by rwa [after_append]⟩

theorem found_bol {f : Flags} (hf : f.fold = id) (hm : f.multi = false) (ts : List Tok) (tail : List Rx) (path : List Char) :
    Found f (pieces (.bol :: (ts.map tokRx ++ tail))) path ↔
      ∃ t v q, path = t ++ v ∧ Denotes ts t ∧ Matches f (pieces tail) (placeAfter none t v) q := by
  simp only [Found, pieces_cons, matches_toks hf, matches_bol hm]
  constructor
  · rintro ⟨u, v, q, h1, m, ⟨rfl, h2⟩, t, v', h3, h4, h5⟩
    have := after_start u v h2
    subst this
    exact ⟨t, v', q, by rw [h1]; exact h3, h4, h5⟩
  · rintro ⟨t, v, q, h1, h2, h3⟩
    exact ⟨[], path, q, rfl, _, ⟨rfl, rfl⟩, t, v, h1, h2, h3⟩

/-- Files: a pattern without an anchor of its own. -/
theorem found_file {f : Flags} (hf : f.fold = id) (hm : f.multi = false) (ts : List Tok) (path : List Char) (hn : '\n' ∉ path) :
    Found f (pieces (anywhereRx :: (ts.map tokRx ++ [.eol]))) path ↔ ∃ rest, EndOf rest path ∧ Denotes ts rest := by
  rw [found_headed hf (isHead_anywhere hf hm) ts _ path hn]
  simp only [matches_end hm, endOf_iff]
  constructor
  · rintro ⟨pre, t, v, q, rfl, h2, h3, _, rfl⟩; exact ⟨t, ⟨pre, by simp, h2⟩, h3⟩
  · rintro ⟨t, ⟨pre, rfl, h2⟩, h3⟩; exact ⟨pre, t, [], _, by simp, h2, h3, rfl, rfl⟩

/-- Files: the expression without an anchor matches the end of any path. -/
theorem found_loose {f : Flags} (hf : f.fold = id) (hm : f.multi = false) (ts : List Tok) (path : List Char) :
    Found f (pieces (ts.map tokRx ++ [.eol])) path ↔ ∃ pre rest, path = pre ++ rest ∧ Denotes ts rest := by
  simp only [Found, matches_toks hf, matches_end hm]
  constructor
  · rintro ⟨u, v, q, rfl, t, v', h3, h4, _, h5⟩
    have : v' = [] := h5
    subst this
    refine ⟨u, t, ?_, h4⟩
    simp only [placeAfter, List.append_nil] at h3; rw [h3]
  · rintro ⟨pre, t, rfl, h⟩; exact ⟨pre, t, _, rfl, t, [], by simp [placeAfter], h, rfl, rfl⟩

/-- Directories. -/
theorem found_dir {f : Flags} (hf : f.fold = id) {H : Rx} (hH : IsHead f H) (ts : List Tok) (path : List Char) (hn : '\n' ∉ path) :
    Found f (pieces (H :: (ts.map tokRx ++ [.chr '/']))) path ↔
      ∃ dir r, path = dir ++ '/' :: r ∧ ∃ rest, EndOf rest dir ∧ Denotes ts rest := by
  rw [found_headed hf hH ts _ path hn]
  simp only [endOf_iff]
  constructor
  · rintro ⟨pre, t, v, q, rfl, h2, h3, h4⟩
    obtain ⟨r, hr⟩ := (matches_last hf _).mp ⟨q, h4⟩
    simp only [placeAfter] at hr
    subst hr
    exact ⟨pre ++ t, r, by simp, t, ⟨pre, rfl, h2⟩, h3⟩
  · rintro ⟨dir, r, rfl, t, ⟨pre, rfl, h2⟩, h3⟩
    obtain ⟨q, hq⟩ := (matches_last hf (placeAfter none (pre ++ t) ('/' :: r))).mpr ⟨r, rfl⟩
    exact ⟨pre, t, '/' :: r, q, by simp, h2, h3, hq⟩

theorem found_root {f : Flags} (hf : f.fold = id) (hm : f.multi = false) (ts : List Tok) (path : List Char) :
    Found f (pieces (.bol :: (ts.map tokRx ++ [.chr '/']))) path ↔ ∃ dir r, path = dir ++ '/' :: r ∧ Denotes ts dir := by
  rw [found_bol hf hm]
  constructor
  · rintro ⟨t, v, q, rfl, h3, h4⟩
    obtain ⟨r, hr⟩ := (matches_last hf _).mp ⟨q, h4⟩
    simp only [placeAfter] at hr
    subst hr
    exact ⟨t, r, rfl, h3⟩
  · rintro ⟨dir, r, rfl, h⟩
    obtain ⟨q, hq⟩ := (matches_last hf (placeAfter none dir ('/' :: r))).mpr ⟨r, rfl⟩
    exact ⟨dir, '/' :: r, q, rfl, h, hq⟩

end NextPlaid.Globs
