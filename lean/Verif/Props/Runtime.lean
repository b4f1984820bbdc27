import Verif.Proofs.Runtime

/-!
C96: The ONNX Runtime that is used is the right one.
-/

namespace NextPlaid.Props

open NextPlaid.Spec
open NextPlaid.Ort

variable {B : Type}

/-- **C96, the user's choice.**  If `ORT_DYLIB_PATH` names a library that can be loaded, that is the one used: nothing is searched, downloaded or written. -/
theorem C96_env (b : Build) (h : Host B) (net : Option (Archive B)) (w : World B) (p : Path) (hp : w.ort = some p) (hu : Loadable h w p) :
    (ensure b h net w).1 = some p ∧ (ensure b h net w).2.files = w.files ∧ (ensure b h net w).2.ort = some p := by
  have : usable h w p = true := (usable_iff h w p).mpr hu
  unfold ensure
  rw [hp]
  simp only [this, if_true]
  exact ⟨trivial, rfl, rfl⟩

theorem Toy.ensure_locate (b : Build) (h : Host B) (net : Option (Archive B)) (w : World B) (henv : ∀ p, w.ort = some p → ¬ Loadable h w p) :
    ensure b h net w = locate b h net { w with ort := none } := by
  unfold ensure
  cases hp : w.ort with
  | none =>
    have : w = { w with ort := none } := by rw [← hp]
    rw [← this]
  | some p =>
    have : usable h w p = false := by
      rw [← Bool.not_eq_true, usable_iff]
      exact henv p hp
    simp [this]

theorem Toy.locate_found (b : Build) (h : Host B) (net : Option (Archive B)) (w : World B) (hb : b.cuda = false) (p : Path)
    (hf : findRuntime b h w = some p) : locate b h net w = (some p, pin b w p) := by
  unfold locate
  rw [hb]
  simp only [Bool.false_eq_true, if_false]
  rw [hf]

theorem Toy.locate_none (b : Build) (h : Host B) (net : Option (Archive B)) (w : World B) (hf : b.cuda = true ∨ findRuntime b h w = none) :
    locate b h net w = match download b h net w with
      | (some p, w') => (some p, pin b w' p)
      | (none, w') => (none, w') := by
  unfold locate
  have : (if b.cuda then none else findRuntime b h w) = none := by
    rcases hf with h | h
    · rw [if_pos h]
    · rw [h, ite_self]
  rw [this]
  rfl

/-- **C96, the order of the search.**  Otherwise, without CUDA, the first library that can be loaded is used, in the order of the directories searched; no
file is written and the variable says which it is. -/
theorem C96_first (b : Build) (hb : b.cuda = false) (h : Host B) (net : Option (Archive B)) (w : World B) (henv : ∀ p, w.ort = some p → ¬ Loadable h w p)
    (pre post : List Path) (p : Path) (hc : (searchPaths b h).flatMap (candidatesIn b h) = pre ++ p :: post) (hp : Loadable h w p)
    (hpre : ∀ q ∈ pre, ¬ Loadable h w q) :
    (ensure b h net w).1 = some p ∧ (ensure b h net w).2.files = w.files ∧ (ensure b h net w).2.ort = some p := by
  rw [Toy.ensure_locate b h net w henv]
  have hf : findRuntime b h { w with ort := none } = some p := by
    unfold findRuntime
    rw [hc, List.find?_append, List.find?_eq_none.mpr, Option.none_or, List.find?_cons]
    · rw [(usable_iff h { w with ort := none } p).mpr hp]
    · intro q hq hu
      exact hpre q hq ((usable_iff h _ q).mp hu)
  rw [Toy.locate_found b h net _ hb p hf]
  exact ⟨rfl, rfl, rfl⟩

/-- **C96, the cache comes first.**  Without CUDA, a library in the cache of the program that can be loaded is used. -/
theorem C96_cache_first (b : Build) (hb : b.cuda = false) (h : Host B) (net : Option (Archive B)) (w : World B)
    (henv : ∀ p, w.ort = some p → ¬ Loadable h w p) (home : Path) (hh : h.home = some home)
    (hl : Loadable h w (home ++ [".cache", "colgrep", "onnxruntime", "1.23.0", b.subdir, b.lib])) :
    (ensure b h net w).1 = some (home ++ [".cache", "colgrep", "onnxruntime", "1.23.0", b.subdir, b.lib]) := by
  refine (C96_first b hb h net w henv [] ((((h.ls (cacheDir b home)).filter versioned).map (fun name => cacheDir b home ++ [name]) ++
    [cacheDir b home ++ ["lib", b.lib]]) ++ h.others.flatMap (candidatesIn b h)) _ ?_ hl (fun q hq => by cases hq)).1
  simp [searchPaths, hh, candidatesIn, cacheDir]

/-- **C96, where it looks.**  In each directory searched, the library by its plain name, by a name with a version, and in `lib` below it. -/
theorem C96_where (b : Build) (h : Host B) (dir : Path) (hd : dir ∈ searchPaths b h) (p : Path) :
    (p = dir ++ [b.lib] ∨ p = dir ++ ["lib", b.lib] ∨ ∃ name ∈ h.ls dir, versioned name = true ∧ p = dir ++ [name]) →
      p ∈ (searchPaths b h).flatMap (candidatesIn b h) := by
  intro hp
  refine List.mem_flatMap.mpr ⟨dir, hd, ?_⟩
  unfold candidatesIn
  rcases hp with rfl | rfl | ⟨name, hn, hv, rfl⟩
  · simp
  · simp
  · simp only [List.cons_append, List.mem_cons, List.mem_append, List.mem_map, List.mem_filter]
    exact .inr (.inl ⟨name, ⟨hn, hv⟩, rfl⟩)

/-- **C96, no needless download.**  If a library that can be loaded is in one of the places searched, nothing is asked of the network. -/
theorem C96_no_network (b : Build) (hb : b.cuda = false) (h : Host B) (net net' : Option (Archive B)) (w : World B) (p : Path)
    (hp : p ∈ (searchPaths b h).flatMap (candidatesIn b h)) (hu : Loadable h w p) :
    ensure b h net w = ensure b h net' w ∧ (ensure b h net w).2.files = w.files := by
  have hfind : ∀ w' : World B, w'.files = w.files → ∃ q, findRuntime b h w' = some q := by
    intro w' hw
    have : (findRuntime b h w').isSome = true := by
      unfold findRuntime
      rw [List.find?_isSome]
      exact ⟨p, hp, by rw [usable_files h w w' hw]; exact (usable_iff h w p).mpr hu⟩
    exact Option.isSome_iff_exists.mp this
  have hloc : ∀ (n : Option (Archive B)) (w' : World B), w'.files = w.files → ∃ q, locate b h n w' = (some q, pin b w' q) ∧ findRuntime b h w' = some q := by
    intro n w' hw
    obtain ⟨q, hq⟩ := hfind w' hw
    exact ⟨q, Toy.locate_found b h n w' hb q hq, hq⟩
  unfold ensure
  cases hort : w.ort with
  | none =>
    obtain ⟨q, h1, h2⟩ := hloc net w rfl
    obtain ⟨q', h1', h2'⟩ := hloc net' w rfl
    rw [h2] at h2'
    cases h2'
    simp only
    rw [h1, h1']
    exact ⟨rfl, rfl⟩
  | some e =>
    simp only
    split
    · exact ⟨rfl, rfl⟩
    · obtain ⟨q, h1, h2⟩ := hloc net { w with ort := none } rfl
      obtain ⟨q', h1', h2'⟩ := hloc net' { w with ort := none } rfl
      rw [h2] at h2'
      cases h2'
      rw [h1, h1']
      exact ⟨rfl, rfl⟩

/-- **C96, the download.**  With nothing to use and nothing cached: without an answer of the server there is an error and no change; an archive that can be
read and has all the files wanted gives the library, each file with the contents of its last entry in the archive and no other file changed; any other
archive gives an error. -/
theorem C96_download (b : Build) (h : Host B) (home : Path) (hh : h.home = some home) (w : World B) (henv : ∀ p, w.ort = some p → ¬ Loadable h w p)
    (hno : b.cuda = true ∨ ∀ p ∈ (searchPaths b h).flatMap (candidatesIn b h), ¬ Loadable h w p)
    (hcache : ∃ name ∈ b.required, w.files (cacheDir b home ++ [name]) = none) :
    ((ensure b h none w).1 = none ∧ (ensure b h none w).2.files = w.files) ∧
      ∀ a : Archive B,
        ((ensure b h (some a) w).1 = some (cacheDir b home ++ [b.lib]) ↔ a.broken = false ∧ ∀ x ∈ b.wanted, ∃ e ∈ a.entries, stripDot e.1 = x.1) ∧
        ((ensure b h (some a) w).1 = some (cacheDir b home ++ [b.lib]) ∨ (ensure b h (some a) w).1 = none) ∧
        (∀ q, (∀ x ∈ b.wanted, q ≠ cacheDir b home ++ [x.2]) → (ensure b h (some a) w).2.files q = w.files q) ∧
        ∀ src dst, (src, dst) ∈ b.wanted → (∃ e ∈ a.entries, stripDot e.1 = src) →
          ∃ c, LastIn a.entries src c ∧ (ensure b h (some a) w).2.files (cacheDir b home ++ [dst]) = some c := by
  set w0 : World B := { w with ort := none } with hw0
  have hfind : b.cuda = true ∨ findRuntime b h w0 = none := by
    rcases hno with hc | hno
    · exact .inl hc
    · right
      unfold findRuntime
      rw [List.find?_eq_none]
      intro p hp hu
      exact hno p hp ((usable_iff h w0 p).mp hu)
  have hnc : cached b (cacheDir b home) w0 = false := by
    obtain ⟨name, hn, hf⟩ := hcache
    rw [← Bool.not_eq_true]
    intro hall
    have := List.all_eq_true.mp hall name hn
    rw [show w0.files = w.files from rfl, hf] at this
    cases this
  have hdl : ∀ net, download b h net w0 = fetch b (cacheDir b home) net w0 := by
    intro net
    unfold download
    rw [hh]
    simp only [hnc, Bool.false_eq_true, if_false]
  have hens : ∀ net, ensure b h net w = match fetch b (cacheDir b home) net w0 with
      | (some p, w') => (some p, pin b w' p)
      | (none, w') => (none, w') := by
    intro net
    rw [Toy.ensure_locate b h net w henv, Toy.locate_none b h net w0 hfind, hdl]
  refine ⟨by rw [hens none]; exact ⟨rfl, rfl⟩, ?_⟩
  intro a
  have hex := extract_files b (cacheDir b home) a.entries w0
  cases hok : (!a.broken && allFound b.wanted a.entries) with
  | true =>
    have he : ensure b h (some a) w =
        (some (cacheDir b home ++ [b.lib]), pin b ((extractWrites b.wanted (cacheDir b home) a.entries).foldl World.put w0) (cacheDir b home ++ [b.lib])) := by
      rw [hens (some a)]
      simp only [fetch, extract, hok]
    rw [he]
    rw [Bool.and_eq_true, allFound_iff] at hok
    exact ⟨Iff.intro (fun _ => ⟨by simpa using hok.1, hok.2⟩) (fun _ => rfl), .inl rfl, hex.1, hex.2⟩
  | false =>
    have he : ensure b h (some a) w = (none, (extractWrites b.wanted (cacheDir b home) a.entries).foldl World.put w0) := by
      rw [hens (some a)]
      simp only [fetch, extract, hok]
    rw [he]
    refine ⟨Iff.intro (fun h => by cases h) ?_, .inr rfl, hex.1, hex.2⟩
    rintro ⟨h1, h2⟩
    rw [h1, (allFound_iff b.wanted a.entries).mpr h2] at hok
    cases hok

/-- **C96, what is used can be loaded**, provided that a library in the cache of the program can be loaded, and so can those of the archive.  What is
missing is the first proviso: see `C96_torn`. -/
theorem C96_loadable_partial (b : Build) (h : Host B) (net : Option (Archive B)) (w : World B)
    (hsane : ∀ home, h.home = some home → ∀ c, w.files (cacheDir b home ++ [b.lib]) = some c → h.loads c = true)
    (hnet : ∀ a, net = some a → ∀ e ∈ a.entries, (stripDot e.1, b.lib) ∈ b.wanted → h.loads e.2 = true)
    (p : Path) (hp : (ensure b h net w).1 = some p) :
    Loadable h (ensure b h net w).2 p ∧ (ensure b h net w).2.ort = some p := by
  have hloc : ∀ w0 : World B, w0.files = w.files → (locate b h net w0).1 = some p → Loadable h (locate b h net w0).2 p ∧ (locate b h net w0).2.ort = some p := by
    intro w0 hw0 hq
    by_cases hf : b.cuda = true ∨ findRuntime b h w0 = none
    · rw [Toy.locate_none b h net w0 hf] at hq ⊢
      unfold download at hq ⊢
      cases hh : h.home with
      | none => rw [hh] at hq; cases hq
      | some home =>
        rw [hh] at hq
        simp only at hq ⊢
        by_cases hc : cached b (cacheDir b home) w0 = true
        · rw [if_pos hc] at hq ⊢
          simp only [Option.some.injEq] at hq ⊢
          subst hq
          refine ⟨?_, rfl⟩
          have hlib : b.lib ∈ b.required := by cases b <;> decide
          have := List.all_eq_true.mp hc b.lib hlib
          obtain ⟨c, hcc⟩ := Option.isSome_iff_exists.mp this
          exact ⟨c, hcc, hsane home hh c (by rw [← hw0]; exact hcc)⟩
        · rw [if_neg hc] at hq ⊢
          cases net with
          | none => simp [fetch] at hq
          | some a =>
            cases hok : (!a.broken && allFound b.wanted a.entries) with
            | false => simp [fetch, extract, hok] at hq
            | true =>
              simp only [fetch, extract, hok, Option.some.injEq] at hq ⊢
              subst hq
              refine ⟨?_, rfl⟩
              rw [Bool.and_eq_true, allFound_iff] at hok
              obtain ⟨src, hs⟩ := lib_wanted b
              obtain ⟨c, ⟨pre, name, post, h1, h2, -⟩, h3⟩ := (extract_files b (cacheDir b home) a.entries w0).2 src b.lib hs (hok.2 _ hs)
              exact ⟨c, h3, hnet a rfl (name, c) (by rw [h1]; simp) (by rw [h2]; exact hs)⟩
    · have hcuda : b.cuda = false := by
        cases hb : b.cuda with
        | false => rfl
        | true => exact absurd (.inl hb) hf
      obtain ⟨q, hfq⟩ := Option.ne_none_iff_exists'.mp fun h => hf (.inr h)
      rw [Toy.locate_found b h net w0 hcuda q hfq] at hq ⊢
      cases hq
      have hu : usable h w0 p = true := List.find?_some (p := usable h w0) hfq
      exact ⟨(usable_iff h w0 p).mp hu, rfl⟩
  unfold ensure at hp ⊢
  cases hort : w.ort with
  | none =>
    rw [hort] at hp
    exact hloc w rfl hp
  | some e =>
    rw [hort] at hp
    simp only at hp ⊢
    split at hp
    · rename_i hu
      rw [if_pos hu]
      cases hp
      exact ⟨(usable_iff h w p).mp hu, rfl⟩
    · rename_i hu
      rw [if_neg hu]
      exact hloc { w with ort := none } rfl hp

/-- **C96, a broken library in the cache is used for good.**  If the files of the cache are there but the library cannot be loaded, and nothing else is
found, every run gives that library, whatever the server would send; it is not repaired. -/
theorem C96_broken_cache (b : Build) (h : Host B) (home : Path) (hh : h.home = some home) (w : World B) (henv : w.ort = none)
    (hno : b.cuda = true ∨ ∀ p ∈ (searchPaths b h).flatMap (candidatesIn b h), ¬ Loadable h w p)
    (hcache : ∀ name ∈ b.required, (w.files (cacheDir b home ++ [name])).isSome = true) (hbad : ¬ Loadable h w (cacheDir b home ++ [b.lib]))
    (net : Option (Archive B)) :
    (ensure b h net w).1 = some (cacheDir b home ++ [b.lib]) ∧ (ensure b h net w).2.files = w.files ∧
      ¬ Loadable h (ensure b h net w).2 (cacheDir b home ++ [b.lib]) := by
  have hfind : b.cuda = true ∨ findRuntime b h w = none := by
    rcases hno with hc | hno
    · exact .inl hc
    · right
      unfold findRuntime
      rw [List.find?_eq_none]
      intro p hp hu
      exact hno p hp ((usable_iff h w p).mp hu)
  have hc : cached b (cacheDir b home) w = true := List.all_eq_true.mpr hcache
  have he : ensure b h net w = (some (cacheDir b home ++ [b.lib]), pin b w (cacheDir b home ++ [b.lib])) := by
    unfold ensure
    rw [henv]
    simp only
    rw [Toy.locate_none b h net w hfind]
    unfold download
    rw [hh]
    simp only [hc, if_true]
  rw [he]
  exact ⟨rfl, rfl, hbad⟩

/-- **C96, refuted for crashes.**  If the process dies while the library of a CPU build is written, so that the file is there with contents that cannot be
loaded, then every later run reports success with that file, even with a server that sends a good archive. -/
theorem C96_torn (b : Build) (hb : b.cuda = false) (h : Host B) (home : Path) (hh : h.home = some home) (w : World B) (henv : w.ort = none)
    (hno : ∀ p ∈ (searchPaths b h).flatMap (candidatesIn b h), ¬ Loadable h w p) (torn : B → B → Prop) (good bad : B) (ht : torn good bad)
    (hbad : h.loads bad = false) (src : String) (hs : (src, b.lib) ∈ b.wanted) (hdot : stripDot src = src) :
    ∃ w', Crash torn (extractWrites b.wanted (cacheDir b home) [(src, good)]) w w' ∧
      ∀ net, (ensure b h net w').1 = some (cacheDir b home ++ [b.lib]) ∧ ¬ Loadable h (ensure b h net w').2 (cacheDir b home ++ [b.lib]) := by
  have hde : destOf b.wanted src = some b.lib := (destOf_iff b src b.lib).mpr (by rw [hdot]; exact hs)
  have hw : extractWrites b.wanted (cacheDir b home) [(src, good)] = [(cacheDir b home ++ [b.lib], good)] := by simp [extractWrites, hde]
  rw [hw]
  refine ⟨w.put (cacheDir b home ++ [b.lib], bad), .part ht, ?_⟩
  have hput : ∀ q, Loadable h (w.put (cacheDir b home ++ [b.lib], bad)) q → Loadable h w q := by
    rintro q ⟨c, hc, hl⟩
    simp only [World.put] at hc
    split at hc
    · cases hc
      rw [hbad] at hl
      cases hl
    · exact ⟨c, hc, hl⟩
  have hself : ¬ Loadable h (w.put (cacheDir b home ++ [b.lib], bad)) (cacheDir b home ++ [b.lib]) := by
    rintro ⟨c, hc, hl⟩
    simp only [World.put, if_true] at hc
    cases hc
    rw [hbad] at hl
    cases hl
  intro net
  have := C96_broken_cache b h home hh (w.put (cacheDir b home ++ [b.lib], bad)) henv (.inr fun p hp hl => hno p hp (hput p hl)) (by
    intro name hn
    have hreq : b.required = [b.lib] := by cases b <;> first | rfl | cases hb
    rw [hreq, List.mem_singleton] at hn
    subst hn
    simp [World.put]) hself net
  exact ⟨this.1, this.2.2⟩

/-- **C96, one download.**  After a run that gave a library, the next process with the same environment gives one without the network: but see
`C96_arm_downloads_again` for the one build that does not. -/
theorem C96_once (b : Build) (hb : b ≠ .linuxArmCuda) (h : Host B) (net : Option (Archive B)) (w : World B) (p : Path)
    (hp : (ensure b h net w).1 = some p) (net' : Option (Archive B)) :
    ((ensure b h net' { w with files := (ensure b h net w).2.files }).1).isSome = true := by
  have key : ∀ w1 : World B, (∃ home, h.home = some home ∧ cached b (cacheDir b home) w1 = true) → ((ensure b h net' w1).1).isSome = true := by
    rintro w1 ⟨home, hh, hc⟩
    have hl : ∀ w0 : World B, w0.files = w1.files → ((locate b h net' w0).1).isSome = true := by
      intro w0 hw0
      by_cases hf : b.cuda = true ∨ findRuntime b h w0 = none
      · rw [Toy.locate_none b h net' w0 hf]
        unfold download
        rw [hh]
        simp only
        rw [cached_files b _ w1 w0 hw0, hc]
        rfl
      · have hcuda : b.cuda = false := by
          cases hb : b.cuda with
          | false => rfl
          | true => exact absurd (.inl hb) hf
        obtain ⟨q, hfq⟩ := Option.ne_none_iff_exists'.mp fun h => hf (.inr h)
        rw [Toy.locate_found b h net' w0 hcuda q hfq]
        rfl
    unfold ensure
    split
    · split
      · rfl
      · exact hl _ rfl
    · exact hl _ rfl
  have hloc : ∀ w0 : World B, w0.files = w.files → (locate b h net w0).1 = some p →
      (∃ home, h.home = some home ∧ cached b (cacheDir b home) (locate b h net w0).2 = true) ∨
        ((locate b h net w0).2.files = w.files ∧ b.cuda = false ∧ findRuntime b h w0 = some p) := by
    intro w0 hw0 hq
    by_cases hf : b.cuda = true ∨ findRuntime b h w0 = none
    · left
      rw [Toy.locate_none b h net w0 hf] at hq ⊢
      unfold download at hq ⊢
      cases hh : h.home with
      | none => rw [hh] at hq; cases hq
      | some home =>
        rw [hh] at hq
        refine ⟨home, rfl, ?_⟩
        simp only at hq ⊢
        by_cases hc : cached b (cacheDir b home) w0 = true
        · rw [if_pos hc] at hq ⊢
          exact hc
        · rw [if_neg hc] at hq ⊢
          cases net with
          | none => simp [fetch] at hq
          | some a =>
            cases hok : (!a.broken && allFound b.wanted a.entries) with
            | false => simp [fetch, extract, hok] at hq
            | true =>
              simp only [fetch, extract, hok]
              rw [Bool.and_eq_true, allFound_iff] at hok
              refine List.all_eq_true.mpr ?_
              intro name hn
              obtain ⟨src, hs⟩ := required_wanted b hb name hn
              obtain ⟨c, -, h3⟩ := (extract_files b (cacheDir b home) a.entries w0).2 src name hs (hok.2 _ hs)
              rw [pin_files, h3]
              rfl
    · right
      have hcuda : b.cuda = false := by
        cases hb : b.cuda with
        | false => rfl
        | true => exact absurd (.inl hb) hf
      obtain ⟨q, hfq⟩ := Option.ne_none_iff_exists'.mp fun h => hf (.inr h)
      rw [Toy.locate_found b h net w0 hcuda q hfq] at hq ⊢
      cases hq
      exact ⟨hw0, hcuda, hfq⟩
  by_cases henv : ∀ e, w.ort = some e → ¬ Loadable h w e
  · have hens := Toy.ensure_locate b h net w henv
    rw [hens] at hp ⊢
    rcases hloc { w with ort := none } rfl hp with ⟨home, hh, hc⟩ | ⟨hfiles, hcuda, hfound⟩
    · refine key _ ⟨home, hh, ?_⟩
      exact hc
    · rw [hfiles]
      have : ({ w with files := w.files } : World B) = w := rfl
      rw [this, Toy.ensure_locate b h net' w henv, Toy.locate_found b h net' _ hcuda p hfound]
      rfl
  · push Not at henv
    obtain ⟨e, he, hl⟩ := henv
    have h1 := C96_env b h net w e he hl
    rw [h1.2.1]
    have h2 := C96_env b h net' w e he hl
    have : ({ w with files := w.files } : World B) = w := rfl
    rw [this, h2.1]
    rfl

/-- **C96, refuted for CUDA on ARM.**  The archive for Linux on ARM has only the library, but a CUDA build looks for two more files in its cache: every run
downloads again, and without a network there is an error although the library is there. -/
theorem C96_arm_downloads_again (h : Host B) (home : Path) (hh : h.home = some home) (net : Option (Archive B)) (w : World B) (henv : w.ort = none)
    (hw : w.files (cacheDir .linuxArmCuda home ++ ["libonnxruntime_providers_cuda.so"]) = none) :
    (ensure .linuxArmCuda h none { w with files := (ensure .linuxArmCuda h net w).2.files }).1 = none := by
  have hsame : (ensure .linuxArmCuda h net w).2.files (cacheDir .linuxArmCuda home ++ ["libonnxruntime_providers_cuda.so"]) = none := by
    have hcase := C96_download .linuxArmCuda h home hh w (fun p hp => by rw [henv] at hp; cases hp) (.inl rfl)
      ⟨"libonnxruntime_providers_cuda.so", by decide, hw⟩
    cases net with
    | none => rw [hcase.1.2]; exact hw
    | some a =>
      rw [(hcase.2 a).2.2.1 _ (by
        intro x hx
        have hx' : x = ("onnxruntime-linux-aarch64-1.23.0/lib/libonnxruntime.so.1.23.0", "libonnxruntime.so") := by simpa [Build.wanted] using hx
        rw [hx']
        intro heq
        have := List.append_cancel_left heq
        exact absurd this (by decide))]
      exact hw
  exact (C96_download .linuxArmCuda h home hh { w with files := (ensure .linuxArmCuda h net w).2.files }
    (fun p hp => by rw [show ({ w with files := (ensure .linuxArmCuda h net w).2.files } : World B).ort = w.ort from rfl, henv] at hp; cases hp) (.inl rfl)
    ⟨"libonnxruntime_providers_cuda.so", by decide, hsame⟩).1.1

/-- **C96, the search path of the linker.**  A directory whose name is nowhere in the path becomes its first entry; entries that were there stay. -/
theorem C96_ld (dir cur : Text) : (¬ (∃ a b, cur = a ++ dir ++ b) → LdEntry dir (prependLd dir cur) ∧ ∃ rest, prependLd dir cur = dir ++ rest) ∧
    ∀ e, cur ≠ [] → LdEntry e cur → LdEntry e (prependLd dir cur) := by
  constructor
  · intro hno
    have hc : containsText dir cur = false := by
      rw [← Bool.not_eq_true, containsText_iff]
      exact hno
    unfold prependLd
    rw [hc]
    simp only [Bool.false_eq_true, if_false]
    split
    · exact ⟨⟨[], [], by simp, .inl rfl, .inl rfl⟩, [], by simp⟩
    · exact ⟨⟨[], ':' :: cur, by simp, .inl rfl, .inr ⟨cur, rfl⟩⟩, ':' :: cur, rfl⟩
  · rintro e hne ⟨pre, post, h1, h2, h3⟩
    unfold prependLd
    split
    · exact ⟨pre, post, h1, h2, h3⟩
    · split
      · rename_i hemp
        exact absurd (List.isEmpty_iff.mp hemp) hne
      · refine ⟨dir ++ ':' :: pre, post, by rw [h1]; simp, .inr ?_, h3⟩
        rcases h2 with rfl | ⟨p, rfl⟩
        · exact ⟨dir, rfl⟩
        · exact ⟨dir ++ ':' :: p, by simp⟩

/-- **C96, refuted for directories whose name is part of another.**  `/opt/ort/lib` is not added to the path if `/opt/ort/lib64` is in it. -/
theorem C96_ld_part_of_name : prependLd "/opt/ort/lib".toList "/opt/ort/lib64".toList = "/opt/ort/lib64".toList ∧
    ¬ LdEntry "/opt/ort/lib".toList "/opt/ort/lib64".toList := by
  refine ⟨by decide, ?_⟩
  rintro ⟨pre, post, h, h1, h2⟩
  rcases h1 with rfl | ⟨p, rfl⟩
  · rcases h2 with rfl | ⟨q, rfl⟩
    · exact absurd (congrArg List.length h) (by decide)
    · have := congrArg (fun l : Text => l[12]?) h
      simp at this
  · have hm : ':' ∈ "/opt/ort/lib64".toList := by rw [h]; simp
    exact absurd hm (by decide)

/-- **C96, started again at most once.**  For cuDNN the process starts itself again with another environment, but never twice. -/
theorem C96_reexec (forceCpu : Bool) (cudnn ortGpu : Option Text) (w : World B) (fuel : Nat) : startsOf forceCpu cudnn ortGpu fuel w ≤ 2 := by
  have hset : ∀ (w' : World B), w'.setup = true → setupCuda forceCpu cudnn ortGpu w' = none := by
    intro w' h
    unfold setupCuda
    rw [h, Bool.or_true, if_pos rfl]
  have hone : ∀ (fuel : Nat) (w' : World B), w'.setup = true → startsOf forceCpu cudnn ortGpu fuel w' ≤ 1 := by
    intro fuel w' h
    cases fuel with
    | zero => exact Nat.zero_le _
    | succ n => rw [startsOf, hset w' h]; exact Nat.le_refl 1
  cases fuel with
  | zero => exact Nat.zero_le _
  | succ n =>
    rw [startsOf]
    cases h : setupCuda forceCpu cudnn ortGpu w with
    | none => exact Nat.le_succ 1
    | some w' =>
      have hs : w'.setup = true := by
        unfold setupCuda at h
        split at h
        · cases h
        · split at h
          · cases h
          · split at h
            · cases h
            · cases h; rfl
      have := hone n w' hs
      show 1 + _ ≤ 2
      omega

/-- **C96, only if CUDA may be used.**  With the CPU demanded the process is never started again; if it is, cuDNN is in the path of the new one, and all
that was in it still is. -/
theorem C96_cudnn_in_path (forceCpu : Bool) (cudnn ortGpu : Option Text) (w w' : World B) (h : setupCuda forceCpu cudnn ortGpu w = some w') :
    forceCpu = false ∧ ∃ dir, cudnn = some dir ∧ LdEntry dir w'.ld ∧ (∀ e, w.ld ≠ [] → LdEntry e w.ld → LdEntry e w'.ld) ∧ w'.files = w.files := by
  have hcons : ∀ d e ld : Text, LdEntry e ld → LdEntry e (d ++ ':' :: ld) := by
    rintro d e ld ⟨pre, post, h1, h2, h3⟩
    refine ⟨d ++ ':' :: pre, post, by rw [h1]; simp, .inr ?_, h3⟩
    rcases h2 with rfl | ⟨p, rfl⟩
    · exact ⟨d, rfl⟩
    · exact ⟨d ++ ':' :: p, by simp⟩
  have hwith : ∀ e ld, LdEntry e ld → LdEntry e (setupCuda.withOrt ortGpu ld) := by
    intro e ld he
    cases ortGpu with
    | none => exact he
    | some d =>
      simp only [setupCuda.withOrt]
      split
      · exact he
      · exact hcons d e ld he
  unfold setupCuda at h
  split at h
  · cases h
  · rename_i hf
    split at h
    · cases h
    · rename_i dir
      split at h
      · cases h
      · rename_i hc
        cases h
        rw [Bool.or_eq_true, not_or, Bool.not_eq_true] at hf
        have hno : ¬ ∃ a b, w.ld = a ++ dir ++ b := by rwa [← containsText_iff]
        exact ⟨hf.1, dir, rfl, hwith _ _ ((C96_ld dir w.ld).1 hno).1, fun e hne he => hwith _ _ ((C96_ld dir w.ld).2 e hne he), rfl⟩

/-! ### A concrete host -/

namespace ToyOrt

/-- Contents are texts; those of a library begin with `ELF`. -/
def host : Host Text :=
  { home := some ["home", "u"], others := [["home", "u", ".cache", "onnxruntime", "1.23.0"], ["venv", "capi"]],
    ls := fun p => if p = ["venv", "capi"] then ["libonnxruntime_providers_shared.so", "libonnxruntime.so.1.20.1"] else [],
    loads := fun c => "ELF and all the rest".toList.isPrefixOf c }

def good : Text := "ELF and all the rest".toList

def cacheLib : Path := ["home", "u", ".cache", "colgrep", "onnxruntime", "1.23.0", "cpu", "libonnxruntime.so"]

def archive : Archive Text :=
  { entries := [("./onnxruntime-linux-x64-1.23.0/LICENSE", "MIT".toList), ("./onnxruntime-linux-x64-1.23.0/lib/libonnxruntime.so.1.23.0", good)] }

def empty : World Text := { files := fun _ => none }

def torn : World Text := { files := fun p => if p = cacheLib then some "ELF".toList else none }

def venv : World Text := { files := fun p => if p = ["venv", "capi", "libonnxruntime.so.1.20.1"] then some good else
  if p = ["venv", "capi", "libonnxruntime_providers_shared.so"] then some "ELF".toList else none }

example : (ensure .linuxX64 host (some archive) empty).1 = some cacheLib ∧ (ensure .linuxX64 host (some archive) empty).2.files cacheLib = some good := by
  decide +kernel
example : versioned "libonnxruntime.so.1.20.1" = true ∧ versioned "libonnxruntime.1.20.1.dylib" = true ∧ versioned "libonnx.so" = false := by decide +kernel
example : (ensure .linuxX64 host none empty).1 = none := by decide +kernel
example : (ensure .linuxX64 host none venv).1 = some ["venv", "capi", "libonnxruntime.so.1.20.1"] := by decide +kernel
example : (ensure .linuxX64 host (some archive) torn).1 = some cacheLib ∧ usable host (ensure .linuxX64 host (some archive) torn).2 cacheLib = false := by
  decide +kernel
example : (ensure .linuxX64 host none { venv with ort := some ["gone.so"] }).1 = some ["venv", "capi", "libonnxruntime.so.1.20.1"] := by decide +kernel
example : (ensure .linuxX64 host none { venv with ld := "/x".toList }).2.ld = "/venv/capi:/x".toList := by decide +kernel

/-- The hypotheses of `C96_torn`. -/
example := C96_torn .linuxX64 rfl host ["home", "u"] rfl empty rfl (fun p _ h => by obtain ⟨c, hc, -⟩ := h; cases hc) (fun g c => c.isPrefixOf g = true)
  good "ELF".toList (by decide) (by decide) "onnxruntime-linux-x64-1.23.0/lib/libonnxruntime.so.1.23.0" (List.mem_singleton.mpr rfl) (by decide +kernel)

example : startsOf (B := Text) false (some "/cuda/lib".toList) (some "/ort".toList) 5 { files := fun _ => none, ld := "/x".toList } = 2 := by decide +kernel
example : ((setupCuda (B := Text) false (some "/cuda/lib".toList) (some "/ort".toList) { files := fun _ => none, ld := "/x".toList }).map (·.ld)) =
    some "/ort:/cuda/lib:/x".toList := by decide +kernel

end ToyOrt

end NextPlaid.Props
