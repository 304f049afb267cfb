import Verif.Lemmas.Fs

/-!
# Which files are read, and which paths may be written (C28, C29, C51)
-/

namespace Art
open Spec

/-! ## C29: the loader visits exactly the configured files -/

theorem get?_none_iff {fs : FS} {p : FilePath} : IMap.get? fs p = none ↔ Missing fs p := by
  rw [IMap.get?_eq_none]
  constructor
  · intro h n hn
    exact h _ hn rfl
  · intro h e he hk
    obtain ⟨q, n⟩ := e
    obtain rfl : q = p := hk
    exact h n he

/-- Everything from the root down to `p` passes the filter exactly when nothing in between is excluded and
the file is wanted. -/
theorem filter_chain {fs : FS} (w : FS.WF fs) {f : FilePath → Bool → Bool} {excl : List FilePath}
    {Wanted : FilePath → Prop} (hd : ∀ p, f p true = true ↔ p ∉ excl)
    (hf : ∀ p, IsFile fs p → (f p false = true ↔ p ∉ excl ∧ Wanted p)) {r p : FilePath} (hp : IsFile fs p)
    (hu : Under r p) :
    (∀ x m, IMap.get? fs x = some m → Under r x → Under x p → f x m.isDir = true) ↔
      Wanted p ∧ ∀ e ∈ excl, Under r e → ¬ Under e p := by
  obtain ⟨c, hc⟩ := w.isFile_iff.1 hp
  constructor
  · intro h
    refine ⟨((hf p hp).1 (h p _ hc hu (Under.refl _))).2, ?_⟩
    intro e he h1 h2
    by_cases hep : e = p
    · subst hep
      exact ((hf e hp).1 (h e _ hc hu (Under.refl _))).1 he
    · exact (hd e).1 (h e _ (w.above hc h2 hep) h1 h2) he
  · rintro ⟨hw, h⟩ x m hx h1 h2
    have hne : x ∉ excl := fun hm => h x hm h1 h2
    cases m with
    | dir => exact (hd x).2 hne
    | file c' =>
      have hxp : x = p := by
        by_contra hxp
        have := w.above hc h2 hxp
        rw [hx] at this
        cases this
      subst hxp
      exact (hf x hp).2 ⟨hne, hw⟩

/-- One configured path sends exactly the files it finds, each of them once. -/
theorem walkPath_spec {fs : FS} (w : FS.WF fs) {f : FilePath → Bool → Bool} {excl : List FilePath}
    {Wanted : FilePath → Prop} (hd : ∀ p, f p true = true ↔ p ∉ excl)
    (hf : ∀ p, IsFile fs p → (f p false = true ↔ p ∉ excl ∧ Wanted p)) (r p : FilePath) :
    ((walkPath fs f r).getD []).Nodup ∧ (p ∈ (walkPath fs f r).getD [] ↔ Finds fs excl Wanted r p) := by
  unfold walkPath
  cases hr : IMap.get? fs r with
  | none =>
    refine ⟨by simp, ?_⟩
    simp only [Option.getD_none, List.not_mem_nil, false_iff]
    rintro ⟨hp, h⟩
    obtain ⟨c, hc⟩ := w.isFile_iff.1 hp
    rcases h with rfl | ⟨hu, _⟩
    · rw [hr] at hc; cases hc
    · by_cases hne : r = p
      · subst hne; rw [hr] at hc; cases hc
      · have := w.above hc hu hne
        rw [hr] at this; cases this
  | some n =>
    cases n with
    | file c =>
      refine ⟨by simp, ?_⟩
      simp only [Option.getD_some, List.mem_singleton]
      constructor
      · rintro rfl
        exact ⟨w.isFile_iff.2 ⟨c, hr⟩, Or.inl rfl⟩
      · rintro ⟨hp, rfl | ⟨hu, _⟩⟩
        · rfl
        · by_contra hne
          obtain ⟨c', hc⟩ := w.isFile_iff.1 hp
          have := w.above hc hu (fun h => hne h.symm)
          rw [hr] at this
          cases this
    | dir =>
      simp only [Option.getD_some]
      refine ⟨walk_nodup w f _ r .dir hr (by omega), ?_⟩
      rw [mem_walk w f _ r .dir hr (by omega)]
      constructor
      · rintro ⟨hp, hu, h⟩
        exact ⟨hp, Or.inr ⟨hu, (filter_chain w hd hf hp hu).1 h⟩⟩
      · rintro ⟨hp, rfl | ⟨hu, h⟩⟩
        · obtain ⟨c', hc⟩ := w.isFile_iff.1 hp
          rw [hr] at hc
          cases hc
        · exact ⟨hp, hu, (filter_chain w hd hf hp hu).2 h⟩

open Classical in
theorem count_walkPaths {fs : FS} (w : FS.WF fs) {f : FilePath → Bool → Bool} {excl : List FilePath}
    {Wanted : FilePath → Prop} (hd : ∀ p, f p true = true ↔ p ∉ excl)
    (hf : ∀ p, IsFile fs p → (f p false = true ↔ p ∉ excl ∧ Wanted p)) (roots : ISet FilePath) (p : FilePath) :
    (walkPaths fs f roots).count p = roots.countP (fun r => decide (Finds fs excl Wanted r p)) := by
  induction roots with
  | nil => rfl
  | cons r roots ih =>
    have e : walkPaths fs f (r :: roots) = (walkPath fs f r).getD [] ++ walkPaths fs f roots := rfl
    obtain ⟨hn, hm⟩ := walkPath_spec w hd hf r p
    rw [e, List.count_append, List.countP_cons, ih, add_comm]
    congr 1
    by_cases h : Finds fs excl Wanted r p
    · rw [List.count_eq_one_of_mem hn (hm.2 h)]
      simp [h]
    · rw [List.count_eq_zero_of_not_mem (fun h' => h (hm.1 h'))]
      simp [h]

theorem contains_path {excl : ISet FilePath} {p : FilePath} : ISet.contains excl p = true ↔ p ∈ excl := by
  rw [ISet.contains_iff]
  constructor
  · rintro ⟨x, hx, h⟩
    obtain rfl : x = p := h
    exact hx
  · exact fun h => ⟨p, h, rfl⟩

theorem artFilter_dir (excl : ISet FilePath) (p : FilePath) : artFilter excl p true = true ↔ p ∉ excl := by
  simp [artFilter, ← contains_path]

theorem artFilter_file {fs : FS} (w : FS.WF fs) (excl : ISet FilePath) (p : FilePath) (hp : IsFile fs p) :
    artFilter excl p false = true ↔ p ∉ excl ∧ Supported p := by
  obtain ⟨c, hc⟩ := w.isFile_iff.1 hp
  rw [← supported_iff (w.absolute hc)]
  simp [artFilter, ← contains_path, Option.isSome_iff_ne_none]

open Classical in
/-- C29. In every directory tree and for all settings: a file is loaded once for every configured artifact
path that finds it. A configured path finds a file that lies under it, has an artifact extension, and has
no excluded path at or between them; and it finds itself, whatever its extension and the excludes say. -/
theorem C29_artifacts {fs : FS} (w : FS.WF fs) (s : Settings) (p : FilePath) :
    (walkArtifacts fs s).count p =
      s.artifactPaths.countP (fun r => decide (Finds fs s.excludeArtifactPaths Supported r p)) :=
  count_walkPaths w (artFilter_dir _) (artFilter_file w _) _ p

open Classical in
/-- C29 for code: the same, where every file is wanted. -/
theorem C29_code {fs : FS} (w : FS.WF fs) (s : Settings) (p : FilePath) :
    (walkCode fs s).count p =
      s.codePaths.countP (fun r => decide (Finds fs s.excludeCodePaths (fun _ => True) r p)) :=
  count_walkPaths w (fun p => by simp [codeFilter, ← contains_path])
    (fun p _ => by simp [codeFilter, ← contains_path]) _ p

/-- C29: the set of files loaded. -/
theorem C29_mem {fs : FS} (w : FS.WF fs) (s : Settings) (p : FilePath) :
    p ∈ walkArtifacts fs s ↔ ∃ r ∈ s.artifactPaths, Finds fs s.excludeArtifactPaths Supported r p := by
  classical
  rw [← List.count_pos_iff, C29_artifacts w, List.countP_pos_iff]
  simp

/-- C29: configured paths of which none lies inside another load every file at most once. -/
theorem C29_once {fs : FS} (w : FS.WF fs) (s : Settings) (hn : List.Nodup s.artifactPaths)
    (hd : ∀ a ∈ s.artifactPaths, ∀ b ∈ s.artifactPaths, Under a b → a = b) : (walkArtifacts fs s).Nodup := by
  classical
  rw [List.nodup_iff_count_le_one]
  intro p
  rw [C29_artifacts w, List.countP_eq_length_filter]
  by_contra h
  have hnd : (s.artifactPaths.filter
      (fun r => decide (Finds fs s.excludeArtifactPaths Supported r p))).Nodup := hn.filter _
  match hl : s.artifactPaths.filter (fun r => decide (Finds fs s.excludeArtifactPaths Supported r p)) with
  | [] => rw [hl] at h; simp at h
  | [_] => rw [hl] at h; simp at h
  | a :: b :: l =>
    have hu : ∀ x ∈ a :: b :: l, x ∈ s.artifactPaths ∧ Under x p := by
      intro x hx
      rw [← hl, List.mem_filter] at hx
      refine ⟨hx.1, ?_⟩
      rcases (of_decide_eq_true hx.2).2 with rfl | ⟨hu, _⟩
      · exact Under.refl _
      · exact hu
    have ha := hu a (by simp)
    have hb := hu b (by simp)
    have hab : a = b := by
      rcases ha.2.total hb.2 with h | h
      · exact hd a ha.1 b hb.1 h
      · exact (hd b hb.1 a ha.1 h).symm
    rw [hl] at hnd
    simp [hab] at hnd

/-- C29: every configured path that does not exist is reported, and nothing else is. -/
theorem C29_missing (L : Libs) (fs : FS) (f : FilePath → Bool → Bool) (roots : ISet FilePath) (l : Lint) :
    l ∈ walkLints L fs f roots ↔ ∃ r ∈ roots, Missing fs r ∧
      l = ⟨.error, some r, none, .loadPaths, c!"Error during loading: " ++ L.errMsg .io⟩ := by
  have e : ∀ r, (walkPath fs f r).isNone = true ↔ Missing fs r := by
    intro r
    rw [← get?_none_iff]
    unfold walkPath
    split <;> simp_all
  simp only [walkLints, List.mem_filterMap, Option.ite_none_right_eq_some, Option.some.injEq, e, Lint.loadError]
  constructor
  · rintro ⟨r, hr, h, rfl⟩
    exact ⟨r, hr, h, rfl⟩
  · rintro ⟨r, hr, h, rfl⟩
    exact ⟨r, hr, h, rfl⟩

/-! ### an example tree -/

/-- `/p/design/a.md`, `/p/design/old/b.toml`, `/p/design/old/keep/c.json`, `/p/notes.txt`. -/
def exTree : FS :=
  [(c!"", .dir), (c!"/p", .dir), (c!"/p/design", .dir), (c!"/p/design/a.md", .file (.text c!"x")),
   (c!"/p/design/old", .dir), (c!"/p/design/old/b.toml", .file (.text c!"y")),
   (c!"/p/design/old/keep", .dir), (c!"/p/design/old/keep/c.json", .file (.text c!"z")),
   (c!"/p/design/x.rs", .file (.text c!"code")), (c!"/p/notes.txt", .file (.text c!"n"))]

theorem exTree_wf : FS.WF exTree where
  nodup := by unfold IMap.Nodup; decide
  root := by decide
  parent := by
    intro e he hne
    simp only [exTree, List.mem_cons, List.not_mem_nil, or_false] at he
    rcases he with rfl | rfl | rfl | rfl | rfl | rfl | rfl | rfl | rfl | rfl
    · exact absurd rfl hne
    · exact ⟨c!"", c!"p", by decide⟩
    · exact ⟨c!"/p", c!"design", by decide⟩
    · exact ⟨c!"/p/design", c!"a.md", by decide⟩
    · exact ⟨c!"/p/design", c!"old", by decide⟩
    · exact ⟨c!"/p/design/old", c!"b.toml", by decide⟩
    · exact ⟨c!"/p/design/old", c!"keep", by decide⟩
    · exact ⟨c!"/p/design/old/keep", c!"c.json", by decide⟩
    · exact ⟨c!"/p/design", c!"x.rs", by decide⟩
    · exact ⟨c!"/p", c!"notes.txt", by decide⟩

/-- Settings with the given artifact paths and excluded paths. -/
def exPaths (roots excl : List FilePath) : Settings :=
  { base := c!"/p", settingsPath := c!"/p/.art/settings.toml", codePaths := [c!"/p"], excludeCodePaths := excl,
    artifactPaths := roots, excludeArtifactPaths := excl, codeUrl := none, mdName := .default, mdAttrs := .code none }

example : walkArtifacts exTree (exPaths [c!"/p/design"] [c!"/p/design/old"]) = [c!"/p/design/a.md"] := by decide
example : walkCode exTree (exPaths [] [c!"/p/design"]) = [c!"/p/notes.txt"] := by decide
/-- `C29_once` and `C29_missing` apply. -/
example : walkArtifacts exTree (exPaths [c!"/p/design/old", c!"/p/nope"] []) =
    [c!"/p/design/old/b.toml", c!"/p/design/old/keep/c.json"] := by decide
/-- Overlapping configured paths load the file twice, so its artifacts are reported as duplicates. -/
example : walkArtifacts exTree (exPaths [c!"/p/design/old", c!"/p/design/old/keep"] []) =
    [c!"/p/design/old/b.toml", c!"/p/design/old/keep/c.json", c!"/p/design/old/keep/c.json"] := by decide
/-- A file that is listed itself is loaded although it is excluded and has no artifact extension. -/
example : walkArtifacts exTree (exPaths [c!"/p/notes.txt"] [c!"/p/notes.txt"]) = [c!"/p/notes.txt"] := by decide

/-! ## C28: the paths accepted for writing -/

theorem checkPath_none_iff (s : Settings) {p : FilePath} (h : Absolute p) :
    checkPath s p = none ↔ Supported p ∧ (∃ r ∈ s.artifactPaths, Under r p) ∧
      ∀ e ∈ s.excludeArtifactPaths, Under e p → ∀ r ∈ s.artifactPaths, Under r p → ¬ Under e r := by
  have hs := supported_iff h
  unfold checkPath
  by_cases h1 : (ArtFileType.fromPath p).isNone = true
  · rw [if_pos h1]
    have : ¬ Supported p := by
      rw [← hs]
      cases h2 : ArtFileType.fromPath p <;> simp_all
    simp [this]
  · rw [if_neg h1]
    have hsup : Supported p := by
      rw [← hs]
      cases h2 : ArtFileType.fromPath p <;> simp_all
    simp only [hsup, true_and]
    by_cases h2 : (s.artifactPaths.filter (fun v => startsWith p v)).isEmpty = true
    · rw [if_pos h2]
      have h2 : ∀ x ∈ s.artifactPaths, ¬ Under x p := by
        simpa [startsWith_iff] using h2
      constructor
      · intro h; cases h
      · rintro ⟨⟨r, hr, hu⟩, _⟩
        exact absurd hu (h2 r hr)
    · rw [if_neg h2]
      have h2 : ∃ r ∈ s.artifactPaths, Under r p := by
        simpa [startsWith_iff] using h2
      have e : (s.excludeArtifactPaths.any (fun e => startsWith p e &&
            (s.artifactPaths.filter (fun v => startsWith p v)).any (fun v => startsWith v e))) = true ↔
          ∃ e ∈ s.excludeArtifactPaths, Under e p ∧ ∃ r ∈ s.artifactPaths, Under r p ∧ Under e r := by
        simp only [List.any_eq_true, Bool.and_eq_true, startsWith_iff, List.mem_filter]
        constructor
        · rintro ⟨e, he, h1, r, ⟨hr, h2⟩, h3⟩
          exact ⟨e, he, h1, r, hr, h2, h3⟩
        · rintro ⟨e, he, h1, r, hr, h2, h3⟩
          exact ⟨e, he, h1, r, ⟨hr, h2⟩, h3⟩
      simp only [h2, true_and]
      split
      · rename_i h3
        obtain ⟨e, he, h4, r, hr, h5, h6⟩ := e.1 h3
        constructor
        · intro h; cases h
        · intro h
          exact absurd h6 (h e he h4 r hr h5)
      · rename_i h3
        refine ⟨fun _ => ?_, fun _ => rfl⟩
        intro e' he h4 r hr h5 h6
        exact h3 (e.2 ⟨e', he, h4, r, hr, h5, h6⟩)

/-- C28, the part that holds. For a file inside no excluded path: the path check accepts it if and only if it
has an artifact extension and the loader reads it. What is missing is the same for files inside an excluded path,
which is false (`C28_accepted_not_read`, `C28_read_not_accepted`). -/
theorem C28_partial {fs : FS} (w : FS.WF fs) (s : Settings) {p : FilePath} (hp : IsFile fs p)
    (hx : ∀ e ∈ s.excludeArtifactPaths, ¬ Under e p) :
    checkPath s p = none ↔ Supported p ∧ p ∈ walkArtifacts fs s := by
  obtain ⟨c, hc⟩ := w.isFile_iff.1 hp
  rw [checkPath_none_iff s (w.absolute hc), C29_mem w]
  constructor
  · rintro ⟨h1, ⟨r, hr, hu⟩, _⟩
    exact ⟨h1, r, hr, hp, Or.inr ⟨hu, h1, fun e he _ => hx e he⟩⟩
  · rintro ⟨h1, r, hr, _, h⟩
    refine ⟨h1, ⟨r, hr, ?_⟩, fun e he h => absurd h (hx e he)⟩
    rcases h with rfl | ⟨hu, _⟩
    · exact Under.refl _
    · exact hu

/-- C28, the code inverts the exclude check: for a file inside an excluded path the check and the loader never
agree. If the path is accepted then the loader does not read it, and if the loader reads it and it has an
artifact extension then it is refused. -/
theorem C28_inverted {fs : FS} (w : FS.WF fs) (s : Settings) {p e : FilePath} (hp : IsFile fs p)
    (he : e ∈ s.excludeArtifactPaths) (hu : Under e p) (hs : Supported p) (ha : p ∈ walkArtifacts fs s) :
    checkPath s p = some .excluded := by
  obtain ⟨c, hc⟩ := w.isFile_iff.1 hp
  have habs := w.absolute hc
  obtain ⟨r, hr, _, h⟩ := (C29_mem w s p).1 ha
  have hup : Under r p ∧ Under e r := by
    rcases h with rfl | ⟨h1, _, h2⟩
    · exact ⟨Under.refl _, hu⟩
    · refine ⟨h1, ?_⟩
      rcases hu.total h1 with h3 | h3
      · exact h3
      · exact absurd hu (h2 e he h3)
  have h0 : checkPath s p ≠ none := by
    rw [Ne, checkPath_none_iff s habs]
    rintro ⟨_, _, h⟩
    exact h e he hu r hr hup.1 hup.2
  have hsome : (ArtFileType.fromPath p).isNone = false := by
    have := (supported_iff habs).2 hs
    cases h2 : ArtFileType.fromPath p <;> simp_all
  have hv : (s.artifactPaths.filter (fun v => startsWith p v)).isEmpty = false := by
    rw [List.isEmpty_eq_false_iff]
    exact List.ne_nil_of_mem (List.mem_filter.2 ⟨hr, startsWith_iff.2 hup.1⟩)
  unfold checkPath at h0 ⊢
  simp only [hsome, hv] at h0 ⊢
  split at h0 <;> simp_all

/-- C28: accepted and read exactly when inside no excluded path. -/
theorem C28_accepted_read_iff {fs : FS} (w : FS.WF fs) (s : Settings) {p : FilePath} (hp : IsFile fs p)
    (ha : checkPath s p = none) :
    p ∈ walkArtifacts fs s ↔ ∀ e ∈ s.excludeArtifactPaths, ¬ Under e p := by
  obtain ⟨c, hc⟩ := w.isFile_iff.1 hp
  constructor
  · intro h e he hu
    have := C28_inverted w s hp he hu ((checkPath_none_iff s (w.absolute hc)).1 ha).1 h
    rw [ha] at this
    cases this
  · intro h
    exact ((C28_partial w s hp h).1 ha).2

/-- The two outcomes on the example tree, with `/p/design/old` excluded. -/
example : checkPath (exPaths [c!"/p/design"] [c!"/p/design/old"]) c!"/p/design/a.md" = none := by decide
example : checkPath (exPaths [c!"/p/design"] [c!"/p/design/old"]) c!"/p/design/x.rs" = some .extension := by decide
example : checkPath (exPaths [c!"/p/design"] []) c!"/p/design2/a.md" = some .notInside := by decide

/-- C28 is false in the code, first direction: the path check accepts a file that the loader does not read. The
artifact written there is lost on the next read. -/
theorem C28_accepted_not_read : ∃ (fs : FS) (s : Settings) (p : FilePath), FS.WF fs ∧ IsFile fs p ∧
    checkPath s p = none ∧ p ∉ walkArtifacts fs s :=
  ⟨exTree, exPaths [c!"/p/design"] [c!"/p/design/old"], c!"/p/design/old/b.toml", exTree_wf,
    ⟨.text c!"y", by decide⟩, by decide, by decide⟩

/-- C28 is false in the code, second direction: the path check refuses a file that the loader reads. -/
theorem C28_read_not_accepted : ∃ (fs : FS) (s : Settings) (p : FilePath), FS.WF fs ∧ IsFile fs p ∧
    p ∈ walkArtifacts fs s ∧ checkPath s p = some .excluded :=
  ⟨exTree, exPaths [c!"/p/design", c!"/p/design/old/keep"] [c!"/p/design/old"], c!"/p/design/old/keep/c.json",
    exTree_wf, ⟨.text c!"z", by decide⟩, by decide, by decide⟩

/-! ## C51: the paths of the settings file are relative to the project -/

/-- A name that can be one component of a path. -/
def Spec.PlainName (c : Str) : Prop := c ≠ [] ∧ '/' ∉ c ∧ c ≠ c!"." ∧ c ≠ c!".."

/-- The components written with a `/` in front of each. -/
def Spec.Path (l : List Str) : FilePath := l.foldr (fun c r => '/' :: c ++ r) []

theorem pathOf_eq (l : List Str) : pathOf l = Path l := by
  induction l with
  | nil => rfl
  | cons c l ih => simp only [pathOf, List.flatMap_cons, Path, List.foldr_cons] at ih ⊢; rw [ih]

theorem Path_append (l l' : List Str) : Path (l ++ l') = Path l ++ Path l' := by
  induction l with
  | nil => rfl
  | cons c l ih => simp only [Path, List.cons_append, List.foldr_cons, List.append_assoc] at ih ⊢; rw [ih]

theorem pathComps_Path {l : List Str} (h : ∀ c ∈ l, c ≠ [] ∧ '/' ∉ c) : pathComps (Path l) = l := by
  induction l using List.reverseRecOn with
  | nil => rfl
  | append_singleton l c ih =>
    have hc := h c (by simp)
    have e : Path (l ++ [c]) = Path l ++ '/' :: c := by rw [Path_append]; simp [Path]
    have ih := ih (fun c hc => h c (by simp [hc]))
    simp only [pathComps, comps] at ih ⊢
    rw [e, splitOn_append_cons, List.filter_append, ih, splitOn_of_not_mem hc.2]
    simp [hc.1]

theorem concatComps_plain (l cs : List Str) (h : c!".." ∉ cs) :
    concatComps l cs = some (l ++ cs.filter (fun c => decide (c ≠ [] ∧ c ≠ c!"."))) := by
  induction cs generalizing l with
  | nil => simp [concatComps]
  | cons c cs ih =>
    simp only [List.mem_cons, not_or] at h
    by_cases h1 : c = [] ∨ c = c!"."
    · unfold concatComps
      rw [if_pos h1, ih _ h.2, List.filter_cons_of_neg]
      simp only [decide_eq_true_eq]
      tauto
    · unfold concatComps
      rw [if_neg h1, if_neg (fun e => h.1 e.symm), ih _ h.2, List.filter_cons_of_pos]
      · simp
      · simp only [decide_eq_true_eq]
        tauto

theorem trimStartStr_suffix (pat : Str) (k : Nat) (s : Str) : trimStartStr pat k s <:+ s := by
  induction k generalizing s with
  | zero => exact List.suffix_rfl
  | succ k ih =>
    rw [trimStartStr]
    split
    · exact (ih _).trans (List.drop_suffix _ _)
    · exact List.suffix_rfl

theorem infix_intercalate {x : Char} {c : Str} {L : List Str} (h : c ∈ L) : c <:+: List.intercalate [x] L := by
  induction L with
  | nil => cases h
  | cons a L ih =>
    cases L with
    | nil =>
      simp only [List.mem_singleton] at h
      subst h
      simp
    | cons b L =>
      rw [List.intercalate_cons_cons]
      rcases List.mem_cons.1 h with rfl | h
      · exact ⟨[], [x] ++ List.intercalate [x] (b :: L), by simp⟩
      · exact (ih h).trans (List.suffix_append _ _).isInfix

theorem infix_of_mem_comps {c p : Str} (h : c ∈ comps p) : c <:+: p := by
  have := infix_intercalate (x := '/') h
  rwa [comps, List.intercalate_splitOn] at this

/-- C51. A path of the settings file that does not contain `..` always denotes something inside the project, also
when it is written as an absolute path. -/
theorem C51_inside {l : List Str} (hl : ∀ c ∈ l, c ≠ [] ∧ '/' ∉ c) (p : Str) (hp : ¬ c!".." <:+: p) :
    ∃ q, resolveRawPath (Path l) p = .ok q ∧ Under (Path l) q := by
  unfold resolveRawPath
  simp only [pathComps_Path hl]
  have hsuf : ((trimStartStr c!"{repo}" p.length p).dropWhile (· = '/')) <:+ p :=
    (List.dropWhile_suffix _).trans (trimStartStr_suffix _ _ _)
  rw [concatComps_plain _ _ (fun h => hp ((infix_of_mem_comps h).trans hsuf.isInfix))]
  refine ⟨_, rfl, ?_⟩
  rw [pathOf_eq, Path_append]
  cases List.filter (fun c => decide (c ≠ [] ∧ c ≠ c!"."))
      (comps ((trimStartStr c!"{repo}" p.length p).dropWhile (· = '/'))) with
  | nil => left; simp [Path]
  | cons a b => right; exact ⟨a ++ Path b, by simp [Path]⟩

theorem trimStartStr_neg {pat s : Str} (k : Nat) (h : ¬ pat <+: s) : trimStartStr pat k s = s := by
  cases k with
  | zero => rfl
  | succ k => rw [trimStartStr, if_neg (by rwa [List.isPrefixOf_iff_prefix])]

theorem comps_Path_tail {c : Str} {cs : List Str} (h : ∀ x ∈ c :: cs, '/' ∉ x) :
    comps (c ++ Path cs) = c :: cs := by
  induction cs using List.reverseRecOn with
  | nil => simpa [Path, comps] using splitOn_of_not_mem (h c (by simp))
  | append_singleton l x ih =>
    have ih := ih (fun y hy => h y (by simp only [List.mem_cons, List.mem_append] at hy ⊢; tauto))
    have e : c ++ Path (l ++ [x]) = (c ++ Path l) ++ '/' :: x := by rw [Path_append]; simp [Path]
    rw [comps] at ih ⊢
    rw [e, splitOn_append_cons, ih, splitOn_of_not_mem (h x (by simp))]
    rfl

theorem resolve_trimmed {l : List Str} (hl : ∀ c ∈ l, c ≠ [] ∧ '/' ∉ c) {c : Str} {cs : List Str}
    (h : ∀ x ∈ c :: cs, PlainName x) {p : Str}
    (hp : (trimStartStr c!"{repo}" p.length p).dropWhile (· = '/') = c ++ Path cs) :
    resolveRawPath (Path l) p = .ok (Path (l ++ c :: cs)) := by
  unfold resolveRawPath
  simp only [hp, pathComps_Path hl, comps_Path_tail (fun x hx => (h x hx).2.1)]
  rw [concatComps_plain _ _ (fun hm => (h _ hm).2.2.2 rfl), List.filter_eq_self.2]
  · simp only [pathOf_eq]
  · intro x hx
    have := h x hx
    simp only [decide_eq_true_eq]
    exact ⟨this.1, this.2.2.1⟩

theorem dropWhile_plain {c : Str} (h : PlainName c) (r : Str) : (c ++ r).dropWhile (· = '/') = c ++ r := by
  obtain ⟨h1, h2, _⟩ := h
  cases c with
  | nil => exact absurd rfl h1
  | cons a c =>
    simp only [List.mem_cons, not_or] at h2
    rw [List.cons_append, List.dropWhile_cons_of_neg]
    simpa using fun e => h2.1 e.symm

/-- C51. The three ways of writing a path, `src/x`, `/src/x` and `{repo}/src/x`, denote the same path inside the
project: the base followed by the components. (The first two need a name that does not itself start with `{repo}`.) -/
theorem C51_spellings {l : List Str} (hl : ∀ c ∈ l, c ≠ [] ∧ '/' ∉ c) {c : Str} {cs : List Str}
    (h : ∀ x ∈ c :: cs, PlainName x) :
    (¬ c!"{repo}" <+: c → resolveRawPath (Path l) (c ++ Path cs) = .ok (Path (l ++ c :: cs))) ∧
    resolveRawPath (Path l) (Path (c :: cs)) = .ok (Path (l ++ c :: cs)) ∧
    resolveRawPath (Path l) (c!"{repo}" ++ Path (c :: cs)) = .ok (Path (l ++ c :: cs)) := by
  have hc := h c (by simp)
  have hslash : ∀ k, trimStartStr c!"{repo}" k (Path (c :: cs)) = Path (c :: cs) := by
    intro k
    apply trimStartStr_neg
    rintro ⟨t, e⟩
    simp [Path] at e
  have hdrop : (Path (c :: cs)).dropWhile (· = '/') = c ++ Path cs := by
    have : Path (c :: cs) = '/' :: (c ++ Path cs) := by simp [Path]
    rw [this, List.dropWhile_cons_of_pos (by simp), dropWhile_plain hc]
  refine ⟨fun hr => resolve_trimmed hl h ?_, resolve_trimmed hl h ?_, resolve_trimmed hl h ?_⟩
  · rw [trimStartStr_neg, dropWhile_plain hc]
    intro hpre
    rcases cs with _ | ⟨d, cs⟩
    · exact hr (by simpa [Path] using hpre)
    · apply hr
      rcases List.prefix_or_prefix_of_prefix hpre (List.prefix_append c (Path (d :: cs))) with h1 | h1
      · exact h1
      · obtain ⟨t, e⟩ := hpre
        obtain ⟨u, e'⟩ := h1
        rw [← e', List.append_assoc, List.append_cancel_left_eq] at e
        cases u with
        | nil => rw [← e']; simp
        | cons a u =>
          simp only [Path, List.foldr_cons, List.cons_append, List.cons.injEq] at e
          have : '/' ∈ c!"{repo}" := by rw [← e', e.1]; simp
          exact absurd this (by decide)
  · rw [hslash, hdrop]
  · have : (c!"{repo}" ++ Path (c :: cs)).length = (5 + (Path (c :: cs)).length) + 1 := by
      simp; omega
    rw [this, trimStartStr, if_pos (by rw [List.isPrefixOf_iff_prefix]; exact List.prefix_append _ _),
      List.drop_left, hslash, hdrop]

/-- A path with `..` may leave the project, and going above the root is a panic. -/
theorem C51_dotdot : resolveRawPath (Path [c!"home", c!"p"]) c!"../q" = .ok c!"/home/q" ∧
    resolveRawPath (Path [c!"home", c!"p"]) c!"../../../q" = .panic := by decide

example : resolveRawPath c!"/home/p" c!"src/a" = .ok c!"/home/p/src/a" ∧
    resolveRawPath c!"/home/p" c!"{repo}{repo}//src//./a/" = .ok c!"/home/p/src/a" ∧
    resolveRawPath c!"/home/p" c!"/etc/passwd" = .ok c!"/home/p/etc/passwd" := by decide
/-- `C51_inside` needs the hypothesis about the whole text: `{repo}..` becomes `..`. -/
example : resolveRawPath c!"/home/p" c!"{repo}.." = .ok c!"/home" := by decide

end Art
