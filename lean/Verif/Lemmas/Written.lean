import Verif.Props.Modify
import Verif.Props.Markdown
import Verif.Lemmas.Save

/-!
# Lemmas about the files a project is written to
-/

namespace Art
open Spec

/-! ## grouping -/

/-- The entry written for an artifact. -/
def entry (a : ArtifactIm) : Name × ArtifactRaw := (intoRaw a).2

/-- `groupFiles` on the editable artifacts. -/
def groupIms (ims : List ArtifactIm) : IMap FilePath (IMap Name ArtifactRaw) :=
  ims.foldl (fun files a => IMap.insert files a.file (IMap.insert ((IMap.get? files a.file).getD []) a.name (intoRaw a).2.2)) []

theorem groupFiles_eq (arts : IMap Name Artifact) : groupFiles arts = groupIms (arts.map (fun x => x.2.toIm)) := by
  unfold groupFiles groupIms
  rw [List.foldl_map]
  rfl

theorem groupIms_snoc (ims : List ArtifactIm) (a : ArtifactIm) : groupIms (ims ++ [a]) =
    IMap.insert (groupIms ims) a.file (IMap.insert ((IMap.get? (groupIms ims) a.file).getD []) a.name (intoRaw a).2.2) := by
  unfold groupIms
  rw [List.foldl_append]
  rfl

theorem groupIms_nodup (ims : List ArtifactIm) : IMap.Nodup (groupIms ims) := by
  induction ims using List.reverseRecOn with
  | nil => exact IMap.nodup_nil
  | append_singleton l a ih => rw [groupIms_snoc]; exact IMap.nodup_insert ih _ _

/-- The artifacts of one file. -/
def inFile (ims : List ArtifactIm) (f : FilePath) : List ArtifactIm := ims.filter (fun a => decide (a.file = f))

theorem mem_inFile {ims : List ArtifactIm} {f : FilePath} {a : ArtifactIm} : a ∈ inFile ims f ↔ a ∈ ims ∧ a.file = f := by
  simp [inFile]

theorem groupIms_get {ims : List ArtifactIm} (h : ims.Pairwise (fun x y => key x.name ≠ key y.name)) (f : FilePath) :
    IMap.get? (groupIms ims) f = if inFile ims f = [] then none else some ((inFile ims f).map entry) := by
  induction ims using List.reverseRecOn with
  | nil => rfl
  | append_singleton l a ih =>
    rw [List.pairwise_append] at h
    obtain ⟨h1, _, h3⟩ := h
    have ih := ih h1
    rw [groupIms_snoc, IMap.get?_insert]
    have hk : (key a.file = key f) ↔ a.file = f := Iff.rfl
    have e : inFile (l ++ [a]) f = inFile l f ++ (if a.file = f then [a] else []) := by
      unfold inFile
      rw [List.filter_append]
      congr 1
      by_cases hf : a.file = f <;> simp [hf]
    rw [e]
    by_cases hf : a.file = f
    · rw [if_pos (hk.2 hf), if_pos hf, if_neg (by simp), hf, ih, List.map_append]
      have hd : (if inFile l f = [] then none else some ((inFile l f).map entry)).getD [] = (inFile l f).map entry := by
        split
        · rename_i h0; rw [h0]; rfl
        · rfl
      rw [hd, IMap.insert_of_not_contains]
      · rfl
      · rw [← Bool.not_eq_true, IMap.contains_iff]
        rintro ⟨x, hx, hkx⟩
        obtain ⟨b, hb, rfl⟩ := List.mem_map.1 hx
        exact h3 b (mem_inFile.1 hb).1 a (List.mem_singleton_self _) hkx
    · rw [if_neg (fun h => hf (hk.1 h)), if_neg hf, List.append_nil, ih]

theorem mem_groupIms {ims : List ArtifactIm} (h : ims.Pairwise (fun x y => key x.name ≠ key y.name)) (f : FilePath) (m : IMap Name ArtifactRaw) :
    (f, m) ∈ groupIms ims ↔ inFile ims f ≠ [] ∧ m = (inFile ims f).map entry := by
  have : (f, m) ∈ groupIms ims ↔ IMap.get? (groupIms ims) f = some m := by
    rw [IMap.get?_eq_some_iff (groupIms_nodup ims)]
    constructor
    · exact fun h => ⟨f, rfl, h⟩
    · rintro ⟨a, h1, h2⟩
      obtain rfl : a = f := h1
      exact h2
  rw [this, groupIms_get h]
  split
  · rename_i h0; simp [h0]
  · rename_i h0
    simp only [Option.some.injEq]
    exact ⟨fun e => ⟨h0, e.symm⟩, fun e => e.2.symm⟩

/-! ## texts -/

theorem sortOn_map {α β κ : Type _} [LinearOrder κ] (f : β → κ) (g : α → β) (l : List α) :
    sortOn f (l.map g) = (sortOn (fun a => f (g a)) l).map g := by
  unfold sortOn
  exact (List.map_insertionSort _ _ g l (fun _ _ _ _ => Iff.rfl)).symm

/-- The artifacts of a file in the order they are written. -/
def inOrder (ims : List ArtifactIm) : List ArtifactIm := sortOn (fun a => a.name.keyStr) ims

theorem fileText_entries (L : Libs) (s : Settings) (f : FilePath) (ims : List ArtifactIm) : fileText L s f (ims.map entry) =
    match ArtFileType.fromPath f with
    | some .toml => (do let d ← mapSer ((inOrder ims).map entry); pure (L.tomlWrite d))
    | some .md => toMarkdown L s.pre s.mdAttrs ((inOrder ims).map entry)
    | some .json => (do let d ← mapSer ((inOrder ims).map entry); pure (L.jsonWrite d))
    | none => .panic := by
  unfold fileText
  rw [sortOn_map]
  rfl

theorem fileText_ok (L : Libs) (s : Settings) (f : FilePath) (ims : List ArtifactIm) (h : (ArtFileType.fromPath f).isSome = true) :
    ∃ t, fileText L s f (ims.map entry) = .ok t := by
  obtain ⟨⟨d, hd⟩, ⟨t, ht⟩⟩ := C43_no_panic L s.pre s.mdAttrs (inOrder ims)
  have hd : mapSer ((inOrder ims).map entry) = .ok d := hd
  have ht : toMarkdown L s.pre s.mdAttrs ((inOrder ims).map entry) = .ok t := ht
  rw [fileText_entries]
  cases hf : ArtFileType.fromPath f with
  | none => rw [hf] at h; cases h
  | some ty =>
    cases ty with
    | toml => simp only; rw [hd]; exact ⟨_, rfl⟩
    | md => exact ⟨t, ht⟩
    | json => simp only; rw [hd]; exact ⟨_, rfl⟩

theorem fileText_some {L : Libs} {s : Settings} {f : FilePath} {ims : List ArtifactIm} {t : Str} (h : fileText L s f (ims.map entry) = .ok t) :
    (ArtFileType.fromPath f).isSome = true := by
  rw [fileText_entries] at h
  cases hf : ArtFileType.fromPath f with
  | none => rw [hf] at h; cases h
  | some ty => rfl

/-- The editable artifacts of a project have different names. -/
def NamesDistinct (p : Project) : Prop := (editable p).Pairwise (fun x y => key x.name ≠ key y.name)

/-- What is written: one file for each path that an artifact has, with the artifacts of that path. -/
theorem projectFiles_spec {L : Libs} {p : Project} {files : List (FilePath × Str)} (hd : NamesDistinct p) (h : projectFiles L p = .ok files) :
    (files.map (·.1)).Nodup ∧ (∀ a ∈ editable p, ∃ x ∈ files, x.1 = a.file) ∧
    ∀ x ∈ files, inFile (editable p) x.1 ≠ [] ∧ (ArtFileType.fromPath x.1).isSome = true ∧
      fileText L p.settings x.1 ((inFile (editable p) x.1).map entry) = .ok x.2 := by
  unfold projectFiles at h
  rw [groupFiles_eq] at h
  change Res.mapM' _ (groupIms (editable p)) = _ at h
  have hf := Res.mapM'_eq_ok.1 h
  have hpt : List.Forall₂ (fun (g : FilePath × IMap Name ArtifactRaw) (x : FilePath × Str) => x.1 = g.1 ∧ fileText L p.settings g.1 g.2 = .ok x.2)
      (groupIms (editable p)) files := by
    refine hf.imp ?_
    intro g x hx
    rw [Res.bind_eq_ok] at hx
    obtain ⟨t, h1, h2⟩ := hx
    cases h2
    exact ⟨rfl, h1⟩
  have hfst : files.map (·.1) = (groupIms (editable p)).map (·.1) := by
    clear h hf
    generalize groupIms (editable p) = g at hpt
    induction hpt with
    | nil => rfl
    | cons h _ ih => rw [List.map_cons, List.map_cons, h.1, ih]
  refine ⟨?_, ?_, ?_⟩
  · rw [hfst]; exact groupIms_nodup _
  · intro a ha
    have hne : inFile (editable p) a.file ≠ [] := List.ne_nil_of_mem (mem_inFile.2 ⟨ha, rfl⟩)
    have hm := (mem_groupIms hd a.file _).2 ⟨hne, rfl⟩
    have : a.file ∈ files.map (·.1) := by rw [hfst]; exact List.mem_map.2 ⟨_, hm, rfl⟩
    obtain ⟨x, hx, e⟩ := List.mem_map.1 this
    exact ⟨x, hx, e⟩
  · intro x hx
    obtain ⟨g, hg, h1, h2⟩ := forall₂_mem_right hpt hx
    obtain ⟨f, m⟩ := g
    obtain ⟨h3, rfl⟩ := (mem_groupIms hd f m).1 hg
    simp only at h1 h2
    rw [h1]
    exact ⟨h3, fileText_some h2, h2⟩

theorem projectFiles_ok {L : Libs} {p : Project} (hd : NamesDistinct p) (h : ∀ a ∈ editable p, (ArtFileType.fromPath a.file).isSome = true) :
    ∃ files, projectFiles L p = .ok files := by
  unfold projectFiles
  rw [groupFiles_eq]
  change ∃ files, Res.mapM' _ (groupIms (editable p)) = _
  refine Res.mapM'_ok_of ?_
  rintro ⟨f, m⟩ hm
  obtain ⟨h1, rfl⟩ := (mem_groupIms hd f m).1 hm
  obtain ⟨a, ha⟩ := List.exists_mem_of_ne_nil _ h1
  obtain ⟨h2, rfl⟩ := mem_inFile.1 ha
  obtain ⟨t, ht⟩ := fileText_ok L p.settings a.file (inFile (editable p) a.file) (h a h2)
  simp only
  rw [ht]
  exact ⟨_, rfl⟩

/-! ## what was read -/

section
variable {L : Libs} {readToml : Str → Option SettingsRaw} {hash : ArtifactIm → HashIm} {ncpu : Nat} {fs : FS} {base : FilePath}
  {c : Categorized} {p : Project}

/-- The pieces of a successful read. -/
theorem reads_parts (h : ReadsProject L readToml hash ncpu fs base (.ok (c, p))) : ∃ raw path s r arts ls,
    loadSettingsRaw readToml fs base = some (path, raw) ∧ resolveSettings base path raw = .ok s ∧ Arrives L ncpu fs s r ∧
    r.categorized.error = [] ∧ Loads hash (joinArtifacts r.arts).arts (joinLocations r.locs).1 (joinArtifacts r.arts).files arts ∧
    (Project.mk s (joinLocations r.locs).1 arts).lint L = .ok ls ∧ p = Project.sort ⟨s, (joinLocations r.locs).1, arts⟩ ∧
    c = (r.categorized.categorize ls).sort := by
  unfold ReadsProject at h
  split at h
  · cases h
  · rename_i path raw h1
    split at h
    · rename_i s h2
      obtain ⟨r, ha, h | ⟨he, arts, hl, ho⟩⟩ := h
      · cases h.2
      · unfold finishRead at ho
        split at ho
        · rename_i ls h3
          obtain ⟨h4, h5⟩ := Prod.mk.inj (Res.ok.inj ho)
          exact ⟨raw, path, s, r, arts, ls, h1, h2, ha, he, hl, h3, h5, h4⟩
        · cases ho
    · cases h

theorem absolute_pathOf (l : List Str) : Absolute (pathOf l) := by
  cases l with
  | nil => exact Or.inl rfl
  | cons a l => exact Or.inr ⟨a ++ pathOf l, rfl⟩

theorem resolveRawPaths_absolute {base : FilePath} {ps : List Str} {l : ISet FilePath} (h : resolveRawPaths base ps = .ok l) : ∀ q ∈ l, Absolute q := by
  unfold resolveRawPaths at h
  cases hm : Res.mapM' (resolveRawPath base) ps with
  | ok l' =>
    rw [hm] at h
    cases h
    intro q hq
    have hq := collect_spelled hq
    obtain ⟨a, _, ha⟩ := forall₂_mem_right (Res.mapM'_eq_ok.1 hm) hq
    unfold resolveRawPath at ha
    simp only at ha
    split at ha
    · cases ha
    · cases ha; exact absolute_pathOf _
  | err e => rw [hm] at h; cases h
  | panic => rw [hm] at h; cases h

theorem resolveSettings_absolute {base path : FilePath} {raw : SettingsRaw} {s : Settings} (h : resolveSettings base path raw = .ok s) :
    ∀ q ∈ s.artifactPaths, Absolute q := by
  unfold resolveSettings at h
  simp only [Res.bind_eq_ok] at h
  obtain ⟨a, _, b, _, d, h3, e, _, h5⟩ := h
  cases h5
  intro q hq
  exact resolveRawPaths_absolute h3 q ((mem_sortOn _).1 hq)

theorem artSent_file {L : Libs} {pre : Str} {fs : FS} {f : FilePath} {a : ArtifactIm} (h : a ∈ (artSent L pre fs f).items) :
    a.file = f ∧ (ArtFileType.fromPath f).isSome = true ∧ ISet.Nodup a.partof := by
  unfold artSent at h
  split at h
  · split at h
    · rename_i ims lints hl
      unfold loadFile at hl
      split at hl
      · cases hl
      · rename_i ty hty
        split at hl
        · cases hl; cases h
        · split at hl
          · cases hl
            obtain ⟨x, _, rfl⟩ := List.mem_map.1 h
            refine ⟨rfl, by rw [hty]; rfl, ?_⟩
            show ISet.Nodup (match x.2.partof with | some p => sortNames (ISet.collect (stripAuto x.1 p)) | none => [])
            split
            · exact nodup_sortNames (ISet.nodup_collect _)
            · exact List.nodup_nil
          · cases hl; cases h
          · cases hl
    · cases h
  · cases h

theorem arrives_art {s : Settings} {r : Run} (ha : Arrives L ncpu fs s r) {a : ArtifactIm} (h : a ∈ r.arts) :
    a.file ∈ walkArtifacts fs s ∧ (ArtFileType.fromPath a.file).isSome = true ∧ ISet.Nodup a.partof := by
  obtain ⟨f, hf, hm⟩ := List.mem_flatMap.1 (ha.arts.mem_iff.1 h)
  obtain ⟨rfl, h2, h3⟩ := artSent_file hm
  exact ⟨hf, h2, h3⟩

theorem toIm_sort {a : Artifact} (h : ISet.Nodup a.partof) : a.sort.toIm = a.toIm := by
  have hp : sortNames (stripAuto a.name (sortNames a.partof)) = sortNames (stripAuto a.name a.partof) := by
    have hn : ISet.Nodup (sortNames a.partof) := nodup_sortNames h
    refine sortNames_eq_of_perm ?_ (nodup_stripAuto hn)
    refine (List.perm_ext_iff_of_nodup (List.Nodup.of_map _ (nodup_stripAuto hn)) (List.Nodup.of_map _ (nodup_stripAuto h))).2 ?_
    intro q
    rw [mem_stripAuto hn, mem_stripAuto h]
    exact and_congr_left' (mem_sortOn _)
  unfold Artifact.toIm ArtifactIm.clean Artifact.sort
  simp only
  rw [hp]
  congr 1
  cases a.impl <;> rfl

/-- The editable artifacts of a project are those of its files, cleaned. -/
theorem reads_editable (h : ReadsProject L readToml hash ncpu fs base (.ok (c, p))) :
    ∃ r : Run, Arrives L ncpu fs p.settings r ∧ r.categorized.error = [] ∧ (editable p).Perm (r.arts.map ArtifactIm.clean) := by
  obtain ⟨raw, path, s, r, arts, ls, _, _, ha, he, hl, _, rfl, _⟩ := reads_parts h
  refine ⟨r, ha, he, ?_⟩
  have hj : (joinArtifacts r.arts).lints = [] := ((noError_parts ha).1 he).2.2
  rw [← loads_toIm hj (fun a h => (arrives_art ha h).2.2) hl]
  have sp := hl.spec (joinArtifacts_input r.arts)
  have hn : ∀ x ∈ arts, ISet.Nodup x.2.partof := by
    intro x hx
    obtain ⟨im, as⟩ := sp.2.2.2.2.2.1 x.2 (List.mem_map.2 ⟨x, hx, rfl⟩)
    exact as.pnodup
  show (List.map _ (List.map _ (sortOn _ arts))).Perm _
  rw [List.map_map]
  have : (sortOn (fun x : Name × Artifact => x.1.keyStr) arts).map ((fun x : Name × Artifact => x.2.toIm) ∘ fun x => (x.1, x.2.sort)) =
      (sortOn (fun x : Name × Artifact => x.1.keyStr) arts).map (fun x => x.2.toIm) := by
    refine List.map_congr_left ?_
    intro x hx
    exact toIm_sort (hn x ((mem_sortOn _).1 hx))
  rw [this]
  exact (sortOn_perm _ _).map _

/-- What a read guarantees about the files of the artifacts. -/
theorem reads_files (h : ReadsProject L readToml hash ncpu fs base (.ok (c, p))) : ∀ a ∈ editable p,
    a.file ∈ walkArtifacts fs p.settings ∧ (ArtFileType.fromPath a.file).isSome = true := by
  obtain ⟨r, ha, _, hp⟩ := reads_editable h
  intro a h
  obtain ⟨b, hb, rfl⟩ := List.mem_map.1 (hp.mem_iff.1 h)
  obtain ⟨h1, h2, _⟩ := arrives_art ha hb
  exact ⟨h1, h2⟩

theorem reads_absolute (h : ReadsProject L readToml hash ncpu fs base (.ok (c, p))) : ∀ q ∈ p.settings.artifactPaths, Absolute q := by
  obtain ⟨raw, path, s, r, arts, ls, _, hs, _, _, _, _, rfl, _⟩ := reads_parts h
  exact resolveSettings_absolute hs

theorem Spec.Under.absolute {r p : FilePath} (h : Under r p) (hr : Absolute r) : Absolute p := by
  rcases h with rfl | ⟨t, rfl⟩
  · exact hr
  · rcases hr with rfl | ⟨u, rfl⟩
    · exact Or.inr ⟨t, rfl⟩
    · exact Or.inr ⟨u ++ '/' :: t, by simp⟩

theorem checkPath_shape {s : Settings} (hs : ∀ q ∈ s.artifactPaths, Absolute q) {f : FilePath} (h : checkPath s f = none) :
    (ArtFileType.fromPath f).isSome = true ∧ Absolute f ∧ ∃ r ∈ s.artifactPaths, Under r f := by
  unfold checkPath at h
  split at h
  · cases h
  · rename_i h1
    refine ⟨by cases hf : ArtFileType.fromPath f <;> simp [hf] at h1 ⊢, ?_⟩
    simp only at h
    split at h
    · cases h
    · rename_i h2
      have : s.artifactPaths.filter (fun v => startsWith f v) ≠ [] := by simpa using h2
      obtain ⟨r, hr⟩ := List.exists_mem_of_ne_nil _ this
      obtain ⟨h3, h4⟩ := List.mem_filter.1 hr
      exact ⟨(startsWith_iff.1 h4).absolute (hs r h3), r, h3, startsWith_iff.1 h4⟩

variable {dbg : ArtifactIm → Str} {ops : List ArtifactOp} {c' : Categorized} {p' : Project}

/-- An accepted modification: what the files of the new project look like. -/
theorem modify_files (w : FS.WF fs) (h : ReadsProject L readToml hash ncpu fs base (.ok (c, p))) (hl : LinkSets ops)
    (hm : Plans L hash dbg c p ops (.ok (c', p'))) :
    p'.settings = p.settings ∧ NamesDistinct p' ∧ ∀ a ∈ editable p', Supported a.file ∧ ∃ r ∈ p.settings.artifactPaths, Under r a.file := by
  obtain ⟨h1, _, _, h4, h5⟩ := C25_ids (C25_read_sets h) hl hm
  refine ⟨h1, by unfold NamesDistinct; rw [List.Nodup, List.pairwise_map] at h5; exact h5, ?_⟩
  intro a ha
  rcases h4 a ha with h6 | ⟨op, ho, hb⟩
  · obtain ⟨h7, h8⟩ := reads_files h a h6
    obtain ⟨r, hr, hf, hu⟩ := (C29_mem w _ _).1 h7
    obtain ⟨cc, hc⟩ := w.isFile_iff.1 hf
    refine ⟨(supported_iff (w.absolute hc)).1 h8, r, hr, ?_⟩
    rcases hu with rfl | hu
    · exact Under.refl _
    · exact hu.1
  · have hp := (plans_ok hm).2.2.1 op.clean (List.mem_map_of_mem ho) a hb
    obtain ⟨h7, h8, h9⟩ := checkPath_shape (reads_absolute h) hp
    exact ⟨(supported_iff h8).1 h7, h9⟩

end

end Art
