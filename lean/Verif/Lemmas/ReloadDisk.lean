import Verif.Lemmas.Reload

/-!
# Lemmas about what is on the disk after a project was written
-/

namespace Art
open Spec

section
variable {L : Libs} {readToml : Str → Option SettingsRaw} {hash : ArtifactIm → HashIm} {dbg : ArtifactIm → Str} {ncpu ncpu' : Nat} {fs fs' : FS}
  {base : FilePath} {ops : List ArtifactOp} {s : Settings} {files : List (FilePath × Str)} {cfg : Cfg} {p' : Project}

open Classical in
/-- How many of the configured paths lead to `f`. -/
noncomputable def ways (s : Settings) (f : FilePath) : Nat := s.artifactPaths.countP (fun r => decide (Reaching s r f))

theorem finds_reaching {r f : FilePath} (hr : ¬ IsFile fs r) (hf : IsFile fs f) :
    Finds fs s.excludeArtifactPaths Supported r f ↔ Supported f ∧ Reaching s r f := by
  unfold Finds Reaching
  constructor
  · rintro ⟨_, rfl | ⟨h1, h2, h3⟩⟩
    · exact absurd hf hr
    · exact ⟨h2, h1, h3⟩
  · rintro ⟨h2, h1, h3⟩
    exact ⟨hf, Or.inr ⟨h1, h2, h3⟩⟩

open Classical in
theorem count_ways (w : FS.WF fs) (roots : ∀ r ∈ s.artifactPaths, ¬ IsFile fs r) {f : FilePath} (hf : IsFile fs f) (hs : Supported f) :
    (walkArtifacts fs s).count f = ways s f := by
  rw [C29_artifacts w]
  unfold ways
  refine List.countP_congr fun r hr => ?_
  simp only [decide_eq_true_eq]
  rw [finds_reaching (roots r hr) hf]
  exact and_iff_right hs

open Classical in
theorem ways_once {f : FilePath} (h : ReadOnce s f) : ways s f = 1 := by
  obtain ⟨l, r, l', e, h1, h2⟩ := h
  unfold ways
  rw [e, List.countP_append, List.countP_cons]
  have hz : ∀ m : List FilePath, (∀ r' ∈ m, ¬ Reaching s r' f) → m.countP (fun r => decide (Reaching s r f)) = 0 := by
    intro m hm
    rw [List.countP_eq_zero]
    intro r' hr'
    simpa using hm r' hr'
  rw [hz l fun r' hr' => h2 r' (List.mem_append_left _ hr'), hz l' fun r' hr' => h2 r' (List.mem_append_right _ hr')]
  simp [h1]

/-- A file with an artifact is not read twice if there is no error. -/
theorem read_once {r : Run} (ha : Arrives L ncpu fs s r) (he : r.categorized.error = []) {a : ArtifactIm} (h : a ∈ r.arts) :
    (walkArtifacts fs s).count a.file = 1 := by
  have hj : (joinArtifacts r.arts).lints = [] := ((noError_parts ha).1 he).2.2
  rw [C11_reported] at hj
  obtain ⟨f, hf, hm⟩ := List.mem_flatMap.1 (ha.arts.mem_iff.1 h)
  obtain ⟨rfl, _⟩ := artSent_file hm
  have hp : ((walkArtifacts fs s).flatMap (fun f => (artSent L s.pre fs f).items)).Pairwise (fun a b => key a.name ≠ key b.name) :=
    hj.perm ha.arts fun h => Ne.symm h
  have h1 : 0 < (walkArtifacts fs s).count a.file := List.count_pos_iff.2 hf
  by_contra hne
  have h2 : (List.replicate 2 a.file).Sublist (walkArtifacts fs s) := List.replicate_sublist_iff.2 (by omega)
  have h3 := hp.sublist (h2.flatMap (fun f => (artSent L s.pre fs f).items))
  simp only [List.replicate, List.flatMap_cons, List.flatMap_nil, List.append_nil, List.pairwise_append] at h3
  exact h3.2.2 a hm a hm rfl

/-- After writing, the artifact files are exactly the files written. -/
theorem walk_after (o : Orderly fs s files) (h : Reaches L s files (Cfg.init L fs s) cfg) (hp : cfg.phase = .done)
    (once : ∀ x ∈ files, ways s x.1 = 1) :
    FS.WF cfg.fs ∧ (∀ r ∈ s.artifactPaths, IMap.get? cfg.fs r = some .dir) ∧ (∀ x ∈ files, IMap.get? cfg.fs x.1 = some (.file (.text x.2))) ∧
    (walkArtifacts cfg.fs s).Perm (files.map (·.1)) := by
  have hok : ∀ x ∈ files, FilePathOk x.1 := fun x hx => (supported_ext (o.files x hx)).2
  have w' := tree_reaches o.wf hok h
  have hi := inv_reaches o h
  unfold Inv at hi
  rw [hp] at hi
  obtain ⟨hi, _⟩ := hi
  have hfr := frame_reaches h
  have hroots : ∀ r ∈ s.artifactPaths, IMap.get? cfg.fs r = some .dir := fun r hr => (hfr.dirs r).2 (hi.written.roots r hr)
  have hnf : ∀ r ∈ s.artifactPaths, ¬ IsFile cfg.fs r := by
    intro r hr hf
    obtain ⟨c, hc⟩ := w'.isFile_iff.1 hf
    rw [hroots r hr] at hc
    cases hc
  refine ⟨w', hroots, hi.written.all, ?_⟩
  rw [List.perm_iff_count]
  intro q
  by_cases hq : q ∈ files.map (·.1)
  · rw [List.count_eq_one_of_mem o.nodup hq]
    obtain ⟨x, hx, rfl⟩ := List.mem_map.1 hq
    rw [count_ways w' hnf (w'.isFile_iff.2 ⟨_, hi.written.all x hx⟩) (o.files x hx)]
    exact once x hx
  · rw [List.count_eq_zero_of_not_mem hq, List.count_eq_zero]
    intro hw
    have hqf : ∀ x ∈ files, q ≠ x.1 := fun x hx e => hq (List.mem_map.2 ⟨x, hx, e.symm⟩)
    obtain ⟨r, hr, hf⟩ := (C29_mem w' s q).1 hw
    have hf' := (finds_reaching (hnf r hr) hf.1).1 hf
    have hold : q ∈ walkArtifacts fs s := by
      by_cases hs : IMap.get? cfg.fs q = IMap.get? fs q
      · obtain ⟨c, hc⟩ := w'.isFile_iff.1 hf.1
        rw [hs] at hc
        exact (C29_mem o.wf s q).2 ⟨r, hr, (finds_reaching (o.roots r hr) (o.wf.isFile_iff.2 ⟨c, hc⟩)).2 hf'⟩
      · have : Allowed fs s files q := by
          by_contra hna
          exact hs (hfr.same q hna)
        rcases this with h | ⟨p, hp, e⟩ | ⟨x, hx, e⟩ | ⟨_, _, _, h⟩
        · exact h
        · exact absurd e.symm (bk_ne (o.supported hp) hf'.1)
        · exact absurd e (hqf x hx)
        · exact absurd h (supported_ext hf'.1).1
    obtain ⟨c, hc⟩ := w'.isFile_iff.1 hf.1
    rw [hi.written.gone q hold hqf] at hc
    cases hc

/-! ## code and settings -/

/-- Code files are not changed. -/
theorem code_after (ap : Apart s) (hin : ∀ q, IMap.get? fs' q ≠ IMap.get? fs q → ∃ r ∈ s.artifactPaths, Under r q) {c q : FilePath}
    (hc : c ∈ s.codePaths) (hu : Under c q) : IMap.get? fs' q = IMap.get? fs q := by
  by_contra hne
  obtain ⟨r, hr, hq⟩ := hin q hne
  rcases hq.total hu with h | h
  · exact (ap.code r hr c hc).1 h
  · exact (ap.code r hr c hc).2 h

theorem walkCode_after (w : FS.WF fs) (w' : FS.WF fs') (ap : Apart s)
    (hin : ∀ q, IMap.get? fs' q ≠ IMap.get? fs q → ∃ r ∈ s.artifactPaths, Under r q) : (walkCode fs' s).Perm (walkCode fs s) := by
  classical
  rw [List.perm_iff_count]
  intro q
  rw [C29_code w', C29_code w]
  refine List.countP_congr fun c hc => ?_
  simp only [decide_eq_true_eq]
  have key : Under c q → (IsFile fs' q ↔ IsFile fs q) := fun hu => by
    rw [w'.isFile_iff, w.isFile_iff, code_after ap hin hc hu]
  constructor
  · rintro ⟨h1, h2⟩
    have hu : Under c q := by
      rcases h2 with rfl | h2
      · exact Under.refl _
      · exact h2.1
    exact ⟨(key hu).1 h1, h2⟩
  · rintro ⟨h1, h2⟩
    have hu : Under c q := by
      rcases h2 with rfl | h2
      · exact Under.refl _
      · exact h2.1
    exact ⟨(key hu).2 h1, h2⟩

theorem codeSent_after (w : FS.WF fs) (ap : Apart s)
    (hin : ∀ q, IMap.get? fs' q ≠ IMap.get? fs q → ∃ r ∈ s.artifactPaths, Under r q) {f : FilePath} (hf : f ∈ walkCode fs s) :
    codeSent L fs' f = codeSent L fs f := by
  classical
  have h : 0 < (walkCode fs s).count f := List.count_pos_iff.2 hf
  rw [C29_code w, List.countP_pos_iff] at h
  obtain ⟨c, hc, h⟩ := h
  simp only [decide_eq_true_eq] at h
  have hu : Under c f := by
    rcases h.2 with rfl | h2
    · exact Under.refl _
    · exact h2.1
  unfold codeSent
  rw [code_after ap hin hc hu]

theorem settings_after {path : FilePath} {raw : SettingsRaw} (hp : s.settingsPath = path) (ap : Apart s)
    (hin : ∀ q, IMap.get? fs' q ≠ IMap.get? fs q → ∃ r ∈ s.artifactPaths, Under r q)
    (hd : ∀ q, IMap.get? fs' q = some .dir ↔ IMap.get? fs q = some .dir)
    (h : loadSettingsRaw readToml fs base = some (path, raw)) : loadSettingsRaw readToml fs' base = some (path, raw) := by
  unfold loadSettingsRaw at h ⊢
  cases hb : IMap.get? fs base with
  | none => rw [hb] at h; cases h
  | some n =>
    cases n with
    | file c => rw [hb] at h; cases h
    | dir =>
      rw [hb] at h
      rw [(hd base).2 hb]
      simp only at h ⊢
      have hpath : base ++ c!"/.art/settings.toml" = path := by
        split at h
        · rename_i t _
          cases hr : readToml t with
          | none => rw [hr] at h; cases h
          | some x => rw [hr] at h; cases h; rfl
        · cases h
      have : IMap.get? fs' (base ++ c!"/.art/settings.toml") = IMap.get? fs (base ++ c!"/.art/settings.toml") := by
        by_contra hne
        obtain ⟨r, hr, hq⟩ := hin _ hne
        rw [hpath, ← hp] at hq
        exact ap.settings r hr hq
      rw [this]
      exact h

end
end Art
