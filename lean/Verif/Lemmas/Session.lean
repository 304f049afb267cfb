import Verif.Spec.Session
import Verif.Props.FmtTwice
import Verif.Props.Art

/-!
# Lemmas about sequences of commands
-/

namespace Art
namespace Cli
open Spec

variable {S : Setup} {fs fs' : FS} {cwd dest base : FilePath} {s : Settings} {L : Libs} {readToml : Str → Option SettingsRaw} {hash : ArtifactIm → HashIm} {ncpu : Nat}

/-! ## reading only depends on the project -/

theorem isFile_same (w : FS.WF fs) (w' : FS.WF fs') {q : FilePath} (h : IMap.get? fs' q = IMap.get? fs q) : IsFile fs' q ↔ IsFile fs q := by
  rw [w'.isFile_iff, w.isFile_iff, h]

theorem finds_same (w : FS.WF fs) (w' : FS.WF fs') {r : FilePath} (h : ∀ q, Under r q → IMap.get? fs' q = IMap.get? fs q) (excl : List FilePath) (W : FilePath → Prop)
    (q : FilePath) : Finds fs' excl W r q ↔ Finds fs excl W r q := by
  unfold Finds
  by_cases hu : Under r q
  · rw [isFile_same w w' (h q hu)]
  · have hne : ¬ r = q := by rintro rfl; exact hu (Under.refl _)
    simp [hu, hne]

theorem walkArtifacts_same (w : FS.WF fs) (w' : FS.WF fs') (h : ∀ r ∈ s.artifactPaths, ∀ q, Under r q → IMap.get? fs' q = IMap.get? fs q) :
    (walkArtifacts fs' s).Perm (walkArtifacts fs s) := by
  classical
  rw [List.perm_iff_count]
  intro q
  rw [C29_artifacts w', C29_artifacts w]
  refine List.countP_congr fun c hc => ?_
  simp only [decide_eq_true_eq]
  exact finds_same w w' (h c hc) _ _ q

theorem walkCode_same (w : FS.WF fs) (w' : FS.WF fs') (h : ∀ r ∈ s.codePaths, ∀ q, Under r q → IMap.get? fs' q = IMap.get? fs q) :
    (walkCode fs' s).Perm (walkCode fs s) := by
  classical
  rw [List.perm_iff_count]
  intro q
  rw [C29_code w', C29_code w]
  refine List.countP_congr fun c hc => ?_
  simp only [decide_eq_true_eq]
  exact finds_same w w' (h c hc) _ _ q

theorem found_under (w : FS.WF fs) {q : FilePath} (h : q ∈ walkArtifacts fs s) : ∃ r ∈ s.artifactPaths, Under r q := by
  obtain ⟨r, hr, _, rfl | hu⟩ := (C29_mem w s q).1 h
  · exact ⟨r, hr, Under.refl _⟩
  · exact ⟨r, hr, hu.1⟩

theorem code_under (w : FS.WF fs) {q : FilePath} (h : q ∈ walkCode fs s) : ∃ r ∈ s.codePaths, Under r q := by
  classical
  have h : 0 < (walkCode fs s).count q := List.count_pos_iff.2 h
  rw [C29_code w, List.countP_pos_iff] at h
  obtain ⟨r, hr, h⟩ := h
  simp only [decide_eq_true_eq] at h
  rcases h.2 with rfl | hu
  · exact ⟨r, hr, Under.refl _⟩
  · exact ⟨r, hr, hu.1⟩

theorem isNone_walkPath (f : FilePath → Bool → Bool) {r : FilePath} (h : IMap.get? fs' r = IMap.get? fs r) : (walkPath fs' f r).isNone = (walkPath fs f r).isNone := by
  unfold walkPath
  rw [h]
  cases IMap.get? fs r with
  | none => rfl
  | some n => cases n <;> rfl

theorem walkLints_same (f : FilePath → Bool → Bool) {roots : ISet FilePath} (h : ∀ r ∈ roots, IMap.get? fs' r = IMap.get? fs r) :
    walkLints L fs' f roots = walkLints L fs f roots := by
  unfold walkLints
  induction roots with
  | nil => rfl
  | cons r l ih =>
    rw [List.filterMap_cons, List.filterMap_cons, ih fun x hx => h x (List.mem_cons_of_mem _ hx), isNone_walkPath f (h r (by simp))]

theorem flatMap_same {α β : Type} {l l' : List α} {f g : α → List β} (hp : l'.Perm l) (h : ∀ x ∈ l, f x = g x) : (l'.flatMap f).Perm (l.flatMap g) := by
  refine (hp.flatMap_right f).trans ?_
  rw [List.flatMap_congr h]

theorem countP_same {α : Type} {l l' : List α} {f g : α → Bool} (hp : l'.Perm l) (h : ∀ x ∈ l, f x = g x) : l'.countP f = l.countP g := by
  rw [hp.countP_eq]
  exact List.countP_congr fun x hx => by rw [h x hx]

theorem arrives_same (w : FS.WF fs) (w' : FS.WF fs') (h : ∀ q, InProject s q → IMap.get? fs' q = IMap.get? fs q) {r : Run} (ha : Arrives L ncpu fs s r) :
    Arrives L ncpu fs' s r := by
  have hA := walkArtifacts_same w w' (s := s) fun r hr q hq => h q (.inr ⟨r, .inl hr, hq⟩)
  have hC := walkCode_same w w' (s := s) fun r hr q hq => h q (.inr ⟨r, .inr hr, hq⟩)
  have sC : ∀ f ∈ walkCode fs s, codeSent L fs' f = codeSent L fs f := fun f hf => by
    obtain ⟨r, hr, hu⟩ := code_under w hf
    unfold codeSent
    rw [h f (.inr ⟨r, .inr hr, hu⟩)]
  have sA : ∀ f ∈ walkArtifacts fs s, artSent L s.pre fs' f = artSent L s.pre fs f := fun f hf => by
    obtain ⟨r, hr, hu⟩ := found_under w hf
    unfold artSent
    rw [h f (.inr ⟨r, .inl hr, hu⟩)]
  refine ⟨?_, ?_, ?_, ?_, ?_⟩
  · rw [countP_same hC fun f hf => by rw [sC f hf]]; exact ha.code_alive
  · rw [countP_same hA fun f hf => by rw [sA f hf]]; exact ha.art_alive
  · exact ha.locs.trans (flatMap_same hC fun f hf => by rw [sC f hf]).symm
  · exact ha.arts.trans (flatMap_same hA fun f hf => by rw [sA f hf]).symm
  · refine ha.lints.trans ?_
    unfold sentLints
    rw [walkLints_same (codeFilter s.excludeCodePaths) fun r hr => h r (.inr ⟨r, .inr hr, Under.refl _⟩),
      walkLints_same (artFilter s.excludeArtifactPaths) fun r hr => h r (.inr ⟨r, .inl hr, Under.refl _⟩)]
    refine (((((List.Perm.refl _).append ?_).append (List.Perm.refl _)).append ?_).append (List.Perm.refl _)).append (List.Perm.refl _)
    · exact (flatMap_same hC fun f hf => by rw [sC f hf]).symm
    · exact (flatMap_same hA fun f hf => by rw [sA f hf]).symm

theorem load_same (h1 : IMap.get? fs' base = IMap.get? fs base) (h2 : IMap.get? fs' (settingsFile base) = IMap.get? fs (settingsFile base)) :
    loadSettingsRaw readToml fs' base = loadSettingsRaw readToml fs base := by
  unfold settingsFile at h2
  unfold loadSettingsRaw
  rw [h1]
  simp only [h2]

theorem settingsPath_eq (hs : SettingsOf readToml fs base s) : s.settingsPath = settingsFile base := by
  obtain ⟨path, raw, h1, h2⟩ := hs
  rw [settingsPath_of h2]
  unfold loadSettingsRaw at h1
  split at h1
  · simp only at h1
    split at h1
    · obtain ⟨_, _, e⟩ := Option.map_eq_some_iff.1 h1
      cases e; rfl
    · cases h1
  · cases h1

theorem base_dir (hs : SettingsOf readToml fs base s) : IMap.get? fs base = some .dir := by
  obtain ⟨path, raw, h1, h2⟩ := hs
  unfold loadSettingsRaw at h1
  split at h1
  · assumption
  · cases h1

theorem settings_file (hs : SettingsOf readToml fs base s) : ∃ x, IMap.get? fs (settingsFile base) = some (.file x) := by
  obtain ⟨path, raw, h1, h2⟩ := hs
  unfold loadSettingsRaw at h1
  unfold settingsFile
  split at h1
  · simp only at h1
    split at h1
    · exact ⟨_, by assumption⟩
    · cases h1
  · cases h1

theorem base_kept (w' : FS.WF fs') (hs : SettingsOf readToml fs base s) (h : ∀ q, InProject s q → IMap.get? fs' q = IMap.get? fs q) : IMap.get? fs' base = some .dir := by
  obtain ⟨x, hx⟩ := settings_file hs
  rw [← h _ (.inl (settingsPath_eq hs).symm)] at hx
  refine w'.above hx (.inr ⟨c!".art/settings.toml", rfl⟩) ?_
  unfold settingsFile
  intro e
  have := congrArg List.length e
  simp at this

theorem settings_same (w' : FS.WF fs') (hs : SettingsOf readToml fs base s) (h : ∀ q, InProject s q → IMap.get? fs' q = IMap.get? fs q) :
    loadSettingsRaw readToml fs' base = loadSettingsRaw readToml fs base :=
  load_same (by rw [base_kept w' hs h, base_dir hs]) (h _ (.inl (settingsPath_eq hs).symm))

theorem settingsOf_same (w' : FS.WF fs') (hs : SettingsOf readToml fs base s) (h : ∀ q, InProject s q → IMap.get? fs' q = IMap.get? fs q) :
    SettingsOf readToml fs' base s := by
  have e := settings_same w' hs h
  obtain ⟨path, raw, h1, h2⟩ := hs
  exact ⟨path, raw, e.trans h1, h2⟩

theorem reads_local (w : FS.WF fs) (w' : FS.WF fs') (hs : SettingsOf readToml fs base s)
    (h : ∀ q, InProject s q → IMap.get? fs' q = IMap.get? fs q) {out : Res Categorized (Categorized × Project)} (hr : ReadsProject L readToml hash ncpu fs base out) :
    ReadsProject L readToml hash ncpu fs' base out := by
  have e := settings_same w' hs h
  obtain ⟨path, raw, h1, h2⟩ := hs
  unfold ReadsProject at hr ⊢
  rw [e]
  simp only [h1, h2] at hr ⊢
  obtain ⟨r, ha, hg⟩ := hr
  exact ⟨r, arrives_same w w' h ha, hg⟩

theorem safe_same (w : FS.WF fs) (w' : FS.WF fs') (h : ∀ q, InProject s q → IMap.get? fs' q = IMap.get? fs q) (hs : Safe fs s) : Safe fs' s := by
  have hf : ∀ q, ArtifactFile fs' s q → ArtifactFile fs s q := fun q hq => by
    obtain ⟨r, hr, hq⟩ := hq
    exact ⟨r, hr, (finds_same w w' (fun x hx => h x (.inr ⟨r, .inl hr, hx⟩)) _ _ q).1 hq⟩
  exact ⟨fun r hr hf => hs.roots r hr ((isFile_same w w' (h r (.inr ⟨r, .inl hr, Under.refl _⟩))).1 hf), fun p q hp hq => hs.stems p q (hf p hp) (hf q hq)⟩

/-! ## the disk stays a tree -/

theorem comps_no_slash (p : Str) : ∀ c ∈ comps p, '/' ∉ c := by
  unfold comps
  induction p with
  | nil => intro c hc; simp at hc; simp [hc]
  | cons a l ih =>
    intro c hc
    simp only [List.splitOn] at ih hc
    rw [List.splitOnP_cons_eq_if_modifyHead] at hc
    split at hc
    · rcases List.mem_cons.1 hc with rfl | hc
      · simp
      · exact ih c hc
    · rename_i hne
      cases h : l.splitOnP (fun x => x == '/') with
      | nil => exact absurd h (List.splitOnP_ne_nil _ _)
      | cons b t =>
        rw [h] at hc ih
        rcases List.mem_cons.1 hc with rfl | hc
        · simp only [List.mem_cons, not_or]
          exact ⟨by rintro rfl; simp at hne, ih b (by simp)⟩
        · exact ih c (by simp [hc])

theorem concat_names : ∀ (l acc r : List Str), (∀ c ∈ acc, c ≠ [] ∧ '/' ∉ c) → (∀ c ∈ l, '/' ∉ c) → concatComps acc l = some r → ∀ c ∈ r, c ≠ [] ∧ '/' ∉ c
  | [], acc, r, ha, _, h => by cases h; exact ha
  | x :: l, acc, r, ha, hl, h => by
    have hl' : ∀ c ∈ l, '/' ∉ c := fun c hc => hl c (List.mem_cons_of_mem _ hc)
    unfold concatComps at h
    split at h
    · exact concat_names l acc r ha hl' h
    · rename_i h0
      split at h
      · split at h
        · cases h
        · exact concat_names l _ r (fun c hc => ha c (List.mem_of_mem_dropLast hc)) hl' h
      · refine concat_names l _ r (fun c hc => ?_) hl' h
        rcases List.mem_append.1 hc with hc | hc
        · exact ha c hc
        · simp only [List.mem_singleton] at hc
          subst hc
          exact ⟨fun e => h0 (.inl e), hl c (by simp)⟩

theorem pathOf_ok {l : List Str} (h : ∀ c ∈ l, c ≠ [] ∧ '/' ∉ c) : pathOf l = [] ∨ FilePathOk (pathOf l) := by
  rcases List.eq_nil_or_concat l with rfl | ⟨r, x, rfl⟩
  · exact .inl rfl
  · right
    refine ⟨pathOf r, x, ?_, h x (by simp)⟩
    simp [pathOf]

theorem absPath_ok {d : Str} (h : absPath cwd d = some dest) : dest = [] ∨ FilePathOk dest := by
  unfold absPath at h
  obtain ⟨l, hl, rfl⟩ := Option.map_eq_some_iff.1 h
  refine pathOf_ok (concat_names _ _ _ ?_ (comps_no_slash d) hl)
  split
  · simp
  · intro c hc
    obtain ⟨h1, h2⟩ := List.mem_filter.1 hc
    exact ⟨by simpa using h2, comps_no_slash _ c h1⟩

theorem siteStep_wf {a : SiteStep} (w : FS.WF fs) (ha : a.at = [] ∨ FilePathOk a.at) (h : a.apply fs = some fs') : FS.WF fs' := by
  cases a with
  | mkdir p =>
    rcases ha with ha | ha
    · simp only [SiteStep.at] at ha
      subst ha
      simp only [SiteStep.apply, makeDir, w.root] at h
      cases h; exact w
    · exact makeDir_wf w ha h
  | put p c =>
    simp only [SiteStep.at] at ha
    simp only [SiteStep.apply] at h
    split at h
    · cases h
    · rename_i x hx
      cases h
      obtain ⟨h1, h2⟩ := w.fileOk hx
      exact wf_put_file w h1 h2 (by rw [hx]; simp) _
    · rename_i hx
      split at h
      · rename_i hd
        cases h
        rcases ha with rfl | ha
        · rw [w.root] at hx; cases hx
        · exact wf_put_file w ha hd (by rw [hx]; simp) _
      · cases h
  | rewrite p t =>
    simp only [SiteStep.apply] at h
    split at h
    · rename_i x hx
      cases h
      obtain ⟨h1, h2⟩ := w.fileOk hx
      exact wf_put_file w h1 h2 (by rw [hx]; simp) _
    · cases h

theorem runSite_wf : ∀ (l : List SiteStep) {fs : FS}, FS.WF fs → (∀ a ∈ l, a.at = [] ∨ FilePathOk a.at) → FS.WF (runSite fs l).2
  | [], _, w, _ => w
  | a :: l, fs, w, h => by
    unfold runSite
    split
    · exact w
    · rename_i g hg
      exact runSite_wf l (siteStep_wf w (h a (by simp)) hg) fun b hb => h b (List.mem_cons_of_mem _ hb)

theorem path_child (d : FilePath) {l : List Str} (hn : l ≠ []) (h : ∀ n ∈ l, n ≠ [] ∧ '/' ∉ n) : FilePathOk (d ++ Path l) := by
  rcases List.eq_nil_or_concat l with rfl | ⟨r, x, rfl⟩
  · exact absurd rfl hn
  · refine ⟨d ++ Path r, x, ?_, h x (by simp)⟩
    rw [List.concat_eq_append, Path_append]
    simp [Path]

theorem site_wf (hs : GoodSite S.site) (w : FS.WF fs) (hd : dest = [] ∨ FilePathOk dest) (t : Str) : FS.WF (exportHtml S.site fs dest t).2 := by
  have e : (exportHtml S.site fs dest t).2 = (runSite fs (siteSteps S.site dest t)).2 := rfl
  rw [e]
  refine runSite_wf _ w fun a ha => ?_
  by_contra hn
  simp only [siteSteps, List.cons_append, List.mem_cons, List.mem_append, List.mem_flatMap, List.not_mem_nil, or_false] at ha
  rcases ha with rfl | ⟨x, hx, ha⟩ | rfl
  · exact hn hd
  · refine putSteps_paths a.at x.2 x.1 dest (fun l r e hl heq => hn (.inr ?_)) a ha rfl
    rw [heq]
    exact path_child dest hl fun n hn' => (hs.names x hx).2 n (by rw [e]; exact List.mem_append_left _ hn')
  · refine hn (.inr ?_)
    simp only [SiteStep.at, below_eq]
    exact path_child dest (by simp) (by decide)

theorem modifies_wf {ops : List ArtifactOp} {dbg : ArtifactIm → Str} {out : Option (Res ModifyError (Categorized × Project))} (w : FS.WF fs) (hl : LinkSets ops)
    (h : Modifies L readToml hash dbg ncpu fs base ops out fs') : FS.WF fs' := by
  have key : ∀ {read c p files cfg}, ReadsProject L readToml hash ncpu fs base read → PlansRead L hash dbg ops read (.ok (c, p)) →
      projectFiles L p = .ok files → Reaches L p.settings files (Cfg.init L fs p.settings) cfg → FS.WF cfg.fs := by
    intro read c p files cfg h1 h2 h3 h4
    obtain ⟨_, p0, _, k1, k2⟩ := planned ⟨_, _, h1, h2⟩
    obtain ⟨_, e2, e3⟩ := modify_files w k1 hl k2
    obtain ⟨_, _, f3⟩ := projectFiles_spec e2 h3
    refine tree_reaches w (fun x hx => ?_) h4
    obtain ⟨a, ha⟩ := List.exists_mem_of_ne_nil _ (f3 x hx).1
    obtain ⟨ha, e⟩ := mem_inFile.1 ha
    rw [← e]
    exact (supported_ext (e3 a ha).1).2
  cases h with
  | early => exact w
  | refused => exact w
  | crash h1 h2 h3 h4 => exact key h1 h2 h3 h4
  | failed h1 h2 h3 h4 => exact key h1 h2 h3 h4
  | done h1 h2 h3 h4 => exact key h1 h2 h3 h4

theorem markdown_wf {F : ExportLibs} {ex : ExportSettings} {p : Project} (w : FS.WF fs) (hd : dest = [] ∨ FilePathOk dest) : FS.WF (exportMarkdown F ex fs dest p).2 := by
  unfold exportMarkdown
  cases hc : createFile fs dest with
  | none => exact w
  | some g =>
    simp only
    rcases hd with rfl | hd
    · simp [createFile, Act.apply, w.root] at hc
    · unfold createFile at hc
      obtain ⟨g1, h1, h2⟩ := Option.bind_eq_some_iff.1 hc
      have w1 := apply_wf w h1 (.inr hd) (by intro q hq; cases hq)
      have w2 := apply_wf w1 h2 (.inr hd) (by intro q hq; cases hq)
      have hx : ∃ x, IMap.get? g dest = some (.file x) := by
        unfold Act.apply at h2
        dsimp only at h2
        split at h2
        · cases h2; rw [get?_put, if_pos rfl]; exact ⟨_, rfl⟩
        · cases h2
      obtain ⟨x, hx⟩ := hx
      exact wf_put_file w2 hd (w2.fileOk hx).2 (by rw [hx]; simp) _

end Cli
end Art
