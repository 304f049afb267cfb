import Verif.Lemmas.ReloadDisk
import Verif.Props.SaveEx

/-!
# Reading back what was written (C46)
-/

namespace Art.Spec

/-- A text that makes the reader crash: a reference like `[[ſPC-a]]`. -/
def Crashing (p : Project) : Prop := ∃ x ∈ p.artifacts, ∃ n sub, WritesRef x.2.text n sub ∧ Name.fromStr n = .panic

end Art.Spec

namespace Art
open Spec

section
variable {L : Libs} {readToml : Str → Option SettingsRaw} {hash : ArtifactIm → HashIm} {dbg : ArtifactIm → Str} {ncpu ncpu' : Nat} {fs fs' : FS}
  {base : FilePath} {ops : List ArtifactOp} {s : Settings} {files : List (FilePath × Str)} {cfg : Cfg} {p p' q : Project} {c c' : Categorized}

theorem settingsPath_of {path : FilePath} {raw : SettingsRaw} (h : resolveSettings base path raw = .ok s) : s.settingsPath = path := by
  unfold resolveSettings at h
  simp only [Res.bind_eq_ok] at h
  obtain ⟨_, _, _, _, _, _, _, _, h5⟩ := h
  cases h5
  rfl

/-- Every file that is written is read once. -/
theorem written_once_roots (w : FS.WF fs) (hs : SettingsOf readToml fs base s) (roots : ∀ r ∈ s.artifactPaths, ¬ IsFile fs r) (hl : LinkSets ops)
    (hr : ReadsProject L readToml hash ncpu fs base (.ok (c, p))) (hpl : Plans L hash dbg c p ops (.ok (c', p')))
    (hf : projectFiles L p' = .ok files) (once : ∀ op ∈ ops, ∀ a, Brings op a → ReadOnce s a.file) : ∀ x ∈ files, ways s x.1 = 1 := by
  have hacc : Accepted L readToml hash dbg ncpu fs base ops p' := ⟨_, _, hr, hpl⟩
  obtain ⟨e1, e2, e3⟩ := accepted_settings w hs hl hacc
  obtain ⟨f1, f2, f3⟩ := projectFiles_spec e2 hf
  have sets := C25_read_sets hr
  have hread := settings_of_read hs hr
  obtain ⟨raw, path, s0, r, arts, ls, g1, g2, ha, he, hlo, hli, hp, _⟩ := reads_parts hr
  have hs0 : s0 = s := by rw [← hread, hp]; rfl
  subst hs0
  intro x hx
  obtain ⟨a, hin⟩ := List.exists_mem_of_ne_nil _ (f3 x hx).1
  obtain ⟨i1, i2⟩ := mem_inFile.1 hin
  rw [← i2]
  obtain ⟨_, _, _, hcases, _⟩ := C25_ids sets hl hpl
  rcases hcases a i1 with hold | ⟨op, ho, hb⟩
  · rw [hp] at hold
    have hn : ∀ x ∈ arts, ISet.Nodup x.2.partof := by
      intro x hx
      obtain ⟨im, as⟩ := (hlo.spec (joinArtifacts_input r.arts)).2.2.2.2.2.1 x.2 (List.mem_map.2 ⟨x, hx, rfl⟩)
      exact as.pnodup
    have hold := (editable_sort (p := ⟨s0, (joinLocations r.locs).1, arts⟩) hn).mem_iff.1 hold
    have hj : (joinArtifacts r.arts).lints = [] := ((noError_parts ha).1 he).2.2
    change a ∈ arts.map (fun x => x.2.toIm) at hold
    rw [loads_toIm hj (fun a h => (arrives_art ha h).2.2) hlo] at hold
    obtain ⟨b, hb, rfl⟩ := List.mem_map.1 hold
    show ways s0 b.file = 1
    obtain ⟨hw, _⟩ := arrives_art ha hb
    obtain ⟨cc, hcc⟩ := walkArtifacts_file w hw
    rw [← count_ways w roots (w.isFile_iff.2 ⟨cc, hcc⟩) (e3 _ i1).1]
    exact read_once ha he hb
  · obtain ⟨b, hb1, rfl⟩ := brings_clean.1 hb
    exact ways_once (once op ho b hb1)

theorem written_once (w : FS.WF fs) (hs : SettingsOf readToml fs base s) (hsafe : Safe fs s) (hl : LinkSets ops)
    (hr : ReadsProject L readToml hash ncpu fs base (.ok (c, p))) (hpl : Plans L hash dbg c p ops (.ok (c', p')))
    (hf : projectFiles L p' = .ok files) (once : ∀ op ∈ ops, ∀ a, Brings op a → ReadOnce s a.file) : ∀ x ∈ files, ways s x.1 = 1 :=
  written_once_roots w hs hsafe.roots hl hr hpl hf once

/-- What a reader gets from the disk after the project `p'` was written. -/
theorem reload (w : FS.WF fs) (hs : SettingsOf readToml fs base s) (hsafe : Safe fs s) (ap : Apart s) (hl : LinkSets ops)
    (hr : ReadsProject L readToml hash ncpu fs base (.ok (c, p))) (hpl : Plans L hash dbg c p ops (.ok (c', p')))
    (hf : projectFiles L p' = .ok files) (hre : Reaches L p'.settings files (Cfg.init L fs p'.settings) cfg) (hd : cfg.phase = .done)
    (once : ∀ op ∈ ops, ∀ a, Brings op a → ReadOnce s a.file)
    (kept : ∀ a ∈ editable p', Survives L s a.file (inFile (editable p') a.file))
    {out : Res Categorized (Categorized × Project)} (h' : ReadsProject L readToml hash ncpu' cfg.fs base out) :
    ∃ r' q2, Arrives L ncpu' cfg.fs s r' ∧ r'.categorized.error = [] ∧ Same p' q2 ∧ Same q2 p' ∧ out = finishRead L r'.categorized q2 := by
  have hacc : Accepted L readToml hash dbg ncpu fs base ops p' := ⟨_, _, hr, hpl⟩
  obtain ⟨e1, e2, e3⟩ := accepted_settings w hs hl hacc
  have o := accepted_orderly w hs hl hsafe hacc hf
  obtain ⟨f1, f2, f3⟩ := projectFiles_spec e2 hf
  have hframe := frame_modify w hs hl hacc hf hre
  have hin : ∀ q, IMap.get? cfg.fs q ≠ IMap.get? fs q → ∃ r ∈ s.artifactPaths, Under r q := fun q hq =>
    C49_inside w hs hl hsafe.roots (hframe.1 q hq)
  rw [e1] at o hre f3
  have sets := C25_read_sets hr
  have hclean : ∀ a ∈ editable p', a.clean = a ∧ ISet.Nodup a.partof := by
    rw [editable_new sets hl hpl]
    exact ims_clean sets hl
  have hread := settings_of_read hs hr
  -- what was read first
  obtain ⟨raw, path, s0, r, arts, ls, g1, g2, ha, he, hlo, hli, hp, _⟩ := reads_parts hr
  have hs0 : s0 = s := by rw [← hread, hp]; rfl
  subst hs0
  -- every file is read once
  have honce : ∀ x ∈ files, ways s0 x.1 = 1 := written_once w hs hsafe hl hr hpl hf once
  obtain ⟨w', hroots, hall, hwalk⟩ := walk_after o hre hd honce
  -- what is read from the written files
  have hsent : ∀ x ∈ files, artSent L s0.pre cfg.fs x.1 = ⟨inOrder (inFile (editable p') x.1), [], false⟩ := by
    intro x hx
    obtain ⟨i1, _, i3⟩ := f3 x hx
    obtain ⟨a, hin⟩ := List.exists_mem_of_ne_nil _ i1
    obtain ⟨i4, i5⟩ := mem_inFile.1 hin
    have := survives_load (L := L) (s := s0) (f := x.1) (ims := inFile (editable p') x.1) (t := x.2) (List.Pairwise.filter _ e2)
      (fun b hb => ⟨⟨(hclean b (mem_inFile.1 hb).1).2, (hclean b (mem_inFile.1 hb).1).1⟩, (mem_inFile.1 hb).2⟩) (i5 ▸ kept a i4) i3
    unfold artSent
    rw [hall x hx]
    simp only
    rw [this]
  have hsettings := settings_after (s := s0) (settingsPath_of g2) ap hin hframe.2 g1
  unfold ReadsProject at h'
  rw [hsettings] at h'
  simp only at h'
  rw [g2] at h'
  obtain ⟨r', ha', hg⟩ := h'
  have hwc := walkCode_after w w' ap hin
  have hcs : ∀ f ∈ walkCode cfg.fs s0, codeSent L cfg.fs f = codeSent L fs f := fun f hf => codeSent_after w ap hin (hwc.mem_iff.1 hf)
  have hlocs : r'.locs.Perm r.locs := by
    refine ha'.locs.trans (List.Perm.trans ?_ ha.locs.symm)
    rw [List.flatMap_congr (g := fun f => (codeSent L fs f).items) fun f hf => by rw [hcs f hf]]
    exact hwc.flatMap_right _
  have harts : r'.arts.Perm (editable p') := by
    refine ha'.arts.trans ?_
    refine (hwalk.flatMap_right _).trans ?_
    rw [List.flatMap_map]
    have h1 : (files.flatMap fun x => (artSent L s0.pre cfg.fs x.1).items) = files.flatMap fun x => inOrder (inFile (editable p') x.1) :=
      List.flatMap_congr fun x hx => by rw [hsent x hx]
    rw [h1]
    have h2 : (files.flatMap fun x => inOrder (inFile (editable p') x.1)).Perm ((files.map (·.1)).flatMap (inFile (editable p'))) := by
      rw [List.flatMap_map]
      exact List.Perm.flatMap_left _ fun x _ => sortOn_perm _ _
    exact h2.trans (files_cover f1 fun a ha => by
      obtain ⟨x, hx, e⟩ := f2 a ha
      exact List.mem_map.2 ⟨x, hx, e⟩)
  -- no errors
  obtain ⟨n1, n2, n3⟩ := (noError_parts ha).1 he
  have he' : r'.categorized.error = [] := by
    refine (noError_parts ha').2 ⟨?_, (join_err_perm hlocs).2 n2, ?_⟩
    · intro d hd
      unfold fileLints at hd n1
      simp only [List.mem_append] at hd
      rcases hd with ((h | h) | h) | h
      · obtain ⟨c, hc, hm, rfl⟩ := (C29_missing L cfg.fs _ _ _).1 h
        have : Missing fs c := by
          rw [← get?_none_iff] at hm ⊢
          rw [← code_after ap hin hc (Under.refl c)]
          exact hm
        exact n1 _ (List.mem_append_left _ (List.mem_append_left _ (List.mem_append_left _ ((C29_missing L fs _ _ _).2 ⟨c, hc, this, rfl⟩))))
      · obtain ⟨f, hf, hm⟩ := List.mem_flatMap.1 h
        rw [hcs f hf] at hm
        exact n1 _ (List.mem_append_left _ (List.mem_append_left _ (List.mem_append_right _ (List.mem_flatMap.2 ⟨f, hwc.mem_iff.1 hf, hm⟩))))
      · obtain ⟨c, hc, hm, rfl⟩ := (C29_missing L cfg.fs _ _ _).1 h
        rw [← get?_none_iff, hroots c hc] at hm
        cases hm
      · obtain ⟨f, hf, hm⟩ := List.mem_flatMap.1 h
        obtain ⟨x, hx, rfl⟩ := List.mem_map.1 (hwalk.mem_iff.1 hf)
        rw [hsent x hx] at hm
        cases hm
    · rw [C11_reported]
      exact e2.perm harts.symm fun h => Ne.symm h
  rcases hg with ⟨h, _⟩ | ⟨_, arts', hlo', rfl⟩
  · exact absurd he' h
  obtain ⟨_, _, _, _, ims, him, hlp, hjp, hpp, _⟩ := plans_ok hpl
  have hims : ims = editable p' := by rw [him, editable_new sets hl hpl]
  subst hims
  have hmap : (editable p').map ArtifactIm.clean = editable p' := by
    conv_rhs => rw [← List.map_id (editable p')]
    exact List.map_congr_left fun a ha => (hclean a ha).1
  have hperm : ((editable p').map ArtifactIm.clean).Perm (r'.arts.map ArtifactIm.clean) := harts.symm.map _
  have cn : IMap.Nodup p.codeImpls := sets.code
  have cn' : IMap.Nodup (joinLocations r'.locs).1 := (C10_no_empty _).1
  have hc : ∀ n, (IMap.get? p.codeImpls n).map ImplCode.sort = (IMap.get? (joinLocations r'.locs).1 n).map ImplCode.sort := by
    intro n
    rw [hp]
    show (IMap.get? ((sortOn (fun x => x.1.keyStr) (joinLocations r.locs).1).map (fun x : Name × ImplCode => (x.1, x.2.sort))) n).map ImplCode.sort = _
    rw [get_sorted (C10_no_empty _).1]
    exact joinLocations_perm hlocs.symm n2 ((join_err_perm hlocs).2 n2) n
  have hp' : p' = ⟨s0, p.codeImpls, p'.artifacts⟩ := by
    rw [← e1]
    conv_lhs => rw [hpp]
    rw [hpp]
  refine ⟨_, _, ha', he', ?_, ?_, rfl⟩
  · have := same_of_clean (s := s0) hperm cn cn' hc hjp hlp hlo'
    rw [← hp'] at this
    exact this
  · have hj' : (joinArtifacts r'.arts).lints = [] := ((noError_parts ha').1 he').2.2
    have := same_of_clean (s := s0) hperm.symm cn' cn (fun n => (hc n).symm) hj' hlo' hlp
    rw [← hp'] at this
    exact this

theorem crashing_sort : Crashing q.sort ↔ Crashing q := by
  unfold Crashing
  have : ∀ t, (∃ x ∈ q.sort.artifacts, x.2.text = t) ↔ ∃ x ∈ q.artifacts, x.2.text = t := by
    intro t
    show (∃ x ∈ (sortOn (fun x => x.1.keyStr) q.artifacts).map (fun x : Name × Artifact => (x.1, x.2.sort)), x.2.text = t) ↔ _
    constructor
    · rintro ⟨x, hx, rfl⟩
      obtain ⟨y, hy, rfl⟩ := List.mem_map.1 hx
      exact ⟨y, (mem_sortOn _).1 hy, rfl⟩
    · rintro ⟨y, hy, rfl⟩
      exact ⟨_, List.mem_map.2 ⟨y, (mem_sortOn _).2 hy, rfl⟩, rfl⟩
  constructor
  · rintro ⟨x, hx, n, sub, h1, h2⟩
    obtain ⟨y, hy, e⟩ := (this x.2.text).1 ⟨x, hx, rfl⟩
    exact ⟨y, hy, n, sub, e ▸ h1, h2⟩
  · rintro ⟨x, hx, n, sub, h1, h2⟩
    obtain ⟨y, hy, e⟩ := (this x.2.text).2 ⟨x, hx, rfl⟩
    exact ⟨y, hy, n, sub, e ▸ h1, h2⟩

theorem finish_same {p q : Project} (S : Same p q) (S' : Same q p) :
    (Crashing p ∧ finishRead L c q = .panic) ∨ (¬ Crashing p ∧ ∃ c2, finishRead L c q = .ok (c2, q.sort) ∧ foldCase q.sort = foldCase p.sort) := by
  unfold finishRead
  by_cases h : Crashing p
  · have := panic_of_reads S ((C40_crash_iff (L := L) p).2 h)
    rw [this]
    exact Or.inl ⟨h, rfl⟩
  · have hn : p.lint L ≠ .panic := fun e => h ((C40_crash_iff p).1 e)
    rcases lint_ne_err L q with ⟨ls, e⟩ | e
    · rw [e]
      exact Or.inr ⟨h, _, rfl, foldCase_sort S' S⟩
    · exact absurd (panic_of_reads S' e) hn

theorem plans_nodup (hpl : Plans L hash dbg c p ops (.ok (c', p'))) : ∀ x ∈ p'.artifacts, ISet.Nodup x.2.partof := by
  obtain ⟨_, _, _, _, ims, _, hlp, _⟩ := plans_ok hpl
  intro x hx
  obtain ⟨im, as⟩ := (hlp.spec (joinArtifacts_input ims)).2.2.2.2.2.1 x.2 (List.mem_map.2 ⟨x, hx, rfl⟩)
  exact as.pnodup

/-- C46: reading the project again after a successful `modify_project` gives the project that it returned, up to the spelling of names in `parts` and in code
references (C20); it cannot fail, and it crashes only on a reference that crashes the name parser.

Conditions: no artifact path is a file and no two artifact files of a directory differ only in the extension (without this artifacts are lost,
`C27_same_stem_loses`), artifacts are kept apart from code and settings, the files of new artifacts are read once, and all artifacts survive being written in their
file format. -/
theorem C46_reload (w : FS.WF fs) (hs : SettingsOf readToml fs base s) (hsafe : Safe fs s) (ap : Apart s) (hl : LinkSets ops)
    (once : ∀ op ∈ ops, ∀ a, Brings op a → ReadOnce s a.file)
    (h : Modifies L readToml hash dbg ncpu fs base ops (some (.ok (c, q))) fs')
    (kept : ∀ a ∈ editable q, Survives L s a.file ((editable q).filter (fun b => decide (b.file = a.file))))
    {out : Res Categorized (Categorized × Project)} (h' : ReadsProject L readToml hash ncpu' fs' base out) :
    (Crashing q ∧ out = .panic) ∨ (¬ Crashing q ∧ ∃ c2 q2, out = .ok (c2, q2) ∧ foldCase q2 = foldCase q) := by
  generalize hsome : some (Res.ok (c, q)) = o at h
  cases h with
  | early => cases hsome
  | refused _ _ h3 => exact absurd (Option.some.inj hsome).symm (h3 _)
  | crash => cases hsome
  | failed => cases hsome
  | done h1 h2 h3 h4 h5 =>
    rename_i read c0 p' files cfg
    cases hsome
    cases read with
    | ok r =>
      obtain ⟨c1, p⟩ := r
      have hn := plans_nodup h2
      have hp := editable_sort hn
      obtain ⟨r', q2, _, _, S, S', rfl⟩ := reload w hs hsafe ap hl h1 h2 h3 h4 h5 once
        (fun a ha => survives_perm (inFile_perm hp _) (kept a (hp.mem_iff.2 ha))) h'
      rcases finish_same (L := L) (c := r'.categorized) S S' with ⟨e1, e2⟩ | ⟨e1, c3, e2, e3⟩
      · exact Or.inl ⟨crashing_sort.2 e1, e2⟩
      · exact Or.inr ⟨fun h => e1 (crashing_sort.1 h), c3, _, e2, e3⟩
    | err e =>
      exfalso
      unfold PlansRead at h2
      simp only [checkLints_eq] at h2
      split at h2 <;> cases h2
    | panic => cases h2

/-! ## nothing to modify -/

theorem editable_foldCase (h : foldCase p = foldCase q) : editable p = editable q := by
  have h3 := congrArg (fun x => x.2.2) h
  have key : ∀ p : Project, editable p = (foldCase p).2.2.map (fun x => x.2.1.toIm) := by
    intro p
    unfold editable foldCase
    rw [List.map_map]
    rfl
  rw [key p, key q]
  exact congrArg _ h3

theorem same_unmodified (hcol : NoCollision hash p []) (hr : ReadsProject L readToml hash ncpu fs base (.ok (c, p)))
    (hpl : Plans L hash dbg c p [] (.ok (c', p'))) :
    (editable p').Perm (editable p) ∧ ∃ P : Project, p = P.sort ∧ Same p' P ∧ Same P p' ∧ ¬ Crashing p' ∧
      ∃ r, Arrives L ncpu fs P.settings r ∧ r.categorized.error = [] ∧ finishRead L r.categorized P = .ok (c, p) := by
  have sets := C25_read_sets hr
  have hl : LinkSets [] := fun op ho => by cases ho
  obtain ⟨k1, k2, _, k4, ims, him, hlp, hjp, hpp, _⟩ := plans_ok hpl
  have hims : ims = editable p' := by rw [him, editable_new sets hl hpl]
  subst hims
  obtain ⟨m1, m2⟩ := ims_mem k2 k4 hcol
  rw [← editable_new sets hl hpl] at m1 m2
  obtain ⟨raw, path, s0, r, arts, ls, g1, g2, ha, he, hlo, hli, hp, hcc⟩ := reads_parts hr
  obtain ⟨n1, n2, n3⟩ := (noError_parts ha).1 he
  have hn : ∀ x ∈ arts, ISet.Nodup x.2.partof := by
    intro x hx
    obtain ⟨im, as⟩ := (hlo.spec (joinArtifacts_input r.arts)).2.2.2.2.2.1 x.2 (List.mem_map.2 ⟨x, hx, rfl⟩)
    exact as.pnodup
  have hpe : (editable p).Perm (r.arts.map ArtifactIm.clean) := by
    rw [hp]
    refine (editable_sort (p := ⟨s0, (joinLocations r.locs).1, arts⟩) hn).trans ?_
    show (arts.map (fun x => x.2.toIm)).Perm _
    rw [loads_toIm n3 (fun a h => (arrives_art ha h).2.2) hlo]
  have hnd : (editable p).Nodup := by
    rw [hpe.nodup_iff]
    rw [C11_reported] at n3
    refine List.Nodup.of_map (fun a : ArtifactIm => key a.name) ?_
    rw [List.map_map, List.Nodup, List.pairwise_map]
    exact n3
  have hperm : (editable p').Perm (editable p) := by
    refine (List.perm_ext_iff_of_nodup m1 hnd).2 fun a => ?_
    rw [m2 a]
    constructor
    · rintro (h | ⟨op, ho, _⟩)
      · exact h.1
      · cases ho
    · rintro h
      exact Or.inl ⟨h, fun ⟨op, ho, _⟩ => by cases ho⟩
  have hclean : ∀ a ∈ editable p', a.clean = a ∧ ISet.Nodup a.partof := by
    rw [editable_new sets hl hpl]
    exact ims_clean sets hl
  have hmap : (editable p').map ArtifactIm.clean = editable p' := by
    conv_rhs => rw [← List.map_id (editable p')]
    exact List.map_congr_left fun a ha => (hclean a ha).1
  have hc : ∀ n, (IMap.get? p.codeImpls n).map ImplCode.sort = (IMap.get? (joinLocations r.locs).1 n).map ImplCode.sort := by
    intro n
    rw [hp]
    exact get_sorted (C10_no_empty _).1 n
  have hp' : p' = ⟨s0, p.codeImpls, p'.artifacts⟩ := by
    have : s0 = p.settings := by rw [hp]; rfl
    rw [this]
    exact hpp
  have hpc : ((editable p').map ArtifactIm.clean).Perm (r.arts.map ArtifactIm.clean) := by rw [hmap]; exact hperm.trans hpe
  have S := same_of_clean (s := s0) hpc sets.code (C10_no_empty _).1 hc hjp hlp hlo
  rw [← hp'] at S
  have S' := same_of_clean (s := s0) hpc.symm (C10_no_empty _).1 sets.code (fun n => (hc n).symm) n3 hlo hlp
  rw [← hp'] at S'
  refine ⟨hperm, _, hp, S, S', ?_, r, ha, he, ?_⟩
  rotate_left
  · unfold finishRead
    rw [hli, hp, hcc]
  intro hcr
  rw [panic_of_reads S ((C40_crash_iff (L := L) p').2 hcr)] at hli
  cases hli

/-- C46: formatting keeps every artifact. If a project is read without an error and `artifact fmt` succeeds, then reading it again gives the same project, up to
the spelling of names in `parts` and in code references. -/
theorem C46_fmt (w : FS.WF fs) (hs : SettingsOf readToml fs base s) (hsafe : Safe fs s) (ap : Apart s)
    (hr : ReadsProject L readToml hash ncpu fs base (.ok (c, p))) (hcol : NoCollision hash p [])
    (kept : ∀ a ∈ editable p, Survives L s a.file ((editable p).filter (fun b => decide (b.file = a.file))))
    {res : Categorized × Project} (h : Modifies L readToml hash dbg ncpu' fs base [] (some (.ok res)) fs')
    {n : Nat} {out : Res Categorized (Categorized × Project)} (h' : ReadsProject L readToml hash n fs' base out) :
    ∃ c2 q2, out = .ok (c2, q2) ∧ foldCase q2 = foldCase p := by
  generalize hsome : some (Res.ok res) = o at h
  cases h with
  | early => cases hsome
  | refused _ _ h3 => exact absurd (Option.some.inj hsome).symm (h3 _)
  | crash => cases hsome
  | failed => cases hsome
  | done h1 h2 h3 h4 h5 =>
    rename_i read c0 p' files cfg
    cases hsome
    cases read with
    | ok r =>
      obtain ⟨c1, p0⟩ := r
      have hfold : foldCase p = foldCase p0 := by
        rcases C20_same_but_spelling readToml (List.Perm.refl fs) w base hr h1 with ⟨e, e', h, _⟩ | ⟨h, _⟩ | ⟨ls, q, ls', q', h, h', hf⟩
        · cases h
        · cases h
        · cases h; cases h'; exact hf
      have he := editable_foldCase hfold
      have hcol0 : NoCollision hash p0 [] := by unfold NoCollision at hcol ⊢; rw [← he]; exact hcol
      obtain ⟨hperm, P, hP, S0, S0', hnc, -⟩ := same_unmodified hcol0 h1 h2
      have hl : LinkSets [] := fun op ho => by cases ho
      obtain ⟨r', q2, _, _, S, S', rfl⟩ := reload w hs hsafe ap hl h1 h2 h3 h4 h5 (fun op ho => by cases ho)
        (fun a ha => survives_perm (inFile_perm hperm.symm _) (by
          have := kept a (he ▸ hperm.mem_iff.1 ha)
          rw [he] at this
          exact this)) h'
      rcases finish_same (L := L) (c := r'.categorized) S S' with ⟨e1, _⟩ | ⟨_, c3, e2, e3⟩
      · exact absurd e1 hnc
      · refine ⟨c3, _, e2, e3.trans ?_⟩
        rw [hfold, hP]
        exact foldCase_sort S0 S0'
    | err e =>
      exfalso
      unfold PlansRead at h2
      simp only [checkLints_eq] at h2
      split at h2 <;> cases h2
    | panic => cases h2

end
/-! ## an example -/

/-- Libraries for the example: one YAML text and one TOML text can be read. -/
def keptLibs : Libs :=
  { exLibs with
    yamlRead := fun t => if t = c!"partof: REQ-a" then some (none, some (.str c!"REQ-a")) else none
    tomlRead := fun t => if t = c!"SPC-c" then some [docOf exImC] else none
    tomlWrite := fun d => d.flatMap (fun x => x.1) }

/-- The project and the disk after a modification. -/
def modifiedNow (L : Libs) (hash : ArtifactIm → HashIm) (fs : FS) (s : Settings) (ops : List ArtifactOp) (n : Nat) : Option (Project × Phase × FS) :=
  match readNow L hash fs s with
  | .ok (c, p) =>
    match planNow L hash (fun _ => []) c p ops with
    | .ok (_, p') =>
      match projectFiles L p' with
      | .ok files => let c := runNow L p'.settings files n (Cfg.init L fs p'.settings); some (p'.sort, c.phase, c.fs)
      | _ => none
    | _ => none
  | _ => none

theorem modifiedNow_sound {L : Libs} {readToml : Str → Option SettingsRaw} {hash : ArtifactIm → HashIm} {ncpu : Nat} {fs : FS} {base : FilePath}
    {s : Settings} {ops : List ArtifactOp} {n : Nat} {q : Project} {fs' : FS}
    (hs : SettingsOf readToml fs base s) (hc : (walkCode fs s).countP (fun f => (codeSent L fs f).dead) < 4)
    (ha : (walkArtifacts fs s).countP (fun f => (artSent L s.pre fs f).dead) < ncpu) (h : modifiedNow L hash fs s ops n = some (q, .done, fs')) :
    ∃ c, Modifies L readToml hash (fun _ => []) ncpu fs base ops (some (.ok (c, q))) fs' := by
  have hr := readNow_reads (L := L) (hash := hash) hs hc ha
  unfold modifiedNow at h
  split at h
  · rename_i c p he
    rw [he] at hr
    split at h
    · rename_i c' p' hp
      have hpl : PlansRead L hash (fun _ => []) ops (.ok (c, p)) (.ok (c', p')) := by
        have := C23_total L hash (fun _ => []) c p ops
        rw [hp] at this
        exact this
      split at h
      · rename_i files' hf
        simp only [Option.some.injEq, Prod.mk.injEq] at h
        obtain ⟨rfl, h1, h2⟩ := h
        rw [← h2]
        exact ⟨_, .done hr hpl hf (runNow_reaches L p'.settings files' n (Cfg.init L fs p'.settings)) h1⟩
      · cases h
    · cases h
  · cases h

/-- The artifacts of the example after the modification. -/
def exReqA : ArtifactIm := ⟨Name.lit c!"REQ-a", c!"/p/design/a.md", [], none, c!"what"⟩

theorem exKept_now : (modifiedNow keptLibs exId exGood exS exOps 1000).map
      (fun r => (editable r.1, r.2.1, match r.1.lint keptLibs with | .panic => true | _ => false)) =
    some ([exReqA, exImB'.clean, exImC], .done, false) := by
  decide +kernel

theorem textOk_of {pre t : Str} (h0 : t ≠ []) (h1 : cleanText t = t) (h2 : '\r' ∉ t) (h3 : ∀ l ∈ lines t, '#' ∉ l ∧ l.head? ≠ some '`') : TextOk foldC pre t := by
  refine ⟨h0, h1, ?_, fun l hl => textLine_of_noHash (h3 l hl).1 (h3 l hl).2⟩
  intro h
  exact h2 (h.subset (by decide))

/-- A case that meets the hypotheses of `C46_reload`: an artifact is changed, one is added in a new TOML file and one is deleted. -/
theorem exKept : ∃ c q fs', Modifies keptLibs (fun _ => some exRaw) exId (fun _ => []) 4 exGood c!"/p" exOps (some (.ok (c, q))) fs' ∧
    Safe exGood exS ∧ Apart exS ∧ LinkSets exOps ∧ (∀ op ∈ exOps, ∀ a, Brings op a → ReadOnce exS a.file) ∧
    (∀ a ∈ editable q, Survives keptLibs exS a.file ((editable q).filter (fun b => decide (b.file = a.file)))) ∧ ¬ Crashing q ∧ editable q = [exReqA, exImB'.clean, exImC] ∧
    modifiedNow keptLibs exId exGood exS exOps 1000 = some (q, .done, fs') := by
  obtain ⟨⟨q, ph, fs'⟩, h1, h2⟩ := Option.map_eq_some_iff.1 exKept_now
  simp only [Prod.mk.injEq] at h2
  obtain ⟨h2, rfl, h3⟩ := h2
  obtain ⟨c, hm⟩ := modifiedNow_sound (ncpu := 4) exGood_settings (by decide +kernel) (by decide +kernel) h1
  refine ⟨c, q, fs', hm, exGood_safe, ⟨?_, ?_⟩, exOps_ok.2.1, ?_, ?_, ?_, h2, h1⟩
  · intro r hr c hc
    rw [← startsWith_iff, ← startsWith_iff]
    revert r c
    decide
  · intro r hr
    rw [← startsWith_iff]
    revert r
    decide
  · have hb : ∀ op ∈ exOps, ∀ a, Brings op a → a.file = c!"/p/design/b.md" ∨ a.file = c!"/p/design/c.toml" := by
      intro op ho a ha
      have : ∀ op ∈ exOps, ∀ a ∈ op.brought, a.file = c!"/p/design/b.md" ∨ a.file = c!"/p/design/c.toml" := by decide
      exact this op ho a (mem_brought.2 ha)
    intro op ho a ha
    refine ⟨[], c!"/p/design", [], rfl, ⟨?_, ?_⟩, ?_⟩
    · rcases hb op ho a ha with e | e <;> rw [e, ← startsWith_iff] <;> decide
    · intro e he; cases he
    · intro r hr; cases hr
  · rw [h2]
    intro a ha
    simp only [List.mem_cons, List.not_mem_nil, or_false] at ha
    have hset : SettingsOk exS.pre exS.mdAttrs := ⟨by decide, by rintro p ⟨⟩⟩
    rcases ha with rfl | rfl | rfl
    · refine (show Survives keptLibs exS c!"/p/design/a.md" [exReqA] from ⟨hset, ?_⟩)
      intro a ha
      rw [List.mem_singleton.1 ha]
      exact ⟨fun _ => textOk_of (by decide) (by decide) (by decide) (by decide), ⟨nofun, nofun, nofun, nofun, fun h => absurd rfl h⟩⟩
    · refine (show Survives keptLibs exS c!"/p/design/b.md" [exImB'.clean] from ⟨hset, ?_⟩)
      intro a ha
      rw [List.mem_singleton.1 ha]
      exact ⟨fun _ => textOk_of (by decide) (by decide) (by decide) (by decide), ⟨nofun, nofun, nofun, nofun, fun _ => by decide⟩⟩
    · refine (show Survives keptLibs exS c!"/p/design/c.toml" [exImC] from ?_)
      intro l hl
      rw [List.perm_singleton.1 hl]
      decide
  · intro hc
    have hc := (C40_crash_iff (L := keptLibs) q).2 hc
    rw [hc] at h3
    cases h3

/-- The project of the examples, as these libraries read it. -/
theorem exFmt_now : (match readNow keptLibs exId exGood exS with | .ok r => some (editable r.2) | _ => none) = some [exReqA, exImA, exImB] ∧
    ((modifiedNow keptLibs exId exGood exS [] 1000).map (fun r => r.2.1)) = some .done := by
  decide +kernel

/-- A case that meets the hypotheses of `C46_fmt`. -/
theorem exFmt : ∃ c p res fs', ReadsProject keptLibs (fun _ => some exRaw) exId 4 exGood c!"/p" (.ok (c, p)) ∧ NoCollision exId p [] ∧
    (∀ a ∈ editable p, Survives keptLibs exS a.file ((editable p).filter (fun b => decide (b.file = a.file)))) ∧
    Modifies keptLibs (fun _ => some exRaw) exId (fun _ => []) 4 exGood c!"/p" [] (some (.ok res)) fs' := by
  have hr := readNow_reads (L := keptLibs) (hash := exId) (ncpu := 4) exGood_settings (by decide +kernel) (by decide +kernel)
  have h1 := exFmt_now.1
  cases hn : readNow keptLibs exId exGood exS with
  | ok r =>
    obtain ⟨c, p⟩ := r
    rw [hn] at hr h1
    have h1 : editable p = [exReqA, exImA, exImB] := Option.some.inj h1
    obtain ⟨⟨q, ph, fs'⟩, h2, h3⟩ := Option.map_eq_some_iff.1 exFmt_now.2
    have h3 : ph = .done := h3
    subst h3
    obtain ⟨c', hm⟩ := modifiedNow_sound (ncpu := 4) exGood_settings (by decide +kernel) (by decide +kernel) h2
    refine ⟨c, p, _, fs', hr, noCollision_of ?_, ?_, hm⟩
    · rw [h1]; decide
    · rw [h1]
      have hset : SettingsOk exS.pre exS.mdAttrs := ⟨by decide, by rintro p ⟨⟩⟩
      have hno : ∀ a ∈ [exReqA, exImA, exImB], (a.text ≠ [] → TextOk keptLibs.fold exS.pre a.text) ∧ YamlOk keptLibs (intoRaw a).2.2 := by
        intro a ha
        simp only [List.mem_cons, List.not_mem_nil, or_false] at ha
        rcases ha with rfl | rfl | rfl <;>
          exact ⟨fun _ => textOk_of (by decide) (by decide) (by decide) (by decide), ⟨nofun, nofun, nofun, nofun, fun h => absurd rfl h⟩⟩
      have hmd : ∀ f ims, ArtFileType.fromPath f = some .md → (∀ a ∈ ims, a ∈ [exReqA, exImA, exImB]) → Survives keptLibs exS f ims := by
        intro f ims hf hi
        unfold Survives
        rw [hf]
        exact ⟨hset, fun a ha => hno a (hi a ha)⟩
      have hall : ∀ a ∈ [exReqA, exImA, exImB], ArtFileType.fromPath a.file = some .md := by decide
      intro a ha
      exact hmd _ _ (hall a ha) fun b hb => (List.mem_filter.1 hb).1
  | err e => rw [hn] at h1; cases h1
  | panic => rw [hn] at h1; cases h1

/-- An artifact with a reference that crashes the reader. -/
def exCrash : ArtifactIm := ⟨Name.lit c!"SPC-d", c!"/p/design/d.md", [], none, c!"see [[" ++ [longS] ++ c!"PC-a]]"⟩

theorem exCrash_now : (modifiedNow keptLibs exId exGood exS [.create exCrash] 1000).map
      (fun r => (editable r.1, r.2.1, match r.1.lint keptLibs with | .panic => true | _ => false)) =
    some ([exReqA, exImA, exImB, exCrash], .done, true) := by
  decide +kernel

/-- What a successful `modify_project` wrote need not be readable: the new text is accepted and saved, and from then on reading the project crashes. -/
theorem C46_accepted_then_crashes : ∃ fs' r, FS.WF exGood ∧
    Modifies keptLibs (fun _ => some exRaw) exId (fun _ => []) 4 exGood c!"/p" [.create exCrash] (some (.ok r)) fs' ∧
    ∀ n out, ReadsProject keptLibs (fun _ => some exRaw) exId n fs' c!"/p" out → out = .panic := by
  obtain ⟨⟨q, ph, fs'⟩, h1, h2⟩ := Option.map_eq_some_iff.1 exCrash_now
  simp only [Prod.mk.injEq] at h2
  obtain ⟨h2, rfl, h3⟩ := h2
  obtain ⟨c, hm⟩ := modifiedNow_sound (ncpu := 4) exGood_settings (by decide +kernel) (by decide +kernel) h1
  refine ⟨fs', _, exGood_wf, hm, fun n out h => ?_⟩
  have hcr : Crashing q := by
    refine (C40_crash_iff (L := keptLibs) q).1 ?_
    rcases lint_ne_err keptLibs q with ⟨_, e⟩ | e
    · rw [e] at h3; cases h3
    · exact e
  have hb : ∀ op ∈ [ArtifactOp.create exCrash], ∀ a, Brings op a → a = exCrash := by
    intro op ho a ha
    rw [List.mem_singleton.1 ho] at ha
    rcases ha with h | ⟨_, h⟩ <;> cases h
    rfl
  have ap : Apart exS := by
    obtain ⟨_, _, _, _, _, h, _⟩ := exKept
    exact h
  have k1 : LinkSets [ArtifactOp.create exCrash] := by
    intro op ho a ha
    rw [hb op ho a ha]
    unfold ISet.Nodup
    decide
  have k2 : ∀ op ∈ [ArtifactOp.create exCrash], ∀ a, Brings op a → ReadOnce exS a.file := by
    intro op ho a ha
    rw [hb op ho a ha]
    refine ⟨[], c!"/p/design", [], rfl, ⟨?_, ?_⟩, ?_⟩
    · rw [← startsWith_iff]; decide
    · intro e he; cases he
    · intro r hr; cases hr
  have k3 : ∀ a ∈ editable q, Survives keptLibs exS a.file ((editable q).filter (fun b => decide (b.file = a.file))) := by
    rw [h2]
    have hset : SettingsOk exS.pre exS.mdAttrs := ⟨by decide, by rintro p ⟨⟩⟩
    have hno : ∀ a ∈ [exReqA, exImA, exImB, exCrash], (a.text ≠ [] → TextOk keptLibs.fold exS.pre a.text) ∧ YamlOk keptLibs (intoRaw a).2.2 := by
      intro a ha
      simp only [List.mem_cons, List.not_mem_nil, or_false] at ha
      rcases ha with rfl | rfl | rfl | rfl <;>
        exact ⟨fun _ => textOk_of (by decide) (by decide) (by decide) (by decide), ⟨nofun, nofun, nofun, nofun, fun h => absurd rfl h⟩⟩
    have hall : ∀ a ∈ [exReqA, exImA, exImB, exCrash], ArtFileType.fromPath a.file = some .md := by decide
    intro a ha
    unfold Survives
    rw [hall a ha]
    exact ⟨hset, fun b hb => hno b (List.mem_filter.1 hb).1⟩
  rcases C46_reload exGood_wf exGood_settings exGood_safe ap k1 k2 hm k3 h with ⟨_, h⟩ | ⟨h, _⟩
  · exact h
  · exact absurd hcr h

end Art
