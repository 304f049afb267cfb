import Verif.Lemmas.Recover

/-!
# C88: recovery after a crash
-/

namespace Art.Recover
open Spec Cli Bytes

variable {L : Libs} {readToml : Str → Option SettingsRaw} {hash : ArtifactIm → HashIm} {dbg : ArtifactIm → Str} {n n1 n2 : Nat} {base : FilePath} {s : Settings}
  {files : List (FilePath × Str)} {fs fs' fs1 fs2 out : FS} {ops : List ArtifactOp} {cfg : Cfg}

/-! ## while the files are written -/

/-- C88, for any set of files to write: as long as the backups are not being removed, moving them back gives the disk of before, byte for byte, whatever happened. -/
theorem C88_restore (o : Orderly fs s files) (roots : ∀ r ∈ s.artifactPaths, IMap.get? fs r = some .dir) (clean : NoLeftovers fs s) (hold : ∀ x ∈ files, MayHold s x.1)
    (h : Reaches L s files (Cfg.init L fs s) cfg) (h1 : cfg.phase ≠ .remove) (h2 : cfg.phase ≠ .done) : PutBack s (ArtifactFile fs s) cfg.fs out ↔ SameDisk out fs := by
  have a := around o roots hold h
  refine putBack_iff o.wf o.roots (fun r hr hf => ?_) a fun p hp => ?_
  · obtain ⟨c, hc⟩ := a.wf.isFile_iff.1 hf
    rw [(a.dirs r).2 (roots r hr)] at hc
    cases hc
  · rcases kept_reaches o h p hp with ⟨-, e1, e2⟩ | e | ⟨e, -⟩
    · refine Or.inl ⟨e1, fun hf => ?_⟩
      obtain ⟨c, hc⟩ := a.wf.isFile_iff.1 hf
      exact clean p _ ((C29_mem o.wf s p).1 hp) (supported_backup (o.supported hp)).1 (o.wf.isFile_iff.2 ⟨c, e2.symm.trans hc⟩)
    · exact Or.inr e
    · exfalso
      unfold IsLate at e
      split at e
      · rename_i hx; exact h1 hx
      · rename_i hx; exact h2 hx
      · exact e

/-- C88: as long as the backup of every artifact file is there, moving them back gives the disk of before, even if everything was written already. -/
theorem C88_all (o : Orderly fs s files) (roots : ∀ r ∈ s.artifactPaths, IMap.get? fs r = some .dir) (clean : NoLeftovers fs s) (hold : ∀ x ∈ files, MayHold s x.1)
    (h : Reaches L s files (Cfg.init L fs s) cfg) (hall : ∀ q b, ArtifactFile fs s q → BackupOf q b → IsFile cfg.fs b) :
    PutBack s (ArtifactFile fs s) cfg.fs out ↔ SameDisk out fs := by
  have a := around o roots hold h
  refine putBack_iff o.wf o.roots (fun r hr hf => ?_) a fun p hp => ?_
  · obtain ⟨c, hc⟩ := a.wf.isFile_iff.1 hf
    rw [(a.dirs r).2 (roots r hr)] at hc
    cases hc
  · have hq := (C29_mem o.wf s p).1 hp
    obtain ⟨c, hc⟩ := a.wf.isFile_iff.1 (hall p _ hq (supported_backup (o.supported hp)).1)
    rcases kept_reaches o h p hp with ⟨-, e1, e2⟩ | e | ⟨-, e⟩
    · exact absurd (o.wf.isFile_iff.2 ⟨c, e2.symm.trans hc⟩) (clean p _ hq (supported_backup (o.supported hp)).1)
    · exact Or.inr e
    · rw [hc] at e
      cases e

/-! ## a whole modification -/

theorem Sound.notFile (H : Sound readToml base s fs) : ∀ r ∈ s.artifactPaths, ¬ IsFile fs r := fun r hr hf => by
  obtain ⟨c, hc⟩ := H.tree.isFile_iff.1 hf
  rw [H.roots r hr] at hc
  cases hc

theorem Sound.safe (H : Sound readToml base s fs) : Safe fs s := ⟨H.notFile, H.stems⟩

theorem untouched (H : Sound readToml base s fs) : PutBack s (ArtifactFile fs s) fs out ↔ SameDisk out fs := by
  refine putBack_iff H.tree H.notFile H.notFile ⟨H.tree, fun _ => .rfl, fun _ _ _ _ => rfl, fun q h h' => absurd h' h⟩ fun p hp => Or.inl ⟨rfl, fun hf => ?_⟩
  exact H.clean p _ ((C29_mem H.tree s p).1 hp) (supported_backup ((walk_hold H.tree H.notFile).1 hp).2.1).1 hf

/-- An accepted batch gives something orderly to write. -/
theorem accepted_fit {read : Res Categorized (Categorized × Project)} {c : Categorized} {p : Project} (H : Sound readToml base s fs) (F : Fits s ops)
    (hr : ReadsProject L readToml hash n fs base read) (hpl : PlansRead L hash dbg ops read (.ok (c, p))) (hf : projectFiles L p = .ok files) :
    p.settings = s ∧ Orderly fs s files ∧ (∀ x ∈ files, MayHold s x.1) := by
  have hacc : Accepted L readToml hash dbg n fs base ops p := ⟨_, _, hr, hpl⟩
  have e := (accepted_settings H.tree H.settings F.links hacc).1
  have o := accepted_orderly H.tree H.settings F.links H.safe hacc hf
  rw [e] at o
  refine ⟨e, o, fun x hx => hold_of_ways (o.files x hx) ?_⟩
  cases read with
  | ok r => obtain ⟨c0, p0⟩ := r; exact written_once H.tree H.settings H.safe F.links hr hpl hf F.once x hx
  | err e =>
    exfalso
    unfold PlansRead at hpl
    simp only [checkLints_eq] at hpl
    split at hpl <;> cases hpl
  | panic => cases hpl

/-- C88. The program dies at any time: either moving the backups back gives the disk of before, or the disk is one that the batch leaves when it is saved, but for backups. -/
theorem C88_crash (H : Sound readToml base s fs) (F : Fits s ops) (h : Modifies L readToml hash dbg n fs base ops none fs') :
    (∀ out, PutBack s (ArtifactFile fs s) fs' out ↔ SameDisk out fs) ∨ ∃ r, Modifies L readToml hash dbg n fs base ops (some (.ok r)) fs' := by
  generalize hsome : (none : Option (Res ModifyError (Categorized × Project))) = o at h
  cases h with
  | early => exact Or.inl fun out => untouched H
  | refused => cases hsome
  | failed => cases hsome
  | done => cases hsome
  | crash h1 h2 h3 h4 =>
    rename_i read c p files cfg
    obtain ⟨e, o, hold⟩ := accepted_fit H F h1 h2 h3
    by_cases hp : cfg.phase = .remove
    · obtain ⟨l, hl⟩ := given_up (L := L) (s := p.settings) (files := files) hp
      exact Or.inr ⟨_, Modifies.done (cfg := ⟨cfg.fs, .done, cfg.jobs.map (fun _ => []), l⟩) h1 h2 h3 (h4.trans hl) rfl⟩
    · by_cases hd : cfg.phase = .done
      · exact Or.inr ⟨_, .done h1 h2 h3 h4 hd⟩
      · rw [e] at h4
        exact Or.inl fun out => C88_restore o H.roots H.clean hold h4 hp hd

/-- C88. After an error, moving the backups back gives the disk of before. -/
theorem C88_error (H : Sound readToml base s fs) (F : Fits s ops) {err : ModifyError} (h : Modifies L readToml hash dbg n fs base ops (some (.err err)) fs') :
    PutBack s (ArtifactFile fs s) fs' out ↔ SameDisk out fs := by
  generalize hsome : some (Res.err err) = o at h
  cases h with
  | early => cases hsome
  | refused => exact untouched H
  | crash => cases hsome
  | done => cases hsome
  | failed h1 h2 h3 h4 h5 =>
    obtain ⟨e, o, hold⟩ := accepted_fit H F h1 h2 h3
    rw [e] at h4
    exact C88_restore o H.roots H.clean hold h4 (by rw [h5]; exact fun h => by cases h) (by rw [h5]; exact fun h => by cases h)

/-- C88. Whatever happened: as long as all backups are there, moving them back gives the disk of before. -/
theorem C88_backups (H : Sound readToml base s fs) (F : Fits s ops) {o : Option (Res ModifyError (Categorized × Project))} (h : Modifies L readToml hash dbg n fs base ops o fs')
    (hall : ∀ q b, ArtifactFile fs s q → BackupOf q b → IsFile fs' b) : PutBack s (ArtifactFile fs s) fs' out ↔ SameDisk out fs := by
  cases h with
  | early => exact untouched H
  | refused => exact untouched H
  | crash h1 h2 h3 h4 =>
    obtain ⟨e, o, hold⟩ := accepted_fit H F h1 h2 h3
    rw [e] at h4
    exact C88_all o H.roots H.clean hold h4 hall
  | failed h1 h2 h3 h4 =>
    obtain ⟨e, o, hold⟩ := accepted_fit H F h1 h2 h3
    rw [e] at h4
    exact C88_all o H.roots H.clean hold h4 hall
  | done h1 h2 h3 h4 =>
    obtain ⟨e, o, hold⟩ := accepted_fit H F h1 h2 h3
    rw [e] at h4
    exact C88_all o H.roots H.clean hold h4 hall

/-- Both runs have read the same artifacts and so write the same. -/
theorem planned_same {c1 c2 c1' c2' : Categorized} {p1 p2 q1 q2 : Project} (w : FS.WF fs) (hl : LinkSets ops)
    (r1 : ReadsProject L readToml hash n1 fs base (.ok (c1, p1))) (r2 : ReadsProject L readToml hash n2 fs base (.ok (c2, p2)))
    (d1 : Plans L hash dbg c1 p1 ops (.ok (c1', q1))) (d2 : Plans L hash dbg c2 p2 ops (.ok (c2', q2))) (hcol : NoCollision hash p1 (ops.map ArtifactOp.clean)) :
    (editable q1).Perm (editable q2) := by
  have hed : editable p2 = editable p1 := by
    rcases C20_same_but_spelling readToml (List.Perm.refl fs) w base r1 r2 with ⟨_, _, h, _⟩ | ⟨h, _⟩ | ⟨_, _, _, _, h1, h2, h⟩
    · cases h
    · cases h
    · cases h1
      cases h2
      exact editable_foldCase h.symm
  have hcol2 : NoCollision hash p2 (ops.map ArtifactOp.clean) := by unfold NoCollision at hcol ⊢; rw [hed]; exact hcol
  have b1 := C25_batch (C25_read_sets r1) hl hcol d1
  have b2 := C25_batch (C25_read_sets r2) hl hcol2 d2
  have nd : ∀ q : Project, ((editable q).map (fun a => key a.name)).Nodup → (editable q).Nodup := fun q h => List.Nodup.of_map _ h
  refine (List.perm_ext_iff_of_nodup (nd _ (C25_ids (C25_read_sets r1) hl d1).2.2.2.2) (nd _ (C25_ids (C25_read_sets r2) hl d2).2.2.2.2)).2 fun a => ?_
  rw [b1, b2, hed]

/-- C88. The disk that a batch leaves when it is saved is determined by the disk of before, but for backups: so in `C88_crash` there are two disks to which one may come back. -/
theorem C88_determined (H : Sound readToml base s fs) (F : Fits s ops) {r1 r2 : Categorized × Project}
    (hcol : ∀ n c p, ReadsProject L readToml hash n fs base (.ok (c, p)) → NoCollision hash p (ops.map ArtifactOp.clean))
    (h1 : Modifies L readToml hash dbg n1 fs base ops (some (.ok r1)) fs1) (h2 : Modifies L readToml hash dbg n2 fs base ops (some (.ok r2)) fs2) : SameDisk fs1 fs2 := by
  obtain ⟨c1, p1, c1', p1', files1, cfg1, a1, a2, a3, a4, a5, rfl, -⟩ := modifies_done h1
  obtain ⟨c2, p2, c2', p2', files2, cfg2, b1, b2, b3, b4, b5, rfl, -⟩ := modifies_done h2
  have hsame := planned_same H.tree F.links a1 b1 a2 b2 (hcol _ _ _ a1)
  obtain ⟨e1, o1, -⟩ := accepted_fit (read := .ok (c1, p1)) H F a1 a2 a3
  obtain ⟨e2, o2, -⟩ := accepted_fit (read := .ok (c2, p2)) H F b1 b2 b3
  have nd1 := (accepted_settings H.tree H.settings F.links ⟨_, _, a1, a2⟩).2.1
  have nd2 := (accepted_settings H.tree H.settings F.links ⟨_, _, b1, b2⟩).2.1
  have hsub : ∀ x ∈ files1, x ∈ files2 := fun x hx => projectFiles_perm (e1.trans e2.symm) hsame nd1 a3 b3 hx
  have hsub' : ∀ x ∈ files2, x ∈ files1 := fun x hx => projectFiles_perm (e2.trans e1.symm) hsame.symm nd2 b3 a3 hx
  rw [e1] at a4
  rw [e2] at b4
  have i1 := inv_reaches o1 a4
  have i2 := inv_reaches o2 b4
  unfold Inv at i1 i2
  rw [a5] at i1
  rw [b5] at i2
  have f1 := frame_reaches a4
  have f2 := frame_reaches b4
  have w1 := tree_reaches o1.wf (fun x hx => (supported_ext (o1.files x hx)).2) a4
  have w2 := tree_reaches o2.wf (fun x hx => (supported_ext (o2.files x hx)).2) b4
  intro q hb
  by_cases hf : ∃ x ∈ files1, q = x.1
  · obtain ⟨x, hx, rfl⟩ := hf
    rw [i1.1.written.all x hx, i2.1.written.all x (hsub x hx)]
  have hf1 : ∀ x ∈ files1, q ≠ x.1 := fun x hx e => hf ⟨x, hx, e⟩
  have hf2 : ∀ x ∈ files2, q ≠ x.1 := fun x hx e => hf ⟨x, hsub' x hx, e⟩
  by_cases hw : q ∈ walkArtifacts fs s
  · rw [i1.1.written.gone q hw hf1, i2.1.written.gone q hw hf2]
  have same : ∀ {files : List (FilePath × Str)} {cfg : Cfg}, FrameInv fs s files cfg → FS.WF cfg.fs → (∀ x ∈ files, q ≠ x.1) → IMap.get? cfg.fs q = IMap.get? fs q := by
    intro files cfg f w hx
    by_contra hne
    refine hne (f.same q ?_)
    rintro (h | ⟨p, _, h⟩ | ⟨x, hm, h⟩ | ⟨r, _, _, h⟩)
    · exact hw h
    · exact hb ⟨_, h⟩
    · exact hx x hm h
    · exact hb (isBackup_ext (changed_file H.tree w f.dirs hne) h)
  exact (same f1 w1 hf1).trans (same f2 w2 hf2).symm

end Art.Recover
