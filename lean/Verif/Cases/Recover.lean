import Verif.Cases.Pair
import Verif.Props.Recover

/-!
# Concrete cases for C88
-/

namespace Art.Recover
open Spec Cli Bytes Undo Split

/-- A disk that is good enough, from facts that can be computed. -/
theorem sound_of {readToml : Str → Option SettingsRaw} {base : FilePath} {s : Settings} {fs : FS} (h : fs.isTree = true) (hs : SettingsOf readToml fs base s)
    (hr : ∀ r ∈ s.artifactPaths, IMap.get? fs r = some .dir) (h2 : ((walkArtifacts fs s).map backupPath).Nodup)
    (h3 : ∀ p ∈ walkArtifacts fs s, IMap.get? fs (backupPath p) = none) : Sound readToml base s fs := by
  have w := FS.isTree_wf h
  have sf : Safe fs s := exSafe_of w (fun r hr' => by rw [hr r hr']) h2
  refine ⟨w, hs, hr, sf.2, fun q b hq hb hf => ?_⟩
  obtain ⟨c, hc⟩ := w.isFile_iff.1 hf
  rw [← backup_eq hb, h3 q ((C29_mem w s q).2 hq)] at hc
  cases hc

theorem fits_of {ops : List ArtifactOp} (h : ∀ op ∈ ops, ∀ a ∈ op.brought, (List.map (fun n : Name => key n) a.partof).Nodup ∧ startsWith a.file c!"/p/design" = true) : Fits exS ops :=
  ⟨(exPlain_ops h).1, (exPlain_ops h).2⟩

/-- A name in this directory that is no backup. -/
theorem md_no_backup (d : Str) : ¬ IsBackup (d ++ c!".md") := by
  rintro ⟨e, h⟩
  have := congrArg List.getLast? h
  rw [List.getLast?_append, List.getLast?_append] at this
  exact absurd this (by simp)

theorem crashed {fs now : FS} {ops : List ArtifactOp} {k : Nat} {files : List (FilePath × Str)} {ph : Phase} (hs : SettingsOf (fun _ => some exRaw) fs c!"/p" exS) (w : Alive fs)
    (h : modifyNow keptLibs exId fs exS ops k = some (files, ph, now)) (h1 : ph = .backup ∨ ph = .save ∨ ph = .remove) :
    Modifies keptLibs (fun _ => some exRaw) exId (fun _ => []) 4 fs c!"/p" ops none now := by
  obtain ⟨-, out, ho, hm⟩ := modifyNow_sound (ncpu := 4) hs w.1 w.2 h
  rcases h1 with rfl | rfl | rfl <;> exact ho ▸ hm

/-- What is read from a disk, computed: no other artifacts can be read. -/
theorem read_unique {fs : FS} {l : List ArtifactIm} (H : Sound (fun _ => some exRaw) c!"/p" exS fs) (w : Alive fs)
    (h : (match readNow keptLibs exId fs exS with | .ok (_, p) => some (editable p) | _ => none) = some l)
    {n : Nat} {c : Categorized} {p : Project} (hr : ReadsProject keptLibs (fun _ => some exRaw) exId n fs c!"/p" (.ok (c, p))) : editable p = l := by
  have h1 := readNow_reads (L := keptLibs) (hash := exId) (ncpu := 4) H.settings w.1 w.2
  rcases C20_same_but_spelling _ (List.Perm.refl fs) H.tree _ h1 hr with ⟨_, _, _, h2⟩ | ⟨_, h2⟩ | ⟨_, _, _, _, h2, h3, h4⟩
  · cases h2
  · cases h2
  · cases h3
    rw [h2] at h
    rw [← Option.some.inj h]
    exact editable_foldCase h4.symm

/-- What the saved batch leaves at a path, computed: no run leaves something else there. -/
theorem saved_at {fs : FS} {l : List ArtifactIm} {ops : List ArtifactOp} {x : FilePath} {v : Option Node} (H : Sound (fun _ => some exRaw) c!"/p" exS fs) (F : Fits exS ops) (w : Alive fs)
    (hl : (match readNow keptLibs exId fs exS with | .ok (_, p) => some (editable p) | _ => none) = some l)
    (hcol : ∀ a ∈ l ++ (ops.map ArtifactOp.clean).flatMap ArtifactOp.brought, ∀ b ∈ l ++ (ops.map ArtifactOp.clean).flatMap ArtifactOp.brought, exId a = exId b → a = b)
    (hx : ¬ IsBackup x) (h : (modifiedNow keptLibs exId fs exS ops 1000).map (fun r => (r.2.1, IMap.get? r.2.2 x)) = some (.done, v))
    {n : Nat} {r : Categorized × Project} {fs' : FS} (hm : Modifies keptLibs (fun _ => some exRaw) exId (fun _ => []) n fs c!"/p" ops (some (.ok r)) fs') : IMap.get? fs' x = v := by
  obtain ⟨⟨q, ph, fs1⟩, h1, h2⟩ := Option.map_eq_some_iff.1 h
  simp only [Prod.mk.injEq] at h2
  obtain ⟨rfl, h2⟩ := h2
  obtain ⟨c, m1⟩ := modifiedNow_sound (ncpu := 4) H.settings w.1 w.2 h1
  rw [← h2]
  exact C88_determined H F (fun n c p hr => noCollision_of (by rw [read_unique H w hl hr]; exact hcol)) hm m1 x hx

/-! ## moving the backups back -/

theorem good_sound : Sound (fun _ => some exRaw) c!"/p" exS exGood :=
  sound_of (by decide +kernel) exGood_settings (by decide +kernel) (by decide +kernel) (by decide +kernel)

theorem good_fits : Fits exS exOps := fits_of (by decide +kernel)

/-- A crash while the files are moved away, and one while the new files are written. -/
theorem early_now : (modifyNow keptLibs exId exGood exS exOps 1).map (fun r => (r.2.1, decide (IMap.get? r.2.2 c!"/p/design/a.md" = none))) = some (.backup, true) ∧
    (modifyNow keptLibs exId exGood exS exOps 10).map (fun r => (r.2.1, decide (IMap.get? r.2.2 c!"/p/design/a.md" = some (.file (.text c!"# REQ"))))) = some (.save, true) := by
  refine ⟨?_, ?_⟩ <;> decide +kernel

theorem good_read : (match readNow keptLibs exId exGood exS with | .ok (_, p) => some (editable p) | _ => none) = some [exReqA, exImA, exImB] := by decide +kernel

theorem good_saved : (modifiedNow keptLibs exId exGood exS exOps 1000).map (fun r => (r.2.1, IMap.get? r.2.2 c!"/p/design/a.md")) = some (.done, some (.file (.text c!"# REQ-a\nwhat"))) := by
  decide +kernel

/-- C88: after these two crashes the disk is not the one of before, nor the one of after; moving the backups back gives the one of before. -/
theorem early_case : ∃ now1 now2,
    Modifies keptLibs (fun _ => some exRaw) exId (fun _ => []) 4 exGood c!"/p" exOps none now1 ∧ ¬ SameDisk now1 exGood ∧ (∀ out, PutBack exS (ArtifactFile exGood exS) now1 out ↔ SameDisk out exGood) ∧
    Modifies keptLibs (fun _ => some exRaw) exId (fun _ => []) 4 exGood c!"/p" exOps none now2 ∧ ¬ SameDisk now2 exGood ∧ (∀ out, PutBack exS (ArtifactFile exGood exS) now2 out ↔ SameDisk out exGood) := by
  obtain ⟨h1, h2⟩ := early_now
  obtain ⟨⟨files1, ph1, now1⟩, e1, h1⟩ := Option.map_eq_some_iff.1 h1
  obtain ⟨⟨files2, ph2, now2⟩, e2, h2⟩ := Option.map_eq_some_iff.1 h2
  simp only [Prod.mk.injEq, decide_eq_true_eq] at h1 h2
  have m1 := crashed exGood_settings exGood_kept e1 (.inl h1.1)
  have m2 := crashed exGood_settings exGood_kept e2 (.inr (.inl h2.1))
  have no : ¬ IsBackup c!"/p/design/a.md" := md_no_backup c!"/p/design/a"
  have end_ : ∀ n r fs', Modifies keptLibs (fun _ => some exRaw) exId (fun _ => []) n exGood c!"/p" exOps (some (.ok r)) fs' →
      IMap.get? fs' c!"/p/design/a.md" = some (.file (.text c!"# REQ-a\nwhat")) := fun n r fs' hm =>
    saved_at good_sound good_fits exGood_kept good_read (by decide +kernel) no good_saved hm
  have old : IMap.get? exGood c!"/p/design/a.md" = some (.file (.text c!"# REQ-a\nwhat\n# SPC-a\nhow [[.x]]\n")) := by decide +kernel
  refine ⟨now1, now2, m1, fun h => ?_, ?_, m2, fun h => ?_, ?_⟩
  · have := h _ no
    rw [h1.2, old] at this
    cases this
  · rcases C88_crash good_sound good_fits m1 with h | ⟨r, h⟩
    · exact h
    · have := end_ _ _ _ h
      rw [h1.2] at this
      cases this
  · have := h _ no
    rw [h2.2, old] at this
    exact absurd this (by decide)
  · rcases C88_crash good_sound good_fits m2 with h | ⟨r, h⟩
    · exact h
    · have := end_ _ _ _ h
      rw [h2.2] at this
      exact absurd this (by decide)

theorem failed_now : (modifyNow keptLibs exId exGood exS exOpsDir 1000).map (fun r => (r.2.1, decide (IMap.get? r.2.2 c!"/p/design/a.md" = IMap.get? exGood c!"/p/design/a.md"))) =
    some (.failed .saveProject, false) := by decide +kernel

/-- C88: a file cannot be made because its directory does not exist. The error is reported, the files that were written stay; moving the backups back gives the disk of before. -/
theorem failed_case : ∃ err now, Fits exS exOpsDir ∧ Modifies keptLibs (fun _ => some exRaw) exId (fun _ => []) 4 exGood c!"/p" exOpsDir (some (.err err)) now ∧ ¬ SameDisk now exGood ∧
    ∀ out, PutBack exS (ArtifactFile exGood exS) now out ↔ SameDisk out exGood := by
  obtain ⟨⟨files, ph, now⟩, e, h⟩ := Option.map_eq_some_iff.1 failed_now
  simp only [Prod.mk.injEq] at h
  obtain ⟨rfl, h⟩ := h
  obtain ⟨-, out, ⟨err, rfl, -⟩, hm⟩ := modifyNow_sound (ncpu := 4) exGood_settings exGood_kept.1 exGood_kept.2 e
  have F : Fits exS exOpsDir := fits_of (by decide +kernel)
  exact ⟨err, now, F, hm, fun hs => of_decide_eq_false h (hs _ (md_no_backup c!"/p/design/a")), fun out => C88_error good_sound F hm⟩

/-! ## no way to know -/

/-- Two artifacts in two files. -/
def before1 : FS := exFs c!"# REQ-a\nwhat" c!"# SPC-b\nmore" c!"" c!""

/-- The text of REQ-a is changed and SPC-b is deleted. -/
def half : List ArtifactOp := [.update { exReqA with text := c!"that" } (exId exReqA), .delete (Name.lit c!"SPC-b") (exId exImB)]

/-- The same two artifacts, but the text of REQ-a is changed already. -/
def before2 : FS :=
  [(c!"", .dir), (c!"/p", .dir), (c!"/p/.art", .dir), (c!"/p/.art/settings.toml", .file (.text c!"")), (c!"/p/design", .dir),
   (c!"/p/design/b.md", .file (.text c!"# SPC-b\nmore")), (c!"/p/design/a.md", .file (.text c!"# REQ-a\nthat")), (c!"/p/src", .dir),
   (c!"/p/src/x.rs", .file (.text c!"")), (c!"/p/src/y.rs", .file (.text c!""))]

theorem settings1 : SettingsOf (fun _ => some exRaw) before1 c!"/p" exS := ⟨_, _, exFs_settings _ _ _ _⟩

theorem settings2 : SettingsOf (fun _ => some exRaw) before2 c!"/p" exS := ⟨_, _, rfl, (exFs_settings [] [] [] []).2⟩

theorem sound1 : Sound (fun _ => some exRaw) c!"/p" exS before1 :=
  sound_of (by decide +kernel) settings1 (by decide +kernel) (by decide +kernel) (by decide +kernel)

theorem sound2 : Sound (fun _ => some exRaw) c!"/p" exS before2 :=
  sound_of (by decide +kernel) settings2 (by decide +kernel) (by decide +kernel) (by decide +kernel)

theorem alive12 : Alive before1 ∧ Alive before2 := by
  refine ⟨⟨?_, ?_⟩, ⟨?_, ?_⟩⟩ <;> decide +kernel

/-- Both ways to the same disk, and the two disks that the batches leave. -/
theorem half_now : (modifyNow keptLibs exId before1 exS half 19).map (fun r => r.2.1) = some .remove ∧
    (modifyNow keptLibs exId before2 exS [] 1).map (fun r => r.2.1) = some .backup ∧
    ((modifyNow keptLibs exId before1 exS half 19).bind fun r => (modifyNow keptLibs exId before2 exS [] 1).map fun r' =>
      decide (r.2.2.Perm r'.2.2 ∧ (r.2.2.map fun x => key x.1).Nodup)) = some true ∧
    (modifiedNow keptLibs exId before1 exS half 1000).map (fun r => (r.2.1, IMap.get? r.2.2 c!"/p/design/b.md")) = some (.done, none) ∧
    (modifiedNow keptLibs exId before2 exS [] 1000).map (fun r => (r.2.1, IMap.get? r.2.2 c!"/p/design/a.md")) = some (.done, some (.file (.text c!"# REQ-a\nthat"))) ∧
    (modifiedNow keptLibs exId before2 exS [] 1000).map (fun r => (r.2.1, IMap.get? r.2.2 c!"/p/design/b.md")) = some (.done, some (.file (.text c!"# SPC-b\nmore"))) := by
  refine ⟨?_, ?_, ?_, ?_, ?_, ?_⟩ <;> decide +kernel

theorem reads_now : (match readNow keptLibs exId before1 exS with | .ok (_, p) => some (editable p) | _ => none) = some [exReqA, exImB] ∧
    (match readNow keptLibs exId before2 exS with | .ok (_, p) => some (editable p) | _ => none) = some [{ exReqA with text := c!"that" }, exImB] := by
  refine ⟨?_, ?_⟩ <;> decide +kernel

theorem files12 : ArtifactFile before1 exS = ArtifactFile before2 exS := by
  have h1 : walkArtifacts before1 exS = [c!"/p/design/a.md", c!"/p/design/b.md"] := by decide +kernel
  have h2 : walkArtifacts before2 exS = [c!"/p/design/b.md", c!"/p/design/a.md"] := by decide +kernel
  funext q
  refine propext ((C29_mem sound1.tree exS q).symm.trans (Iff.trans ?_ (C29_mem sound2.tree exS q)))
  rw [h1, h2]
  simp only [List.mem_cons, List.not_mem_nil, or_false]
  exact Or.comm

/-- C88: after a crash the disk does not say whether the backups have to be moved back or removed. Two disks with the same artifact files, two batches, two crashes that leave the same disk; and no disk is right for both. -/
theorem C88_ambiguous : ∃ fs1 fs2 ops1 ops2 now1 now2, Sound (fun _ => some exRaw) c!"/p" exS fs1 ∧ Sound (fun _ => some exRaw) c!"/p" exS fs2 ∧ Fits exS ops1 ∧ Fits exS ops2 ∧
    Modifies keptLibs (fun _ => some exRaw) exId (fun _ => []) 4 fs1 c!"/p" ops1 none now1 ∧ Modifies keptLibs (fun _ => some exRaw) exId (fun _ => []) 4 fs2 c!"/p" ops2 none now2 ∧
    ArtifactFile fs1 exS = ArtifactFile fs2 exS ∧ IMap.get? now1 = IMap.get? now2 ∧
    ∀ out, ¬ (Recovered (exEnv keptLibs) c!"/p" fs1 ops1 out ∧ Recovered (exEnv keptLibs) c!"/p" fs2 ops2 out) := by
  obtain ⟨h1, h2, h3, h4, h5, h6⟩ := half_now
  obtain ⟨⟨files1, ph1, now1⟩, e1, h1⟩ := Option.map_eq_some_iff.1 h1
  obtain ⟨⟨files2, ph2, now2⟩, e2, h2⟩ := Option.map_eq_some_iff.1 h2
  rw [e1, e2] at h3
  simp only [Option.bind_some, Option.map_some, Option.some.injEq, decide_eq_true_eq] at h3
  have F1 : Fits exS half := fits_of (by decide +kernel)
  have F2 : Fits exS [] := fits_of (by decide +kernel)
  have na : ¬ IsBackup c!"/p/design/a.md" := md_no_backup c!"/p/design/a"
  have nb : ¬ IsBackup c!"/p/design/b.md" := md_no_backup c!"/p/design/b"
  refine ⟨before1, before2, half, [], now1, now2, sound1, sound2, F1, F2, crashed settings1 alive12.1 e1 (.inr (.inr h1)), crashed settings2 alive12.2 e2 (.inl h2), files12,
    funext fun q => IMap.get?_perm h3.1 h3.2 q, ?_⟩
  rintro out ⟨g1, g2⟩
  have k2 : IMap.get? out c!"/p/design/a.md" = some (.file (.text c!"# REQ-a\nthat")) ∧ IMap.get? out c!"/p/design/b.md" = some (.file (.text c!"# SPC-b\nmore")) := by
    rcases g2 with g2 | ⟨n, r, fs', hm, g2⟩
    · exact ⟨(g2 _ na).trans (by decide +kernel), (g2 _ nb).trans (by decide +kernel)⟩
    · exact ⟨(g2 _ na).trans (saved_at sound2 F2 alive12.2 reads_now.2 (by decide +kernel) na h5 hm), (g2 _ nb).trans (saved_at sound2 F2 alive12.2 reads_now.2 (by decide +kernel) nb h6 hm)⟩
  rcases g1 with g1 | ⟨n, r, fs', hm, g1⟩
  · have := (g1 _ na).symm.trans k2.1
    exact absurd this (by decide +kernel)
  · have := ((g1 _ nb).trans (saved_at sound1 F1 alive12.1 reads_now.1 (by decide +kernel) nb h4 hm)).symm.trans k2.2
    cases this

/-- C88: no procedure that looks at the disk after a crash, even one that knows which artifact files there were, always gets to the project of before or to the one of after. -/
theorem C88_no_procedure : ¬ ∃ recover : (FilePath → Prop) → (FilePath → Option Node) → FS, ∀ fs ops now, Sound (fun _ => some exRaw) c!"/p" exS fs → Fits exS ops →
    Modifies keptLibs (fun _ => some exRaw) exId (fun _ => []) 4 fs c!"/p" ops none now → Recovered (exEnv keptLibs) c!"/p" fs ops (recover (ArtifactFile fs exS) (IMap.get? now)) := by
  rintro ⟨recover, h⟩
  obtain ⟨fs1, fs2, ops1, ops2, now1, now2, s1, s2, f1, f2, m1, m2, e1, e2, no⟩ := C88_ambiguous
  have k1 := h fs1 ops1 now1 s1 f1 m1
  rw [e1, e2] at k1
  exact no _ ⟨k1, h fs2 ops2 now2 s2 f2 m2⟩

end Art.Recover
