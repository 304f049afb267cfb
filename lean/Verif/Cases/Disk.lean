import Verif.Props.SaveEx

/-!
# Cases: reading, changing and writing a project
The theorems of `Props/Read.lean`, `Props/Markdown.lean`, `Props/Modify.lean` and `Props/Save.lean` applied to concrete cases that meet their hypotheses.
-/

namespace Art
open Spec

/-! ## reading -/

/-- The two reads of one disk that differ in the spelling of a name are the same up to that. -/
example : ∃ q q', (q.codeImpls.map (fun x => x.1.raw), q'.codeImpls.map (fun x => x.1.raw)) = ([c!"SPC-a"], [c!"SPC-A"]) ∧ foldCase q = foldCase q' := by
  obtain ⟨w, q, q', h, h', e, e'⟩ := C20_case_matters
  refine ⟨q, q', by rw [e, e'], ?_⟩
  rcases C20_same_but_spelling (fun _ => some exRaw) (List.Perm.refl _) w c!"/p" h h' with ⟨_, _, h1, _⟩ | ⟨h1, _⟩ | ⟨_, _, _, _, h1, h2, h3⟩
  · cases h1
  · cases h1
  · cases h1
    cases h2
    exact h3

/-! ## markdown -/

example : ∃ L : Libs, ∀ s, toMarkdown L c!"#" (.code (some c!"yaml")) exMd = .ok s →
    (fromMarkdown L c!"#" s >>= fun m' => (toMarkdown L c!"#" (.code (some c!"yaml")) m').mapErr (fun _ => LoadErr.io)) = .ok s := by
  obtain ⟨L, h⟩ := exMd_ok
  exact ⟨L, C22_idempotent L _ _ _ ⟨by decide, by rintro p ⟨⟩; decide⟩ (by unfold IMap.Nodup; decide) h⟩

/-- Two artifacts without attributes: one with a text of two lines, one without text. -/
example (L : Libs) : ∃ s, toMarkdown L c!"#" .hashes [(nm "SPC-a", ⟨none, none, some c!"one\ntwo\n"⟩), (nm "REQ-b", ⟨none, none, none⟩)] = .ok s ∧
    loadFile L c!"#" c!"/p/a.md" (.text s) = .ok ([⟨nm "SPC-a", c!"/p/a.md", [], none, c!"one\ntwo\n"⟩, ⟨nm "REQ-b", c!"/p/a.md", [], none, c!""⟩], []) := by
  have ht : TextOk L.fold c!"#" c!"one\ntwo\n" := by
    refine ⟨by decide, by decide +kernel, by decide +kernel, fun l hl => ?_⟩
    have h : ∀ l ∈ lines c!"one\ntwo\n", '#' ∉ l ∧ l.head? ≠ some '`' := by decide +kernel
    exact textLine_of_noHash (h l hl).1 (h l hl).2
  have := C21_save_load L c!"#" .hashes c!"/p/a.md" [⟨nm "SPC-a", c!"/p/a.md", [], none, c!"one\ntwo\n"⟩, ⟨nm "REQ-b", c!"/p/a.md", [], none, c!""⟩] ⟨by decide, by rintro p ⟨⟩⟩
    (by decide +kernel) (by decide +kernel) ?_
  · exact this
  · intro x hx
    simp only [List.mem_cons, List.not_mem_nil, or_false] at hx
    rcases hx with rfl | rfl
    · exact ⟨⟨by unfold ISet.Nodup; decide, by decide +kernel, fun _ => ht, by constructor <;> simp [intoRaw, attrLines]⟩, rfl⟩
    · exact ⟨⟨by unfold ISet.Nodup; decide, by decide +kernel, fun h => absurd rfl h, by constructor <;> simp [intoRaw, attrLines]⟩, rfl⟩

/-! ## changing -/

/-- The operations that are accepted, and what is known then. -/
example : ∃ c' p', Plans exLibs exId (fun _ => []) ⟨[], []⟩ exProject exOps (.ok (c', p')) ∧
    (∃ op ∈ exOps, Presents op (exId exImA)) ∧ Matches exId exProject (exOps.map ArtifactOp.clean) := by
  obtain ⟨c', p', h, he⟩ := exDecides_ok exOps_accepted.1
  obtain ⟨h1, h2, -, h4, h5, h6⟩ := exOps_ok
  refine ⟨c', p', h, C24_only_presented h1 h2 h (a := exImA) (by decide +kernel) ?_, ?_⟩
  · have hx : ∀ l : Str, l = c!"REQ-a" ∨ l = c!"SPC-c" ∨ l = c!"SPC-b" → UInt8.ofNat ((l.map Char.toNat).sum) ≠ UInt8.ofNat (((c!"SPC-a" : Str).map Char.toNat).sum) := by
      rintro l (rfl | rfl | rfl) <;> decide
    have hd : ∀ x ∈ (editable p').map (fun a => (String.ofList a.name.raw, String.ofList a.text)), x = ("REQ-a", "what") ∨ x = ("SPC-c", "new") ∨ x = ("SPC-b", "even more") := by
      rw [he]
      simp
    intro b hb e
    have hbm := hd _ (List.mem_map_of_mem hb)
    refine hx b.name.raw ?_ (congrArg (fun h : HashIm => h.bytes[0]) e)
    rcases hbm with h | h | h <;> have := congrArg (fun x => x.1.toList) h <;> simp at this
    · exact .inl this
    · exact .inr (.inl this)
    · exact .inr (.inr this)
  · by_contra hm
    obtain ⟨e, h', -⟩ := (C24_mismatch_iff h rfl h4 h5 h6).2 hm
    cases h'

/-- A refused batch: which error it is says why. -/
example : ∃ e, Plans exLibs exId (fun _ => []) ⟨[], []⟩ exProject [.create { exImC with file := c!"/q/c.toml" }] (.err e) ∧
    ¬ (NoOverlap exId ([ArtifactOp.create { exImC with file := c!"/q/c.toml" }].map ArtifactOp.clean) ∧
      PathsOk exProject.settings ([ArtifactOp.create { exImC with file := c!"/q/c.toml" }].map ArtifactOp.clean)) := by
  obtain ⟨e, hk, h⟩ := exDecides_err (ops := [.create { exImC with file := c!"/q/c.toml" }]) (k := .invalidPaths) (by decide +kernel)
  exact ⟨e, h, ((C23_decision h).2.1.1 ⟨e, rfl, hk⟩).2⟩

/-- A stale id is refused. -/
example : ∃ e, Plans exLibs exId (fun _ => []) ⟨[], []⟩ exProject [.delete (Name.lit c!"SPC-a") (exId exImB')] (.err e) ∧ e.kind = .hashMismatch := by
  obtain ⟨e, hk, h⟩ := exDecides_err (ops := [.delete (Name.lit c!"SPC-a") (exId exImB')]) (k := .hashMismatch) (by decide +kernel)
  obtain ⟨e', h1, h2, -⟩ := C24_stale h List.mem_cons_self (presents_delete.2 rfl) (by decide +kernel) (by rintro ⟨⟨a, ha⟩, -⟩; cases ha)
  cases h1
  exact ⟨e, h, hk⟩

/-- A refused request leaves the disk as it is. -/
example : ∃ e fs', Modifies exLibs (fun _ => some exRaw) exId (fun _ => []) 4 exGood c!"/p" [.delete (Name.lit c!"SPC-a") (exId exImB'), .create exImC]
    (some (.err e)) fs' ∧ fs' = exGood := by
  obtain ⟨e, hk, h⟩ := exRefused
  exact ⟨e, exGood, h, C23_untouched h (.inr (.inr (.inl hk)))⟩

example : ∃ e, PlansRead exLibs exId (fun _ => []) [.delete (Name.lit c!"SPC-a") (exId exImB')] (.ok (⟨[], []⟩, exProject)) (.err e) ∧
    (e.kind = .invalidFromLoad ∨ e.kind = .invalidPaths ∨ e.kind = .hashMismatch ∨ e.kind = .invalidFromModify) := by
  obtain ⟨e, -, h⟩ := exDecides_err (ops := [.delete (Name.lit c!"SPC-a") (exId exImB')]) (k := .hashMismatch) (by decide +kernel)
  have h' : PlansRead exLibs exId (fun _ => []) [.delete (Name.lit c!"SPC-a") (exId exImB')] (.ok (⟨[], []⟩, exProject)) (.err e) := h
  exact ⟨e, h', C23_refused h'⟩

/-- Two operations about one artifact are found in both orders. -/
example : (checkOverlap exId ⟨[], []⟩ (exOps ++ [ArtifactOp.delete (Name.lit c!"SPC-b") (exId exImB)])).1.error ≠ [] ∧
    ((checkOverlap exId ⟨[], []⟩ (exOps ++ [ArtifactOp.delete (Name.lit c!"SPC-b") (exId exImB)])).1.error = [] ↔
      (checkOverlap exId ⟨[], []⟩ (exOps ++ [ArtifactOp.delete (Name.lit c!"SPC-b") (exId exImB)]).reverse).1.error = []) :=
  ⟨by decide +kernel, C26_overlap (List.reverse_perm _).symm rfl⟩

/-! ## writing -/

/-- The files that `exOps` write. -/
def caseFiles : List (FilePath × Str) := ((modifyNow nameLibs exId exGood exS exOps 0).map (fun r => r.1)).getD []

/-- Writing them after `n` steps without failures. -/
def caseCfg (n : Nat) : Cfg := runNow nameLibs exS caseFiles n (Cfg.init nameLibs exGood exS)

theorem caseCfg_reaches (n : Nat) : Reaches nameLibs exS caseFiles (Cfg.init nameLibs exGood exS) (caseCfg n) := runNow_reaches _ _ _ _ _

theorem case_supported {x : FilePath × Str} (h : x.1.head? = some '/' ∧ (ArtFileType.fromPath x.1).isSome = true) : Supported x.1 := by
  refine (supported_iff ?_).1 h.2
  have h1 := h.1
  cases hx : x.1 with
  | nil => exact .inl rfl
  | cons c r => rw [hx] at h1; cases h1; exact .inr ⟨r, rfl⟩

theorem case_orderly : Orderly exGood exS caseFiles where
  wf := exGood_wf
  roots := exGood_safe.1
  stems := exGood_safe.2
  files := by
    have : ∀ x ∈ caseFiles, x.1.head? = some '/' ∧ (ArtFileType.fromPath x.1).isSome = true := by decide +kernel
    exact fun x hx => case_supported (this x hx)
  nodup := by decide +kernel

/-- In the middle of the backups, and in the middle of writing. -/
example : (∀ q, ArtifactFile exGood exS q → StillThere exGood (caseCfg 1).fs q) ∨ ∀ x ∈ caseFiles, contentAt (caseCfg 1).fs x.1 = some (.text x.2) :=
  C27_crash_safe case_orderly (caseCfg_reaches 1)

example : (caseCfg 10).phase = .save ∧
    ((∀ q, ArtifactFile exGood exS q → StillThere exGood (caseCfg 10).fs q) ∨ ∀ x ∈ caseFiles, contentAt (caseCfg 10).fs x.1 = some (.text x.2)) :=
  ⟨by decide +kernel, C27_crash_safe case_orderly (caseCfg_reaches 10)⟩

example : (∀ x ∈ caseFiles, contentAt (caseCfg 1000).fs x.1 = some (.text x.2)) ∧
    (∀ q, ArtifactFile exGood exS q → (∀ x ∈ caseFiles, q ≠ x.1) → ¬ IsFile (caseCfg 1000).fs q) :=
  have h := C27_done case_orderly (caseCfg_reaches 1000) (by decide +kernel)
  ⟨h.1, h.2.1⟩

/-- The files when an artifact is to be written to a directory that does not exist: writing fails. -/
def caseFiles2 : List (FilePath × Str) := ((modifyNow nameLibs exId exGood exS exOpsDir 0).map (fun r => r.1)).getD []
def caseCfg2 : Cfg := runNow nameLibs exS caseFiles2 1000 (Cfg.init nameLibs exGood exS)

example : caseCfg2.phase = .failed .saveProject ∧ ∀ q, ArtifactFile exGood exS q → StillThere exGood caseCfg2.fs q := by
  have hp : caseCfg2.phase = .failed .saveProject := by decide +kernel
  have : ∀ x ∈ caseFiles2, x.1.head? = some '/' ∧ (ArtFileType.fromPath x.1).isSome = true := by decide +kernel
  exact ⟨hp, C27_failed ⟨exGood_wf, exGood_safe.1, exGood_safe.2, fun x hx => case_supported (this x hx), by decide +kernel⟩
    (runNow_reaches _ _ _ _ _) hp⟩

/-- The whole, from reading to writing. -/
theorem caseAccepted : ∃ p', Accepted nameLibs (fun _ => some exRaw) exId (fun _ => []) 4 exGood c!"/p" exOps p' := by
  obtain ⟨files, fs', h1, _, h3⟩ := modifyNow_some exWrite.1
  obtain ⟨⟨p', h, -⟩, -⟩ := modifyNow_sound (ncpu := 4) exGood_settings (by decide +kernel) (by decide +kernel) h1
  exact ⟨p', h⟩

theorem caseDone : ∃ r fs', Modifies nameLibs (fun _ => some exRaw) exId (fun _ => []) 4 exGood c!"/p" exOps (some (.ok r)) fs' := by
  obtain ⟨files, fs', h1, _, h3⟩ := modifyNow_some exWrite.1
  obtain ⟨_, out, ⟨r, rfl⟩, hm⟩ := modifyNow_sound (ncpu := 4) exGood_settings (by decide +kernel) (by decide +kernel) h1
  exact ⟨r, fs', hm⟩

example : ∃ p' files, Accepted nameLibs (fun _ => some exRaw) exId (fun _ => []) 4 exGood c!"/p" exOps p' ∧ projectFiles nameLibs p' = .ok files := by
  obtain ⟨p', h⟩ := caseAccepted
  obtain ⟨files, hf⟩ := C46_renders exGood_wf exGood_settings exOps_ok.2.1 h
  exact ⟨p', files, h, hf⟩

example : ∃ r fs', Modifies nameLibs (fun _ => some exRaw) exId (fun _ => []) 4 exGood c!"/p" exOps (some (.ok r)) fs' ∧
    ∀ q, IMap.get? fs' q ≠ IMap.get? exGood q → ∃ d ∈ exS.artifactPaths, Under d q := by
  obtain ⟨r, fs', h⟩ := caseDone
  exact ⟨r, fs', h, fun q hq => C49_inside exGood_wf exGood_settings exOps_ok.2.1 exGood_safe.1
    ((C49_frame exGood_wf exGood_settings exOps_ok.2.1 h).1 q hq)⟩

/-- Without settings nothing is written. -/
example (h : Modifies nameLibs (fun _ => none) exId (fun _ => []) 4 exGood c!"/p" exOps out fs') : fs' = exGood :=
  C49_no_settings (by rintro ⟨s, path, raw, h, -⟩; rw [show loadSettingsRaw (fun _ => none) exGood c!"/p" = none by decide +kernel] at h; cases h) h

end Art
