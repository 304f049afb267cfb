import Verif.Spec.Bytes

/-!
# Specification: getting back to a good disk after a crash (C88)
-/

namespace Art.Recover
open Spec Cli Bytes

/-- There is no file with the name of a backup of an artifact file, as after a save that went well. -/
def NoLeftovers (fs : FS) (s : Settings) : Prop := ∀ q b, ArtifactFile fs s q → BackupOf q b → ¬ IsFile fs b

/-- What is on the disk after someone who knows which artifact files there were (`old`) has moved their backups back to them and has removed all other artifact files. Backups do not matter. -/
structure PutBack (s : Settings) (old : FilePath → Prop) (now out : FS) : Prop where
  moved : ∀ q b, old q → BackupOf q b → IsFile now b → IMap.get? out q = IMap.get? now b
  stays : ∀ q, old q → (∀ b, BackupOf q b → ¬ IsFile now b) → IMap.get? out q = IMap.get? now q
  dropped : ∀ q, ¬ old q → ArtifactFile now s q → IMap.get? out q = none
  others : ∀ q, ¬ old q → ¬ ArtifactFile now s q → ¬ IsBackup q → IMap.get? out q = IMap.get? now q

/-- What is needed of the disk: it is a tree, the configured paths are directories, no two artifact files share a backup, and there are no backups from before. -/
structure Sound (readToml : Str → Option SettingsRaw) (base : FilePath) (s : Settings) (fs : FS) : Prop where
  tree : FS.WF fs
  settings : SettingsOf readToml fs base s
  roots : ∀ r ∈ s.artifactPaths, IMap.get? fs r = some .dir
  stems : ∀ p q, ArtifactFile fs s p → ArtifactFile fs s q → SameStem p q → p = q
  clean : NoLeftovers fs s

/-- What is needed of the batch: links are sets and the files that it names are read. -/
structure Fits (s : Settings) (ops : List ArtifactOp) : Prop where
  links : LinkSets ops
  once : ∀ op ∈ ops, ∀ a, Brings op a → ReadOnce s a.file

/-- The disk is as before the batch, or as the batch leaves it when it is saved. -/
def Recovered (E : Env) (base : FilePath) (fs : FS) (ops : List ArtifactOp) (out : FS) : Prop :=
  SameDisk out fs ∨ ∃ n r fs', Modifies E.L E.readToml E.hash E.dbg n fs base ops (some (.ok r)) fs' ∧ SameDisk out fs'

end Art.Recover
