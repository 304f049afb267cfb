import Verif.Spec.Split
import Verif.Props.FmtTwice

/-!
# Specification: what is on the disk after a number of edits (C84)
-/

namespace Art.Bytes
open Spec Cli

/-- If there is a file with this path, it is read as an artifact file. -/
def MayHold (s : Settings) (x : FilePath) : Prop := Supported x ∧ ∃ r ∈ s.artifactPaths, Reaching s r x

/-- One batch is saved: the conditions on the batch, and the project that it gives can be stored. -/
structure Edit (E : Env) (base : FilePath) (s : Settings) (fs : FS) (fs' : FS) (q : Project) : Prop where
  saved : ∃ n ops c, LinkSets ops ∧ (∀ op ∈ ops, ∀ a, Brings op a → ReadOnce s a.file) ∧ Modifies E.L E.readToml E.hash E.dbg n fs base ops (some (.ok (c, q))) fs'
  storable : Storable E.L s q

/-- One or more batches are saved, by whomever; the last one gives `q`. -/
inductive Edits (E : Env) (base : FilePath) (s : Settings) : FS → FS → Project → Prop where
  | one {fs fs' : FS} {q : Project} : Edit E base s fs fs' q → Edits E base s fs fs' q
  | more {fs fs1 fs' : FS} {q1 q : Project} : Edits E base s fs fs1 q1 → Edit E base s fs1 fs' q → Edits E base s fs fs' q

/-- The same on both disks, except for backups: every directory, and every file with every byte. -/
def SameDisk (fs fs' : FS) : Prop := ∀ x, ¬ IsBackup x → IMap.get? fs x = IMap.get? fs' x

end Art.Bytes
