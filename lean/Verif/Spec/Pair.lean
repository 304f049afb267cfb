import Verif.Model.Pair
import Verif.Spec.Bytes

/-!
# Specification: several programs that change the same project (C86)
-/

namespace Art.Pair
open Spec Cli Bytes

/-- The files that belong to artifacts: those that are read as artifact files, and the backups below an artifact path. -/
def Ours (s : Settings) (x : FilePath) : Prop := MayHold s x ∨ IsBackup x ∧ ∃ r ∈ s.artifactPaths, Under r x

/-- The conditions on a batch: the links of an artifact are distinct, and the files that it names are read once. -/
def Batch (s : Settings) (ops : List ArtifactOp) : Prop := LinkSets ops ∧ ∀ op ∈ ops, ∀ a, Brings op a → ReadOnce s a.file

/-- The programs that have not begun, each with its batch. -/
def begun (l : List (List ArtifactOp)) : List Proc := l.map .fresh

/-- One program goes on while all others wait. -/
def Solo (E : Env) (base : FilePath) : FS × Proc → FS × Proc → Prop := Relation.ReflTransGen (fun x y => Go E base x.1 x.2 y.1 y.2)

/-- Nothing is left of any artifact: every file that would be read as an artifact file, and every backup, is empty. -/
def AllGone (s : Settings) (fs : FS) : Prop := ∀ x, Ours s x → ∀ c, IMap.get? fs x = some (.file c) → c = .text []

/-- There is no artifact file and no backup. -/
def Wiped (s : Settings) (fs : FS) : Prop := ∀ x, Ours s x → ∀ c, IMap.get? fs x ≠ some (.file c)

end Art.Pair
