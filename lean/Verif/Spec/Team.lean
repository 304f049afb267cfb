import Verif.Model.Save
import Verif.Spec.Save

/-!
# What is expected of the threads that write a project
-/

namespace Art.Spec

/-- Two results of a modification are the same, up to the order in which the lints of a successful one are reported. -/
def SameResult : Option (Res ModifyError (Categorized × Project)) → Option (Res ModifyError (Categorized × Project)) → Prop
  | some (.ok (c, p)), some (.ok (c', p')) => p = p' ∧ c.error.Perm c'.error ∧ c.other.Perm c'.other
  | out, out' => out = out'

/-- A lint says that this file could not be written. -/
def FailReported (lints : List Lint) (p : FilePath) : Prop := ∃ l ∈ lints, l.level = .error ∧ l.category = .saveProject ∧ l.path = some p

/-- Writing the files, in their order, was interrupted; `fs0` is the disk before it began. All files behind a certain one are as they were. Of the files up to it all but `n` are complete or
reported. -/
def Interrupted (n : Nat) (fs0 fs : FS) (files : List (FilePath × Str)) (lints : List Lint) : Prop :=
  ∃ (begun rest : List (FilePath × Str)) (unfinished : List FilePath), files = begun ++ rest ∧ (∀ x ∈ rest, IMap.get? fs x.1 = IMap.get? fs0 x.1) ∧ unfinished.length ≤ n ∧
    ∀ x ∈ begun, contentAt fs x.1 = some (.text x.2) ∨ FailReported lints x.1 ∨ x.1 ∈ unfinished

end Art.Spec
