import Verif.Spec.Life

/-!
# C81: when two answers to modifications are the same
-/

namespace Art.Spec

/-- The disk could not be written. -/
def DiskFailed (o : Res ModifyError (Categorized × Project)) : Prop := ∃ e, o = .err e ∧ (e.kind = .createBackups ∨ e.kind = .saveProject)

/-- Both are accepted with the same project, up to the spelling of names in `parts` and in code references, or both are refused for the same kind of reason. -/
def SameAnswer (o o' : Res ModifyError (Categorized × Project)) : Prop :=
  (∃ c p c' p', o = .ok (c, p) ∧ o' = .ok (c', p') ∧ foldCase p = foldCase p') ∨ ∃ e e', o = .err e ∧ o' = .err e' ∧ e.kind = e'.kind

end Art.Spec
