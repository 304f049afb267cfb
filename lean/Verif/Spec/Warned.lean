import Verif.Spec.Places
import Verif.Spec.Reports

/-!
# The warnings about the references in the code

What a reference needs (artifact-data/src/project.rs L255-316 of /repo), to be put together with C83 and C99.
-/

namespace Art.Places
open Spec Reports

/-- A reference to `n` or a subname of it is right: there is such an artifact, it is not marked as done, and the subname is written in its text. -/
def RightRef (as : List Artifact) (n : Name) (sub : Option SubName) : Prop :=
  (∃ b ∈ as, key b.name = key n) ∧ ∀ b ∈ as, key b.name = key n → ¬ Done b ∧ ∀ s, sub = some s → DefinesSub b.text s

/-- The same reason for the same subname, spelled otherwise. -/
def respell (sub : Option SubName) : Why → Why
  | .noSub s => .noSub (sub.getD s)
  | w => w

end Art.Places
