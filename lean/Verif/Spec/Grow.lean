import Verif.Spec.Better
import Verif.Spec.Share

/-!
# What new artifacts do to the percentages of the old ones

Written from the documentation of completion (design/data/artifact.md L37-54 and book/src/CheatSheet.md L68 of /repo): a project gets new artifacts, the old ones keep their
links among each other (their links to the new ones may be new, since links between artifacts come with their names), and the new artifacts that old ones are made of
are finished all the way down, or nothing at all of them is.
-/

namespace Art.Grow
open Spec Share

/-- There is an artifact of this name. -/
def Old (as : List Artifact) (n : Name) : Prop := ∃ b ∈ as, key b.name = key n

/-- The old artifacts are still there, with the same links among them. -/
def StillThere (as as' : List Artifact) : Prop := ∀ a ∈ as, ∃ a' ∈ as', key a'.name = key a.name ∧ ∀ n, Old as n → (PartOf a n ↔ PartOf a' n)

/-- All own slots of the artifact, and of everything below it that counts for its implementation, are `v`; for `v = 1` there has to be something. -/
inductive AllAt (v : ℚ) (as : List Artifact) : Artifact → Prop
  | mk {a : Artifact} : a ∈ as → (∀ x ∈ ownSlots a.impl a.subnames, x = v) → (v = 0 ∨ ownSlots a.impl a.subnames ≠ [] ∨ Counts as a ≠ []) →
    (∀ b ∈ Counts as a, AllAt v as b) → AllAt v as a

/-- The same for tests. -/
inductive TestsAt (v : ℚ) (as : List Artifact) : Artifact → Prop
  | test {a : Artifact} : a.name.ty = .TST → AllAt v as a → TestsAt v as a
  | other {a : Artifact} : a ∈ as → a.name.ty ≠ .TST → (∀ x ∈ ownTests a.impl a.subnames, x = v) →
    (v = 0 ∨ ownTests a.impl a.subnames ≠ [] ∨ partsIn as a.name ≠ []) → (∀ b ∈ partsIn as a.name, TestsAt v as b) → TestsAt v as a

/-- The new artifacts that count for old ones are of the kind `P`. -/
def NewParts (as as' : List Artifact) (P : Artifact → Prop) : Prop := ∀ a' ∈ as', Old as a'.name → ∀ x ∈ Counts as' a', ¬ Old as x.name → P x

/-- The new artifacts that are parts of old ones are of the kind `P`. -/
def AnyNewParts (as as' : List Artifact) (P : Artifact → Prop) : Prop := ∀ a' ∈ as', Old as a'.name → ∀ x ∈ partsIn as' a'.name, ¬ Old as x.name → P x

end Art.Grow
