import Verif.Spec.Completion
import Verif.Spec.Tested

/-!
# When a change cannot lower a percentage

Written from the documentation of completion (design/data/artifact.md L37-54 and book/src/CheatSheet.md L68 of /repo): of the own slots of an artifact some are finished
and some are not, and a change is for the better if it loses none of the first and gains none of the second.
-/

namespace Art.Better
open Spec

/-- How many slots are finished. -/
def finished (l : List ℚ) : Nat := l.countP (· = 1)

/-- How many slots are not. -/
def unfinished (l : List ℚ) : Nat := l.countP (· ≠ 1)

/-- From the slots `o` to the slots `o'` no finished one is lost and no unfinished one is gained. -/
def NoWorse (o o' : List ℚ) : Prop := finished o ≤ finished o' ∧ unfinished o' ≤ unfinished o

/-- Every artifact is still there, part of the same artifacts. -/
def Kept (as as' : List Artifact) : Prop := ∀ a ∈ as, ∃ a' ∈ as', key a'.name = key a.name ∧ ∀ n, PartOf a n ↔ PartOf a' n

/-- `P` holds for the two versions of every artifact. -/
def Each (as as' : List Artifact) (P : Artifact → Artifact → Prop) : Prop := ∀ a ∈ as, ∀ a' ∈ as', key a'.name = key a.name → P a a'

end Art.Better
