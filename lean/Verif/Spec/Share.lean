import Verif.Spec.Completion

/-!
# How much one thing below an artifact counts

Written from the documentation of completion (design/data/artifact.md L37-54 of /repo: the completion of an artifact is the average of what it is made
of), in terms of the artifacts of a project only: how many things are averaged for an artifact, and which
fraction of an artifact something further below is therefore responsible for.
-/

namespace Art.Share
open Spec

/-- The parts of `a` that count for its implementation: tests count for tests only. -/
def Counts (as : List Artifact) (a : Artifact) : List Artifact :=
  (partsIn as a.name).filter (fun b => a.name.ty = .TST ∨ b.name.ty ≠ .TST)

/-- How many things are averaged for the implementation of `a`: its own slots and its parts. -/
def width (as : List Artifact) (a : Artifact) : Nat := (ownSlots a.impl a.subnames).length + (Counts as a).length

/-- `b` is `a` or is below `a`, and on the way from `a` down to it the artifacts that are passed (`a` included, `b` not) average over
`w` things when the numbers are multiplied: along this way `b` is one `w`-th of `a`. -/
inductive Route (as : List Artifact) (b : Artifact) : Artifact → Nat → Prop
  | here : b ∈ as → Route as b b 1
  | up {c a : Artifact} {w : Nat} : Route as b c w → a ∈ as → c ∈ Counts as a → Route as b a (width as a * w)

/-- Two sets of code references that cover the same things, except perhaps for the artifact named `n`. -/
def OnlyAt (cover : Option ImplCode → Option ImplCode → Prop) (n : Name) (code code' : IMap Name ImplCode) : Prop :=
  ∀ m : Name, key m ≠ key n → cover (IMap.get? code m) (IMap.get? code' m)

end Art.Share
