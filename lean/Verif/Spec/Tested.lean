import Verif.Spec.Completion

/-!
# How much one thing below an artifact counts for its tests

Written from the documentation of completion (design/data/artifact.md L37-54 and book/src/CheatSheet.md L68 of /repo), in terms of the artifacts of a
project only, like `Spec/Share.lean` for implementations: which things are averaged for the tested ratio of an artifact, how many they are, and what it
takes for new code not to lower it.
-/

namespace Art.Tested
open Spec

/-- The own slots of an artifact that count as tests: all slots of a test, the `.tst-` subnames of anything else. -/
def testSlots (a : Artifact) : List ℚ := if a.name.ty = .TST then ownSlots a.impl a.subnames else ownTests a.impl a.subnames

/-- How many things are averaged for the tested ratio of `a`: its own test slots and all its parts. -/
def testWidth (as : List Artifact) (a : Artifact) : Nat := (testSlots a).length + (partsIn as a.name).length

/-- `b` is `a` or is below `a`, below tests through tests only, and the artifacts passed on the way from `a` down to it (`a` included, `b` not) average over
`w` things when the numbers are multiplied. -/
inductive TestRoute (as : List Artifact) (b : Artifact) : Artifact → Nat → Prop
  | here : b ∈ as → TestRoute as b b 1
  | up {c a : Artifact} {w : Nat} : TestRoute as b c w → a ∈ as → c ∈ partsIn as a.name → (a.name.ty = .TST → c.name.ty = .TST) →
    TestRoute as b a (testWidth as a * w)

/-- Artifacts other than tests that had no code before and have some now have code for every one of their `.tst-` subnames. -/
def WithTests (ims : IMap Name ArtifactIm) (code code' : IMap Name ImplCode) (subs : Str → List SubName → Prop) : Prop :=
  ∀ n im, IMap.get? ims n = some im → n.ty ≠ .TST → IMap.get? code n = none → ∀ c', IMap.get? code' n = some c' →
    ∀ l, subs im.text l → ∀ s ∈ l, TestSub s → ∃ x ∈ c'.secondary, key x.1 = key s

end Art.Tested
