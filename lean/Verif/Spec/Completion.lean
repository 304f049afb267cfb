import Verif.Model.Types
import Verif.Model.Regex
import Mathlib.Logic.Relation

/-!
# What completion is supposed to be

A specification of the completion percentages, written from the documentation (book/src/CheatSheet.md L68,
design/data/artifact.md L37-54, design/purpose.md L48-51 of /repo) and independent of ids, graphs and processing order. It talks about the artifacts of
a loaded project only.
-/

namespace Art.Spec

/-- The average of a list of ratios; nothing to average counts as 0. -/
def avg (l : List ℚ) : ℚ := if l = [] then 0 else l.sum / l.length

/-- A subname of the form `.tst-...`: it is a test. -/
def TestSub (s : SubName) : Prop := (s.raw.take 5).map foldC = c!".tst-" ∧ '\n' ∉ s.raw

instance (s : SubName) : Decidable (TestSub s) := inferInstanceAs (Decidable (_ ∧ _))

/-- 1 if the subname is implemented in code, else 0. -/
def subDone (c : ImplCode) (s : SubName) : ℚ := if ∃ x ∈ c.secondary, key x.1 = key s then 1 else 0

/-- The implementation slots of an artifact: `done` is one finished slot; an artifact referenced from code
has one slot for itself and one for each of its subnames; an artifact that is not referenced has these slots, all empty, if it has subnames and
none otherwise. -/
def ownSlots (i : Impl) (subs : List SubName) : List ℚ :=
  match i with
  | .done _ => [1]
  | .code c => (if c.primary.isSome then 1 else 0) :: subs.map (subDone c)
  | .notImpl => if subs = [] then [] else List.replicate (1 + subs.length) 0

/-- The test slots of a non-test artifact: `done`, and its `.tst-` subnames if it is referenced from code. -/
def ownTests (i : Impl) (subs : List SubName) : List ℚ :=
  match i with
  | .done _ => [1]
  | .code c => (subs.filter (fun s => TestSub s)).map (subDone c)
  | .notImpl => []

/-- The artifact `b` is listed as being part of the artifact named `n`. -/
def PartOf (b : Artifact) (n : Name) : Prop := ∃ q ∈ b.partof, key q = key n

instance (b : Artifact) (n : Name) : Decidable (PartOf b n) :=
  inferInstanceAs (Decidable (∃ q ∈ b.partof, key q = key n))

/-- The parts of the artifact named `n` among the artifacts `arts`. -/
def partsIn (arts : List Artifact) (n : Name) : List Artifact := arts.filter (fun b => PartOf b n)

/-- `spc` and `tst` (as functions of the name) are completion ratios of the project `arts`: the averages over own slots
and parts, where tests do not count for the implementation of non tests, and the two ratios of a test are the same. -/
structure CompletionRule (arts : List Artifact) (spc tst : Ty × Str → ℚ) : Prop where
  test : ∀ a ∈ arts, a.name.ty = .TST → spc (key a.name) =
    avg (ownSlots a.impl a.subnames ++ (partsIn arts a.name).map (fun b => spc (key b.name)))
  test_tst : ∀ a ∈ arts, a.name.ty = .TST → tst (key a.name) = spc (key a.name)
  other : ∀ a ∈ arts, a.name.ty ≠ .TST → spc (key a.name) =
    avg (ownSlots a.impl a.subnames ++
      ((partsIn arts a.name).filter (fun b => b.name.ty ≠ .TST)).map (fun b => spc (key b.name)))
  other_tst : ∀ a ∈ arts, a.name.ty ≠ .TST → tst (key a.name) =
    avg (ownTests a.impl a.subnames ++ (partsIn arts a.name).map (fun b => tst (key b.name)))

/-- `b` is an artifact of the project that is directly part of the artifact `a` of the project. -/
def DirectPart (arts : List Artifact) (b a : Artifact) : Prop := b ∈ arts ∧ a ∈ arts ∧ PartOf b a.name

/-- Some artifact is (through any number of steps) a part of itself. -/
def Cyclic (arts : List Artifact) : Prop := ∃ a, Relation.TransGen (DirectPart arts) a a

end Art.Spec
