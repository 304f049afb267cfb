import Verif.Spec.Completion

/-!
Specification for C79: what the completion of an artifact depends on.
-/

namespace Art.Depends
open Spec

/-- Of every subname: whether it is a test and whether it is implemented. -/
def marks (c : ImplCode) (subs : List SubName) : List (Bool × Bool) := subs.map fun s => (decide (TestSub s), decide (∃ x ∈ c.secondary, key x.1 = key s))

/-- Two artifacts have the same things of their own: both are done, or both are referenced from code and there is the same number of subnames of each kind, or neither is either and they have
the same number of subnames. Names, texts, files and places in the code do not matter. -/
def SameOwn (a a' : Artifact) : Prop :=
  ((∃ d d', a.impl = .done d ∧ a'.impl = .done d') ∨
    (∃ c c', a.impl = .code c ∧ a'.impl = .code c' ∧ c.primary.isSome = c'.primary.isSome ∧ (marks c a.subnames).Perm (marks c' a'.subnames)) ∨
    (a.impl = .notImpl ∧ a'.impl = .notImpl ∧ a.subnames.length = a'.subnames.length))

/-- `R` pairs artifacts of two projects that are of the same type and have the same things of their own, and whose parts it pairs one by one. -/
def Pairs (as as' : List Artifact) (R : Artifact → Artifact → Prop) : Prop :=
  ∀ a a', R a a' → a ∈ as ∧ a' ∈ as' ∧ a.name.ty = a'.name.ty ∧ SameOwn a a' ∧ ∃ l, (partsIn as' a'.name).Perm l ∧ List.Forall₂ R (partsIn as a.name) l

/-- `b` is the artifact `a` or a part of a part … of it. -/
def Below (as : List Artifact) (b a : Artifact) : Prop := Relation.ReflTransGen (DirectPart as) b a

/-- The two projects have the artifact `a` in common: it is in both, part of the same artifacts, with the same things of its own. -/
def InBoth (as' : List Artifact) (a : Artifact) : Prop :=
  ∃ a' ∈ as', key a'.name = key a.name ∧ SameOwn a a' ∧ ∀ n, PartOf a n ↔ PartOf a' n

end Art.Depends
