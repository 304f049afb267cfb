import Verif.Spec.Save

/-! Specification for C64: which configured paths are walked without stepping on each other. -/

namespace Art.Spec

/-- All paths are directories and none lies inside another. -/
structure SeparateDirs (fs : FS) (roots : List FilePath) : Prop where
  dirs : ∀ r ∈ roots, IMap.get? fs r = some .dir
  apart : roots.Pairwise (fun a b => ¬ Under a b ∧ ¬ Under b a)

/-- The file lies inside two of the configured paths. -/
def FoundTwice (fs : FS) (s : Settings) (p : FilePath) : Prop :=
  ∃ before r between q after, s.artifactPaths = before ++ r :: between ++ q :: after ∧
    Finds fs s.excludeArtifactPaths Supported r p ∧ Finds fs s.excludeArtifactPaths Supported q p

end Art.Spec
