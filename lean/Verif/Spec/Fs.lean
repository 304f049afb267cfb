import Verif.Model.Fs

/-!
# What the loader is meant to read
Specification used by the theorems about walking and checking paths. It speaks about a directory tree as a
set of paths and does not mention the walk.
-/

namespace Art.Spec

/-- `p` is `q` or lies inside `q`. -/
def Under (q p : FilePath) : Prop := p = q ∨ ∃ r, p = q ++ '/' :: r

/-- `p` is a file of the tree. -/
def IsFile (fs : FS) (p : FilePath) : Prop := ∃ c, (p, Node.file c) ∈ fs

/-- `p` is not in the tree. -/
def Missing (fs : FS) (p : FilePath) : Prop := ∀ n, (p, n) ∉ fs

/-- The file names with one of the three artifact extensions: a non-empty stem, a dot and the extension. -/
def Supported (p : FilePath) : Prop :=
  ∃ d n x, p = d ++ '/' :: (n ++ '.' :: x) ∧ n ≠ [] ∧ '/' ∉ n ∧ (x = c!"toml" ∨ x = c!"md" ∨ x = c!"json")

/-- A path that starts at the root. -/
def Absolute (p : FilePath) : Prop := p = [] ∨ ∃ r, p = '/' :: r

/-- Reading the configured path `r` finds the file `p`: it is listed itself, or it lies inside `r`,
is wanted, and nothing from `r` down to `p` is excluded. -/
def Finds (fs : FS) (excl : List FilePath) (Wanted : FilePath → Prop) (r p : FilePath) : Prop :=
  IsFile fs p ∧ (r = p ∨ Under r p ∧ Wanted p ∧ ∀ e ∈ excl, Under r e → ¬ Under e p)

end Art.Spec
