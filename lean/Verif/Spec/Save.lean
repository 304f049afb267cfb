import Verif.Spec.Fs

/-!
# What saving may do to the disk
-/

namespace Art.Spec

/-- `p` is one of the artifact files of the project on this disk. -/
def ArtifactFile (fs : FS) (s : Settings) (p : FilePath) : Prop :=
  ∃ r ∈ s.artifactPaths, Finds fs s.excludeArtifactPaths Supported r p

/-- `b` is the backup name of `p`: the extension is replaced by `artbk`. -/
def BackupOf (p b : FilePath) : Prop :=
  ∃ d n x, p = d ++ '/' :: (n ++ '.' :: x) ∧ n ≠ [] ∧ '/' ∉ n ∧ '/' ∉ x ∧ '.' ∉ x ∧ b = d ++ '/' :: (n ++ c!".artbk")

/-- `p` and `q` are in the same directory and differ at most in the extension. -/
def SameStem (p q : FilePath) : Prop :=
  ∃ d n x y, p = d ++ '/' :: (n ++ '.' :: x) ∧ q = d ++ '/' :: (n ++ '.' :: y) ∧ '/' ∉ n ∧ '/' ∉ x ∧ '/' ∉ y ∧ '.' ∉ x ∧ '.' ∉ y

/-- The content of a file; nothing if there is no such file. -/
def contentAt (fs : FS) (p : FilePath) : Option Content :=
  match IMap.get? fs p with
  | some (.file c) => some c
  | _ => none

/-- A path like `/a/b`: absolute, with a file name. -/
def FilePathOk (p : FilePath) : Prop := ∃ d n, p = d ++ '/' :: n ∧ n ≠ [] ∧ '/' ∉ n

/-- What crash safety needs: the configured paths are not files, no two artifact files of a directory differ only in the extension,
and the files to write have artifact extensions and are distinct. -/
structure Orderly (fs : FS) (s : Settings) (written : List (FilePath × Str)) : Prop where
  wf : FS.WF fs
  roots : ∀ r ∈ s.artifactPaths, ¬ IsFile fs r
  stems : ∀ p q, ArtifactFile fs s p → ArtifactFile fs s q → SameStem p q → p = q
  files : ∀ x ∈ written, Supported x.1
  nodup : (written.map (·.1)).Nodup

end Art.Spec
