import Verif.Model.Name
import Mathlib.Data.Rat.Defs

/-!
# Data types of the project
Models artifact-lib/src/lib.rs and the serialised types of artifact-ser/src/lib.rs.
-/

namespace Art

/-- Absolute paths (`PathAbs`, `PathFile`, `PathSer`). Simplification: a path is its display
text; normalisation done by the `path_abs` crate is outside the model. E.g. artifact-lib/src/lib.rs L57, L122. -/
abbrev FilePath := Str

/-- artifact-ser/src/lib.rs L227-229 (`HashIm([u8; 16])`). -/
structure HashIm where
  bytes : Vector UInt8 16
  deriving DecidableEq

instance : HasKey HashIm HashIm := ⟨id⟩
instance : HasKey Str Str := ⟨id⟩

/-- artifact-lib/src/lib.rs L120-125 (`CodeLoc`). -/
structure CodeLoc where
  file : FilePath
  line : Nat
  deriving DecidableEq, Repr

/-- artifact-lib/src/lib.rs L112-118 (`ImplCode`). -/
structure ImplCode where
  primary : Option CodeLoc
  secondary : IMap SubName CodeLoc
  deriving DecidableEq

/-- artifact-lib/src/lib.rs L99-110 (`Impl`). -/
inductive Impl where
  | done (s : Str)
  | code (c : ImplCode)
  | notImpl
  deriving DecidableEq

/-- artifact-lib/src/lib.rs L227-236 (`ArtifactIm`): the editable form of an artifact. -/
structure ArtifactIm where
  name : Name
  file : FilePath
  partof : ISet Name
  done : Option Str
  text : Str
  deriving DecidableEq

/-- artifact-ser/src/lib.rs L274-281 (`Completed`). Simplification: exact rationals for `f32`. -/
structure Completed where
  spc : ℚ
  tst : ℚ
  deriving DecidableEq

/-- artifact-lib/src/lib.rs L47-74 (`Artifact`). -/
structure Artifact where
  id : HashIm
  name : Name
  file : FilePath
  partof : ISet Name
  parts : ISet Name
  completed : Completed
  text : Str
  impl : Impl
  subnames : ISet SubName
  deriving DecidableEq

/-- artifact-lib/src/lib.rs L296-312 (`ArtifactOp`). -/
inductive ArtifactOp where
  | create (artifact : ArtifactIm)
  | update (artifact : ArtifactIm) (origId : HashIm)
  | delete (name : Name) (origId : HashIm)
  deriving DecidableEq

end Art
