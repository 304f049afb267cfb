import Verif.Model.Read

/-!
# Modifying a project: checking and performing the operations
Models `modify_project`, `check_overlap`, `check_paths` and `perform_operations` of artifact-data/src/modify.rs
and `ArtifactOp` of artifact-lib/src/lib.rs, up to the point where the disk is written.

`hash` is `ArtifactIm::hash_im` (artifact-lib/src/lib.rs L243-247) and `dbg` is the derived `Debug` text of an
artifact, which is only used in a message.
-/

namespace Art

/-- artifact-ser/src/lib.rs L340-358 (`ModifyErrorKind`). -/
inductive ModifyErrorKind where
  | invalidFromLoad | invalidPaths | hashMismatch | invalidFromModify | createBackups | saveProject
  deriving DecidableEq, Repr

/-- artifact-ser/src/lib.rs L320-324 (`ModifyError`). -/
structure ModifyError where
  lints : Categorized
  kind : ModifyErrorKind
  deriving DecidableEq

/-- artifact-data/src/modify.rs L20-30: the macro `check_lints!`. -/
def checkLints (c : Categorized) (kind : ModifyErrorKind) : Res ModifyError Unit :=
  if c.error.isEmpty then .ok () else .err ⟨c.sort, kind⟩

/-- artifact-lib/src/lib.rs L314-318 (`IdPieces`). -/
structure IdPieces where
  name : Name
  origId : Option HashIm
  newId : Option HashIm

/-- artifact-lib/src/lib.rs L331-355 (`ArtifactOp::id_pieces`). -/
def ArtifactOp.idPieces (hash : ArtifactIm → HashIm) : ArtifactOp → IdPieces
  | .create a => ⟨a.name, none, some (hash a)⟩
  | .update a id => ⟨a.name, some id, some (hash a)⟩
  | .delete n id => ⟨n, some id, none⟩

/-- artifact-data/src/modify.rs L159-166, L173-183: record one id, with a lint if it was there already. -/
def overlapId (name : Name) (st : ISet HashIm × List Lint) : Option HashIm → ISet HashIm × List Lint
  | none => st
  | some id =>
    (ISet.insert st.1 id,
      if ISet.contains st.1 id then
        st.2 ++ [Lint.opError .idOverlap (c!"Attempting to operate twice on " ++ name.raw)]
      else st.2)

/-- artifact-data/src/modify.rs L154-184: one round of the loop of `check_overlap`, for an operation already cleaned. -/
def overlapStep (hash : ArtifactIm → HashIm) (st : ISet HashIm × List Lint) (op : ArtifactOp) : ISet HashIm × List Lint :=
  let pieces := op.idPieces hash
  if pieces.newId = pieces.origId then st
  else overlapId pieces.name (overlapId pieces.name st pieces.newId) pieces.origId

/-- artifact-data/src/modify.rs L151-185 (`check_overlap`): the lints and the cleaned operations. -/
def checkOverlap (hash : ArtifactIm → HashIm) (c : Categorized) (ops : List ArtifactOp) : Categorized × List ArtifactOp :=
  let ops := ops.map ArtifactOp.clean
  ({ c with error := c.error ++ (ops.foldl (overlapStep hash) ([], [])).2 }, ops)

/-- artifact-data/src/modify.rs L97-101: the path written by an operation. -/
def ArtifactOp.file : ArtifactOp → Option FilePath
  | .create a => some a.file
  | .update a _ => some a.file
  | .delete _ _ => none

/-- artifact-data/src/modify.rs L94-149 (`check_paths`). -/
def checkPaths (c : Categorized) (s : Settings) (ops : List ArtifactOp) : Categorized :=
  { c with error := c.error ++ ops.filterMap (fun op => do
      let path ← op.file
      let e ← checkPath s path
      pure ⟨.error, some path, none, .modifyPathInvalid, e.msg⟩) }

/-- artifact-data/src/modify.rs L193-229: one round of the loop of `perform_operations`. -/
def performOp (hash : ArtifactIm → HashIm) (dbg : ArtifactIm → Str) (st : List Lint × IMap HashIm ArtifactIm) (op : ArtifactOp) :
    List Lint × IMap HashIm ArtifactIm :=
  match op with
  | .create a =>
    let lints := match IMap.get? st.2 (hash a) with
      | some old => st.1 ++ [Lint.opError .createExists (c!"Attempting to create an artifact which already exists: " ++ dbg old)]
      | none => st.1
    (lints, IMap.insert st.2 (hash a) a)
  | .update a id =>
    if IMap.contains st.2 id then (st.1, IMap.insert (IMap.remove st.2 id) (hash a) a)
    else (st.1 ++ [Lint.opError .updateDne (c!"Attempt to update '" ++ a.name.raw ++ c!"' failed, hash-id does not exist")], st.2)
  | .delete n id =>
    if IMap.contains st.2 id then (st.1, IMap.remove st.2 id)
    else (st.1 ++ [Lint.opError .deleteDne (c!"Attempt to delete '" ++ n.raw ++ c!"' failed, hash-id does not exist")], st.2)

/-- artifact-data/src/modify.rs L188-230 (`perform_operations`). -/
def performOps (hash : ArtifactIm → HashIm) (dbg : ArtifactIm → Str) (m : IMap HashIm ArtifactIm) (ops : List ArtifactOp) :
    List Lint × IMap HashIm ArtifactIm := ops.foldl (performOp hash dbg) ([], m)

/-- artifact-data/src/modify.rs L50-56: the editable part of each artifact by its id. -/
def artifactIms (hash : ArtifactIm → HashIm) (p : Project) : IMap HashIm ArtifactIm :=
  IMap.collect (p.artifacts.map (fun x => (hash x.2.toIm, x.2.toIm)))

/-- artifact-data/src/modify.rs L39-61: everything that is decided before the new project is put together. -/
def prepare (hash : ArtifactIm → HashIm) (dbg : ArtifactIm → Str) (c : Categorized) (p : Project) (ops : List ArtifactOp) :
    Res ModifyError (Categorized × List ArtifactIm) := do
  checkLints c .invalidFromLoad
  let (c, ops) := checkOverlap hash c ops
  checkLints c .invalidPaths
  let c := checkPaths c p.settings ops
  checkLints c .invalidPaths
  let (lints, ims) := performOps hash dbg (artifactIms hash p) ops
  let c := { c with error := c.error ++ lints }
  checkLints c .hashMismatch
  pure (c, ims.map Prod.snd)

/-- artifact-data/src/modify.rs L62-76: the new project is linted. -/
def finishPlan (L : Libs) (c : Categorized) (joinLints : List Lint) (p : Project) : Res ModifyError (Categorized × Project) := do
  let c := c.categorize (joinLints ++ p.lintErrors L)
  checkLints c .invalidFromModify
  pure (c, p)

/-- artifact-data/src/modify.rs L39-76: `out` is a possible decision about the operations, given what was read. `Loads` leaves
open which topological order is used. -/
def Plans (L : Libs) (hash : ArtifactIm → HashIm) (dbg : ArtifactIm → Str) (c : Categorized) (p : Project) (ops : List ArtifactOp)
    (out : Res ModifyError (Categorized × Project)) : Prop :=
  match prepare hash dbg c p ops with
  | .ok (c, ims) => ∃ arts, Loads hash (joinArtifacts ims).arts p.codeImpls (joinArtifacts ims).files arts ∧
      out = finishPlan L c (joinArtifacts ims).lints { p with artifacts := arts }
  | .err e => out = .err e
  | .panic => out = .panic

/-- artifact-data/src/modify.rs L32-76: the same for the outcome of reading the project. `unreachable!` (L36) is `panic`. -/
def PlansRead (L : Libs) (hash : ArtifactIm → HashIm) (dbg : ArtifactIm → Str) (ops : List ArtifactOp)
    (read : Res Categorized (Categorized × Project)) (out : Res ModifyError (Categorized × Project)) : Prop :=
  match read with
  | .ok (c, p) => Plans L hash dbg c p ops out
  | .err c => out = (do checkLints c .invalidFromLoad; .panic)
  | .panic => out = .panic

end Art
