import Verif.Model.Types

/-!
# Text cleaning and the automatic family of a whole project
-/

namespace Art

/-- `str::trim_end`. Called at artifact-data/src/raw.rs L70 and, for strings, artifact-ser/src/lib.rs L429-437. -/
def trimEnd (s : Str) : Str := (s.reverse.dropWhile isWS).reverse

/-- artifact-ser/src/lib.rs L429-441 (`string_trim_right`, `clean_text`). -/
def cleanText (s : Str) : Str :=
  let t := trimEnd s
  if t.contains '\n' then t ++ ['\n'] else t

/-- artifact-data/src/raw.rs L64-74: the string written by `Serialize for TextRaw`. -/
def textRawSer (s : Str) : Str := cleanText (trimEnd s)

/-- artifact-data/src/raw.rs L76-85: `Deserialize for TextRaw`. -/
def textRawDe (s : Str) : Str := cleanText s

/-- `Name::parent` as a total function; `C04_parent` shows that the panicking branch is impossible. artifact-ser/src/family.rs L89-96. -/
def Name.parent? (n : Name) : Option Name :=
  match n.parent with
  | .ok o => o
  | _ => none

/-- `Name::auto_partof` as a total function; `C04_autoPartof` shows that the panicking branch is impossible. artifact-ser/src/family.rs L104-115. -/
def Name.auto? (n : Name) : Option Name :=
  match n.autoPartof with
  | .ok o => o
  | _ => none

/-- The body of the loop of artifact-ser/src/family.rs L164-176: automatic links of one name. -/
def autoPartofOf {β : Type} (names : IMap Name β) (n : Name) : ISet Name :=
  let a := match n.parent? with
    | some p => if IMap.contains names p then ISet.insert [] p else []
    | none => []
  match n.auto? with
    | some p => if IMap.contains names p then ISet.insert a p else a
    | none => a

/-- artifact-ser/src/family.rs L162-180 (`auto_partofs`). -/
def autoPartofs {β : Type} (names : IMap Name β) : IMap Name (ISet Name) :=
  names.foldl (fun out p => IMap.insert out p.1 (autoPartofOf names p.1)) []

/-- artifact-ser/src/lib.rs L445-452 (`strip_auto_partofs`). -/
def stripAuto (n : Name) (names : ISet Name) : ISet Name :=
  let names := match n.parent? with
    | some p => ISet.remove names p
    | none => names
  match n.auto? with
    | some p => ISet.remove names p
    | none => names

/-- `IndexSet<Name>::sort`: names compare by key (artifact-ser/src/name.rs L381-385). -/
def sortNames (l : ISet Name) : ISet Name := sortOn Name.keyStr l

/-- artifact-lib/src/lib.rs L252-256 (`ArtifactIm::clean`). -/
def ArtifactIm.clean (a : ArtifactIm) : ArtifactIm :=
  { a with partof := sortNames (stripAuto a.name a.partof), text := cleanText a.text }

/-- artifact-lib/src/lib.rs L261-264: the `done` text of an implementation. -/
def Impl.doneStr : Impl → Option Str
  | .done d => some d
  | _ => none

/-- artifact-lib/src/lib.rs L259-275 (`From<Artifact> for ArtifactIm`). -/
def Artifact.toIm (a : Artifact) : ArtifactIm :=
  ArtifactIm.clean
    { name := a.name, file := a.file, partof := a.partof,
      done := a.impl.doneStr,
      text := a.text }

/-- artifact-lib/src/lib.rs L320-329 (`ArtifactOp::clean`). -/
def ArtifactOp.clean : ArtifactOp → ArtifactOp
  | .create a => .create a.clean
  | .update a id => .update a.clean id
  | .delete n id => .delete n id

/-- artifact-data/src/artifact.rs L120-130 (`determine_partofs`). `artifact_ims[name]` (L126) panics on a missing key; the
keys of `autoPartofs ims` are those of `ims`, so the lookup is modelled with the entry itself missing
as `panic`. -/
def determinePartofs (ims : IMap Name ArtifactIm) : Res Unit (IMap Name (ISet Name)) :=
  Res.mapM' (fun (n, auto) =>
    match IMap.get? ims n with
    | some art => .ok (n, ISet.extend auto art.partof)
    | none => .panic) (autoPartofs ims)

end Art
