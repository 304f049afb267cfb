import Verif.Model.Save
import Verif.Model.Hash

/-!
# The command line tool
Models artifact-app/src/{dev_prelude,check,fmt,ls}.rs and artifact-app/src/bin/art.rs.
Simplifications: command line parsing is outside the model, a command is given by its parsed options; of the output of `ls` the selected artifacts,
columns and colours are modelled, not the layout; what is printed is in Verif/Model/Listing.lean.
-/

namespace Art

/-! ## finding the project -/

/-- `PathDir::parent_dir`: the components without the last one, `none` for the root. Called at artifact-app/src/dev_prelude.rs L74. -/
def parentComps : List Str → Option (List Str)
  | [] => none
  | c :: r => some ((c :: r).dropLast)

/-- artifact-app/src/dev_prelude.rs L70-79: the loop of `find_repo`. -/
def findRepoLoop (fs : FS) (dir : List Str) : Option FilePath :=
  if (IMap.get? fs (pathOf dir ++ c!"/.art")).isSome then some (pathOf dir)
  else match _h : parentComps dir with
    | some d => findRepoLoop fs d
    | none => none
termination_by dir.length
decreasing_by
  cases dir with
  | nil => simp [parentComps] at _h
  | cons c r =>
    simp only [parentComps, Option.some.injEq] at _h
    subst _h
    simp

/-- artifact-app/src/dev_prelude.rs L68-80 (`find_repo`). `none` is the error. -/
def findRepo (fs : FS) (dir : FilePath) : Option FilePath := findRepoLoop fs (pathComps dir)

/-! ## exit status -/

/-- artifact-app/src/bin/art.rs L4-12 (`main`); 101 is the status of a process that panics. -/
def exitStatus {ε : Type} : Res ε Nat → Nat
  | .ok rc => rc
  | .err _ => 1
  | .panic => 101

/-- artifact-ser/src/lint.rs (`Categorized::is_empty`) and artifact-app/src/check.rs L40-48: the decision of `check` about what was read. -/
def checkResult : Res Categorized (Categorized × Project) → Res Categorized Nat
  | .ok (lints, _) => if !lints.error.isEmpty then .err lints else if !lints.isEmpty then .ok 2 else .ok 0
  | .err lints => .err lints
  | .panic => .panic

/-- artifact-app/src/check.rs L36-49 (`run`): a possible exit status of `art check` in the directory `dir`. -/
def Checks (L : Libs) (readToml : Str → Option SettingsRaw) (hash : ArtifactIm → HashIm) (ncpu : Nat) (fs : FS) (dir : FilePath)
    (status : Nat) : Prop :=
  match findRepo fs dir with
  | none => status = 1
  | some repo => ∃ out, ReadsProject L readToml hash ncpu fs repo out ∧ status = exitStatus (checkResult out)

/-! ## listing -/

/-- artifact-app/src/ls.rs L276-285 (`Flags`). -/
structure Flags where
  name : Bool
  file : Bool
  subnames : Bool
  parts : Bool
  partof : Bool
  impl : Bool
  text : Bool
  deriving DecidableEq, Repr

/-- artifact-app/src/ls.rs L309-319 (`Flags::empty`). -/
def Flags.empty : Flags := ⟨false, false, false, false, false, false, false⟩

/-- artifact-app/src/ls.rs L299-306 (`Flags::default`). -/
def Flags.default : Flags := { Flags.empty with name := true, parts := true }

/-- artifact-app/src/ls.rs L390-405 (`Flags::len`). -/
def Flags.len (f : Flags) : Nat :=
  f.name.toNat + f.file.toNat + f.subnames.toNat + f.parts.toNat + f.partof.toNat + f.impl.toNat + f.text.toNat

/-- artifact-app/src/ls.rs L408-418 (`Flags::invert`). -/
def Flags.invert (f : Flags) : Flags := ⟨!f.name, !f.file, !f.subnames, !f.parts, !f.partof, !f.impl, !f.text⟩

/-- artifact-app/src/ls.rs L379-387 (`Flags::resolve_actual`). -/
def Flags.resolve (f : Flags) (all : Bool) : Flags :=
  if all then f.invert else if f.len = 0 then Flags.default else f

/-- artifact-app/src/ls.rs L287-295 (`VALID_SEARCH_FIELDS`). -/
def validFields : List Str :=
  [c!"N", c!"F", c!"S", c!"P", c!"O", c!"I", c!"T", c!"A", c!"name", c!"file", c!"subnames", c!"parts", c!"partof", c!"impl", c!"text", c!"all"]

/-- artifact-app/src/ls.rs L323-329: the words of a selection of fields. `ANY_UPPERCASE` (L296) is `[A-Z]`. -/
def fieldWords (s : Str) : List Str :=
  if s.contains ',' then (s.splitOn ',').filter (fun w => !w.isEmpty)
  else if !s.any (fun c => 'A' ≤ c && c ≤ 'Z') then [s]
  else s.map (fun c => [c])

/-- Why `ls` gives up. artifact-app/src/ls.rs L166-213 (`filter_artifacts`). -/
inductive LsErr where
  | noField | unknown | implField | pattern | output | load (c : Categorized)
  deriving DecidableEq

/-- artifact-app/src/ls.rs L321-346 (`Flags::from_str`). -/
def Flags.fromStr (s : Str) : Res LsErr Flags :=
  if s.isEmpty then .err .noField
  else
    let flags := fieldWords s
    if !(flags.filter (fun w => !validFields.contains w)).isEmpty then .err .unknown
    else
      let fc := fun w => flags.contains w
      let out : Flags := {
        name := fc c!"N" || fc c!"name"
        file := fc c!"F" || fc c!"file"
        subnames := fc c!"S" || fc c!"subnames"
        parts := fc c!"P" || fc c!"parts"
        partof := fc c!"O" || fc c!"partof"
        impl := fc c!"I" || fc c!"impl"
        text := fc c!"T" || fc c!"text" }
      .ok (out.resolve (fc c!"A" || fc c!"all"))

/-- artifact-app/src/ls.rs L30-127 (`Ls`). -/
structure Ls where
  pattern : Option Str
  fields : Str
  long : Bool
  spc : Str
  tst : Str
  shown : Flags
  all : Bool
  outputTy : Str

/-- artifact-app/src/ls.rs L349-374 (`Flags::from_cmd`). -/
def Flags.fromCmd (cmd : Ls) : Flags :=
  let out := if cmd.long && !cmd.all && cmd.shown.len == 0 then Flags.empty.invert else cmd.shown
  out.resolve cmd.all

/-- artifact-app/src/ls.rs L169-178: the pattern that is compiled, without regard to case unless it starts with an option group. -/
def searchPattern (p : Str) : Str := if c!"(?".isPrefixOf p then p else c!"(?i)" ++ p

/-- artifact-app/src/ls.rs L182-210: whether an artifact is kept. `m` is `Regex::is_match`. -/
def keeps (m : Str → Bool) (fields : Flags) (a : Artifact) : Bool :=
  (!fields.name || m a.name.raw) && (!fields.file || m a.file) && (!fields.parts || !a.parts.all (fun n => !m n.raw)) &&
    (!fields.partof || !a.partof.all (fun n => !m n.raw)) && (!fields.text || m a.text)

/-- artifact-app/src/ls.rs L166-213 (`filter_artifacts`). `compile` is `Regex::new` with `is_match`. -/
def filterArtifacts (compile : Str → Option (Str → Bool)) (cmd : Ls) (arts : IMap Name Artifact) : Res LsErr (ISet Name) := do
  let fields ← Flags.fromStr cmd.fields
  if fields.impl then .err .implField
  else match cmd.pattern with
    | none => .ok (ISet.collect (arts.map Prod.fst))
    | some p => match compile (searchPattern p) with
      | none => .err .pattern
      | some m => .ok (ISet.collect ((arts.filter (fun x => keeps m fields x.2)).map Prod.fst))

/-- artifact-app/src/ls.rs L266-274 (`OutputType::from_str`): `true` is JSON. -/
def outputJson (s : Str) : Res LsErr Bool :=
  if s = c!"list" then .ok false else if s = c!"json" then .ok true else .err .output

/-- artifact-app/src/ls.rs L136-163: the artifacts shown, in order. `panic` is `project.artifacts[name]` (L151, L253) of a name that is not there. -/
def lsShown (compile : Str → Option (Str → Bool)) (cmd : Ls) : Res Categorized (Categorized × Project) → Res LsErr (List Artifact)
  | .err c => .err (.load c)
  | .panic => .panic
  | .ok (_, p) => do
    let filtered ← filterArtifacts compile cmd p.artifacts
    let names := sortNames filtered
    let json ← outputJson cmd.outputTy
    if json then .ok (names.filterMap (IMap.get? p.artifacts))
    else Res.mapM' (fun n => match IMap.get? p.artifacts n with
      | some a => .ok a
      | none => .panic) names

/-! ## the table -/

/-- The columns of the table. artifact-app/src/ls.rs L223-244. -/
inductive Column where
  | spc | tst | name | subnames | parts | partof | file | impl | text
  deriving DecidableEq, Repr

/-- artifact-app/src/ls.rs L223-244: the header. -/
def headerColumns (f : Flags) : List Column :=
  [.spc, .tst] ++ (if f.name then [.name] else []) ++ (if f.subnames then [.subnames] else []) ++ (if f.parts then [.parts] else []) ++
    (if f.partof then [.partof] else []) ++ (if f.file then [.file] else []) ++ (if f.impl then [.impl] else []) ++ (if f.text then [.text] else [])

/-- artifact-app/src/ls.rs L433-474 (`line_style`): the cells of a row, each with what it is about. -/
def rowColumns (f : Flags) : List Column :=
  [.spc] ++ [.tst] ++ (if f.name then [.name] else []) ++ (if f.subnames then [.subnames] else []) ++ (if f.parts then [.parts] else []) ++
    (if f.partof then [.partof] else []) ++ (if f.file then [.file] else []) ++ (if f.impl then [.impl] else []) ++ (if f.text then [.text] else [])

/-- artifact-app/src/ls.rs L552-568 (`lookup_name_styles`): the pieces of text, without colours. -/
def nameTexts (names : List Name) : List Str := (names.flatMap (fun n => [n.raw, c!", "])).dropLast

/-- artifact-app/src/ls.rs L484-489 (`extend_names!`): the lines for `parts` or `partof` in the long form. -/
def longNames (names : List Name) : List Str := (nameTexts names).map (fun t => c!"- " ++ t)

/-! ## colours -/

/-- artifact-ser/src/lib.rs L292-302 (`Completed::spc_points`). -/
def Completed.spcPoints (c : Completed) : Nat := if c.spc ≥ 1 then 3 else if c.spc ≥ 7 / 10 then 2 else if c.spc ≥ 4 / 10 then 1 else 0

/-- artifact-ser/src/lib.rs L307-315 (`Completed::tst_points`). -/
def Completed.tstPoints (c : Completed) : Nat := if c.tst ≥ 1 then 2 else if c.tst ≥ 5 / 10 then 1 else 0

/-- The colours used by `termstyle` in artifact-app/src/ls.rs. L577-609. -/
inductive TermColor where
  | red | yellow | blue | green
  deriving DecidableEq, Repr

/-- artifact-app/src/ls.rs L600-608 (`name_color`). -/
def Completed.termColor (c : Completed) : Res Unit TermColor :=
  match c.spcPoints + c.tstPoints with
  | 0 => .ok .red
  | 1 | 2 => .ok .yellow
  | 3 | 4 => .ok .blue
  | 5 => .ok .green
  | _ => .panic

/-- artifact-app/src/ls.rs L577-586 (`spc_style`). -/
def Completed.spcColor (c : Completed) : Res Unit TermColor :=
  match c.spcPoints with
  | 0 => .ok .red
  | 1 => .ok .yellow
  | 2 => .ok .blue
  | 3 => .ok .green
  | _ => .panic

/-- artifact-app/src/ls.rs L589-597 (`tst_style`). -/
def Completed.tstColor (c : Completed) : Res Unit TermColor :=
  match c.tstPoints with
  | 0 => .ok .red
  | 1 => .ok .yellow
  | 2 => .ok .green
  | _ => .panic

/-- artifact-app/src/ls.rs L585, L596: a ratio as it is printed by `{:.1}` after multiplication with 100, in tenths of a percent.
Simplification: ties are rounded away from zero; the ratios of a loaded project are never ties. -/
def tenths (x : ℚ) : ℤ := roundQ (x * 1000)

/-- artifact-ser/src/markdown.rs L426-434 (`completed_color`) with the constants of L9-13. -/
def Completed.mdColor (c : Completed) : Res Unit Str :=
  match c.spcPoints + c.tstPoints with
  | 0 => .ok c!"#FF4136"
  | 1 | 2 => .ok c!"#FF851B"
  | 3 | 4 => .ok c!"#0074D9"
  | 5 => .ok c!"#3DA03D"
  | _ => .panic

/-- artifact-frontend/src/artifact.rs L110-118 (`name_color`) with the constants of artifact-frontend/src/dev_prelude.rs L95-99. -/
def Completed.webColor (c : Completed) : Res Unit Str :=
  match c.spcPoints + c.tstPoints with
  | 0 => .ok c!"#FF4136"
  | 1 | 2 => .ok c!"#FF851B"
  | 3 | 4 => .ok c!"#0074D9"
  | 5 => .ok c!"#3DA03D"
  | _ => .panic

/-! ## small text conversions -/

/-- artifact-ser/src/ser.rs L118-130 (`SettingsSer::trim_base`). -/
def trimBase (base path : Str) : Str :=
  if base.isPrefixOf path then
    let path := path.drop base.length
    if c!"/".isPrefixOf path then path.drop 1 else path
  else path

/-- artifact-ser/src/lib.rs L374-383 (`ModifyErrorKind::as_str`). -/
def ModifyErrorKind.asStr : ModifyErrorKind → Str
  | .invalidFromLoad => c!"InvalidFromLoad"
  | .invalidPaths => c!"InvalidPaths"
  | .hashMismatch => c!"HashMismatch"
  | .invalidFromModify => c!"InvalidFromModify"
  | .createBackups => c!"CreateBackups"
  | .saveProject => c!"SaveProject"

/-- artifact-ser/src/lib.rs L361-372 (`ModifyErrorKind::from_str`). -/
def ModifyErrorKind.fromStr (s : Str) : Option ModifyErrorKind :=
  if s = c!"InvalidFromLoad" then some .invalidFromLoad
  else if s = c!"InvalidPaths" then some .invalidPaths
  else if s = c!"HashMismatch" then some .hashMismatch
  else if s = c!"InvalidFromModify" then some .invalidFromModify
  else if s = c!"CreateBackups" then some .createBackups
  else if s = c!"SaveProject" then some .saveProject
  else none

/-- artifact-ser/src/lib.rs L396-399 (`Method`). -/
inductive Method where
  | readProject | modifyProject
  deriving DecidableEq, Repr

/-- artifact-ser/src/lib.rs L411-416 (`Method::as_str`). -/
def Method.asStr : Method → Str
  | .readProject => c!"ReadProject"
  | .modifyProject => c!"ModifyProject"

/-- artifact-ser/src/lib.rs L402-409 (`Method::from_str`). -/
def Method.fromStr (s : Str) : Option Method :=
  if s = c!"ReadProject" then some .readProject else if s = c!"ModifyProject" then some .modifyProject else none

end Art
