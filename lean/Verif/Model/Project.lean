import Verif.Model.Raw

/-!
# Projects and their lints
Models `ProjectExt` and the lint functions of artifact-data/src/project.rs.
-/

namespace Art

/-- artifact-lib/src/lib.rs L360-378 (`Settings`); the export settings are left out. -/
structure Settings where
  base : FilePath
  settingsPath : FilePath
  codePaths : ISet FilePath
  excludeCodePaths : ISet FilePath
  artifactPaths : ISet FilePath
  excludeArtifactPaths : ISet FilePath
  codeUrl : Option Str
  mdName : MdName
  mdAttrs : MdAttrs
  deriving DecidableEq

/-- artifact-lib/src/lib.rs L390-395 (`Project`). -/
structure Project where
  settings : Settings
  codeImpls : IMap Name ImplCode
  artifacts : IMap Name Artifact
  deriving DecidableEq

/-- The prefix of name lines, artifact-data/src/raw.rs L153, L351. -/
def Settings.pre (s : Settings) : Str := s.mdName.toPrefix

/-- A lint of category `Artifact` (artifact-data/src/project.rs L190-196, L221-227, L238-247, L339-345, L374-384). -/
def artLint (level : Level) (file : FilePath) (msg : Str) : Lint := ⟨level, some file, none, .artifact, msg⟩

/-- artifact-data/src/project.rs L184-202 (`lint_partof_dne`). -/
def lintPartofDne (p : Project) : List Lint :=
  p.artifacts.flatMap fun x => x.2.partof.filterMap fun pof =>
    if IMap.contains p.artifacts pof then none
    else some (artLint .error x.2.file (x.1.raw ++ c!" defines partof=" ++ pof.raw ++ c!" which does not exist"))

/-- artifact-data/src/project.rs L209-217: the table of invalid types. -/
def invalidTypes : Ty → Ty → Bool
  | .REQ, .SPC => true
  | .REQ, .TST => true
  | .SPC, .TST => true
  | _, _ => false

/-- artifact-data/src/project.rs L203-232 (`lint_partof_types`). -/
def lintPartofTypes (p : Project) : List Lint :=
  p.artifacts.flatMap fun x => x.2.partof.filterMap fun pof =>
    if invalidTypes x.1.ty pof.ty then
      some (artLint .error x.2.file (x.1.raw ++ c!" cannot have `partof` " ++ pof.raw ++ c!": invalid types."))
    else none

/-- artifact-lib/src/lib.rs L177-183 (`Impl::is_done`). -/
def Impl.isDone : Impl → Bool
  | .done _ => true
  | _ => false

/-- artifact-data/src/project.rs L234-253 (`lint_artifact_done_subnames`). -/
def lintDoneSubnames (p : Project) : List Lint :=
  p.artifacts.filterMap fun x =>
    if x.2.impl.isDone && !x.2.subnames.isEmpty then
      some (artLint .error x.2.file (x.1.raw ++ c!": subnames are defined when the `done` field is set."))
    else none

/-- artifact-data/src/project.rs L256-265: the closure `send_lint` of `lint_code_impls`. -/
def codeLint (n : Name) (sub : Option SubName) (loc : CodeLoc) (msg : Str) : Lint :=
  ⟨.warn, some loc.file, some loc.line, .implCode, c!"Invalid code impl #" ++ n.full sub ++ c!". " ++ msg⟩

/-- All locations of one artifact, each with the same message: artifact-data/src/project.rs L272-277 and L298-313. -/
def codeLintAll (n : Name) (c : ImplCode) (msg : Str) : List Lint :=
  (match c.primary with
    | some loc => [codeLint n none loc msg]
    | none => []) ++ c.secondary.map (fun y => codeLint n (some y.1) y.2 msg)

/-- artifact-data/src/project.rs L266-315: one round of the loop of `lint_code_impls`. -/
def codeLintStep (p : Project) (x : Name × ImplCode) : List Lint :=
  match IMap.get? p.artifacts x.1 with
  | some art =>
    match art.impl with
    | .done _ => codeLintAll x.1 x.2 c!"Artifact's done field is set"
    | .code _ => x.2.secondary.filterMap fun y =>
        if ISet.contains art.subnames y.1 then none
        else some (codeLint x.1 (some y.1) y.2 (c!"Subname [[" ++ y.1.raw ++ c!"]] does not exist in artifact's text"))
    | .notImpl => []
  | none => codeLintAll x.1 x.2 (c!"Artifact " ++ x.1.raw ++ c!" does not exist")

/-- artifact-data/src/project.rs L255-316 (`lint_code_impls`). -/
def lintCodeImpls (p : Project) : List Lint := p.codeImpls.flatMap (codeLintStep p)

/-- artifact-data/src/project.rs L318-333 (`lint_settings`). -/
def lintSettings (L : Libs) (p : Project) : List Lint :=
  match p.settings.codeUrl with
  | none => []
  | some fmt => match L.urlErr fmt with
    | none => []
    | some e => [⟨.error, some p.settings.settingsPath, none, .settings, e⟩]

/-- artifact-data/src/project.rs L350-366: the lints for one line. -/
def textLintLine (L : Libs) (pre : Str) (n : Name) (file : FilePath) (line : Str) : List Lint :=
  if (nameLineRe L.fold pre).isFull line then
    [artLint .error file (n.raw ++ c!" text is invalid: Cannot have a line of the form \"# ART-name\" as that specifies a new artifact in the markdown format.")]
  else if attrsEndRe.isFull line then
    [artLint .error file (n.raw ++ c!" text is invalid: Cannot have a line of the form \"###+\" as that specifies the end of the metadata in the markdown format.")]
  else []

/-- artifact-data/src/project.rs L335-368 (`lint_artifact_text`). -/
def lintText (L : Libs) (p : Project) : List Lint :=
  p.artifacts.flatMap fun x => (lines x.2.text).flatMap (textLintLine L p.settings.pre x.1 x.2.file)

/-- artifact-ser/src/name.rs L191-203 (`TEXT_REF_STR`): `(?xi)\[\[(?P<name>NAME)(?P<name_sub>\.(?:tst-)?[..]+)?\]\]`. Groups: 1 name, 2 subname. -/
def textRefRe : Re :=
  .seq (.litI c!"[[") (.seq (.cap 1 nameRe) (.seq (.opt (.cap 2 subRe)) (.litI c!"]]")))

/-- artifact-data/src/project.rs L373-386: the closure `send_lint` of `lint_artifact_text_refs`. -/
def refLint (n : Name) (file : FilePath) (r : Name) (sub : Option SubName) : Lint :=
  artLint .warn file (n.raw ++ c!" has soft reference [[" ++ r.full sub ++ c!"]] which does not exist.")

/-- artifact-data/src/project.rs L388-411: one reference; `panic` covers the two `expect!`s. -/
def refLintOf (p : Project) (n : Name) (file : FilePath) (m : Match) : Res Unit (List Lint) :=
  match Caps.get m.2.2 1 with
  | none => .panic
  | some s =>
    match Name.fromStr s with
    | .ok r =>
      let sub := (Caps.get m.2.2 2).map SubName.mk
      .ok (match IMap.get? p.artifacts r, sub with
        | none, _ => [refLint n file r sub]
        | some a, some s => if ISet.contains a.subnames s then [] else [refLint n file r (some s)]
        | some _, none => [])
    | _ => .panic

/-- artifact-data/src/project.rs L388-411: the inner loop of `lint_artifact_text_refs`. -/
def refLintsOf (p : Project) (x : Name × Artifact) : Res Unit (List Lint) := do
  let l ← Res.mapM' (refLintOf p x.1 x.2.file) (textRefRe.findIter x.2.text)
  pure l.flatten

/-- artifact-data/src/project.rs L370-413 (`lint_artifact_text_refs`). -/
def lintTextRefs (p : Project) : Res Unit (List Lint) := do
  let l ← Res.mapM' (refLintsOf p) p.artifacts
  pure l.flatten

/-- artifact-data/src/project.rs L27-32 (`lint_errors`). -/
def Project.lintErrors (L : Libs) (p : Project) : List Lint :=
  lintPartofDne p ++ lintPartofTypes p ++ lintText L p ++ lintDoneSubnames p

/-- artifact-data/src/project.rs L35-39 (`lint_other`). -/
def Project.lintOther (L : Libs) (p : Project) : Res Unit (List Lint) := do
  let refs ← lintTextRefs p
  pure (refs ++ lintCodeImpls p ++ lintSettings L p)

/-- artifact-data/src/project.rs L21-24 (`lint`). -/
def Project.lint (L : Libs) (p : Project) : Res Unit (List Lint) := do
  let o ← p.lintOther L
  pure (p.lintErrors L ++ o)

end Art
