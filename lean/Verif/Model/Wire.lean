import Verif.Model.Json
import Verif.Model.Whole
import Verif.Model.Export

/-!
# Projects and messages as JSON texts
What the derived `Serialize` and `Deserialize` of artifact-ser/src/ser.rs, artifact-ser/src/lib.rs, artifact-ser/src/lint.rs and artifact-lib/src/lib.rs make of a project, the
calls of the page (artifact-frontend/src/fetch.rs) and the answers of the server (artifact-app/src/serve/handler.rs), `Project::to_ser` (artifact-lib/src/lib.rs L410-412),
`art ls --type json` (artifact-app/src/ls.rs L143-147), `initial.json` (artifact-app/src/frontend.rs L36) and the texts of lints (artifact-ser/src/lint.rs L107-120).

Simplifications. A path is sent as it is; path_abs escapes backslashes and control characters in it. How floating point numbers are written and read is a parameter. The
export settings, which `Settings` leaves out, are given separately. The fields of an object are read in the order of the declaration, not of the text: if one of them cannot be read
and another one panics, the model may choose the other of the two failures. Numbers in a `json::Value` are kept as they are written. `jrpc::parse_request` and the types of
`jrpc` are modelled after their documentation; which error is answered to a body that is no call is left open.
-/

namespace Art

/-! ## `json::Value` -/

/-- `BTreeMap::insert`, in which `json::Value` keeps the entries of an object (artifact-app/src/serve/handler.rs L88, L190). -/
def putField (k : Str) (v : Json) : List (Str × Json) → List (Str × Json)
  | [] => [(k, v)]
  | e :: l => if k = e.1 then (k, v) :: l else if k < e.1 then (k, v) :: e :: l else e :: putField k v l

mutual
/-- `json::to_value` (artifact-app/src/serve/handler.rs L88, L116, L160, L167) and `json::from_str::<Value>` (L190): entries are sorted, of entries with one key the last
one counts. -/
def Json.value : Json → Json
  | .null => .null
  | .bool b => .bool b
  | .num s => .num s
  | .str s => .str s
  | .arr l => .arr (valueList l)
  | .obj l => .obj (valueFields l [])
termination_by structural v => v
/-- The elements of an array (artifact-app/src/serve/handler.rs L88, L190). -/
def valueList : List Json → List Json
  | [] => []
  | v :: l => v.value :: valueList l
termination_by structural l => l
/-- The entries of an object, put into the entries there are already (artifact-app/src/serve/handler.rs L88, L190). -/
def valueFields : List (Str × Json) → List (Str × Json) → List (Str × Json)
  | [], acc => acc
  | (k, v) :: l, acc => valueFields l (putField k v.value acc)
termination_by structural l => l
end

/-! ## writing -/

/-- `Serialize for Option<T>`, for artifact-ser/src/ser.rs L29, L105, L199, L236. -/
def Json.ofOption {α : Type} (f : α → Json) : Option α → Json
  | none => .null
  | some a => f a

/-- `Serialize` for unsigned numbers, for `line` (artifact-lib/src/lib.rs L123, artifact-ser/src/lint.rs L34) and ids (artifact-frontend/src/fetch.rs L78, L115). -/
def Json.ofNat (n : Nat) : Json := .num (showNat n)

/-- artifact-ser/src/name.rs L285-292 (`Serialize for Name`). -/
def Name.toJson (n : Name) : Json := .str n.raw

/-- artifact-ser/src/name.rs L409-416 (`Serialize for SubName`). -/
def SubName.toJson (s : SubName) : Json := .str s.raw

/-- artifact-ser/src/lib.rs L249-257 (`Serialize for HashIm`). -/
def HashIm.toJson (h : HashIm) : Json := .str h.ser

/-- artifact-lib/src/lib.rs L119-124 (`CodeLoc`). -/
def CodeLoc.toJson (c : CodeLoc) : Json := .obj [(c!"file", .str c.file), (c!"line", .ofNat c.line)]

/-- artifact-lib/src/lib.rs L112-117 (`ImplCode`). -/
def ImplCode.toJson (c : ImplCode) : Json :=
  .obj [(c!"primary", .ofOption CodeLoc.toJson c.primary), (c!"secondary", .obj (c.secondary.map fun x => (x.1.raw, x.2.toJson)))]

/-- artifact-lib/src/lib.rs L100-110 (`Impl`, `tag = "type"`, `content = "value"`). -/
def Impl.toJson : Impl → Json
  | .done s => .obj [(c!"type", .str c!"Done"), (c!"value", .str s)]
  | .code c => .obj [(c!"type", .str c!"Code"), (c!"value", c.toJson)]
  | .notImpl => .obj [(c!"type", .str c!"NotImpl")]

/-- artifact-ser/src/lib.rs L274-281 (`Completed`); `w` writes numbers. -/
def Completed.toJson (w : ℚ → Str) (c : Completed) : Json := .obj [(c!"spc", .num (w c.spc)), (c!"tst", .num (w c.tst))]

/-- artifact-lib/src/lib.rs L47-74 (`Artifact`). -/
def Artifact.toJson (w : ℚ → Str) (a : Artifact) : Json :=
  .obj [(c!"id", a.id.toJson), (c!"name", a.name.toJson), (c!"file", .str a.file), (c!"partof", .arr (a.partof.map Name.toJson)), (c!"parts", .arr (a.parts.map Name.toJson)),
    (c!"completed", a.completed.toJson w), (c!"text", .str a.text), (c!"impl_", a.impl.toJson), (c!"subnames", .arr (a.subnames.map SubName.toJson))]

/-- artifact-ser/src/lib.rs L147-159 (`SettingsMdName`, `tag = "type"`). -/
def MdName.toJson : MdName → Json
  | .default => .obj [(c!"type", .str c!"default")]
  | .pre v => .obj [(c!"type", .str c!"prefix"), (c!"value", .str v)]

/-- artifact-ser/src/lib.rs L196-217 (`SettingsMdAttrs`, `tag = "type"`). -/
def MdAttrs.toJson : MdAttrs → Json
  | .hashes => .obj [(c!"type", .str c!"hashes")]
  | .code p => .obj [(c!"type", .str c!"code"), (c!"prefix", .ofOption .str p)]

/-- artifact-ser/src/lib.rs L115-120 (`SettingsMdFamily`, `tag = "type"`). -/
def MdFamily.toJson : MdFamily → Json
  | .list => .obj [(c!"type", .str c!"list")]
  | .dot => .obj [(c!"type", .str c!"dot")]

/-- artifact-ser/src/lib.rs L128-139 (`SettingsMdDot`, `tag = "type"`). -/
def MdDot.toJson : MdDot → Json
  | .ignore => .obj [(c!"type", .str c!"ignore")]
  | .removeBraces => .obj [(c!"type", .str c!"remove_braces")]
  | .replaceBraces pre post => .obj [(c!"type", .str c!"replace_braces"), (c!"pre", .str pre), (c!"post", .str post)]

/-- artifact-ser/src/lib.rs L80-109 (`SettingsExport`). -/
structure WireExport where
  header : Option Str
  toc : Bool
  family : MdFamily
  dot : MdDot
  name : MdName
  deriving DecidableEq

/-- artifact-ser/src/lib.rs L81 (the derived `Default for SettingsExport`). The derived default of a boolean is `false`. -/
def WireExport.default : WireExport := ⟨none, false, .list, .ignore, .default⟩

/-- artifact-ser/src/lib.rs L80-109 (`SettingsExport`). -/
def WireExport.toJson (e : WireExport) : Json :=
  .obj [(c!"md_header", .ofOption .str e.header), (c!"md_toc", .bool e.toc), (c!"md_family", e.family.toJson), (c!"md_dot", e.dot.toJson), (c!"md_name", e.name.toJson)]

/-- artifact-lib/src/lib.rs L360-378 (`Settings`). -/
def Settings.toJson (e : WireExport) (s : Settings) : Json :=
  .obj [(c!"base", .str s.base), (c!"settings_path", .str s.settingsPath), (c!"code_paths", .arr (s.codePaths.map .str)), (c!"exclude_code_paths", .arr (s.excludeCodePaths.map .str)),
    (c!"artifact_paths", .arr (s.artifactPaths.map .str)), (c!"exclude_artifact_paths", .arr (s.excludeArtifactPaths.map .str)), (c!"code_url", .ofOption .str s.codeUrl),
    (c!"parse", .obj [(c!"md_name", s.mdName.toJson)]), (c!"format", .obj [(c!"md_attrs", s.mdAttrs.toJson)]), (c!"export", e.toJson)]

/-- artifact-lib/src/lib.rs L390-395 (`Project`). -/
def Project.toJson (w : ℚ → Str) (e : WireExport) (p : Project) : Json :=
  .obj [(c!"settings", p.settings.toJson e), (c!"code_impls", .obj (p.codeImpls.map fun x => (x.1.raw, x.2.toJson))),
    (c!"artifacts", .obj (p.artifacts.map fun x => (x.1.raw, x.2.toJson w)))]

/-- artifact-ser/src/lint.rs L46-51 (`Level`). -/
def Level.wire : Level → Str
  | .error => c!"Error"
  | .warn => c!"Warn"

/-- artifact-ser/src/lint.rs L53-71 (`Category`). -/
def Category.wire : Category → Str
  | .loadPaths => c!"LoadPaths"
  | .parseCodeImplementations => c!"ParseCodeImplementations"
  | .parseArtifactFiles => c!"ParseArtifactFiles"
  | .autoPartof => c!"AutoPartof"
  | .artifact => c!"Artifact"
  | .settings => c!"Settings"
  | .implCode => c!"ImplCode"
  | .modifyPathInvalid => c!"ModifyPathInvalid"
  | .createExists => c!"CreateExists"
  | .updateDne => c!"UpdateDne"
  | .deleteDne => c!"DeleteDne"
  | .idOverlap => c!"IdOverlap"
  | .createBackups => c!"CreateBackups"
  | .saveProject => c!"SaveProject"
  | .removeBackups => c!"RemoveBackups"

/-- artifact-ser/src/lint.rs L27-37 (`Lint`): `path` and `line` are left out if there is none. -/
def Lint.toJson (l : Lint) : Json :=
  .obj ([(c!"level", .str l.level.wire)] ++ l.path.toList.map (fun p => (c!"path", .str p)) ++ l.line.toList.map (fun n => (c!"line", .ofNat n)) ++
    [(c!"category", .str l.category.wire), (c!"msg", .str l.msg)])

/-- artifact-ser/src/lint.rs L39-44 (`Categorized`). -/
def Categorized.toJson (c : Categorized) : Json := .obj [(c!"error", .arr (c.error.map Lint.toJson)), (c!"other", .arr (c.other.map Lint.toJson))]

/-- artifact-lib/src/lib.rs L382-388 (`ProjectResult`). -/
def ProjectResult.toJson (w : ℚ → Str) (e : WireExport) (r : ProjectResult) : Json := .obj [(c!"project", r.project.toJson w e), (c!"lints", r.lints.toJson)]

/-- artifact-ser/src/ser.rs L33-42 (`WebType`). -/
def Web.WebType.wire : Web.WebType → Str
  | .editable => c!"Editable"
  | .readonly => c!"Readonly"
  | .static => c!"Static"

/-- artifact-ser/src/ser.rs L26-31 (`ProjectInitialSer`), written to `initial.json` (artifact-app/src/frontend.rs L36). -/
def initialJson (w : ℚ → Str) (e : WireExport) (p : Option Project) (t : Web.WebType) : Json :=
  .obj [(c!"project", .ofOption (Project.toJson w e) p), (c!"web_type", .str t.wire)]

/-- artifact-ser/src/ser.rs L231-238 (`ArtifactImSer`). -/
def WireIm.toJson (a : WireIm) : Json :=
  .obj [(c!"name", .str a.name), (c!"file", .str a.file), (c!"partof", .arr (a.partof.map .str)), (c!"done", .ofOption .str a.done), (c!"text", .str a.text)]

/-- artifact-ser/src/ser.rs L50-64 (`ArtifactOpSer`, `tag = "op"`). -/
def WireOp.toJson : WireOp → Json
  | .create a => .obj [(c!"op", .str c!"create"), (c!"artifact", a.toJson)]
  | .update a id => .obj [(c!"op", .str c!"update"), (c!"artifact", a.toJson), (c!"orig_id", .str id)]
  | .delete n id => .obj [(c!"op", .str c!"delete"), (c!"name", .str n), (c!"orig_id", .str id)]

/-- `jrpc::Request`, made at artifact-frontend/src/fetch.rs L77-81 and L115-116. -/
def callJson (jid : Nat) (method : Str) (params : Json) : Json :=
  .obj [(c!"jsonrpc", .str c!"2.0"), (c!"method", .str method), (c!"params", params), (c!"id", .ofNat jid)]

/-- artifact-frontend/src/fetch.rs L22-31, L63-85, L88-120: the body of a request. The initial request has none (L43). -/
def Web.Req.body : Web.Req → Option Str
  | .initial => none
  | .read jid reload => some (callJson jid c!"ReadProject" (.obj [(c!"reload", .bool reload)])).show
  | .modify jid ops => some (callJson jid c!"ModifyProject" (.arr (ops.map fun op => (Whole.wireOp op).toJson))).show

/-- artifact-ser/src/lib.rs L374-383 (`ModifyErrorKind::as_str`). -/
def ModifyErrorKind.wire : ModifyErrorKind → Str
  | .invalidFromLoad => c!"InvalidFromLoad"
  | .invalidPaths => c!"InvalidPaths"
  | .hashMismatch => c!"HashMismatch"
  | .invalidFromModify => c!"InvalidFromModify"
  | .createBackups => c!"CreateBackups"
  | .saveProject => c!"SaveProject"

/-- `jrpc::Response::error` (artifact-app/src/serve/handler.rs L99, L112, L137, L149, L156). -/
def errorJson (id : Json) (code msg : Str) (data : Option Json) : Json :=
  .obj [(c!"jsonrpc", .str c!"2.0"), (c!"error", .obj ([(c!"code", .num code), (c!"message", .str msg)] ++ data.toList.map fun d => (c!"data", d))), (c!"id", id)]

/-- artifact-app/src/serve/handler.rs L77-206: the body of an answer to the call with this id. `msg` is the message that says what cannot be read. The error of a body that is no call
(L195) stands for any. -/
def Reply.body (w : ℚ → Str) (e : WireExport) (msg : Str) (id : Json) : Reply → Option Str
  | .rejected => some (errorJson .null c!"-32600" msg none).show
  | .invalidParams => some (errorJson id c!"-32602" msg none).show
  | .serverError kind lints => some (errorJson id c!"-32000" kind.wire (some lints.toJson.value)).show
  | .success r => some (Json.obj [(c!"jsonrpc", .str c!"2.0"), (c!"result", (r.toJson w e).value), (c!"id", id)]).show
  | .dropped => none

/-! ## reading -/

/-- `Option` as a result: an error of the derived `Deserialize` (artifact-ser/src/ser.rs L24-238). -/
def needed {α : Type} : Option α → Res Unit α
  | some a => .ok a
  | none => .err ()

/-- A field that must be there, as most of artifact-ser/src/ser.rs L24-238. -/
def reqField {α : Type} (f : Json → Res Unit α) : Option Json → Res Unit α
  | none => .err ()
  | some v => f v

/-- A field that is an `Option<T>`, as artifact-ser/src/ser.rs L29, L105, L199, L236. -/
def optField {α : Type} (f : Json → Res Unit α) : Option Json → Res Unit (Option α)
  | none => .ok none
  | some .null => .ok none
  | some v => do
    let a ← f v
    .ok (some a)

/-- A field with `#[serde(default)]`, as artifact-ser/src/lib.rs L68, L76, L90-108. -/
def defField {α : Type} (d : α) (f : Json → Res Unit α) : Option Json → Res Unit α
  | none => .ok d
  | some v => f v

/-- `Deserialize for String`, e.g. for artifact-ser/src/ser.rs L141. -/
def deStr (v : Json) : Res Unit Str := needed v.toStr

/-- `Deserialize for bool`, for artifact-ser/src/lib.rs L96, L423. -/
def deBool : Json → Res Unit Bool
  | .bool b => .ok b
  | _ => .err ()

/-- `Deserialize for u64`, for artifact-ser/src/ser.rs L206 and artifact-ser/src/lint.rs L34: a number without point, exponent and sign that is not too large. -/
def deU64 : Json → Res Unit Nat
  | .num s => if s.all isDig ∧ decVal s < 2 ^ 64 then .ok (decVal s) else .err ()
  | _ => .err ()

/-- `Deserialize for f32`, for artifact-ser/src/lib.rs L278-280; `read` reads the text of a number. -/
def deF32 (read : Str → Option ℚ) : Json → Res Unit ℚ
  | .num s => needed (read s)
  | _ => .err ()

/-- `Deserialize for Vec<T>`, for artifact-ser/src/lint.rs L42-43 and artifact-app/src/serve/handler.rs L146. -/
def deList {α : Type} (f : Json → Res Unit α) : Json → Res Unit (List α)
  | .arr l => Res.mapM' f l
  | _ => .err ()

/-- `Deserialize for IndexSet<T>`, for artifact-ser/src/ser.rs L138-139, L143 and L101-104. -/
def deSet {α κ : Type} [HasKey α κ] [DecidableEq κ] (f : Json → Res Unit α) (v : Json) : Res Unit (ISet α) := do
  let l ← deList f v
  .ok (ISet.collect l)

/-- One entry of a map (artifact-ser/src/ser.rs L69-70, L200). -/
def deEntry {α β : Type} (k : Str → Res Unit α) (f : Json → Res Unit β) (e : Str × Json) : Res Unit (α × β) := do
  let a ← k e.1
  let b ← f e.2
  .ok (a, b)

/-- `Deserialize for IndexMap<K, T>`, for artifact-ser/src/ser.rs L69-70, L200. -/
def deMap {α β κ : Type} [HasKey α κ] [DecidableEq κ] (k : Str → Res Unit α) (f : Json → Res Unit β) : Json → Res Unit (IMap α β)
  | .obj l => do
    let l ← Res.mapM' (deEntry k f) l
    .ok (IMap.collect l)
  | _ => .err ()

/-- The derived `Deserialize` of a struct (artifact-ser/src/ser.rs L24-238): its fields. An array is read field by field; one that leaves out fields is not read. -/
def deFields (names : List Str) (v : Json) : Res Unit (List (Option Json)) := needed (v.fields names)

/-- The derived `Deserialize` of an enum whose variants have no fields (artifact-ser/src/ser.rs L33-42, artifact-ser/src/lint.rs L46-71, artifact-ser/src/lib.rs L394-399): its name, or an object with its name and `null`. -/
def deVariant : Json → Res Unit Str
  | .str s => .ok s
  | .obj [(k, .null)] => .ok k
  | _ => .err ()

/-- The derived `Deserialize` of an enum with `tag = …` (artifact-ser/src/lib.rs L115-217, artifact-lib/src/lib.rs L296-312): the tag and the rest. An array has the tag first. -/
def deTag (tag : Str) : Json → Res Unit (Str × Json)
  | .obj l => do
    let t ← needed (oneField l tag)
    let t ← reqField deStr t
    .ok (t, .obj (l.filter fun e => e.1 ≠ tag))
  | .arr (t :: l) => do
    let t ← deStr t
    .ok (t, .arr l)
  | _ => .err ()

/-- artifact-ser/src/name.rs L418-426 (`Deserialize for SubName`). -/
def wireSub (s : Str) : Res Unit SubName :=
  match SubName.fromStr s with
  | .ok n => .ok n
  | .err _ => .err ()
  | .panic => .panic

/-- artifact-ser/src/name.rs L294-302 (`Deserialize for Name`). -/
def deName (v : Json) : Res Unit Name := do
  let s ← deStr v
  wireName s

/-- artifact-ser/src/name.rs L418-426 (`Deserialize for SubName`). -/
def deSub (v : Json) : Res Unit SubName := do
  let s ← deStr v
  wireSub s

/-- artifact-ser/src/lib.rs L259-270 (`Deserialize for HashIm`). -/
def deHash (strict : Bool) (v : Json) : Res Unit HashIm := do
  let s ← deStr v
  HashIm.de strict s

/-- artifact-ser/src/ser.rs L203-207 (`CodeLocSer`). -/
def deCodeLoc (v : Json) : Res Unit CodeLoc := do
  match ← deFields [c!"file", c!"line"] v with
  | [f, l] => do
    let f ← reqField deStr f
    let l ← reqField deU64 l
    .ok ⟨f, l⟩
  | _ => .err ()

/-- artifact-ser/src/ser.rs L197-201 (`ImplCodeSer`). -/
def deImplCode (v : Json) : Res Unit ImplCode := do
  match ← deFields [c!"primary", c!"secondary"] v with
  | [p, s] => do
    let p ← optField deCodeLoc p
    let s ← reqField (deMap wireSub deCodeLoc) s
    .ok ⟨p, s⟩
  | _ => .err ()

/-- artifact-ser/src/ser.rs L146-152 (`ImplSer`, `tag = "type"`, `content = "value"`). -/
def deImpl (v : Json) : Res Unit Impl := do
  match ← deFields [c!"type", c!"value"] v with
  | [t, c] => do
    let t ← reqField deVariant t
    if t = c!"Done" then do
      let s ← reqField deStr c
      .ok (.done s)
    else if t = c!"Code" then do
      let c ← reqField deImplCode c
      .ok (.code c)
    else if t = c!"NotImpl" then
      match c with
      | none => .ok .notImpl
      | some .null => .ok .notImpl
      | _ => .err ()
    else .err ()
  | _ => .err ()

/-- artifact-ser/src/lib.rs L274-281 (`Completed`). -/
def deCompleted (read : Str → Option ℚ) (v : Json) : Res Unit Completed := do
  match ← deFields [c!"spc", c!"tst"] v with
  | [s, t] => do
    let s ← reqField (deF32 read) s
    let t ← reqField (deF32 read) t
    .ok ⟨s, t⟩
  | _ => .err ()

/-- artifact-ser/src/ser.rs L133-144 (`ArtifactSer`). -/
def deArtifact (strict : Bool) (read : Str → Option ℚ) (v : Json) : Res Unit Artifact := do
  match ← deFields [c!"id", c!"name", c!"file", c!"partof", c!"parts", c!"completed", c!"text", c!"impl_", c!"subnames"] v with
  | [id, name, file, partof, parts, completed, text, impl, subnames] => do
    let id ← reqField (deHash strict) id
    let name ← reqField deName name
    let file ← reqField deStr file
    let partof ← reqField (deSet deName) partof
    let parts ← reqField (deSet deName) parts
    let completed ← reqField (deCompleted read) completed
    let text ← reqField deStr text
    let impl ← reqField deImpl impl
    let subnames ← reqField (deSet deSub) subnames
    .ok ⟨id, name, file, partof, parts, completed, text, impl, subnames⟩
  | _ => .err ()

/-- artifact-ser/src/lib.rs L147-159 (`SettingsMdName`). -/
def deMdName (v : Json) : Res Unit MdName := do
  let (t, r) ← deTag c!"type" v
  if t = c!"default" then .ok .default
  else if t = c!"prefix" then do
    match ← deFields [c!"value"] r with
    | [x] => do
      let x ← reqField deStr x
      .ok (.pre x)
    | _ => .err ()
  else .err ()

/-- artifact-ser/src/lib.rs L196-217 (`SettingsMdAttrs`). -/
def deMdAttrs (v : Json) : Res Unit MdAttrs := do
  let (t, r) ← deTag c!"type" v
  if t = c!"hashes" then .ok .hashes
  else if t = c!"code" then do
    match ← deFields [c!"prefix"] r with
    | [x] => do
      let x ← optField deStr x
      .ok (.code x)
    | _ => .err ()
  else .err ()

/-- artifact-ser/src/lib.rs L115-120 (`SettingsMdFamily`). -/
def deMdFamily (v : Json) : Res Unit MdFamily := do
  let (t, _) ← deTag c!"type" v
  if t = c!"list" then .ok .list else if t = c!"dot" then .ok .dot else .err ()

/-- artifact-ser/src/lib.rs L128-139 (`SettingsMdDot`). -/
def deMdDot (v : Json) : Res Unit MdDot := do
  let (t, r) ← deTag c!"type" v
  if t = c!"ignore" then .ok .ignore
  else if t = c!"remove_braces" then .ok .removeBraces
  else if t = c!"replace_braces" then do
    match ← deFields [c!"pre", c!"post"] r with
    | [x, y] => do
      let x ← reqField deStr x
      let y ← reqField deStr y
      .ok (.replaceBraces x y)
    | _ => .err ()
  else .err ()

/-- artifact-ser/src/lib.rs L80-109 (`SettingsExport`); L111-113 (`return_true`) is the default of `md_toc`. -/
def deExport (v : Json) : Res Unit WireExport := do
  match ← deFields [c!"md_header", c!"md_toc", c!"md_family", c!"md_dot", c!"md_name"] v with
  | [h, t, f, d, n] => do
    let h ← optField deStr h
    let t ← defField true deBool t
    let f ← defField .list deMdFamily f
    let d ← defField .ignore deMdDot d
    let n ← defField .default deMdName n
    .ok ⟨h, t, f, d, n⟩
  | _ => .err ()

/-- artifact-ser/src/lib.rs L64-70 (`SettingsParse`) and L72-78 (`SettingsFormat`): a struct with one field that has a default. -/
def deOnly {α : Type} (name : Str) (d : α) (f : Json → Res Unit α) (v : Json) : Res Unit α := do
  match ← deFields [name] v with
  | [x] => defField d f x
  | _ => .err ()

/-- artifact-ser/src/ser.rs L97-114 (`SettingsSer`). -/
def deSettings (v : Json) : Res Unit (WireExport × Settings) := do
  match ← deFields [c!"base", c!"settings_path", c!"code_paths", c!"exclude_code_paths", c!"artifact_paths", c!"exclude_artifact_paths", c!"code_url", c!"parse", c!"format",
    c!"export"] v with
  | [base, path, code, xcode, art, xart, url, parse, format, exp] => do
    let base ← reqField deStr base
    let path ← reqField deStr path
    let code ← reqField (deSet deStr) code
    let xcode ← reqField (deSet deStr) xcode
    let art ← reqField (deSet deStr) art
    let xart ← reqField (deSet deStr) xart
    let url ← optField deStr url
    let parse ← defField .default (deOnly c!"md_name" .default deMdName) parse
    let format ← defField .hashes (deOnly c!"md_attrs" .hashes deMdAttrs) format
    let exp ← defField .default deExport exp
    .ok (exp, ⟨base, path, code, xcode, art, xart, url, parse, format⟩)
  | _ => .err ()

/-- artifact-ser/src/ser.rs L66-71 (`ProjectSer`), with the export settings. -/
def deProject (strict : Bool) (read : Str → Option ℚ) (v : Json) : Res Unit (WireExport × Project) := do
  match ← deFields [c!"settings", c!"code_impls", c!"artifacts"] v with
  | [s, c, a] => do
    let s ← reqField deSettings s
    let c ← reqField (deMap wireName deImplCode) c
    let a ← reqField (deMap wireName (deArtifact strict read)) a
    .ok (s.1, ⟨s.2, c, a⟩)
  | _ => .err ()

/-- artifact-ser/src/lint.rs L46-51 (`Level`). -/
def deLevel (v : Json) : Res Unit Level := do
  let s ← deVariant v
  needed ([Level.error, .warn].find? fun l => l.wire = s)

/-- artifact-ser/src/lint.rs L53-71 (`Category`). -/
def deCategory (v : Json) : Res Unit Category := do
  let s ← deVariant v
  needed ([Category.loadPaths, .parseCodeImplementations, .parseArtifactFiles, .autoPartof, .artifact, .settings, .implCode, .modifyPathInvalid, .createExists, .updateDne,
    .deleteDne, .idOverlap, .createBackups, .saveProject, .removeBackups].find? fun l => l.wire = s)

/-- artifact-ser/src/lint.rs L27-37 (`Lint`). -/
def deLint (v : Json) : Res Unit Lint := do
  match ← deFields [c!"level", c!"path", c!"line", c!"category", c!"msg"] v with
  | [level, path, line, category, msg] => do
    let level ← reqField deLevel level
    let path ← optField deStr path
    let line ← optField deU64 line
    let category ← reqField deCategory category
    let msg ← reqField deStr msg
    .ok ⟨level, path, line, category, msg⟩
  | _ => .err ()

/-- artifact-ser/src/lint.rs L39-44 (`Categorized`). -/
def deCategorized (v : Json) : Res Unit Categorized := do
  match ← deFields [c!"error", c!"other"] v with
  | [e, o] => do
    let e ← reqField (deList deLint) e
    let o ← reqField (deList deLint) o
    .ok ⟨e, o⟩
  | _ => .err ()

/-- artifact-ser/src/ser.rs L44-48 (`ProjectResultSer`). -/
def deResult (strict : Bool) (read : Str → Option ℚ) (v : Json) : Res Unit (WireExport × ProjectResult) := do
  match ← deFields [c!"project", c!"lints"] v with
  | [p, l] => do
    let p ← reqField (deProject strict read) p
    let l ← reqField deCategorized l
    .ok (p.1, ⟨p.2, l⟩)
  | _ => .err ()

/-- artifact-ser/src/ser.rs L33-42 (`WebType`). -/
def deWebType (v : Json) : Res Unit Web.WebType := do
  let s ← deVariant v
  needed ([Web.WebType.editable, .readonly, .static].find? fun l => l.wire = s)

/-- artifact-ser/src/ser.rs L26-31 (`ProjectInitialSer`). -/
def deInitial (strict : Bool) (read : Str → Option ℚ) (v : Json) : Res Unit (Option (WireExport × Project) × Web.WebType) := do
  match ← deFields [c!"project", c!"web_type"] v with
  | [p, t] => do
    let p ← optField (deProject strict read) p
    let t ← reqField deWebType t
    .ok (p, t)
  | _ => .err ()

/-- artifact-lib/src/lib.rs L227-235 (`ArtifactIm`), before the names are parsed. -/
def deIm (v : Json) : Res Unit WireIm := do
  match ← deFields [c!"name", c!"file", c!"partof", c!"done", c!"text"] v with
  | [n, f, p, d, t] => do
    let n ← reqField deStr n
    let f ← reqField deStr f
    let p ← reqField (deList deStr) p
    let d ← optField deStr d
    let t ← reqField deStr t
    .ok ⟨n, f, p, d, t⟩
  | _ => .err ()

/-- artifact-lib/src/lib.rs L296-312 (`ArtifactOp`, `tag = "op"`), before the names and the ids are parsed. -/
def deOp (v : Json) : Res Unit WireOp := do
  let (t, r) ← deTag c!"op" v
  if t = c!"create" then do
    match ← deFields [c!"artifact"] r with
    | [a] => do
      let a ← reqField deIm a
      .ok (.create a)
    | _ => .err ()
  else if t = c!"update" then do
    match ← deFields [c!"artifact", c!"orig_id"] r with
    | [a, i] => do
      let a ← reqField deIm a
      let i ← reqField deStr i
      .ok (.update a i)
    | _ => .err ()
  else if t = c!"delete" then do
    match ← deFields [c!"name", c!"orig_id"] r with
    | [n, i] => do
      let n ← reqField deStr n
      let i ← reqField deStr i
      .ok (.delete n i)
    | _ => .err ()
  else .err ()

/-- The text of a number that is an `i64`, as `jrpc::Id` (artifact-app/src/serve/handler.rs L190) takes it (untagged): an integer that is not `-0` and not too large. -/
def isI64 : Str → Bool
  | '-' :: s => s.all isDig && s ≠ c!"0" && decVal s ≤ 2 ^ 63
  | s => s.all isDig && decVal s < 2 ^ 63

/-- `Deserialize for jrpc::Id` (artifact-app/src/serve/handler.rs L190, artifact-frontend/src/fetch.rs L160). -/
def deId : Json → Res Unit Json
  | .null => .ok .null
  | .str s => .ok (.str s)
  | .num s => if isI64 s then .ok (.num s) else .err ()
  | _ => .err ()

/-- `Deserialize for jrpc::V2_0` (artifact-app/src/serve/handler.rs L190, artifact-frontend/src/fetch.rs L160). -/
def deV2 (v : Json) : Res Unit Unit := do
  let s ← deStr v
  if s = c!"2.0" then .ok () else .err ()

/-- A result as an `Option` (artifact-app/src/serve/handler.rs L96, L146, L190-197: only whether there is an error counts). -/
def okOnly {α : Type} : Res Unit α → Option α
  | .ok a => some a
  | _ => none

/-- artifact-ser/src/lib.rs L419-424 (`ParamsReadProject`), read at artifact-app/src/serve/handler.rs L96. -/
def deReadParams : Json → Res Unit Bool := fun v => do
  match ← deFields [c!"reload"] v with
  | [r] => reqField deBool r
  | _ => .err ()

/-- artifact-app/src/serve/handler.rs L189-203, artifact-ser/src/lib.rs L394-399 (`Method`): a call and its id. -/
def deCall (v : Json) : Res Unit (Json × Request) := do
  match ← deFields [c!"jsonrpc", c!"method", c!"params", c!"id"] v with
  | [j, m, p, i] => do
    let _ ← reqField deV2 j
    let m ← reqField deVariant m
    let p ← optField (fun v => Res.ok v) p
    let i ← defField .null deId i
    if m = c!"ReadProject" then .ok (i, .read (p.map fun v => okOnly (deReadParams v)))
    else if m = c!"ModifyProject" then .ok (i, .modify (p.map fun v => okOnly (deList deOp v)))
    else .err ()
  | _ => .err ()

/-- artifact-app/src/serve/handler.rs L174-207 (`handle_rpc`): what the server takes the body of a request for, and the id of the answer. -/
def requestOf (body : Str) : Json × Request :=
  match (Json.parse body).bind fun v => okOnly (deCall v.value) with
  | some r => r
  | none => (.null, .garbage)

/-- What `handle_response` has read: artifact-frontend/src/fetch.rs L152-173. -/
inductive Got where
  | project (id : Json) (export' : WireExport) (project : Project)
  | error (error : Json)

/-- The `Ok` of `jrpc::Response<ProjectResultSer>` (artifact-frontend/src/fetch.rs L160). -/
def deSuccess (strict : Bool) (read : Str → Option ℚ) (v : Json) : Res Unit Got := do
  match ← deFields [c!"jsonrpc", c!"result", c!"id"] v with
  | [j, r, i] => do
    let _ ← reqField deV2 j
    let r ← reqField (deResult strict read) r
    let i ← reqField deId i
    .ok (.project i r.1 r.2.project)
  | _ => .err ()

/-- `Deserialize for i64`, for `jrpc::ErrorCode` (artifact-frontend/src/fetch.rs L160). -/
def deI64 : Json → Res Unit Str
  | .num s => if isI64 s then .ok s else .err ()
  | _ => .err ()

/-- `jrpc::ErrorObject` (artifact-frontend/src/fetch.rs L160). -/
def deErrorObject (v : Json) : Res Unit Unit := do
  match ← deFields [c!"code", c!"message", c!"data"] v with
  | [c, m, _] => do
    let _ ← reqField deI64 c
    let _ ← reqField deStr m
    .ok ()
  | _ => .err ()

/-- The `Err` of `jrpc::Response` (artifact-frontend/src/fetch.rs L160). -/
def deFailure (v : Json) : Res Unit Got := do
  match ← deFields [c!"jsonrpc", c!"error", c!"id"] v with
  | [j, e, i] => do
    let _ ← reqField deV2 j
    let _ ← reqField deErrorObject e
    let _ ← reqField deId i
    .ok (.error v)
  | _ => .err ()

/-- `Deserialize for jrpc::Response` (untagged, artifact-frontend/src/fetch.rs L160): the first of the two that can be read. -/
def deResponse (strict : Bool) (read : Str → Option ℚ) (v : Json) : Res Unit Got :=
  match deSuccess strict read v with
  | .ok r => .ok r
  | .panic => .panic
  | .err _ => deFailure v

/-- The artifacts that the page shows, artifact-frontend/src/fetch.rs L172. -/
def Project.forPage (p : Project) : Web.Proj := p.artifacts.map fun x => (x.1, ⟨x.2.id, x.2.name, x.2.file, x.2.partof, x.2.impl.doneStr, x.2.text⟩)

/-- artifact-frontend/src/fetch.rs L152-173: the message. The page gives numbers to its calls only, so an id that is no number matches none of them and is not modelled (`none`).
`debug` is `{:?}` of an error (L164-169). -/
def Got.msg (debug : Json → Str) : Got → Option Web.Msg
  | .project (.num s) _ p => some (.recvProject (decVal s) p.forPage)
  | .project _ _ _ => none
  | .error e => some (.recvError [⟨.error, c!"<div>received jrpc Error: " ++ debug e ++ c!"</div>"⟩])

/-- artifact-frontend/src/fetch.rs L152-160: `panic` is the `expect!`. -/
def gotOf (strict : Bool) (read : Str → Option ℚ) (body : Str) : Res Empty Got :=
  match Json.parse body with
  | none => .panic
  | some v => match deResponse strict read v with
    | .ok g => .ok g
    | _ => .panic

/-- What the parts of the page (artifact-frontend/src/fetch.rs L49-188) that are not modelled do: `HashIm::deserialize` accepts more or less (`HashIm.de`), numbers are read, errors are shown. -/
structure PageLibs where
  strict : Bool
  read : Str → Option ℚ
  debug : Json → Str

/-- artifact-frontend/src/fetch.rs L175-188 (`handle_status`): the message for an answer whose status is not a success. The body becomes part of the page as it is. -/
def statusMsg (status body : Str) : Web.Msg := .recvError [⟨.error, c!"<div>Received " ++ status ++ c!" from server: " ++ body ++ c!"</div>"⟩]

/-- artifact-frontend/src/fetch.rs L152-188 (`handle_response`, `handle_status`): the message that an answer becomes. `fine` says whether the status is a success. -/
def handleResponse (P : PageLibs) (fine : Bool) (status body : Str) : Res Empty (Option Web.Msg) :=
  if fine then do
    let g ← gotOf P.strict P.read body
    .ok (g.msg P.debug)
  else .ok (some (statusMsg status body))

/-- artifact-frontend/src/fetch.rs L49-60 (`handle_response_initial`). -/
def handleInitial (P : PageLibs) (fine : Bool) (status body : Str) : Res Empty Web.Msg :=
  if fine then
    match Json.parse body with
    | none => .panic
    | some v => match deInitial P.strict P.read v with
      | .ok (p, t) => .ok (.recvInitial (p.map fun x => x.2.forPage) t)
      | _ => .panic
  else .ok (statusMsg status body)

/-- artifact-lib/src/lib.rs L410-412 (`Project::to_ser`): `panic` is one of the `unwrap`s. -/
def Project.toSer (strict : Bool) (w : ℚ → Str) (read : Str → Option ℚ) (e : WireExport) (p : Project) : Res Empty (WireExport × Project) :=
  match Json.parse (p.toJson w e).show with
  | none => .panic
  | some v => match deProject strict read v with
    | .ok x => .ok x
    | _ => .panic

/-- artifact-app/src/ls.rs L143-147: what `art ls --type json` prints for the names that were selected. -/
def lsJson (w : ℚ → Str) (p : Project) (names : List Name) : Str := (Json.arr (names.map fun n => .ofOption (Artifact.toJson w) (IMap.get? p.artifacts n))).pretty 0

/-- artifact-ser/src/lint.rs L107-120 (`Display for Categorized`). -/
def Categorized.display (c : Categorized) : Str :=
  c!"  ----- ERRORS -----:\n" ++ (Json.arr (c.error.map Lint.toJson)).pretty 0 ++ c!"\n\n" ++
    (c!"  ----- WARNINGS -----:\n" ++ (Json.arr (c.other.map Lint.toJson)).pretty 0 ++ c!"\n")

end Art
