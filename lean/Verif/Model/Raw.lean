import Verif.Model.Scan
import Verif.Model.ExpandNames
import Verif.Model.Graph

/-!
# Raw artifacts, the markdown format and joining
Models artifact-data/src/raw.rs, artifact-data/src/raw_names.rs and artifact-data/src/intermediate.rs.

The YAML, TOML and JSON libraries are parameters (`Libs`), see DESIGN.md section 3; everything the repository itself does before and after
calling them is modelled.
-/

namespace Art

/-- What serde hands to `NamesRawVisitor` (artifact-data/src/raw_names.rs L111-139): a string or a sequence of strings. -/
inductive NamesDoc where
  | str (s : Str)
  | seq (l : List Str)
  deriving DecidableEq, Repr

/-- The document form of `ArtifactRaw` (artifact-data/src/raw.rs L39-45) and, without `text`, of `AttrsRaw` (L293-298). -/
structure ArtDoc where
  done : Option Str
  partof : Option NamesDoc
  text : Option Str
  deriving DecidableEq, Repr

/-- artifact-data/src/raw.rs L39-45 (`ArtifactRaw`); `NamesRaw` is a newtype of a set of names, `TextRaw` of a string. -/
structure ArtifactRaw where
  done : Option Str
  partof : Option (ISet Name)
  text : Option Str
  deriving DecidableEq

/-- Reasons why a file cannot be loaded (the `Err` cases of artifact-data/src/raw.rs L174-199, L217-290 and L301-338). The message texts are
produced by `Libs.errMsg`. -/
inductive LoadErr where
  | io
  | doc
  | name (e : NameErr)
  | attrsTwice (n : Name)
  | nameTwice (n : Name)
  deriving DecidableEq

/-- The external libraries used when reading and writing artifact files. Called at artifact-data/src/raw.rs L182-186, L309, L395 and artifact-data/src/modify.rs L362-364. -/
structure Libs where
  /-- Case folding done by `(?i)` on the configurable prefix of name lines. -/
  fold : Char → Char
  /-- `yaml::from_str::<AttrsRaw>`, artifact-data/src/raw.rs L309, up to the parsing of names. -/
  yamlRead : Str → Option (Option Str × Option NamesDoc)
  /-- `to_yaml(&hashmap!{"done" => done})`, artifact-data/src/raw.rs L395 and L423-427. -/
  yamlDone : Str → Str
  /-- `toml::from_str`, artifact-data/src/raw.rs L182. -/
  tomlRead : Str → Option (List (Str × ArtDoc))
  /-- `toml::to_string`, artifact-data/src/modify.rs L362. -/
  tomlWrite : List (Str × ArtDoc) → Str
  /-- `json::from_str`, artifact-data/src/raw.rs L186. -/
  jsonRead : Str → Option (List (Str × ArtDoc))
  /-- `json::to_string`, artifact-data/src/modify.rs L364. -/
  jsonWrite : List (Str × ArtDoc) → Str
  /-- The text of an error. -/
  errMsg : LoadErr → Str
  /-- The error of `strfmt_code_url(fmt, "/fake", 0)`, artifact-ser/src/markdown.rs L364-372, if it fails. -/
  urlErr : Str → Option Str

/-! ## names -/

/-- artifact-data/src/raw_names.rs L127-138: the loop of `visit_seq`. -/
def namesSeqDe : List Str → ISet Name → Res NameErr (ISet Name)
  | [], out => .ok out
  | s :: l, out => do
    let e ← expandNames s
    namesSeqDe l (ISet.extend out e)

/-- artifact-data/src/raw_names.rs L102-139 (`Deserialize for NamesRaw`). -/
def namesRawDe : NamesDoc → Res NameErr (ISet Name)
  | .str s => expandNames s
  | .seq l => namesSeqDe l []

/-- artifact-data/src/raw_names.rs L83-100 (`Serialize for NamesRaw`). -/
def namesRawSer (l : ISet Name) : Res Unit NamesDoc :=
  match l with
  | [] => .panic
  | [n] => .ok (.str n.raw)
  | l => .ok (.seq ((sortNames l).map Name.raw))

/-! ## the document form -/

/-- The derived `Deserialize` of `ArtifactRaw` (artifact-data/src/raw.rs L39) with the hand written ones of its fields. -/
def artDocDe (d : ArtDoc) : Res LoadErr ArtifactRaw :=
  match d.partof with
  | none => .ok ⟨d.done, none, d.text.map textRawDe⟩
  | some p => match namesRawDe p with
    | .ok l => .ok ⟨d.done, some l, d.text.map textRawDe⟩
    | .err e => .err (.name e)
    | .panic => .panic

/-- The derived `Serialize` of `ArtifactRaw` (artifact-data/src/raw.rs L39). -/
def artDocSer (r : ArtifactRaw) : Res Unit ArtDoc :=
  match r.partof with
  | none => .ok ⟨r.done, none, r.text.map textRawSer⟩
  | some l => match namesRawSer l with
    | .ok p => .ok ⟨r.done, some p, r.text.map textRawSer⟩
    | _ => .panic

/-- `Deserialize for IndexMap<Name, ArtifactRaw>` (artifact-data/src/raw.rs L181): a later entry with an equal name replaces
the value of the earlier one. -/
def mapDe : List (Str × ArtDoc) → IMap Name ArtifactRaw → Res LoadErr (IMap Name ArtifactRaw)
  | [], out => .ok out
  | (s, d) :: l, out =>
    match Name.fromStr s with
    | .ok n => do
      let r ← artDocDe d
      mapDe l (IMap.insert out n r)
    | .err e => .err (.name e)
    | .panic => .panic

/-- `Serialize for IndexMap<Name, ArtifactRaw>` (artifact-data/src/modify.rs L362, L364). -/
def mapSer (m : IMap Name ArtifactRaw) : Res Unit (List (Str × ArtDoc)) :=
  Res.mapM' (fun (x : Name × ArtifactRaw) => do let d ← artDocSer x.2; pure (x.1.raw, d)) m

/-! ## reading markdown -/

/-- artifact-ser/src/lib.rs L199-217 (`SettingsMdAttrs`). -/
inductive MdAttrs where
  | hashes
  | code (pre : Option Str)
  deriving DecidableEq, Repr

/-- artifact-ser/src/lib.rs L148-159 (`SettingsMdName`). -/
inductive MdName where
  | default
  | pre (value : Str)
  deriving DecidableEq, Repr

/-- artifact-ser/src/lib.rs L162-168 (`to_prefix_string`). -/
def MdName.toPrefix : MdName → Str
  | .default => []
  | .pre v => v

/-- A literal under `(?i)` with a given case folding. artifact-data/src/raw.rs L152-157. -/
def litF (fold : Char → Char) (s : Str) : Re :=
  s.foldr (fun c r => .seq (.ch (fun x => fold x == fold c)) r) .eps

/-- artifact-data/src/raw.rs L152-157 (`Parser::get_re`): `(?i)^{prefix}#\s*(NAME)\s*$`. Simplification: `Regex::new` never fails on an
escaped prefix (the size limit of the regex crate is not modelled). -/
def nameLineRe (fold : Char → Char) (pre : Str) : Re :=
  .seq (litF fold pre) (.seq (.litI c!"#") (.seq .ws (.seq (.cap 1 nameRe) .ws)))

/-- artifact-data/src/raw.rs L209 (`ATTRS_END_RE`): `^###+\s*$`. -/
def attrsEndRe : Re := .seq (.lit c!"##") (.seq (.plus (.ch (fun x => x == '#'))) .ws)

/-- artifact-data/src/raw.rs L210 (`ATTRS_CODE_RE`): "^```((\s*)|(.*?\s+))art+\s*$" (groups unused, left out). -/
def attrsCodeRe : Re :=
  .seq (.lit c!"```") (.seq
    (.alt .ws (.seq (.star false (.ch (fun x => x != '\n'))) (.plus (.ch isWS))))
    (.seq (.lit c!"ar") (.seq (.plus (.ch (fun x => x == 't'))) .ws)))

/-- artifact-data/src/raw.rs L211 (`CODE_END_RE`): "^```+\s*$". -/
def codeEndRe : Re := .seq (.lit c!"``") (.seq (.plus (.ch (fun x => x == '`'))) .ws)

/-- `[String]::join("\n")`. artifact-data/src/raw.rs L266, L277, L316. -/
def joinLines (l : List Str) : Str := List.intercalate ['\n'] l

/-- The local variables of `from_markdown` (artifact-data/src/raw.rs L218-222). `fence` is set while inside the inner loop (L274-281): the line
that opened the block and the lines of the block so far. -/
structure MdSt where
  out : IMap Name ArtifactRaw
  name : Option Name
  attrs : Option Str
  other : List Str
  fence : Option (Str × List Str)

/-- artifact-data/src/raw.rs L307-313: parse the attributes. -/
def readAttrs (L : Libs) : Option Str → Res LoadErr (Option Str × Option (ISet Name))
  | none => .ok (none, none)
  | some s =>
    match L.yamlRead s with
    | none => .err .doc
    | some (d, none) => .ok (d, none)
    | some (d, some p) => match namesRawDe p with
      | .ok l => .ok (d, some l)
      | .err e => .err (.name e)
      | .panic => .panic

/-- artifact-data/src/raw.rs L315-323: the text from the collected lines. -/
def textOf (other : List Str) : Option Str :=
  let t := cleanText (joinLines other)
  if t.isEmpty then none else some t

/-- artifact-data/src/raw.rs L301-338 (`insert_from_parts`). -/
def insertFromParts (L : Libs) (out : IMap Name ArtifactRaw) (n : Name) (attrs : Option Str) (other : List Str) :
    Res LoadErr (IMap Name ArtifactRaw) := do
  let (done, partof) ← readAttrs L attrs
  if IMap.contains out n then .err (.nameTwice n)
  else pure (IMap.insert out n ⟨done, partof, textOf other⟩)

/-- artifact-data/src/raw.rs L224-236 (`check_attrs_empty!`). -/
def checkAttrsEmpty (st : MdSt) : Res LoadErr Unit :=
  match st.name, st.attrs with
  | some n, some _ => .err (.attrsTwice n)
  | _, _ => .ok ()

/-- artifact-data/src/raw.rs L248-262: a name line is found; `s` is the captured name. -/
def mdNameLine (L : Libs) (st : MdSt) (s : Str) : Res LoadErr MdSt := do
  let out ← match st.name with
    | some n => insertFromParts L st.out n st.attrs st.other
    | none => .ok st.out
  match Name.fromStr s with
  | .ok n => pure ⟨out, some n, none, [], none⟩
  | .err e => .err (.name e)
  | .panic => .panic

/-- artifact-data/src/raw.rs L246-285: one line, outside of an attribute code block. -/
def mdOuter (L : Libs) (pre : Str) (st : MdSt) (line : Str) : Res LoadErr MdSt :=
  match (nameLineRe L.fold pre).full line with
  | some c => match Caps.get c 1 with
    | some s => mdNameLine L st s
    | none => .panic
  | none =>
    if attrsEndRe.isFull line then do
      checkAttrsEmpty st
      pure { st with attrs := some (joinLines st.other), other := [] }
    else if attrsCodeRe.isFull line then do
      checkAttrsEmpty st
      pure { st with fence := some (line, []) }
    else pure { st with other := st.other ++ [line] }

/-- artifact-data/src/raw.rs L246-285: one line. Inside a block (L274-281) lines are collected until the end of the block. -/
def mdStep (L : Libs) (pre : Str) (st : MdSt) (line : Str) : Res LoadErr MdSt :=
  match st.fence with
  | some (open_, attr) =>
    if codeEndRe.isFull line then pure { st with attrs := some (joinLines attr), fence := none }
    else pure { st with fence := some (open_, attr ++ [line]) }
  | none => mdOuter L pre st line

/-- The loop of `from_markdown`, artifact-data/src/raw.rs L246-285. -/
def mdLoop (L : Libs) (pre : Str) : MdSt → List Str → Res LoadErr MdSt
  | st, [] => .ok st
  | st, l :: ls => do
    let st' ← mdStep L pre st l
    mdLoop L pre st' ls

/-- artifact-data/src/raw.rs L275: when the input ends inside a block, `break` leaves the inner loop only, so that the opening line
is pushed to `other` (L284) and the outer loop ends at its next `next_line!`. -/
def mdClose (st : MdSt) : MdSt :=
  match st.fence with
  | some (open_, _) => { st with other := st.other ++ [open_], fence := none }
  | none => st

/-- artifact-data/src/raw.rs L286-289: the last artifact is put. -/
def mdFinish (L : Libs) (st : MdSt) : Res LoadErr (IMap Name ArtifactRaw) :=
  let st := mdClose st
  match st.name with
  | some n => insertFromParts L st.out n st.attrs st.other
  | none => .ok st.out

/-- artifact-data/src/raw.rs L217-290 (`Parser::from_markdown`). -/
def fromMarkdown (L : Libs) (pre : Str) (s : Str) : Res LoadErr (IMap Name ArtifactRaw) := do
  let st ← mdLoop L pre ⟨[], none, none, [], none⟩ (lines s)
  mdFinish L st

/-! ## writing markdown -/

/-- artifact-data/src/raw.rs L397-413: the `partof` attribute. -/
def partofText (l : ISet Name) : Res Unit Str :=
  match l with
  | [] => .panic
  | [n] => .ok (c!"partof: " ++ n.raw)
  | l => .ok (c!"partof:\n" ++ (sortNames l).flatMap (fun n => c!"- " ++ n.raw ++ ['\n']))

/-- artifact-data/src/raw.rs L387-393: the opening line of an attribute block. -/
def attrsOpen : MdAttrs → Str
  | .hashes => []
  | .code none => c!"```art\n"
  | .code (some p) => c!"```" ++ p ++ c!" art\n"

/-- artifact-data/src/raw.rs L416-419. -/
def attrsClose : MdAttrs → Str
  | .hashes => c!"\n###\n"
  | .code _ => c!"\n```\n"

/-- artifact-data/src/raw.rs L386-421 (`push_attrs`). -/
def pushAttrs (L : Libs) (a : MdAttrs) (out : Str) (r : ArtifactRaw) : Res Unit Str := do
  let out := out ++ attrsOpen a
  let out := match r.done with
    | some d => out ++ L.yamlDone d ++ c!"\n\n"
    | none => out
  let out ← match r.partof with
    | some l => do let p ← partofText l; pure (out ++ p)
    | none => pure out
  pure (trimEnd out ++ attrsClose a)

/-- artifact-data/src/raw.rs L368-384 (`push_artifact_md`). -/
def pushArtifact (L : Libs) (pre : Str) (a : MdAttrs) (out : Str) (n : Name) (r : ArtifactRaw) : Res Unit Str := do
  let out := out ++ pre ++ c!"# " ++ n.raw ++ ['\n']
  let out ← if r.done.isSome || r.partof.isSome then pushAttrs L a out r else pure out
  let out := match r.text with
    | some t => out ++ t
    | none => out
  pure (trimEnd out ++ c!"\n\n\n")

/-- The loop of `to_markdown`, artifact-data/src/raw.rs L359-361. -/
def pushAll (L : Libs) (pre : Str) (a : MdAttrs) : Str → IMap Name ArtifactRaw → Res Unit Str
  | out, [] => .ok out
  | out, (n, r) :: l => do
    let out ← pushArtifact L pre a out n r
    pushAll L pre a out l

/-- artifact-data/src/raw.rs L357-365 (`Formatter::to_markdown`). -/
def toMarkdown (L : Libs) (pre : Str) (a : MdAttrs) (m : IMap Name ArtifactRaw) : Res Unit Str := do
  let out ← pushAll L pre a [] m
  pure (trimEnd out)

/-! ## intermediate artifacts -/

/-- artifact-data/src/intermediate.rs L34-51 (`from_raw`). -/
def fromRaw (n : Name) (file : FilePath) (r : ArtifactRaw) : ArtifactIm :=
  { name := n, file := file,
    partof := match r.partof with
      | some p => sortNames (ISet.collect (stripAuto n p))
      | none => [],
    done := r.done, text := r.text.getD [] }

/-- artifact-data/src/intermediate.rs L53-72 (`into_raw`). -/
def intoRaw (a : ArtifactIm) : FilePath × Name × ArtifactRaw :=
  (a.file, a.name,
    { done := a.done,
      partof := if a.partof.isEmpty then none else some a.partof,
      text := if a.text.isEmpty then none else some a.text })

/-! ## file types and loading of one file -/

/-- artifact-data/src/raw.rs L433-438 (`ArtFileType`). -/
inductive ArtFileType where
  | toml | md | json
  deriving DecidableEq, Repr

/-- The components of a path. Used for artifact-data/src/raw.rs L440-457. -/
def comps (p : FilePath) : List Str := p.splitOn '/'

/-- `Path::file_name` of a normalised absolute path. Used for artifact-data/src/raw.rs L441. -/
def fileName (p : FilePath) : Str := (comps p).getLastD []

/-- `Path::extension`: the part of the file name after its last dot, if there is a dot that is not at the front. Called at artifact-data/src/raw.rs L441 and artifact-data/src/modify.rs L284. -/
def extension (p : FilePath) : Option Str :=
  let rev := (fileName p).reverse
  let ext := rev.takeWhile (· ≠ '.')
  let rest := rev.drop ext.length
  if rest.length ≤ 1 then none else some ext.reverse

/-- artifact-data/src/raw.rs L440-457 (`ArtFileType::from_path`). -/
def ArtFileType.fromPath (p : FilePath) : Option ArtFileType :=
  match extension p with
  | some e =>
    if e = c!"toml" then some .toml
    else if e = c!"md" then some .md
    else if e = c!"json" then some .json
    else none
  | none => none

/-- The content of a file: text, or bytes that are not UTF-8. For the latter `good` is the text of the lines before the
first line that is not UTF-8, and `id` stands for everything else. What artifact-data/src/raw.rs L174-187 and artifact-data/src/implemented.rs L73-75 read. -/
inductive Content where
  | text (s : Str)
  | binary (good : Str) (id : Nat)
  deriving DecidableEq, Repr

/-- artifact-data/src/raw.rs L174-187: parse the text of a file. -/
def parseFile (L : Libs) (pre : Str) (ty : ArtFileType) (s : Str) : Res LoadErr (IMap Name ArtifactRaw) :=
  match ty with
  | .md => fromMarkdown L pre s
  | .toml => match L.tomlRead s with
    | some l => mapDe l []
    | none => .err .doc
  | .json => match L.jsonRead s with
    | some l => mapDe l []
    | none => .err .doc

/-- artifact-data/src/raw.rs L162-200 (`Parser::load_file`): the artifacts and lints sent. `panic` is L170 or a panic of the parser. -/
def loadFile (L : Libs) (pre : Str) (file : FilePath) (c : Content) : Res Unit (List ArtifactIm × List Lint) :=
  match ArtFileType.fromPath file with
  | none => .panic
  | some ty =>
    match c with
    | .binary _ _ => .ok ([], [Lint.loadError file (L.errMsg .io)])
    | .text s =>
      match parseFile L pre ty s with
      | .ok m => .ok (m.map (fun x => fromRaw x.1 file x.2), [])
      | .err e => .ok ([], [Lint.loadError file (L.errMsg e)])
      | .panic => .panic

/-! ## joining -/

/-- artifact-data/src/raw.rs L100-117: the lint about one of the two definitions. -/
def dupArtLint (n : Name) (file : FilePath) : Lint :=
  ⟨.error, some file, none, .parseArtifactFiles, c!"duplicate name detected: " ++ n.raw ++ c!" in " ++ file⟩

/-- State of `join_artifacts_raw`. artifact-data/src/raw.rs L91-127. -/
structure JoinArt where
  files : IMap Name FilePath
  arts : IMap Name ArtifactIm
  lints : List Lint

/-- artifact-data/src/raw.rs L97-123: one round of the loop. -/
def joinArtStep (st : JoinArt) (a : ArtifactIm) : JoinArt :=
  let dup := match IMap.get? st.files a.name with
    | some f => [dupArtLint a.name f, dupArtLint a.name a.file]
    | none => []
  ⟨IMap.insert st.files a.name a.file, IMap.insert st.arts a.name a.clean, st.lints ++ dup⟩

/-- artifact-data/src/raw.rs L91-127 (`join_artifacts_raw`). -/
def joinArtifacts (l : List ArtifactIm) : JoinArt := l.foldl joinArtStep ⟨[], [], []⟩

end Art
