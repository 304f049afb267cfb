import Verif.Model.Dot

/-!
# The exported document
Models artifact-ser/src/markdown.rs and artifact-app/src/export.rs L66-90, L117-141: the document that `art export md` writes. The replacement of
references and subnames in a text (`replace_markdown`) is the one the web page uses too.

Simplifications: `ProjectSer` has the same fields as `Project`, so the latter is used, with the export settings (artifact-ser/src/lib.rs
L80-109), which `Settings` leaves out, given separately. `strfmt` and the formatting of a percentage are parameters. Writing to a file is modelled as one step for
the whole text.
-/

namespace Art

/-! ## settings -/

/-- artifact-ser/src/lib.rs L115-120 (`SettingsMdFamily`). -/
inductive MdFamily where
  | list | dot
  deriving DecidableEq

/-- artifact-ser/src/lib.rs L128-139 (`SettingsMdDot`). -/
inductive MdDot where
  | ignore
  | removeBraces
  | replaceBraces (pre post : Str)
  deriving DecidableEq

/-- artifact-ser/src/lib.rs L80-109 (`SettingsExport`) with `SettingsMdName` already turned into its prefix (L162-168). -/
structure ExportSettings where
  header : Option Str
  toc : Bool
  family : MdFamily
  dot : MdDot
  namePrefix : Str

/-- What is not modelled. Called at artifact-ser/src/markdown.rs L127-132, L370. -/
structure ExportLibs where
  /-- `strfmt`, artifact-ser/src/markdown.rs L370, with the values of `file` and `line`; `none` is an error. -/
  strfmt : Str → Str → Str → Option Str
  /-- `{:.2}` of a number multiplied by hundred, artifact-ser/src/markdown.rs L127-132. -/
  percent : ℚ → Str

/-- artifact-ser/src/markdown.rs L48-61 (`SerMarkdown` and its settings). -/
structure SerMd where
  project : Project
  codeUrl : Option Str
  family : MdFamily
  dot : MdDot
  namePrefix : Str

/-! ## places in the code -/

/-- artifact-ser/src/ser.rs L76-95 (`get_impl`) with a subname. Errors are not told apart: no caller looks at them. -/
def Project.getImplSub (p : Project) (name sub : Str) : Res Unit CodeLoc :=
  match Name.fromStr name with
  | .panic => .panic
  | .err _ => .err ()
  | .ok n => match p.codeImpls.get? n with
    | none => .err ()
    | some c => match SubName.fromStr sub with
      | .panic => .panic
      | .err _ => .err ()
      | .ok s => match c.secondary.get? s with
        | some l => .ok l
        | none => .err ()

/-- artifact-ser/src/markdown.rs L341-351, L364-372 (`format_code_url_maybe`, `format_code_url`, `strfmt_code_url`): lines are counted from one in an address.
`panic` is the `expect!` of L343. -/
def SerMd.codeUrlOf (F : ExportLibs) (md : SerMd) (c : CodeLoc) : Res Unit (Option Str) :=
  match md.codeUrl with
  | none => .ok none
  | some fmt => match F.strfmt fmt (trimBase md.project.settings.base c.file) (showNat (c.line + 1)) with
    | some url => .ok (some url)
    | none => .panic

/-- artifact-ser/src/markdown.rs L318-325 (`html_file_url`). -/
def SerMd.fileHtml (F : ExportLibs) (md : SerMd) (file : FilePath) : Res Unit Str := do
  let url ← md.codeUrlOf F ⟨file, 0⟩
  let trimmed := trimBase md.project.settings.base file
  pure (match url with
    | some u => c!"<a href=\"" ++ u ++ c!"\">" ++ trimmed ++ c!"</a>"
    | none => trimmed)

/-- artifact-ser/src/markdown.rs L328-336 (`html_code_url`). -/
def SerMd.codeHtml (F : ExportLibs) (md : SerMd) (c : CodeLoc) : Res Unit Str := do
  let url ← md.codeUrlOf F c
  let shown := trimBase md.project.settings.base c.file ++ c!"[" ++ showNat c.line ++ c!"]"
  pure (match url with
    | some u => c!"<a href=\"" ++ u ++ c!"\">" ++ shown ++ c!"</a>"
    | none => shown)

/-! ## names -/

/-- artifact-ser/src/markdown.rs L381-407 (`name_html_raw`) with the fonts of L416-424: bold with an address, italic without one. -/
def nameHtml (name sub color : Str) (bold : Bool) (title : Str) (href : Option Str) : Str :=
  c!"<a style=\"" ++ (if bold then c!"font-weight: bold; " else c!"font-style: italic; ") ++ c!"color: " ++ color ++ c!"\" title=\"" ++ title ++ c!"\" " ++
    (match href with
      | some h => c!"href=\"#" ++ h ++ c!"\""
      | none => []) ++ c!">" ++ name ++ sub ++ c!"</a>"

/-- artifact-ser/src/markdown.rs L269-315 (`name_markdown`, `name_subname_markdown`) with `PURPLE` of L14. -/
def Project.nameMd (p : Project) (n : Name) (sub : Option SubName) : Res Unit Str :=
  match p.artifacts.get? n with
  | none => .ok (nameHtml n.raw [] c!"#B10DC9" false (n.keyStr ++ c!" not found") none)
  | some a => match sub with
    | none => do
      let color ← p.nameColor n
      pure (nameHtml n.raw [] color true n.keyStr (some n.keyStr))
    | some s =>
      if a.subnames.contains s then do
        let color ← p.nameColor n
        pure (nameHtml n.raw s.raw color true (n.keyStr ++ s.keyStr) (some n.keyStr))
      else .ok (nameHtml n.raw s.raw c!"#B10DC9" false (n.keyStr ++ s.keyStr ++ c!" not found") none)

/-! ## replacements in a text -/

/-- Any character: `[\s\S]`. artifact-ser/src/markdown.rs L23-29. -/
def anyCh : Re := .ch (fun _ => true)

/-- artifact-ser/src/markdown.rs L23-29 (`TEXT_DOT_STR`) without the anchors. Groups: 1 `dot_pre`, 2 `dot`, 3 `dot_post`. -/
def dotRe : Re :=
  .seq (.cap 1 (.seq (.litI c!"```dot") .ws)) (.seq (.lit c!"\n")
    (.seq (.cap 2 (.seq (.seq anyCh (.star false anyCh)) (.lit c!"\n"))) (.cap 3 (.lit c!"```"))))

/-- `$` in multi-line mode. artifact-ser/src/markdown.rs L23-29. -/
def atEol : Str → Bool
  | [] => true
  | c :: _ => c == '\n'

/-- artifact-ser/src/markdown.rs L23-29: the first way to match a graph whose end is the end of a line. -/
def dotHere (s : Str) : Option Match := (dotRe.ms s).find? (fun m => atEol m.2.1)

/-- A match of `REPLACE_TEXT_RE`, artifact-ser/src/markdown.rs L34-44. -/
inductive ReplMatch where
  | sub (m : Match)
  | ref (m : Match)
  | dot (m : Match)

/-- The text after a match. artifact-ser/src/markdown.rs L202, L253. -/
def ReplMatch.rest : ReplMatch → Str
  | .sub m | .ref m | .dot m => m.2.1

/-- artifact-ser/src/markdown.rs L34-44 (`REPLACE_TEXT_RE`): the match that starts here; `bol` is whether this is the beginning of a line. The pattern begins with an
empty alternative; version 1.1 of the regex crate passes over it. -/
def replHere (bol : Bool) (s : Str) : Option ReplMatch :=
  match textSubRe.here s with
  | some m => some (.sub m)
  | none => match textRefRe.here s with
    | some m => some (.ref m)
    | none => if bol then (dotHere s).map .dot else none

/-- `Regex::replace_all` with `REPLACE_TEXT_RE`, artifact-ser/src/markdown.rs L202 and L253. The first argument is fuel, called with the length of the text. -/
def replaceAll (f : ReplMatch → Res Unit Str) : Nat → Bool → Str → Res Unit Str
  | 0, _, _ => .ok []
  | n + 1, bol, s =>
    match replHere bol s with
    | some m => do
      let o ← f m
      let r ← replaceAll f n false m.rest
      pure (o ++ r)
    | none => match s with
      | [] => .ok []
      | c :: t => do
        let r ← replaceAll f n (c == '\n') t
        pure (c :: r)

/-- artifact-ser/src/markdown.rs L206-231 (`replace_markdown_sub`), with `{:?}` of a place from artifact-ser/src/ser.rs L225-229. -/
def SerMd.subMd (F : ExportLibs) (md : SerMd) (parent sub : Str) : Res Unit Str :=
  match md.project.getImplSub parent sub with
  | .panic => .panic
  | .err _ => .ok (c!"<span title=\"Not Implemented\" style=\"color: #FF4136\"><b><i>" ++ sub ++ c!"</i></b></span>")
  | .ok c => do
    let title := c.file ++ c!"[" ++ showNat c.line ++ c!"]"
    let url ← md.codeUrlOf F c
    pure (match url with
      | some u => c!"<a title=\"" ++ title ++ c!"\" style=\"color: #0074D9\" href=\"" ++ u ++ c!"\"><b>" ++ sub ++ c!"</b></a>"
      | none => c!"<span title=\"" ++ title ++ c!"\" style=\"color: #0074D9\"><b><i>" ++ sub ++ c!"</i></b></span>")

/-- artifact-ser/src/md_graph.rs L103-120 (`subname_raw`). -/
def subnameRaw (sub : SubName) (attrs : Str) : Str :=
  c!"\n        {\n            \"" ++ sub.keyStr ++ c!"\" [\n                label=\"" ++ sub.raw ++
    c!"\";\n                fontsize=12; margin=0.15;\n                shape=cds;\n                " ++ attrs ++ c!";\n            ]\n        }\n        "

/-- artifact-ser/src/md_graph.rs L84-101 (`subname_dot`). -/
def Project.subnameDot (p : Project) (parent : Str) (sub : SubName) : Res Unit Str :=
  match Name.fromStr parent with
  | .panic => .panic
  | .err _ => .ok (subnameRaw sub c!"style=filled; fillcolor=\"#DCDEE2\"")
  | .ok n => match p.getImplSub n.raw sub.raw with
    | .panic => .panic
    | .ok _ => .ok (subnameRaw sub c!"penwidth=1.5; fontcolor=\"#0074D9\"")
    | .err _ => .ok (subnameRaw sub c!"penwidth=1.5; fontcolor=\"#FF4136\"")

/-- The macro `subname!`, artifact-ser/src/name.rs L49-56. -/
def subnameOf (s : Str) : Res Unit SubName :=
  match SubName.fromStr s with
  | .ok x => .ok x
  | _ => .panic

/-- The macro `name!`, artifact-ser/src/name.rs L38-45. -/
def nameOf (s : Str) : Res Unit Name :=
  match Name.fromStr s with
  | .ok x => .ok x
  | _ => .panic

/-- artifact-ser/src/markdown.rs L193-195 and L241-243: the name and the subname of a reference. -/
def refOf (m : Match) : Res Unit (Name × Option SubName) :=
  match Caps.get m.2.2 1 with
  | none => .panic
  | some s => do
    let sub ← match Caps.get m.2.2 2 with
      | none => pure none
      | some x => do
        let y ← subnameOf x
        pure (some y)
    let n ← nameOf s
    pure (n, sub)

/-- artifact-ser/src/markdown.rs L238-249: the replacement inside a graph. -/
def SerMd.dotRepl (md : SerMd) (parent : Str) : ReplMatch → Res Unit Str
  | .sub m => match Caps.get m.2.2 1 with
    | some s => do
      let sub ← subnameOf s
      md.project.subnameDot parent sub
    | none => .panic
  | .ref m => do
    let r ← refOf m
    md.project.fullnameDot r.1 r.2 true
  | .dot _ => .ok c!"**RENDER ERROR: cannot put dot within dot**"

/-- artifact-ser/src/markdown.rs L233-266 (`replace_markdown_dot`). -/
def SerMd.dotMd (md : SerMd) (parent : Str) (m : Match) : Res Unit Str :=
  match Caps.get m.2.2 1, Caps.get m.2.2 3, Caps.get m.2.2 2 with
  | some pre, some post, some dot => do
    let d ← replaceAll (md.dotRepl parent) dot.length true dot
    let fence := match md.dot with
      | .ignore => (pre, post)
      | .removeBraces => ([], [])
      | .replaceBraces pre post => (pre, post)
    pure (fence.1 ++ c!"\n" ++ d ++ c!"\n" ++ fence.2)
  | _, _, _ => .panic

/-- artifact-ser/src/markdown.rs L190-201: the replacement in a text. -/
def SerMd.repl (F : ExportLibs) (md : SerMd) (parent : Str) : ReplMatch → Res Unit Str
  | .sub m => match Caps.get m.2.2 1 with
    | some s => md.subMd F parent s
    | none => .panic
  | .ref m => do
    let r ← refOf m
    md.project.nameMd r.1 r.2
  | .dot m => md.dotMd parent m

/-- artifact-ser/src/markdown.rs L189-203 (`replace_markdown`). -/
def SerMd.replace (F : ExportLibs) (md : SerMd) (parent text : Str) : Res Unit Str :=
  replaceAll (md.repl F parent) text.length true text

/-! ## the document -/

/-- artifact-ser/src/markdown.rs L353-361 (`tag_details_begin`, `tag_details_end`) around some text. -/
def details (summary body : Str) : Str :=
  c!"<details>\n<summary><b>" ++ summary ++ c!"</b></summary>\n\n" ++ body ++ c!"</details>\n\n"

/-- artifact-ser/src/markdown.rs L150-161 (`write_section!`). -/
def Project.familyMd (p : Project) (title : Str) (names : List Name) : Res Unit Str :=
  if names.isEmpty then .ok (c!"<b>" ++ title ++ c!":</b> <i>none</i></a><br>\n")
  else do
    let l ← Res.mapM' (fun n => p.nameMd n none) names
    pure (c!"<b>" ++ title ++ c!":</b><br>\n" ++ l.flatMap (fun s => c!"<li>" ++ s ++ c!"</li>\n"))

/-- artifact-ser/src/markdown.rs L143-184 (`art_to_markdown_family`). -/
def SerMd.family' (md : SerMd) (a : Artifact) : Res Unit Str :=
  match md.family with
  | .list => do
    let partof ← md.project.familyMd c!"partof" a.partof
    let parts ← md.project.familyMd c!"parts" a.parts
    pure (partof ++ parts)
  | .dot => do
    let d ← md.project.artifactDot a
    let fence := match md.dot with
      | .replaceBraces pre post => (pre, post)
      | _ => (c!"```dot", c!"```")
    pure (details c!"dot-graph" (fence.1 ++ c!"\n" ++ d ++ c!"\n" ++ fence.2 ++ c!"\n"))

/-- artifact-ser/src/markdown.rs L117-124: the text about the implementation. -/
def SerMd.implHtml (F : ExportLibs) (md : SerMd) (a : Artifact) : Res Unit Str :=
  match a.impl with
  | .done d => .ok d
  | .code ⟨some c, _⟩ => md.codeHtml F c
  | _ => .ok c!"<i>not implemented</i>"

/-- artifact-ser/src/markdown.rs L105-141 (`art_to_markdown`): what is written, piece by piece. -/
def SerMd.artMd (F : ExportLibs) (md : SerMd) (a : Artifact) : List (Res Unit Str) :=
  [.ok (md.namePrefix ++ c!"# " ++ a.name.raw ++ c!"\n"),
   .ok c!"<details>\n<summary><b>metadata</b></summary>\n\n",
   md.family' a,
   (do let file ← md.fileHtml F a.file
       pure (c!"<b>file:</b> " ++ file ++ c!"<br>\n")),
   (do let impl ← md.implHtml F a
       pure (c!"<b>impl:</b> " ++ impl ++ c!"<br>\n")),
   .ok (c!"<b>spc:</b>" ++ F.percent a.completed.spc ++ c!"&nbsp;&nbsp;<b>tst:</b>" ++ F.percent a.completed.tst ++ c!"<br>\n"),
   .ok c!"<hr>\n",
   .ok c!"</details>\n\n",
   (do let text ← md.replace F a.name.raw a.text
       pure (text ++ c!"\n\n"))]

/-- artifact-ser/src/markdown.rs L96-103 (`to_markdown_toc`). -/
def SerMd.tocMd (md : SerMd) : List (Res Unit Str) :=
  [.ok (md.namePrefix ++ c!"# Table Of Contents\n")] ++
    md.project.artifacts.map (fun x => do
      let s ← md.project.nameMd x.1 none
      pure (c!"- " ++ s ++ c!"\n")) ++
    [.ok c!"\n\n"]

/-- artifact-ser/src/markdown.rs L79-94 (`to_markdown`): what is written, piece by piece. -/
def SerMd.toMd (F : ExportLibs) (md : SerMd) (header : Option Str) (toc : Bool) : List (Res Unit Str) :=
  (match header with
    | some h => [.ok (h ++ c!"\n")]
    | none => []) ++ (if toc then md.tocMd else []) ++ md.project.artifacts.flatMap (fun x => md.artMd F x.2)

/-- artifact-app/src/export.rs L76-88: what is written for a project, piece by piece. -/
def exportParts (F : ExportLibs) (ex : ExportSettings) (p : Project) : List (Res Unit Str) :=
  SerMd.toMd F ⟨p, p.settings.codeUrl, ex.family, ex.dot, ex.namePrefix⟩ ex.header ex.toc

/-- The text that is in the file when all pieces are written, or the first one that cannot be made stops the program. artifact-app/src/export.rs L86-88. -/
def written : List (Res Unit Str) → Str
  | .ok s :: l => s ++ written l
  | _ => []

/-! ## the command -/

/-- artifact-app/src/export.rs L41-64 (`Export`): the two arguments, the second as an absolute path. -/
structure ExportCmd where
  ty : Str
  dest : FilePath

/-- `FileEdit::create`, artifact-app/src/export.rs L86: opens a file for writing, empty, whether or not it existed. `none` is an error. -/
def createFile (fs : FS) (p : FilePath) : Option FS := (Act.apply fs (.create p)).bind (fun fs => Act.apply fs (.truncate p))

/-- artifact-app/src/export.rs L76-90 (`export_markdown`) with L134-140: the exit status and the disk afterwards. Simplification: writing does not fail. -/
def exportMarkdown (F : ExportLibs) (ex : ExportSettings) (fs : FS) (dest : FilePath) (p : Project) : Nat × FS :=
  match createFile fs dest with
  | none => (1, fs)
  | some fs =>
    let parts := exportParts F ex p
    (if parts.all Res.isOk then 0 else 101, IMap.insert fs dest (.file (.text (written parts))))

/-- artifact-app/src/export.rs L117-141 (`run`): a possible exit status of `art export` in the directory `dir` with the disk afterwards. `html` stands for
`export_html` (L66-74), which unpacks a web page that is part of the program. The export settings are part of the settings file. -/
def Exports (L : Libs) (F : ExportLibs) (html : Project → FS → Nat → FS → Prop) (readToml : Str → Option SettingsRaw) (ex : ExportSettings)
    (hash : ArtifactIm → HashIm) (ncpu : Nat) (fs : FS) (dir : FilePath) (cmd : ExportCmd) (status : Nat) (fs' : FS) : Prop :=
  match findRepo fs dir with
  | none => status = 1 ∧ fs' = fs
  | some repo => ∃ out, ReadsProject L readToml hash ncpu fs repo out ∧
    match out with
    | .err _ => status = 1 ∧ fs' = fs
    | .panic => status = 101 ∧ fs' = fs
    | .ok (_, p) =>
      if lower cmd.ty = c!"html" then html p fs status fs'
      else if lower cmd.ty = c!"md" then (status, fs') = exportMarkdown F ex fs cmd.dest p
      else status = 1 ∧ fs' = fs

end Art
