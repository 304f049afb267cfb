import Verif.Model.Export
import Verif.Model.Page

/-!
# What the web page draws
Models artifact-frontend/src/view.rs L66-113, graph.rs L24-82, artifact.rs L79-150 and name.rs L3-7: the functions that turn texts, graphs and
numbers into pictures, with the replacements of artifact-ser/src/markdown.rs.

Simplifications. The libraries of the browser are parameters. `ProjectSer` has the same fields as `Project`, so the latter is used for what the page
knows about the project besides `Proj`.
-/

namespace Art
namespace Web

/-- What is done by libraries. Called at artifact-frontend/src/view.rs L70-80, artifact-frontend/src/graph.rs L57-75. -/
structure Browser where
  /-- artifact-frontend/src/graph.rs L55-69 (`dot_html_string`): the drawing that graphviz makes, or a text with its message. -/
  viz : Str → Str
  /-- The reader and the writer of `commonmark`, artifact-frontend/src/view.rs L70-75. -/
  commonmark : Str → Str
  /-- Whether `Node::from_html` succeeds, artifact-frontend/src/view.rs L80, graph.rs L75 and nav.rs L121. It wants a text that is exactly one node. -/
  node : Str → Bool
  /-- `{:.1}` of a number multiplied by hundred, artifact-frontend/src/artifact.rs L90-92 and L104-106. -/
  percent1 : ℚ → Str
  /-- artifact-frontend/src/dev_prelude.rs L493-508 (`parse_regex`). -/
  compile : Str → Except Str (Str → Bool)
  /-- The text of the graph for a search, artifact-frontend/src/graph.rs L94-135, in the order in which the tables happen to be. -/
  search : Project → (Str → Bool) → Res Unit Str

/-- artifact-frontend/src/view.rs L110-113 (`replace_markdown_dot`). -/
def Browser.svgBlock (B : Browser) (dot : Str) : Str := c!"\n<html>\n" ++ B.viz dot ++ c!"\n</html>\n"

/-- artifact-frontend/src/view.rs L29-33: the match of `REPLACE_TEXT_RE` that starts here: the graph and the text after it. The pattern is the one of
artifact-ser/src/markdown.rs L23-29 but for its groups. -/
def fenceHere (bol : Bool) (s : Str) : Option (Str × Str) :=
  if bol then (dotHere s).bind (fun m => (Caps.get m.2.2 2).map (fun d => (d, m.2.1))) else none

/-- artifact-frontend/src/view.rs L99-108 (`replace_markdown`). The first argument of `go` is fuel, called with the length of the text. -/
def Browser.drawGraphs (B : Browser) (s : Str) : Str :=
  go s.length true s
where
  /-- artifact-frontend/src/view.rs L107: `replace_all`. -/
  go : Nat → Bool → Str → Str
    | 0, _, _ => []
    | n + 1, bol, s =>
      match fenceHere bol s with
      | some (d, rest) => B.svgBlock d ++ go n false rest
      | none => match s with
        | [] => []
        | c :: t => c :: go n (c == '\n') t

/-- artifact-frontend/src/view.rs L84-97 (`ser_markdown`). -/
def pageMd (p : Project) : SerMd := ⟨p, p.settings.codeUrl, .dot, .ignore, []⟩

/-- artifact-frontend/src/view.rs L70-79: the HTML for a text with its replacements. `trim` changes nothing. -/
def Browser.mdHtml (B : Browser) (md : Str) : Str := c!"<div>" ++ B.commonmark (B.drawGraphs md) ++ c!"</div>"

/-- `expect!(Node::from_html(..))`, artifact-frontend/src/view.rs L80 and graph.rs L75. -/
def Browser.asNode (B : Browser) (html : Str) : Option Str := if B.node html then some html else none

/-- artifact-frontend/src/view.rs L63-82 (`markdown_html`). -/
def Browser.textHtml (B : Browser) (F : ExportLibs) (p : Project) (parent text : Str) : Option Str :=
  match (pageMd p).replace F parent text with
  | .ok md => B.asNode (B.mdHtml md)
  | _ => none

/-- artifact-frontend/src/graph.rs L71-82 (`dot_html`). -/
def Browser.dotHtml (B : Browser) (dot : Str) : Option Str := B.asNode (c!"<div>" ++ B.viz dot ++ c!"</div>")

/-- artifact-frontend/src/artifact.rs L81-94 (`spc_html`) with the constants of dev_prelude.rs L95-99: the number. Its colour is an attribute of no effect. -/
def Browser.spcText (B : Browser) (c : Completed) : Str := B.percent1 c.spc

/-- artifact-frontend/src/artifact.rs L96-108 (`tst_html`): the number. Its colour is used as the name of a class. -/
def Browser.tstText (B : Browser) (c : Completed) : Str := B.percent1 c.tst

/-- artifact-frontend/src/artifact.rs L125-150 (`html` of `ImplSer`, `primary_html`), with `{:?}` of a place from artifact-ser/src/ser.rs L225-229. -/
def implText : Impl → Str
  | .done d => c!"Defined as done:" ++ d
  | .code ⟨some loc, _⟩ => c!"Implemented:" ++ loc.file ++ c!"[" ++ showNat loc.line ++ c!"]"
  | _ => []

/-- artifact-frontend/src/name.rs L4-7: the colour of a name. The panic of artifact.rs L116 is passed on as no colour. -/
def webNameColor (p : Project) (n : Name) : Str :=
  match p.artifacts.get? n with
  | some a => match a.completed.webColor with
    | .ok c => c
    | _ => []
  | none => c!"#DCDEE2"

/-- The painter of the web page: artifact-frontend/src/view.rs, graph.rs, artifact.rs and name.rs. An artifact is looked up by its name, since `Shown` has
only a part of it. artifact-frontend/src/view.rs L63-113, artifact-frontend/src/graph.rs L25-136. -/
def Browser.painter (B : Browser) (F : ExportLibs) : Painter Project where
  text p _ parent t := B.textHtml F p parent t
  part p _ a := match p.artifacts.get? a.name with
    | some x => match p.artifactDot x with
      | .ok d => B.dotHtml d
      | _ => none
    | none => none
  graph p _ re := match B.search p re with
    | .ok d => B.dotHtml d
    | _ => none
  color p _ n := webNameColor p n
  spc p a := match p.artifacts.get? a.name with
    | some x => B.spcText x.completed
    | none => []
  tst p a := match p.artifacts.get? a.name with
    | some x => B.tstText x.completed
    | none => []
  impl p a := match p.artifacts.get? a.name with
    | some x => implText x.impl
    | none => []
  parses := B.node
  compile := B.compile

end Web
end Art
