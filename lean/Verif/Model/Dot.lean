import Verif.Model.App
import Verif.Model.View
import Verif.Model.Project

/-!
# The graphs
Models artifact-ser/src/md_graph.rs and artifact-frontend/src/graph.rs L84-136: the text in the language of graphviz that is drawn for one artifact (on its page
and in an exported document) and for a search in the whole project.

Simplifications: `ProjectSer` has the same fields as `Project`, so the latter is used. The drawing itself is not modelled.
-/

namespace Art

/-- `str::to_ascii_lowercase`, artifact-ser/src/md_graph.rs L167. -/
def lower (s : Str) : Str := s.map lowerC

/-- artifact-ser/src/markdown.rs L374-379 (`name_color`) with `GRAY` of L9. -/
def Project.nameColor (p : Project) (n : Name) : Res Unit Str :=
  match p.artifacts.get? n with
  | some a => a.completed.mdColor
  | none => .ok c!"#DCDEE2"

/-- artifact-ser/src/md_graph.rs L174-196 (`dne_name_dot`). -/
def dneNameDot (n : Name) (sub : Option SubName) : Str :=
  c!"\n        {\n            \"" ++ n.keyStr ++ (sub.map SubName.keyStr).getD [] ++ c!"\" [\n                label=<<b>" ++ n.raw ++ (sub.map SubName.raw).getD [] ++
    c!"</b>>;\n                fontcolor=black; style=filled; fillcolor=pink;\n                fontsize=12; margin=0.01; shape=invhouse;\n                tooltip=\"Name not found\";\n            ]\n        }\n        "

/-- artifact-ser/src/md_graph.rs L138-142: the attributes that depend on the focus. -/
def focusAttrs (focus : Bool) : Str := if focus then c!"penwidth=1.5" else c!"style=filled; fillcolor=\"#DCDEE2\";"

/-- artifact-ser/src/md_graph.rs L149. -/
def focusSize (focus : Bool) : Str := if focus then c!"12" else c!"8"

/-- artifact-ser/src/md_graph.rs L144-171: the node of a name that exists. -/
def foundNameDot (n : Name) (sub : Option SubName) (focus : Bool) (color : Str) : Str :=
  c!"\n        {\n            \"" ++ n.keyStr ++ (sub.map SubName.keyStr).getD [] ++ c!"\" [\n                label=\"" ++ n.raw ++ (sub.map SubName.raw).getD [] ++
    c!"\";\n                href=\"#" ++ lower n.keyStr ++ c!"\";\n                fontcolor=\"" ++ color ++ c!"\";\n                fontsize=" ++ focusSize focus ++
    c!"; margin=0.01;\n                shape=invhouse;\n                " ++ focusAttrs focus ++ c!"\n            ]\n        }\n        "

/-- artifact-ser/src/md_graph.rs L122-172 (`fullname_dot`). -/
def Project.fullnameDot (p : Project) (n : Name) (sub : Option SubName) (focus : Bool) : Res Unit Str :=
  match p.artifacts.get? n with
  | none => .ok (dneNameDot n sub)
  | some a =>
    if sub.all (fun s => a.subnames.contains s) then do
      let color ← p.nameColor n
      pure (foundNameDot n sub focus color)
    else .ok (dneNameDot n sub)

/-- artifact-ser/src/md_graph.rs L80-82 (`name_dot`). -/
def Project.nameDot (p : Project) (n : Name) (focus : Bool) : Res Unit Str := p.fullnameDot n none focus

/-- artifact-ser/src/md_graph.rs L35-37 (`connect_names_dot`). -/
def connectDot (src dst : Name) : Str := c!"        \"" ++ src.keyStr ++ c!"\" -> \"" ++ dst.keyStr ++ c!"\"\n"

/-- artifact-ser/src/md_graph.rs L49-78 (`wrap_dot`). -/
def wrapDot (dot : Str) (lr : Bool) : Str :=
  c!"\n        digraph G {\n        graph [\n            margin=0.001; label=\"\";\n            " ++ (if lr then c!"randir=LR;" else []) ++
    c!"\n        ];\n\n        ////////////////////\n        // DOT INSERTED HERE\n\n        " ++ dot ++
    c!"\n\n        ///////////////////\n        // END INSERTED DOT\n\n        }\n        "

/-- artifact-ser/src/md_graph.rs L39-46 (`push_connections`). -/
def Artifact.connections (a : Artifact) : List (Name × Name) := a.parts.map (fun q => (a.name, q)) ++ a.partof.map (fun q => (q, a.name))

/-- artifact-ser/src/md_graph.rs L23-33 (`artifact_part_dot`). -/
def Project.artifactDot (p : Project) (a : Artifact) : Res Unit Str := do
  let self ← p.nameDot a.name true
  let parts ← Res.mapM' (fun q => p.nameDot q false) a.parts
  let partof ← Res.mapM' (fun q => p.nameDot q false) a.partof
  pure (wrapDot (self ++ parts.flatten ++ partof.flatten ++ (a.connections.map fun c => connectDot c.1 c.2).flatten) true)

/-- Two connections are the same if they have the same names: `PartialEq` of a pair, artifact-ser/src/name.rs L373-377. -/
instance : HasKey (Name × Name) (Str × Str) := ⟨fun c => (c.1.keyStr, c.2.keyStr)⟩

/-- artifact-frontend/src/graph.rs L101-118: the nodes for one artifact in focus. -/
def Project.focusDot (p : Project) (focus : IMap Name Artifact) (x : Name × Artifact) : Res Unit Str := do
  let self ← p.nameDot x.1 true
  let parts ← Res.mapM' (fun q => p.nameDot q false) (x.2.parts.filter fun q => !focus.contains q)
  let partof ← Res.mapM' (fun q => p.nameDot q false) (x.2.partof.filter fun q => !focus.contains q)
  pure (self ++ parts.flatten ++ partof.flatten)

/-- artifact-frontend/src/graph.rs L122-129: the connections of one artifact in focus. -/
def focusConnections (x : Name × Artifact) : List (Name × Name) := x.2.parts.map (fun q => (x.1, q)) ++ x.2.partof.map (fun q => (q, x.1))

/-- artifact-frontend/src/graph.rs L85-136 (`graph_html_results`), `re` is the filter. `HashMap` and `HashSet` give their entries in any order. -/
def Project.SearchDot (p : Project) (re : Str → Bool) (out : Res Unit Str) : Prop :=
  ∃ (focus : IMap Name Artifact) (conns : List (Name × Name)), focus.Perm (p.artifacts.filter fun x => re x.1.raw) ∧
    conns.Perm (ISet.collect (focus.flatMap focusConnections)) ∧
    out = (do
      let nodes ← Res.mapM' (p.focusDot focus) focus
      pure (wrapDot (nodes.flatten ++ (conns.map fun c => connectDot c.1 c.2).flatten) false))

end Art
