import Verif.Model.Export
import Verif.Props.Project
import Verif.Spec.Dot

/-! Specification for C55: how a text is cut into pieces and what is to be shown for each of them. -/

namespace Art
namespace Spec.Export

/-! ## pieces of a text -/

/-- A piece of the text of an artifact. -/
inductive Piece where
  /-- A character that stands for itself. -/
  | plain (c : Char)
  /-- A subname is introduced: `[[.sub]]`. -/
  | sub (s : Str)
  /-- A reference: `[[NAME]]` or `[[NAME.sub]]`. -/
  | ref (n : Str) (sub : Option Str)
  /-- A graph: what comes before the last newline of the opening, and what is between that newline and the closing fence. -/
  | graph (head body : Str)
  deriving DecidableEq

/-- How a piece is written. -/
def Piece.src : Piece → Str
  | .plain c => [c]
  | .sub s => c!"[[" ++ s ++ c!"]]"
  | .ref n s => c!"[[" ++ n ++ s.getD [] ++ c!"]]"
  | .graph head body => head ++ c!"\n" ++ body ++ c!"```"

/-- A graph could be read here: a fence with the word `dot` and blanks or empty lines, at least one more line, a closing fence at the end of its line. -/
def MayGraph (s head body rest : Str) : Prop :=
  s = head ++ c!"\n" ++ body ++ c!"```" ++ rest ∧
  (∃ d w, head = c!"```" ++ d ++ w ∧ upper d = c!"DOT" ∧ ∀ c ∈ w, isWS c = true) ∧
  (∃ b, b ≠ [] ∧ body = b ++ c!"\n") ∧ (rest = [] ∨ ∃ r, rest = '\n' :: r)

/-- The graph that is read here: the longest possible opening, then the shortest possible body. -/
def Graph (s head body rest : Str) : Prop :=
  MayGraph s head body rest ∧
    ∀ h b r, MayGraph s h b r → h.length < head.length ∨ (h.length = head.length ∧ body.length ≤ b.length)

/-- Nothing but a single character can be read here; `bol` is whether this is the beginning of a line. -/
def NoPiece (bol : Bool) (s : Str) : Prop :=
  (∀ x rest, SubLike x → s ≠ c!"[[" ++ x ++ c!"]]" ++ rest) ∧
  (∀ n x rest, NameLike n → (∀ y, x = some y → SubLike y) → s ≠ c!"[[" ++ n ++ x.getD [] ++ c!"]]" ++ rest) ∧
  (bol = true → ∀ h b r, ¬ MayGraph s h b r)

/-- How a text is cut into pieces, from the left. -/
inductive Cut : Bool → Str → List Piece → Prop
  | nil {bol} : Cut bol [] []
  | sub {bol s rest ps} : SubLike s → Cut false rest ps → Cut bol (c!"[[" ++ s ++ c!"]]" ++ rest) (.sub s :: ps)
  | ref {bol n s rest ps} : NameLike n → (∀ y, s = some y → SubLike y) → Cut false rest ps →
      Cut bol (c!"[[" ++ n ++ s.getD [] ++ c!"]]" ++ rest) (.ref n s :: ps)
  | graph {s head body rest ps} : Graph s head body rest → Cut false rest ps → Cut true s (.graph head body :: ps)
  | plain {bol c s ps} : NoPiece bol (c :: s) → Cut (c == '\n') s ps → Cut bol (c :: s) (.plain c :: ps)

/-- A piece of a text or of a graph in it. -/
def Within (text : Str) (x : Piece) : Prop :=
  ∃ ps, Cut true text ps ∧ (x ∈ ps ∨ ∃ head body qs, Piece.graph head body ∈ ps ∧ Cut true body qs ∧ x ∈ qs)

/-! ## reading a link -/

/-- The text after the first place where the mark is. -/
def after (mark : Str) : Str → Option Str
  | [] => none
  | c :: s => if mark.isPrefixOf (c :: s) then some ((c :: s).drop mark.length) else after mark s

/-- Where a link leads to within the document. -/
def target (html : Str) : Option Str := (after c!" href=\"#" html).map (Dot.till '"')
/-- What is said when one points at it. -/
def title (html : Str) : Option Str := (after c!" title=\"" html).map (Dot.till '"')
/-- Its colour. -/
def colour (html : Str) : Option Str := (after c!"color: " html).map (Dot.till '"')
/-- What one sees of it. -/
def caption (html : Str) : Option Str := (after c!">" html).map (Dot.till '<')

/-! ## what is shown -/

/-- The artifacts of a project. -/
def arts (p : Project) : List Artifact := p.artifacts.map Prod.snd

/-- A reference is shown as a link to the artifact, in its colour, if the artifact and the subname exist, and marked as not found otherwise. -/
def RefShown (p : Project) (n : Str) (sub : Option Str) (html : Str) : Prop :=
  ∃ name, Name.fromStr n = .ok name ∧
    (¬ NoTarget (arts p) name (sub.map SubName.mk) →
      target html = some (upper n) ∧ caption html = some (n ++ sub.getD []) ∧ title html = some (upper n ++ upper (sub.getD [])) ∧
        ∃ a ∈ arts p, key a.name = key name ∧ ∃ c, a.completed.mdColor = .ok c ∧ colour html = some c) ∧
    (NoTarget (arts p) name (sub.map SubName.mk) →
      target html = none ∧ colour html = some c!"#B10DC9" ∧
        ((∃ a ∈ arts p, key a.name = key name) →
          caption html = some (n ++ sub.getD []) ∧ title html = some (upper n ++ upper (sub.getD []) ++ c!" not found")) ∧
        ((∀ a ∈ arts p, key a.name ≠ key name) → caption html = some n ∧ title html = some (upper n ++ c!" not found")))

/-- The place in the code where a subname of the artifact is implemented. -/
def Implemented (p : Project) (parent sub : Str) (loc : CodeLoc) : Prop :=
  ∃ (n : Name) (t : SubName), Recorded p.codeImpls n (some t) loc ∧ n.keyStr = upper parent ∧ upper t.raw = upper sub

/-- A subname is shown in blue with the place of its implementation, and a link to it if there are addresses for code; in red if there is none. -/
def SubShown (F : ExportLibs) (md : SerMd) (parent s html : Str) : Prop :=
  (∀ loc, Implemented md.project parent s loc →
    (md.codeUrl = none → html = c!"<span title=\"" ++ loc.file ++ c!"[" ++ showNat loc.line ++ c!"]\" style=\"color: #0074D9\"><b><i>" ++ s ++ c!"</i></b></span>") ∧
    (∀ fmt, md.codeUrl = some fmt → ∃ u, F.strfmt fmt (trimBase md.project.settings.base loc.file) (showNat (loc.line + 1)) = some u ∧
      html = c!"<a title=\"" ++ loc.file ++ c!"[" ++ showNat loc.line ++ c!"]\" style=\"color: #0074D9\" href=\"" ++ u ++ c!"\"><b>" ++ s ++ c!"</b></a>")) ∧
  ((∀ loc, ¬ Implemented md.project parent s loc) → html = c!"<span title=\"Not Implemented\" style=\"color: #FF4136\"><b><i>" ++ s ++ c!"</i></b></span>")

/-- The colour of the writing in a node. -/
def nodeColour (dot : Str) : Option Str := (after c!"fontcolor=\"" dot).map (Dot.till '"')

/-- A piece of a graph: references and subnames become nodes. -/
def NodeShown (p : Project) (parent : Str) : Piece → Str → Prop
  | .plain c, out => out = [c]
  | .graph _ _, _ => False
  | .ref n sub, out => ∃ name, Name.fromStr n = .ok name ∧
      (¬ NoTarget (arts p) name (sub.map SubName.mk) → ∃ a ∈ arts p, key a.name = key name ∧ ∃ c, a.completed.mdColor = .ok c ∧
        Dot.items out = [.node (upper n ++ upper (sub.getD [])), .label (n ++ sub.getD []), .link (lower n), .color c, .strong]) ∧
      (NoTarget (arts p) name (sub.map SubName.mk) →
        Dot.items out = [.node (upper n ++ upper (sub.getD [])), .label (n ++ sub.getD []), .missing])
  | .sub s, out => Dot.items out = [.node (upper s), .label s] ∧
      ((∃ loc, Implemented p parent s loc) → nodeColour out = some c!"#0074D9") ∧
      (∀ name, Name.fromStr parent = .ok name → (∀ loc, ¬ Implemented p parent s loc) → nodeColour out = some c!"#FF4136")

/-- A graph, with its fences as the settings say. -/
def GraphShown (md : SerMd) (parent head body out : Str) : Prop :=
  ∃ qs os, Cut true body qs ∧ List.Forall₂ (NodeShown md.project parent) qs os ∧
    out = match md.dot with
      | .ignore => head ++ c!"\n" ++ os.flatten ++ c!"\n```"
      | .removeBraces => c!"\n" ++ os.flatten ++ c!"\n"
      | .replaceBraces pre post => pre ++ c!"\n" ++ os.flatten ++ c!"\n" ++ post

/-- What is shown for a piece of the text of the artifact `parent`. -/
def PieceShown (F : ExportLibs) (md : SerMd) (parent : Str) : Piece → Str → Prop
  | .plain c, out => out = [c]
  | .sub s, out => SubShown F md parent s out
  | .ref n sub, out => RefShown md.project n sub out
  | .graph head body, out => GraphShown md parent head body out

/-- A name for which reading panics instead of failing. -/
def Panics (n : Str) : Prop := Name.fromStr n = .panic

/-- The address of a place in the code cannot be made. -/
def NoAddress (F : ExportLibs) (md : SerMd) (loc : CodeLoc) : Prop :=
  ∃ fmt, md.codeUrl = some fmt ∧ F.strfmt fmt (trimBase md.project.settings.base loc.file) (showNat (loc.line + 1)) = none

/-- A piece of a graph that crashes the program. -/
def BadNode (parent : Str) : Piece → Prop
  | .sub _ => Panics parent
  | .ref n _ => Panics n
  | _ => False

/-- A piece of a text that crashes the program. -/
def Bad (F : ExportLibs) (md : SerMd) (parent : Str) : Piece → Prop
  | .plain _ => False
  | .sub s => Panics parent ∨ ∃ loc, Implemented md.project parent s loc ∧ NoAddress F md loc
  | .ref n _ => Panics n
  | .graph _ body => ∃ qs, Cut true body qs ∧ ∃ q ∈ qs, BadNode parent q

/-! ## the document -/

/-- A place in the code is shown as a link if there are addresses for code. -/
def PlaceShown (F : ExportLibs) (md : SerMd) (loc : CodeLoc) (shown out : Str) : Prop :=
  (md.codeUrl = none → out = shown) ∧
  ∀ fmt, md.codeUrl = some fmt → ∃ u, F.strfmt fmt (trimBase md.project.settings.base loc.file) (showNat (loc.line + 1)) = some u ∧
    out = c!"<a href=\"" ++ u ++ c!"\">" ++ shown ++ c!"</a>"

/-- A list of names in the metadata: every name is shown like a reference. -/
def NamesShown (p : Project) (what : Str) (names : List Name) (out : Str) : Prop :=
  (names = [] → out = c!"<b>" ++ what ++ c!":</b> <i>none</i></a><br>\n") ∧
  (names ≠ [] → ∃ os, List.Forall₂ (fun (n : Name) o => RefShown p n.raw none o) names os ∧
    out = c!"<b>" ++ what ++ c!":</b><br>\n" ++ os.flatMap (fun o => c!"<li>" ++ o ++ c!"</li>\n"))

/-- The graph in the metadata: a node for the artifact and for each of its neighbours, arrows to its parts and from what it is a part of. -/
def NeighboursDrawn (p : Project) (a : Artifact) (dot : Str) : Prop :=
  (∀ k, Dot.Item.node k ∈ Dot.items dot ↔ k = upper a.name.raw ∨ Dot.IsPart p k (upper a.name.raw) ∨ Dot.IsPart p (upper a.name.raw) k) ∧
  ∀ k k', Dot.Item.edge k k' ∈ Dot.items dot ↔ Dot.IsPart p k k' ∧ (k = upper a.name.raw ∨ k' = upper a.name.raw)

/-- The relatives of an artifact in the metadata, as the settings say. -/
def FamilyShown (md : SerMd) (a : Artifact) (out : Str) : Prop :=
  (md.family = .list → ∃ x y, NamesShown md.project c!"partof" a.partof x ∧ NamesShown md.project c!"parts" a.parts y ∧ out = x ++ y) ∧
  (md.family = .dot → ∃ pre d post, NeighboursDrawn md.project a d ∧
    out = c!"<details>\n<summary><b>dot-graph</b></summary>\n\n" ++ pre ++ c!"\n" ++ d ++ c!"\n" ++ post ++ c!"\n" ++ c!"</details>\n\n" ∧
    ((∃ x y, md.dot = .replaceBraces x y ∧ pre = x ∧ post = y) ∨ ((∀ x y, md.dot ≠ .replaceBraces x y) ∧ pre = c!"```dot" ∧ post = c!"```")))

/-- How an artifact is implemented. -/
def ImplShown (F : ExportLibs) (md : SerMd) (a : Artifact) (out : Str) : Prop :=
  (∀ d, a.impl = .done d → out = d) ∧
  (∀ code loc, a.impl = .code code → code.primary = some loc →
    PlaceShown F md loc (trimBase md.project.settings.base loc.file ++ c!"[" ++ showNat loc.line ++ c!"]") out) ∧
  ((a.impl = .notImpl ∨ ∃ code, a.impl = .code code ∧ code.primary = none) → out = c!"<i>not implemented</i>")

/-- The section about an artifact. -/
def SectionShown (F : ExportLibs) (md : SerMd) (a : Artifact) (out : Str) : Prop :=
  ∃ family file impl ps text, FamilyShown md a family ∧ PlaceShown F md ⟨a.file, 0⟩ (trimBase md.project.settings.base a.file) file ∧ ImplShown F md a impl ∧
    Cut true a.text ps ∧ List.Forall₂ (PieceShown F md a.name.raw) ps text ∧
    out = md.namePrefix ++ c!"# " ++ a.name.raw ++ c!"\n<details>\n<summary><b>metadata</b></summary>\n\n" ++ family ++ c!"<b>file:</b> " ++ file ++
      c!"<br>\n<b>impl:</b> " ++ impl ++ c!"<br>\n<b>spc:</b>" ++ F.percent a.completed.spc ++ c!"&nbsp;&nbsp;<b>tst:</b>" ++ F.percent a.completed.tst ++
      c!"<br>\n<hr>\n</details>\n\n" ++ text.flatten ++ c!"\n\n"

/-- The table of contents: one link for each artifact, none of them leading nowhere. -/
def ContentsShown (md : SerMd) (out : Str) : Prop :=
  ∃ os, List.Forall₂ (fun (a : Artifact) o => RefShown md.project a.name.raw none o ∧ target o = some (upper a.name.raw)) (arts md.project) os ∧
    out = md.namePrefix ++ c!"# Table Of Contents\n" ++ os.flatMap (fun o => c!"- " ++ o ++ c!"\n") ++ c!"\n\n"

/-- The whole document: header, table of contents if wanted, one section for each artifact in the order of the project. -/
def DocShown (F : ExportLibs) (md : SerMd) (header : Option Str) (toc : Bool) (out : Str) : Prop :=
  ∃ contents sections, (if toc then ContentsShown md contents else contents = []) ∧ List.Forall₂ (SectionShown F md) (arts md.project) sections ∧
    out = (header.map (· ++ c!"\n")).getD [] ++ contents ++ sections.flatten

/-- A place whose address the section about an artifact contains: its file, where it is implemented, where a subname in its text is implemented. -/
def AddressedIn (p : Project) (a : Artifact) (loc : CodeLoc) : Prop :=
  loc = ⟨a.file, 0⟩ ∨ (∃ code, a.impl = .code code ∧ code.primary = some loc) ∨
    ∃ ps s, Cut true a.text ps ∧ Piece.sub s ∈ ps ∧ Implemented p a.name.raw s loc

/-- A place whose address the document contains. -/
def Addressed (p : Project) (loc : CodeLoc) : Prop := ∃ a ∈ arts p, AddressedIn p a loc

end Spec.Export
end Art
