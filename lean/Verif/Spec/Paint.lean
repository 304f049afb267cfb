import Verif.Model.Paint
import Verif.Spec.Page
import Verif.Spec.Export
import Verif.Spec.Whole

/-! Specification for C60: which controls break the web page, which texts it cannot show and what it shows for a text. -/

namespace Art
namespace Web

open Spec.Export

/-- A control that breaks the page before anything is drawn: save with a field that is not a name, cancel with a name that cannot be routed. -/
def Breaks (u : UI) (a : Act) : Prop :=
  ∃ id ed, u.view = .edit id ∧ u.editing.get? id = some ed ∧
    ((a = .msg (.sendUpdate [id]) ∧ u.fetching = false ∧ ¬ FieldsOk ed) ∨
     (a = .msg (.stopEdit id) ∧ Name.fromStr ed.name = .panic ∧ ∀ q ∈ u.shared, some q.2.id ≠ ed.originalId))

/-- A control after which something has to be drawn that cannot be drawn. -/
def Undrawable {X : Type} (K : Painter X) (nd : Char → Bool) (lim : Nat) (u : UI) (x : X) (n : Nav) : Act → Prop
  /- a link: what it leads to -/
  | .go h => ∃ v, View.fromHash nd lim h = .ok v ∧ CannotDraw K { u with view := v } x n
  /- the filter of the graph: the graph of what is selected -/
  | .nav (.setGraph v) => u.view = .graph ∧ ∃ re, K.compile v = .ok re ∧ K.graph x u.shared re = none
  /- the name and the text in a form: the text as it would be shown below the form -/
  | .msg (.editArtifact id (.name v)) => ∃ e, u.view = .edit id ∧ u.editing.get? id = some e ∧ K.text x u.shared v e.text = none
  | .msg (.editArtifact id (.text v)) => ∃ e, u.view = .edit id ∧ u.editing.get? id = some e ∧ K.text x u.shared e.name v = none
  /- closing a form: the page where it lands -/
  | .msg (.stopEdit id) => ∃ e v, u.view = .edit id ∧ u.editing.get? id = some e ∧ Lands u.shared e v ∧
      (∃ r, u.update nd lim (.stopEdit id) = .ok r ∧ r.1.view = v) ∧ CannotDraw K { u with view := v } x n
  /- a new form, unless its number is too large: the text of length zero -/
  | .create => u.nextId < lim ∧ K.text x u.shared [] [] = none
  | _ => False

/-- The search draws what it should, in any order. -/
def Browser.Searches (B : Browser) : Prop := ∀ (p : Project) (re : Str → Bool), p.SearchDot re (B.search p re)

/-- The HTML for a graph is not one node. -/
def Browser.Torn (B : Browser) (dot : Str) : Prop := B.node (c!"<div>" ++ B.viz dot ++ c!"</div>") = false

/-- The HTML for a text is not one node. -/
def Browser.TornText (B : Browser) (F : ExportLibs) (p : Project) (parent text : Str) : Prop :=
  ∃ md, (pageMd p).replace F parent text = .ok md ∧ B.node (c!"<div>" ++ B.commonmark (B.drawGraphs md) ++ c!"</div>") = false

/-- A subname in a text that is implemented at a place without an address. -/
def Homeless (F : ExportLibs) (p : Project) (parent text : Str) : Prop :=
  ∃ loc ps s, Cut true text ps ∧ Piece.sub s ∈ ps ∧ Implemented p parent s loc ∧ NoAddress F (pageMd p) loc

/-- A text of someone who types that cannot be shown. -/
def Unshowable (F : ExportLibs) (p : Project) (parent text : Str) : Prop :=
  ∃ ps, Cut true text ps ∧ ∃ x ∈ ps, Bad F (pageMd p) parent x

/-- No line of the graph begins a closing fence that goes on with a reference, like "```[[SPC-a]]". -/
def NoTickRef (s : Str) : Prop := ∀ x y, s ≠ x ++ (c!"```[[" ++ y)

/-- The places of subnames and their addresses fit on one line. -/
def OneLine (F : ExportLibs) (p : Project) (parent : Str) : Prop :=
  (∀ s loc, Implemented p parent s loc → '\n' ∉ loc.file) ∧
  ∀ s loc fmt u, Implemented p parent s loc → p.settings.codeUrl = some fmt →
    F.strfmt fmt (trimBase p.settings.base loc.file) (showNat (loc.line + 1)) = some u → '\n' ∉ u

/-- What is shown for a piece of the text before markdown is applied: like in the exported document, with every graph replaced by its drawing. The graph is drawn from its text, with
nodes for the references in it, without what is blank at the beginning. -/
def PieceDrawn (B : Browser) (F : ExportLibs) (p : Project) (parent : Str) : Piece → Str → Prop
  | .plain c, out => out = [c]
  | .sub s, out => SubShown F (pageMd p) parent s out
  | .ref n sub, out => RefShown p n sub out
  | .graph _ body, out => ∃ qs ns w d, Cut true body qs ∧ List.Forall₂ (NodeShown p parent) qs ns ∧
      ns.flatten ++ c!"\n" = w ++ d ∧ (∀ c ∈ w, isWS c = true) ∧ out = c!"\n<html>\n" ++ B.viz d ++ c!"\n</html>\n"

end Web
end Art
