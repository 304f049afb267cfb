import Verif.Model.Page
import Verif.Spec.Frontend

/-! Specification for C59: what can be seen of a picture, and what a user expects of its controls. -/

namespace Art
namespace Web

/-- The links of a picture: where they go, their label and colour. -/
def linksOf (l : List Elem) : List (Str × Str × Str) :=
  l.filterMap (fun | .link h t c => some (h, t, c) | _ => none)

/-- The fields of a picture, with their content. -/
def fieldsOf (l : List Elem) : List (Str × Str) :=
  l.filterMap (fun | .input i v _ => some (i, v) | _ => none)

/-- The texts and drawings of a picture. -/
def textsOf (l : List Elem) : List Str :=
  l.filterMap (fun | .text s => some s | .html s => some s | _ => none)

/-- The picture has a button with this id. -/
def HasButton (l : List Elem) (id : Str) : Prop := ∃ a, Elem.button id a ∈ l

/-- The picture shows a message: the button that removes it is there. -/
def ShowsLog (l : List Elem) (id : Nat) : Prop := HasButton l (c!"close-err-" ++ showNat id)

/-- The fields of a form for an edit. -/
def formFields (e : Edit) : List (Str × Str) :=
  (c!"edit-name", e.name) :: e.partof.zipIdx.map (fun x => (c!"edit-partof-" ++ showNat x.2, x.1)) ++
    [(c!"edit-file", e.file), (c!"edit-done", e.done), (c!"edit-text", e.text)]

/-- The edit whose form a view is for. -/
def editOf (v : View) (l : IMap Nat Edit) : Option Edit :=
  match v with
  | .edit id => l.get? id
  | _ => none

/-- The fields that should be on the page. -/
def fieldsWanted (u : UI) (n : Nav) : List (Str × Str) :=
  (match u.view with | .graph => [(c!"graph-nav-filter", n.graph)] | _ => []) ++ (if n.editingOn then [(c!"editing-search", n.editing)] else []) ++
    (if n.searchOn then [(c!"search-input", n.search)] else []) ++ ((editOf u.view u.editing).map formFields).getD []

/-- What a pane lists: nothing if it is closed or its pattern cannot be read, else what matches, in order. -/
def listed {α : Type} (on : Bool) (pattern : Except Str (Str → Bool)) (name : α → Str) (l : List α) : List α :=
  if on then match pattern with
    | .ok re => l.filter (fun x => re (name x))
    | .error _ => []
  else []

/-- The links that should be on the page: open edits and artifacts. -/
def linksWanted {X : Type} (K : Painter X) (u : UI) (x : X) (n : Nav) : List (Str × Str × Str) :=
  (listed n.editingOn (K.compile n.editing) (fun y => y.2.name) u.editing).map
      (fun y => (hashEdit y.1, if y.2.name = [] then c!"NOT YET NAMED" else y.2.name, [])) ++
    (listed n.searchOn (K.compile n.search) (fun y => y.1.raw) u.shared).map (fun y => (y.1.raw, y.1.raw, K.color x u.shared y.1))

/-- Text that was typed replaces the content of one field. -/
def typedInto (id v : Str) (fields : List (Str × Str)) : List (Str × Str) :=
  fields.map (fun x => if x.1 = id then (x.1, v) else x)

/-- A painter that can draw everything. -/
def Draws {X : Type} (K : Painter X) : Prop :=
  (∀ x p n t, K.text x p n t ≠ none) ∧ (∀ x p a, K.part x p a ≠ none) ∧ ∀ x p re, K.graph x p re ≠ none

/-- A page after any history since it was opened. -/
def Reached {X : Type} (K : Painter X) (nd : Char → Bool) (lim : Nat) (p : Page X) : Prop :=
  ∃ ex x hash p0 tr, K.start nd lim ex x hash = .ok p0 ∧ PRuns K nd lim p0 tr p

/-- The messages that are open are those before, and one more at the end. -/
def OneMore (old new : IMap Nat Log) (id : Nat) : Prop := ∃ l, new = old ++ [(id, l)]

/-- A picture cannot be drawn: the painter fails for what the view needs. -/
def CannotDraw {X : Type} (K : Painter X) (u : UI) (x : X) (n : Nav) : Prop :=
  (u.view = .graph ∧ ∃ re, K.compile n.graph = .ok re ∧ K.graph x u.shared re = none) ∨
  (∃ m a, u.view = .artifact m ∧ u.shared.get? m = some a ∧ (K.part x u.shared a = none ∨ K.text x u.shared a.name.raw a.text = none)) ∨
  ∃ id e, u.view = .edit id ∧ u.editing.get? id = some e ∧ K.text x u.shared e.name e.text = none

end Web
end Art
