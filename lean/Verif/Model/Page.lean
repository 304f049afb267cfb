import Verif.Model.Frontend

/-!
# What the web page shows and what its controls do
Models the view functions artifact-frontend/src/main.rs L144-166, nav.rs L21-229, artifact.rs L21-76, edit.rs L66-204, graph.rs L32-53,
name.rs L3-12, and how yew calls them: artifact-frontend/src/main.rs L71-129 (`update` and whether it asks for a new picture).

Simplifications. A picture is the list of its elements in the order in which they are on the page, without their nesting, classes, titles
and icons; headings that never change are left out. A click on an element that is on the page is handled before anything else happens
(JavaScript has one thread and yew handles a message and draws the picture in one go). What is drawn by other functions (text, graphs, colours,
numbers) comes from a `Painter`, in which every theorem is for all functions; `none` is a panic. `X` is what the page knows about the project
besides `Proj` (links, completion, places in the code, settings); the painter may use it.
-/

namespace Art
namespace Web

/-- The drawing that is done by functions that are modelled elsewhere or by libraries. artifact-frontend/src/view.rs L63-82, artifact-frontend/src/graph.rs L25-136. -/
structure Painter (X : Type) where
  /-- artifact-frontend/src/view.rs L63-82 (`markdown_html`): of a parent and a text. -/
  text : X → Proj → Str → Str → Option Str
  /-- artifact-frontend/src/graph.rs L25-30 (`artifact_part_html`). -/
  part : X → Proj → Shown → Option Str
  /-- artifact-frontend/src/graph.rs L84-136 (`graph_html_results`) for a pattern that could be read. -/
  graph : X → Proj → (Str → Bool) → Option Str
  /-- artifact-frontend/src/name.rs L4-7: the colour of a name, by `name_color` of artifact.rs L110-118. -/
  color : X → Proj → Name → Str
  /-- artifact-frontend/src/artifact.rs L80-108 (`spc_html`, `tst_html`): colour and number. -/
  spc : X → Shown → Str
  tst : X → Shown → Str
  /-- artifact-frontend/src/artifact.rs L125-150 (`html` of `ImplSer`). -/
  impl : X → Shown → Str
  /-- `Node::from_html` of artifact-frontend/src/nav.rs L121. -/
  parses : Str → Bool
  /-- artifact-frontend/src/dev_prelude.rs L493-508 (`parse_regex`): the message or `is_match`. -/
  compile : Str → Except Str (Str → Bool)

/-- The messages of artifact-frontend/src/dev_prelude.rs L294-303 that `Msg.nav` stands for. -/
inductive NavMsg where
  | toggleSearch
  | toggleEditing
  | setSearch (v : Str)
  | setEditing (v : Str)
  | setGraph (v : Str)

/-- artifact-frontend/src/dev_prelude.rs L375-398 (`Nav`, `Graph`, `Search`). -/
structure Nav where
  searchOn : Bool
  search : Str
  editingOn : Bool
  editing : Str
  graph : Str
  deriving DecidableEq

/-- artifact-frontend/src/main.rs L94-99. -/
def Nav.set (n : Nav) : NavMsg → Nav
  | .toggleSearch => { n with searchOn := !n.searchOn }
  | .toggleEditing => { n with editingOn := !n.editingOn }
  | .setSearch v => { n with search := v }
  | .setEditing v => { n with editing := v }
  | .setGraph v => { n with graph := v }

/-- What a control does when it is used. The `onclick` and `oninput` of artifact-frontend/src/nav.rs L21-229, artifact-frontend/src/artifact.rs L36-76 and artifact-frontend/src/edit.rs L66-204. -/
inductive Act where
  /-- It posts a message. -/
  | msg (m : Msg)
  /-- It posts one of the messages for the navigation bar. -/
  | nav (n : NavMsg)
  /-- It goes to another part of the page: a link to `#hash`, or `push_hash`. -/
  | go (hash : Str)
  /-- artifact-frontend/src/nav.rs L50-57. -/
  | create
  /-- artifact-frontend/src/artifact.rs L42-49. -/
  | edit

/-- An element of a picture. artifact-frontend/src/main.rs L144-166. -/
inductive Elem where
  | text (s : Str)
  /-- A piece of HTML that was made elsewhere. -/
  | html (s : Str)
  | button (id : Str) (act : Act)
  /-- A link within the page: to `#hash`, with a label and a colour. -/
  | link (hash label color : Str)
  /-- A link out of the page. -/
  | extern (href label : Str)
  /-- A field with its content, and what is done with a new content. -/
  | input (id value : Str) (act : Str → Act)

/-- artifact-frontend/src/nav.rs L31-88: the buttons. -/
def navBar : List Elem :=
  [.button c!"search" (.nav .toggleSearch), .button c!"editing" (.nav .toggleEditing), .button c!"create" .create,
   .button c!"sync" (.msg (.fetchProject true)), .button c!"graph" (.go hashGraph), .extern c!"docs/index.html" c!"Docs"]

/-- artifact-frontend/src/nav.rs L120-143 (`error_log`). -/
def Painter.errorLog {X : Type} (K : Painter X) (x : Nat × Log) : List Elem :=
  [.button (c!"close-err-" ++ showNat x.1) (.msg (.clearLogs [x.1])),
   if K.parses x.2.html then .html x.2.html else .text (c!"INTERNALERROR: invalid html: " ++ x.2.html)]

/-- artifact-frontend/src/nav.rs L115-159 (`error_pane`). -/
def Painter.errorPane {X : Type} (K : Painter X) (u : UI) : List Elem :=
  match u.errors with
  | [] => []
  | l => .button c!"close-err-all" (.msg .clearAllLogs) :: l.flatMap K.errorLog

/-- artifact-frontend/src/nav.rs L166-177 (`editing_name_html`). -/
def editingName (x : Nat × Edit) : Elem :=
  .link (hashEdit x.1) (if x.2.name = [] then c!"NOT YET NAMED" else x.2.name) []

/-- artifact-frontend/src/dev_prelude.rs L498-507: what is shown for a pattern that cannot be read. -/
def badPattern (e : Str) : List Elem := [.extern c!"https://docs.rs/regex/0.2.10/regex/#syntax" (c!"INVALID REGEX: " ++ e)]

/-- artifact-frontend/src/nav.rs L161-201 (`editing_pane`). -/
def Painter.editingPane {X : Type} (K : Painter X) (u : UI) (n : Nav) : List Elem :=
  if n.editingOn then
    .input c!"editing-search" n.editing (fun v => .nav (.setEditing v)) ::
      match K.compile n.editing with
      | .ok re => (u.editing.filter (fun x => re x.2.name)).map editingName
      | .error e => badPattern e
  else []

/-- artifact-frontend/src/name.rs L3-12 (`name_html`). -/
def Painter.nameLink {X : Type} (K : Painter X) (x : X) (p : Proj) (n : Name) : Elem := .link n.raw n.raw (K.color x p n)

/-- artifact-frontend/src/nav.rs L203-229 (`search_pane`). -/
def Painter.searchPane {X : Type} (K : Painter X) (u : UI) (x : X) (n : Nav) : List Elem :=
  if n.searchOn then
    .input c!"search-input" n.search (fun v => .nav (.setSearch v)) ::
      match K.compile n.search with
      | .ok re => ((u.shared.map Prod.fst).filter (fun m => re m.raw)).map (K.nameLink x u.shared)
      | .error e => badPattern e
  else []

/-- artifact-frontend/src/graph.rs L32-37 and L84-91: the picture of the graph. -/
def Painter.graphPage {X : Type} (K : Painter X) (u : UI) (x : X) (n : Nav) : Option (List Elem) :=
  match K.compile n.graph with
  | .error e => some (badPattern e)
  | .ok re => (K.graph x u.shared re).map (fun s => [.html s])

/-- artifact-frontend/src/artifact.rs L36-76 (`view_existing_artifact`). -/
def Painter.existing {X : Type} (K : Painter X) (u : UI) (x : X) (a : Shown) : Option (List Elem) := do
  let g ← K.part x u.shared a
  let t ← K.text x u.shared a.name.raw a.text
  pure [.button c!"edit" .edit, .text a.name.raw, .html g, .text (K.spc x a), .text (K.tst x a), .text a.file, .text (K.impl x a), .html t]

/-- artifact-frontend/src/artifact.rs L21-34 (`view_artifact`). -/
def Painter.artifactPage {X : Type} (K : Painter X) (u : UI) (x : X) (n : Name) : Option (List Elem) :=
  match u.shared.get? n with
  | some a => K.existing u x a
  | none => some [.text (c!"Artifact with name " ++ n.raw ++ c!" not found")]

/-- artifact-frontend/src/edit.rs L173-200: one row of `view_partof`. -/
def partofRow (id : Nat) (x : Str × Nat) : List Elem :=
  [.button (c!"rm-partof-" ++ showNat x.2) (.msg (.editArtifact id (.partofDelete x.2))),
   .input (c!"edit-partof-" ++ showNat x.2) x.1 (fun v => .msg (.editArtifact id (.partofUpdate x.2 v)))]

/-- artifact-frontend/src/edit.rs L76-169: the form. -/
def formElems (id : Nat) (e : Edit) (t : Str) : List Elem :=
  [.button c!"edit-save" (.msg (.sendUpdate [id])), .button c!"edit-cancel" (.msg (.stopEdit id)),
   .input c!"edit-name" e.name (fun v => .msg (.editArtifact id (.name v))),
   .button c!"create-partof" (.msg (.editArtifact id .partofCreate))] ++
  e.partof.zipIdx.flatMap (partofRow id) ++
  [.input c!"edit-file" e.file (fun v => .msg (.editArtifact id (.file v))),
   .input c!"edit-done" e.done (fun v => .msg (.editArtifact id (.done v))),
   .input c!"edit-text" e.text (fun v => .msg (.editArtifact id (.text v))), .html t]

/-- artifact-frontend/src/edit.rs L66-170 (`view_edit_page`). -/
def Painter.editPage {X : Type} (K : Painter X) (u : UI) (x : X) (id : Nat) : Option (List Elem) :=
  match u.editing.get? id with
  | none => some [.text c!"Editing artifact not found"]
  | some e => (K.text x u.shared e.name e.text).map (formElems id e)

/-- artifact-frontend/src/main.rs L146-162: the part of the picture that depends on the view. -/
def Painter.body {X : Type} (K : Painter X) (u : UI) (x : X) (n : Nav) : Option (List Elem) :=
  match u.view with
  | .graph => K.graphPage u x n
  | .artifact m => K.artifactPage u x m
  | .edit id => K.editPage u x id
  | .notFound => some [.text c!"Page not found"]

/-- artifact-frontend/src/graph.rs L39-50: the field for the graph, in the navigation bar. -/
def navExtra (u : UI) (n : Nav) : List Elem :=
  match u.view with
  | .graph => [.input c!"graph-nav-filter" n.graph (fun v => .nav (.setGraph v))]
  | _ => []

/-- artifact-frontend/src/main.rs L144-166 (`view`) and nav.rs L21-113 (`view_nav`). -/
def Painter.view {X : Type} (K : Painter X) (u : UI) (x : X) (n : Nav) : Option (List Elem) :=
  (K.body u x n).map (fun b => navBar ++ navExtra u n ++ K.errorPane u ++ K.editingPane u n ++ K.searchPane u x n ++ b)

/-- artifact-frontend/src/main.rs L85-129: whether a message asks for a new picture. The three ways out with `false` are in
artifact-frontend/src/fetch.rs L63-86 and L93-96. -/
def Msg.renders (u : UI) : Msg → Bool
  | .fetchProject _ => false
  | .sendUpdate _ => !u.fetching
  | _ => true

/-- The page with the picture that is on the screen. artifact-frontend/src/main.rs L144-166. -/
structure Page (X : Type) where
  world : World
  rest : X
  nav : Nav
  shown : List Elem

/-- A new picture (yew calls `view` of artifact-frontend/src/main.rs L144 after `update` returned `true`). -/
def Painter.paint {X : Type} (K : Painter X) (w : World) (x : X) (n : Nav) : Res Empty (Page X) :=
  match K.view w.ui x n with
  | some l => .ok ⟨w, x, n, l⟩
  | none => .panic

/-- One message: artifact-frontend/src/main.rs L71-82 without `Batch`. `x` is what the message says about the rest of the project. -/
def Painter.handle {X : Type} (K : Painter X) (nd : Char → Bool) (lim : Nat) (p : Page X) (x : X) (m : Msg) : Res Empty (Page X) := do
  let r ← p.world.ui.update nd lim m
  if m.renders p.world.ui then K.paint (p.world.after r) x p.nav else pure { p with world := p.world.after r, rest := x }

/-- A batch of two messages, the second of them `SetView`: artifact-frontend/src/main.rs L73-79, with the id taken before (nav.rs L52-56). -/
def Painter.batch {X : Type} (K : Painter X) (nd : Char → Bool) (lim : Nat) (p : Page X) (m : Nat → Msg) : Res Empty (Page X) := do
  let id := p.world.ui.nextId
  let v ← View.fromHash nd lim (hashEdit id)
  let r ← { p.world.ui with nextId := id + 1 }.update nd lim (m id)
  let r' ← r.1.update nd lim (.setView v)
  K.paint { p.world with ui := r'.1, outstanding := p.world.outstanding ++ r.2 ++ r'.2 } p.rest p.nav

/-- Using a control: artifact-frontend/src/main.rs L71-129. -/
def Painter.perform {X : Type} (K : Painter X) (nd : Char → Bool) (lim : Nat) (p : Page X) : Act → Res Empty (Page X)
  | .msg m => K.handle nd lim p p.rest m
  | .nav n => K.paint p.world p.rest (p.nav.set n)
  | .go h => do
    let v ← View.fromHash nd lim h
    K.handle nd lim p p.rest (.setView v)
  | .create => K.batch nd lim p .startNew
  | .edit => K.batch nd lim p .startCurrent

/-- What can be done with an element: artifact-frontend/src/nav.rs, artifact.rs, edit.rs, graph.rs (`onclick`, `oninput`, `href`). artifact-frontend/src/nav.rs L21-229, artifact-frontend/src/edit.rs L66-204. -/
inductive Elem.Offers : Elem → Act → Prop
  | button (id a) : Elem.Offers (.button id a) a
  | link (h l c) : Elem.Offers (.link h l c) (.go h)
  | input (id v f) (s : Str) : Elem.Offers (.input id v f) (f s)

/-- What happens to the page. artifact-frontend/src/main.rs L71-129. -/
inductive PEvent where
  | used (e : Elem) (a : Act)
  /-- The address was changed by hand or with the buttons of the browser. -/
  | address (hash : Str)
  | response (q : Req) (m : Msg)
  | delivered (m : Msg)

/-- Whether a message brings a project with it (artifact-frontend/src/main.rs L101-103, fetch.rs L123-124). -/
def Msg.carries : Msg → Bool
  | .recvInitial (some _) _ => true
  | .recvProject _ _ => true
  | _ => false

/-- One step of the page: artifact-frontend/src/main.rs L71-129. -/
inductive PStep {X : Type} (K : Painter X) (nd : Char → Bool) (lim : Nat) : Page X → PEvent → Page X → Prop
  | used {p e a p'} : e ∈ p.shown → e.Offers a → K.perform nd lim p a = .ok p' → PStep K nd lim p (.used e a) p'
  | address {p h p'} : K.perform nd lim p (.go h) = .ok p' → PStep K nd lim p (.address h) p'
  | response {p a q b m} : p.world.outstanding = a ++ q :: b → Answers q m →
      PStep K nd lim p (.response q m) { p with world := { p.world with outstanding := a ++ b, arrived := p.world.arrived ++ [m] } }
  | delivered {p m ms x p'} : p.world.arrived = m :: ms → (m.carries = false → x = p.rest) →
      K.handle nd lim { p with world := { p.world with arrived := ms } } x m = .ok p' → PStep K nd lim p (.delivered m) p'

/-- A history of the page. Repeats artifact-frontend/src/main.rs L71-129. -/
inductive PRuns {X : Type} (K : Painter X) (nd : Char → Bool) (lim : Nat) : Page X → List PEvent → Page X → Prop
  | nil (p) : PRuns K nd lim p [] p
  | snoc {p p' p'' l e} : PRuns K nd lim p l p' → PStep K nd lim p' e p'' → PRuns K nd lim p (l ++ [e]) p''

/-- artifact-frontend/src/main.rs L46-69 (`create`) and the first picture. -/
def Painter.start {X : Type} (K : Painter X) (nd : Char → Bool) (lim : Nat) (example' : Proj) (x : X) (hash : Str) : Res Empty (Page X) := do
  let v ← View.fromHash nd lim hash
  K.paint (World.init example' v) x ⟨true, [], true, [], []⟩

end Web
end Art
