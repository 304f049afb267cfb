import Verif.Model.View
import Verif.Model.Graph
import Verif.Model.Types

/-!
# The web page as a state machine
Models artifact-frontend/src/main.rs L42-142, fetch.rs L22-188, edit.rs L27-64 and dev_prelude.rs L178-476.

Simplifications. The search fields of the navigation bar and of the graph are left out: they do not influence
anything modelled here, the messages that set them are `Msg.nav`. Of the project the page is given, the
artifacts and in them the fields that editing uses are kept. JSON is not modelled here (see Verif/Model/Wire.lean): requests and responses are
values. Ids come from one atomic counter and are natural numbers; its wrap around after `2^32` ids is not
modelled. After a panic the WebAssembly instance is dead, so no step follows.
-/

namespace Art
namespace Web

/-- artifact-ser/src/ser.rs L134-144 (`ArtifactSer`), the fields used by editing. `done` is `impl_.as_done()`
(artifact-ser/src/ser.rs L166-172). -/
structure Shown where
  id : HashIm
  name : Name
  file : Str
  partof : ISet Name
  done : Option Str
  text : Str

/-- artifact-ser/src/ser.rs: `ProjectSer.artifacts` (L66-71). -/
abbrev Proj := IMap Name Shown

/-- artifact-ser/src/ser.rs L34-42 (`WebType`). -/
inductive WebType where
  | editable | readonly | static
  deriving DecidableEq

/-- artifact-frontend/src/dev_prelude.rs L410-419 (`ArtifactEdit`). -/
structure Edit where
  originalId : Option HashIm
  name : Str
  file : Str
  partof : List Str
  done : Str
  text : Str
  deriving DecidableEq

/-- artifact-frontend/src/dev_prelude.rs L411 (derived `Default`). -/
def Edit.new : Edit := ⟨none, [], [], [], [], []⟩

/-- artifact-frontend/src/dev_prelude.rs L422-435 (`from_artifact`). -/
def Edit.fromArtifact (a : Shown) : Edit :=
  ⟨some a.id, a.name.raw, a.file, a.partof.map Name.raw, a.done.getD [], a.text⟩

/-- artifact-ser/src/name.rs L37-45 (`name!`). -/
def nameBang (s : Str) : Res Empty Name :=
  match Name.fromStr s with
  | .ok n => .ok n
  | _ => .panic

/-- artifact-frontend/src/dev_prelude.rs L441-455 (`to_im`). -/
def Edit.toIm (e : Edit) : Res Empty ArtifactIm := do
  let partof ← Res.mapM' nameBang e.partof
  let name ← nameBang e.name
  pure ⟨name, e.file, ISet.collect partof, if e.done = [] then none else some e.done, e.text⟩

/-- artifact-frontend/src/dev_prelude.rs L369-373 (`LogLevel`). -/
inductive Level where
  | error | info
  deriving DecidableEq

/-- artifact-frontend/src/dev_prelude.rs L347-351 (`Log`). -/
structure Log where
  level : Level
  html : Str
  deriving DecidableEq

/-- A request that was sent: artifact-frontend/src/fetch.rs L42-46, L77-82, L115-117. -/
inductive Req where
  | initial
  | read (jid : Nat) (reload : Bool)
  | modify (jid : Nat) (ops : List ArtifactOp)

/-- artifact-frontend/src/dev_prelude.rs L178-216 (`Model`). `fetching` is `fetch_task.is_some()`, `nextId` is the counter
`ATOMIC_ID` of L29-35. -/
structure UI where
  webType : WebType
  shared : Proj
  view : View
  fetching : Bool
  errors : IMap Nat Log
  infos : IMap Nat Log
  editing : IMap Nat Edit
  updating : IMap Nat (List Nat)
  nextId : Nat

/-- artifact-frontend/src/dev_prelude.rs L459-475 (`Field`, `FieldOp`). -/
inductive Field where
  | name (v : Str)
  | file (v : Str)
  | done (v : Str)
  | text (v : Str)
  | partofCreate
  | partofUpdate (i : Nat) (v : Str)
  | partofDelete (i : Nat)

/-- artifact-frontend/src/dev_prelude.rs L288-333 (`Msg`). -/
inductive Msg where
  | setView (v : View)
  /-- `Ignore`, `ToggleSearch`, `ToggleEditing`, `SetNavSearch`, `SetNavEditing`, `SetGraphSearch`. -/
  | nav
  | recvInitial (project : Option Proj) (webType : WebType)
  | fetchProject (reload : Bool)
  | sendUpdate (ids : List Nat)
  | recvProject (jid : Nat) (project : Proj)
  | recvError (logs : List Log)
  | pushLogs (logs : List Log)
  | clearLogs (ids : List Nat)
  | clearAllLogs
  | editArtifact (id : Nat) (field : Field)
  | startNew (id : Nat)
  | startCurrent (id : Nat)
  | stopEdit (id : Nat)

/-- artifact-frontend/src/dev_prelude.rs L220-233 (`push_logs`): both levels go to `logs.error`. -/
def UI.pushLogs (u : UI) (logs : List Log) : UI :=
  logs.foldl (fun u l => match l.level with
    | .error => { u with errors := u.errors.insert u.nextId l, nextId := u.nextId + 1 }
    | .info => { u with errors := u.errors.insert u.nextId l, nextId := u.nextId + 1 }) u

/-- artifact-frontend/src/main.rs L131-142 (`clear_logs`). -/
def UI.clearLogs (u : UI) (ids : List Nat) : UI :=
  { u with errors := ids.foldl (fun m i => m.remove i) u.errors }

/-- artifact-frontend/src/dev_prelude.rs L266-280 (`get_route_because_editing_removed`). -/
def UI.routeRemoved (u : UI) (e : Edit) : Res Empty Str :=
  let byName : Res Empty Str :=
    match Name.fromStr e.name with
    | .ok n => .ok (if u.shared.contains n then e.name else hashGraph)
    | .err _ => .ok hashGraph
    | .panic => .panic
  match e.originalId with
  | none => byName
  | some hid =>
    match u.shared.find? (fun p => p.2.id = hid) with
    | some p => .ok p.2.name.raw
    | none => byName

/-- artifact-frontend/src/dev_prelude.rs L251-262 (`complete_editing`) with `update_hash` of L238-243: the router answers
with `SetView` of the view of the hash (artifact-frontend/src/view.rs L38-42). -/
def UI.completeEditing (nd : Char → Bool) (lim : Nat) (u : UI) (id : Nat) : Res Empty UI :=
  match u.editing.get? id with
  | none => .ok u
  | some e =>
    let u := { u with editing := u.editing.remove id }
    match u.view with
    | .edit i =>
      if i = id then do
        let hash ← u.routeRemoved e
        let v ← View.fromHash nd lim hash
        pure { u with view := v }
      else .ok u
    | _ => .ok u

/-- artifact-frontend/src/fetch.rs L126-130: `complete_editing` for each of the ids. -/
def UI.completeAll (nd : Char → Bool) (lim : Nat) (u : UI) : List Nat → Res Empty UI
  | [] => .ok u
  | id :: ids => do
    let u ← u.completeEditing nd lim id
    u.completeAll nd lim ids

/-- artifact-frontend/src/fetch.rs L63-86 (`start_fetch_project`). -/
def UI.startFetchProject (u : UI) (reload : Bool) : UI × List Req :=
  if u.webType = .static then (u.pushLogs [⟨.error, c!"invalid"⟩], [])
  else if u.fetching then (u.pushLogs [⟨.info, c!"in progress"⟩], [])
  else ({ u with fetching := true, nextId := u.nextId + 1 }, [.read u.nextId reload])

/-- artifact-frontend/src/fetch.rs L98-113: the operation for one edit. -/
def UI.opOf (u : UI) (id : Nat) : Res Empty ArtifactOp :=
  match u.editing.get? id with
  | none => .panic
  | some e => do
    let im ← e.toIm
    match e.originalId with
    | some orig => pure (.update im orig)
    | none => pure (.create im)

/-- artifact-frontend/src/fetch.rs L88-120 (`start_send_update`). -/
def UI.startSendUpdate (u : UI) (ids : List Nat) : Res Empty (UI × List Req) :=
  if u.fetching then .ok (u.pushLogs [⟨.info, c!"in progress"⟩], [])
  else do
    let ops ← Res.mapM' u.opOf ids
    pure ({ u with fetching := true, updating := u.updating.insert u.nextId ids, nextId := u.nextId + 1 },
      [.modify u.nextId ops])

/-- artifact-frontend/src/fetch.rs L123-131 (`handle_recv_project`). -/
def UI.recvProject (nd : Char → Bool) (lim : Nat) (u : UI) (jid : Nat) (p : Proj) : Res Empty UI :=
  let u := { u with shared := p, fetching := false }
  match u.updating.get? jid with
  | none => .ok u
  | some ids => { u with updating := u.updating.remove jid }.completeAll nd lim ids

/-- artifact-frontend/src/edit.rs L32-44: one field. `none` is an index that is out of range. -/
def Edit.set (e : Edit) : Field → Option Edit
  | .name v => some { e with name := v }
  | .file v => some { e with file := v }
  | .done v => some { e with done := v }
  | .text v => some { e with text := v }
  | .partofCreate => some { e with partof := e.partof ++ [[]] }
  | .partofUpdate i v => if i < e.partof.length then some { e with partof := e.partof.set i v } else none
  | .partofDelete i => if i < e.partof.length then some { e with partof := e.partof.eraseIdx i } else none

/-- artifact-frontend/src/edit.rs L27-45 (`handle_edit_artifact`). -/
def UI.editArtifact (u : UI) (id : Nat) (f : Field) : Res Empty UI :=
  match u.editing.get? id with
  | none => .panic
  | some e =>
    match e.set f with
    | none => .panic
    | some e' => .ok { u with editing := u.editing.insert id e' }

/-- artifact-frontend/src/edit.rs L47-64 (`handle_start_edit` with `Current`). -/
def UI.startCurrent (u : UI) (id : Nat) : Res Empty UI :=
  match u.view with
  | .artifact n =>
    match u.shared.get? n with
    | some a => .ok { u with editing := u.editing.insert id (Edit.fromArtifact a) }
    | none => .panic
  | _ => .panic

/-- artifact-frontend/src/main.rs L85-129 (`update_model`): the new state and the requests that are sent. Whether to render
is left out; `Batch` is in `Step`. -/
def UI.update (nd : Char → Bool) (lim : Nat) (u : UI) : Msg → Res Empty (UI × List Req)
  | .setView v => .ok ({ u with view := v }, [])
  | .nav => .ok (u, [])
  | .recvInitial p w =>
    let u := { u with shared := p.getD u.shared, webType := w, fetching := false }
    if w = .static then .ok (u, []) else .ok (u.startFetchProject false)
  | .fetchProject r => .ok (u.startFetchProject r)
  | .sendUpdate ids => u.startSendUpdate ids
  | .recvProject jid p => do pure (← u.recvProject nd lim jid p, [])
  | .recvError logs => .ok ({ u.pushLogs logs with fetching := false }, [])
  | .pushLogs logs => .ok (u.pushLogs logs, [])
  | .clearLogs ids => .ok (u.clearLogs ids, [])
  | .clearAllLogs => .ok ({ u with errors := [] }, [])
  | .editArtifact id f => do pure (← u.editArtifact id f, [])
  | .startNew id => .ok ({ u with editing := u.editing.insert id Edit.new }, [])
  | .startCurrent id => do pure (← u.startCurrent id, [])
  | .stopEdit id => do pure (← u.completeEditing nd lim id, [])

/-- The messages that the handlers of the page post by themselves: artifact-frontend/src/edit.rs L81-193, nav.rs L37-224,
graph.rs L46 and the router (view.rs L38-42). -/
inductive FromPage (nd : Char → Bool) (lim : Nat) : Msg → Prop
  | route {hash v} : View.fromHash nd lim hash = .ok v → FromPage nd lim (.setView v)
  | nav : FromPage nd lim .nav
  | reload : FromPage nd lim (.fetchProject true)
  | save (id) : FromPage nd lim (.sendUpdate [id])
  | cancel (id) : FromPage nd lim (.stopEdit id)
  | field (id f) : FromPage nd lim (.editArtifact id f)
  | clear (id) : FromPage nd lim (.clearLogs [id])
  | clearAll : FromPage nd lim .clearAllLogs

/-- The message made of the response to a request: artifact-frontend/src/fetch.rs L50-61 and L152-173. The server answers
with the id of the request (JSON-RPC). A body that cannot be parsed panics and has no entry here. -/
inductive Answers : Req → Msg → Prop
  | initial (p w) : Answers .initial (.recvInitial p w)
  | read (jid r p) : Answers (.read jid r) (.recvProject jid p)
  | modify (jid ops p) : Answers (.modify jid ops) (.recvProject jid p)
  | failed (r logs) : Answers r (.recvError logs)

/-- The page, the requests that have no response yet, the responses that the page has not handled yet, and the rest of the
batch that is being handled (artifact-frontend/src/main.rs L71-82). -/
structure World where
  ui : UI
  outstanding : List Req
  arrived : List Msg
  batch : List Msg

/-- What happens in one step. artifact-frontend/src/main.rs L71-129. -/
inductive Event where
  /-- A message was handled and these requests were sent. -/
  | handled (m : Msg) (sent : List Req)
  | click
  /-- The response to this request arrived; the page will handle it as this message. -/
  | response (q : Req) (m : Msg)

/-- artifact-frontend/src/main.rs L46-69 (`create`): the example project is shown and the first request is sent. -/
def World.init (example' : Proj) (v : View) : World :=
  ⟨⟨.static, example', v, true, [], [], [], [], 0⟩, [.initial], [], []⟩

/-- The world after the page handled a message. artifact-frontend/src/main.rs L71-82. -/
def World.after (w : World) (r : UI × List Req) : World :=
  { w with ui := r.1, outstanding := w.outstanding ++ r.2 }

/-- One step. artifact-frontend/src/main.rs L71-129, artifact-frontend/src/fetch.rs L22-188. -/
inductive Step (nd : Char → Bool) (lim : Nat) : World → Event → World → Prop
  /-- A message of the page: artifact-frontend/src/main.rs L80. -/
  | page {w m r} : w.batch = [] → FromPage nd lim m → w.ui.update nd lim m = .ok r →
      Step nd lim w (.handled m r.2) (w.after r)
  /-- The button that creates an artifact: artifact-frontend/src/nav.rs L51-57. -/
  | create {w v} : w.batch = [] → View.fromHash nd lim (hashEdit w.ui.nextId) = .ok v →
      Step nd lim w .click { w with ui := { w.ui with nextId := w.ui.nextId + 1 },
                                    batch := [.startNew w.ui.nextId, .setView v] }
  /-- The button that edits the artifact that is shown: artifact-frontend/src/artifact.rs L43-49. -/
  | edit {w v} : w.batch = [] → View.fromHash nd lim (hashEdit w.ui.nextId) = .ok v →
      Step nd lim w .click { w with ui := { w.ui with nextId := w.ui.nextId + 1 },
                                    batch := [.startCurrent w.ui.nextId, .setView v] }
  /-- The next message of a batch: artifact-frontend/src/main.rs L73-79. -/
  | next {w m ms r} : w.batch = m :: ms → w.ui.update nd lim m = .ok r →
      Step nd lim w (.handled m r.2) { w.after r with batch := ms }
  /-- A response arrives: artifact-frontend/src/fetch.rs L22-31. -/
  | response {w a q b m} : w.outstanding = a ++ q :: b → Answers q m →
      Step nd lim w (.response q m) { w with outstanding := a ++ b, arrived := w.arrived ++ [m] }
  /-- The page handles a response. -/
  | deliver {w m ms r} : w.batch = [] → w.arrived = m :: ms → w.ui.update nd lim m = .ok r →
      Step nd lim w (.handled m r.2) { w.after r with arrived := ms }

/-- A history from one world to another. Repeats artifact-frontend/src/main.rs L71-82. -/
inductive Runs (nd : Char → Bool) (lim : Nat) : World → List Event → World → Prop
  | nil (w) : Runs nd lim w [] w
  | snoc {w w' w'' l e} : Runs nd lim w l w' → Step nd lim w' e w'' → Runs nd lim w (l ++ [e]) w''

end Web
end Art
