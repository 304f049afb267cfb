import Verif.Model.Serve
import Verif.Model.Frontend

/-!
# The whole: pages, the network and the server
Puts together the server (`Verif.Model.Serve`) and any number of web pages (`Verif.Model.Frontend`). What is sent between them is
modelled by the texts in it: artifact-ser/src/ser.rs and artifact-lib/src/lib.rs (the derived `Serialize` and `Deserialize`),
artifact-frontend/src/fetch.rs L22-188 and artifact-app/src/serve/handler.rs L77-223.

Simplifications: JSON itself is not modelled here (see Verif/Model/Wire.lean), only the values in it. Of an artifact the fields are sent that `Web.Shown` has. The
entries of a JSON object come in any order. Requests and answers can be lost; then the page is told that the request failed.
Other programs may talk to the server.
-/

namespace Art
namespace Whole

/-- artifact-ser/src/ser.rs L231-238 (the derived `Serialize for ArtifactImSer`), artifact-ser/src/name.rs L285-292 (`Serialize for Name`). -/
def wireIm (a : ArtifactIm) : WireIm := ⟨a.name.raw, a.file, a.partof.map Name.raw, a.done, a.text⟩

/-- artifact-ser/src/ser.rs L50-64 (the derived `Serialize for ArtifactOpSer`). -/
def wireOp : ArtifactOp → WireOp
  | .create a => .create (wireIm a)
  | .update a id => .update (wireIm a) id.ser
  | .delete n id => .delete n.raw id.ser

/-- artifact-frontend/src/fetch.rs L77-82, L88-117: the call of the server that a request is. The initial request asks for a file. -/
def wireReq : Web.Req → Option Request
  | .initial => none
  | .read _ reload => some (.read (some (some reload)))
  | .modify _ ops => some (.modify (some (some (ops.map wireOp))))

/-- artifact-ser/src/ser.rs L133-144 (`ArtifactSer`) as it is sent. -/
structure WireArt where
  id : Str
  name : Str
  file : Str
  partof : List Str
  done : Option Str
  text : Str

/-- artifact-lib/src/lib.rs L45-74 (the derived `Serialize for Artifact`). -/
def wireArt (a : Artifact) : WireArt := ⟨a.id.ser, a.name.raw, a.file, a.partof.map Name.raw, a.impl.doneStr, a.text⟩

/-- artifact-lib/src/lib.rs L390-395 (the derived `Serialize for Project`): the artifacts with their keys. -/
def wireProject (p : Project) : List (Str × WireArt) := p.artifacts.map fun x => (x.1.raw, wireArt x.2)

/-- artifact-ser/src/ser.rs L133 (the derived `Deserialize for ArtifactSer`). -/
def WireArt.read (strict : Bool) (w : WireArt) : Res Unit Web.Shown := do
  let id ← HashIm.de strict w.id
  let name ← wireName w.name
  let partof ← Res.mapM' wireName w.partof
  pure ⟨id, name, w.file, ISet.collect partof, w.done, w.text⟩

/-- artifact-ser/src/ser.rs L66-71: one entry of `artifacts`. -/
def readEntry (strict : Bool) (e : Str × WireArt) : Res Unit (Name × Web.Shown) := do
  let n ← wireName e.1
  let a ← e.2.read strict
  pure (n, a)

/-- artifact-ser/src/ser.rs L66-71 (the derived `Deserialize for ProjectSer`). -/
def readShared (strict : Bool) (l : List (Str × WireArt)) : Res Unit Web.Proj := do
  let l ← Res.mapM' (readEntry strict) l
  pure (IMap.collect l)

/-- artifact-frontend/src/fetch.rs L152-188 (`handle_response`, `handle_status`): the message that the page makes of an answer. If the answer
cannot be read the page panics (L160), there is no message then. -/
inductive Becomes (strict : Bool) : Web.Req → Reply → Web.Msg → Prop
  | read {jid reload r l P} : l.Perm (wireProject r.project) → readShared strict l = .ok P →
      Becomes strict (.read jid reload) (.success r) (.recvProject jid P)
  | modify {jid ops r l P} : l.Perm (wireProject r.project) → readShared strict l = .ok P →
      Becomes strict (.modify jid ops) (.success r) (.recvProject jid P)
  | error {q a logs} : (∀ r, a ≠ .success r) → Becomes strict q a (.recvError logs)

/-- The server, the pages (numbered) and the requests of pages that threads of the server work on. artifact-app/src/serve/handler.rs L38-207 and artifact-frontend/src/main.rs L46-129. -/
structure Sys where
  server : Server
  pages : Nat → Web.World
  link : Nat → Option (Nat × Web.Req)

/-- What happens. artifact-app/src/serve/handler.rs L174-207 and artifact-frontend/src/main.rs L71-82. -/
inductive Ev where
  /-- On page `k`. -/
  | page (k : Nat) (e : Web.Event)
  /-- The server hands out `initial.json`. -/
  | initial (k : Nat)
  /-- Request `q` of page `k` comes to the server and gets thread `i`. -/
  | request (k : Nat) (q : Web.Req) (i : Nat) (r : Request)
  /-- Thread `i` sends `a`, the answer to request `q` of page `k`. -/
  | answer (k : Nat) (q : Web.Req) (i : Nat) (a : Reply) (m : Web.Msg)
  /-- Request `q` of page `k` fails: it or its answer is lost. -/
  | fail (k : Nat) (q : Web.Req) (logs : List Web.Log)
  /-- Anything in the server, or a request of another program. -/
  | server (e : Event)

/-- Page `k` changes. artifact-frontend/src/main.rs L71-82. -/
def Sys.setPage (s : Sys) (k : Nat) (w : Web.World) : Sys := { s with pages := fun j => if j = k then w else s.pages j }

/-- One step of the whole. artifact-app/src/serve/handler.rs L174-223, artifact-frontend/src/main.rs L71-129. -/
inductive Step (E : Env) (nd : Char → Bool) (lim : Nat) : Sys → Ev → Sys → Prop where
  /-- artifact-frontend/src/main.rs L71-82: the page handles a message or the user presses a button. -/
  | page {s : Sys} {k e w} : Web.Step nd lim (s.pages k) e w → (∀ q m, e ≠ .response q m) → Step E nd lim s (.page k e) (s.setPage k w)
  /-- artifact-app/src/serve/handler.rs L209-223 (`host_frontend`): what the file `initial.json` says. -/
  | initial {s : Sys} {k w} : Web.Step nd lim (s.pages k) (.response .initial (.recvInitial none .editable)) w →
      Step E nd lim s (.initial k) (s.setPage k w)
  /-- artifact-frontend/src/fetch.rs L22-31: a request of a page arrives, once. -/
  | request {s : Sys} {k q i r t} : q ∈ (s.pages k).outstanding → wireReq q = some r → (∀ j, s.link j ≠ some (k, q)) →
      Art.Step E s.server (.arrive i r) t →
      Step E nd lim s (.request k q i r) { s with server := t, link := fun j => if j = i then some (k, q) else s.link j }
  /-- artifact-app/src/serve/handler.rs L204 and artifact-frontend/src/fetch.rs L152-173: an answer. -/
  | answer {s : Sys} {k q i a m t w} : s.link i = some (k, q) → Art.Step E s.server (.send i a) t → Becomes E.strict q a m →
      Web.Step nd lim (s.pages k) (.response q m) w →
      Step E nd lim s (.answer k q i a m) { s.setPage k w with server := t }
  /-- artifact-frontend/src/fetch.rs L175-188. -/
  | fail {s : Sys} {k q logs w} : Web.Step nd lim (s.pages k) (.response q (.recvError logs)) w →
      Step E nd lim s (.fail k q logs) (s.setPage k w)
  /-- artifact-app/src/serve/handler.rs. -/
  | server {s : Sys} {e t} : Art.Step E s.server e t → Step E nd lim s (.server e) { s with server := t }

/-- The histories of the whole. Histories of artifact-app/src/serve/handler.rs L38-207. -/
inductive Runs (E : Env) (nd : Char → Bool) (lim : Nat) (s : Sys) : List Ev → Sys → Prop where
  | nil : Runs E nd lim s [] s
  | snoc {h t e u} : Runs E nd lim s h t → Step E nd lim t e u → Runs E nd lim s (h ++ [e]) u

/-- The server `s` has just started and pages are opened (artifact-app/src/serve/mod.rs L46-63, artifact-frontend/src/main.rs L46-69):
each shows the example project until it hears from the server. -/
def Sys.init (s : Server) (example' : Web.Proj) (v : Nat → View) : Sys := ⟨s, fun k => Web.World.init example' (v k), fun _ => none⟩

/-- What an event is for the server. artifact-app/src/serve/handler.rs L174-207. -/
def Ev.ofServer : Ev → List Event
  | .request _ _ i r => [.arrive i r]
  | .answer _ _ i a _ => [.send i a]
  | .server e => [e]
  | _ => []

/-- What an event is for page `k`. artifact-frontend/src/main.rs L71-129. -/
def Ev.ofPage (k : Nat) : Ev → List Web.Event
  | .page j e => if j = k then [e] else []
  | .initial j => if j = k then [.response .initial (.recvInitial none .editable)] else []
  | .answer j q _ _ m => if j = k then [.response q m] else []
  | .fail j q logs => if j = k then [.response q (.recvError logs)] else []
  | _ => []

end Whole
end Art
