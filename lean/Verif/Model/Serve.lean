import Verif.Model.Save
import Verif.Model.App
import Verif.Model.Hash

/-!
The server: artifact-app/src/serve/mod.rs and artifact-app/src/serve/handler.rs. Requests are handled by threads; the project is behind a mutex.

Simplifications: HTTP is not modelled here (see Verif/Model/Http.lean), nor is JSON (see Verif/Model/Wire.lean), a request is its parsed form (`WireOp` keeps texts that are parsed later); other programs change files only between
the requests, not during one; a request that panics is answered by nothing (`dropped`).
-/

namespace Art

/-- What the functions of the server are given: the libraries, the reader of the settings, the hash, the printer for debugging, the number of
processors and the version of the base64 decoder (`HashIm.de`). Called through artifact-app/src/serve/handler.rs L109, L153. -/
structure Env where
  L : Libs
  readToml : Str → Option SettingsRaw
  hash : ArtifactIm → HashIm
  dbg : ArtifactIm → Str
  ncpu : Nat
  strict : Bool

/-- artifact-lib/src/lib.rs L382-388 (`ProjectResult`). -/
structure ProjectResult where
  project : Project
  lints : Categorized

/-- artifact-lib/src/lib.rs L227-236: `ArtifactIm` as it is sent. -/
structure WireIm where
  name : Str
  file : Str
  partof : List Str
  done : Option Str
  text : Str

/-- artifact-lib/src/lib.rs L296-312: `ArtifactOp` as it is sent. -/
inductive WireOp where
  | create (artifact : WireIm)
  | update (artifact : WireIm) (origId : Str)
  | delete (name : Str) (origId : Str)

/-- artifact-ser/src/name.rs L294-302 (`Deserialize for Name`): the message of the error is left out. -/
def wireName (s : Str) : Res Unit Name :=
  match Name.fromStr s with
  | .ok n => .ok n
  | .err _ => .err ()
  | .panic => .panic

/-- artifact-lib/src/lib.rs L227 (the derived `Deserialize for ArtifactIm`), fields in the order of `json::Value`. -/
def WireIm.read (w : WireIm) : Res Unit ArtifactIm := do
  let name ← wireName w.name
  let partof ← Res.mapM' wireName w.partof
  pure ⟨name, w.file, ISet.collect partof, w.done, w.text⟩

/-- artifact-lib/src/lib.rs L296 (the derived `Deserialize for ArtifactOp`), fields in the order of `json::Value`. -/
def WireOp.read (strict : Bool) : WireOp → Res Unit ArtifactOp
  | .create a => do pure (.create (← a.read))
  | .update a id => do
    let a ← a.read
    let id ← HashIm.de strict id
    pure (.update a id)
  | .delete n id => do
    let n ← wireName n
    let id ← HashIm.de strict id
    pure (.delete n id)

/-- artifact-app/src/serve/handler.rs L174-203 (`handle_rpc`): a request. `garbage` is a body that is no text or no call of a known method (L178-193).
`none` stands for missing `params`, `some none` for `params` of another shape. -/
inductive Request where
  | garbage
  | read (params : Option (Option Bool))
  | modify (params : Option (Option (List WireOp)))

/-- The answers of artifact-app/src/serve/handler.rs. `dropped` means that the thread panicked (L77-207). -/
inductive Reply where
  | rejected
  | invalidParams
  | serverError (kind : ModifyErrorKind) (lints : Categorized)
  | success (r : ProjectResult)
  | dropped

/-- artifact-app/src/serve/handler.rs L91-127 (`handle_read_project_params` when `reload` is set): the answer and what is served afterwards. -/
def reloadWith (v : ProjectResult) : Res Categorized (Categorized × Project) → Reply × ProjectResult
  | .ok (c, p) => (.success ⟨p, c⟩, ⟨p, c⟩)
  | .err c => (.serverError .invalidFromLoad c, v)
  | .panic => (.dropped, v)

/-- artifact-app/src/serve/handler.rs L153-170 (the end of `rpc_modify_project`): the answer and what is served afterwards. -/
def modifyWith (v : ProjectResult) : Res ModifyError (Categorized × Project) → Reply × ProjectResult
  | .ok (c, p) => (.success ⟨p, c⟩, ⟨p, c⟩)
  | .err e => (.serverError e.kind e.lints, v)
  | .panic => (.dropped, v)

/-- artifact-app/src/serve/handler.rs L77-170 (`rpc_read_project`, `rpc_modify_project`) while the mutex is held: given the disk and what is served, `out` is a possible
answer together with what is served afterwards, and the last argument is the disk afterwards. -/
inductive Handles (E : Env) (fs : FS) (v : ProjectResult) : Request → Reply × ProjectResult → FS → Prop where
  /-- L82: no parameters; L96-106: parameters without `reload`. -/
  | read {q} (h : q = none ∨ q = some (some false)) : Handles E fs v (.read q) (.success v, v) fs
  /-- L96-106. -/
  | readBad : Handles E fs v (.read (some none)) (.invalidParams, v) fs
  /-- L108-124. -/
  | reload {out} : ReadsProject E.L E.readToml E.hash E.ncpu fs v.project.settings.base out →
      Handles E fs v (.read (some (some true))) (reloadWith v out) fs
  /-- L134-144: no parameters; L146-151: parameters of another shape. -/
  | modifyBad {q} (h : q = none ∨ q = some none) : Handles E fs v (.modify q) (.invalidParams, v) fs
  /-- L146-151: an operation cannot be read. -/
  | modifyUnread {ops} : Res.mapM' (WireOp.read E.strict) ops = .err () → Handles E fs v (.modify (some (some ops))) (.invalidParams, v) fs
  /-- L146: reading an operation panics. -/
  | modifyPanic {ops} : Res.mapM' (WireOp.read E.strict) ops = .panic → Handles E fs v (.modify (some (some ops))) (.dropped, v) fs
  /-- L153-169. -/
  | modify {ops ops' out fs'} : Res.mapM' (WireOp.read E.strict) ops = .ok ops' →
      Modifies E.L E.readToml E.hash E.dbg E.ncpu fs v.project.settings.base ops' (some out) fs' →
      Handles E fs v (.modify (some (some ops))) (modifyWith v out) fs'

/-- A request on its way through artifact-app/src/serve/handler.rs L174-207 (`handle_rpc`). -/
inductive Thread where
  | idle
  | waiting (r : Request)
  | working (r : Request)
  | ready (reply : Reply)
  | sent

/-- Who has the mutex (artifact-app/src/serve/mod.rs L42-44): the thread of a request, or the main thread (handler.rs L69-71), which keeps it. -/
inductive Holder where
  | thread (i : Nat)
  | main
  deriving DecidableEq

/-- The server and the disk. `value` and `poisoned` are the contents of the mutex (artifact-app/src/serve/mod.rs L42-44). -/
structure Server where
  disk : FS
  value : ProjectResult
  poisoned : Bool
  holder : Option Holder
  threads : Nat → Thread
  alive : Bool

/-- artifact-app/src/serve/mod.rs L52-61: the server when it starts to listen. -/
def Server.init (fs : FS) (v : ProjectResult) : Server := ⟨fs, v, false, none, fun _ => .idle, true⟩

/-- What happens in the server, in the order of time. Requests are numbered by the threads that handle them. artifact-app/src/serve/handler.rs L38-207. -/
inductive Event where
  | arrive (i : Nat) (r : Request)
  | lock (i : Nat)
  | finish (i : Nat) (r : Request) (reply : Reply)
  | send (i : Nat) (reply : Reply)
  | edit
  | quit
  | die

/-- The state of a thread changes. artifact-app/src/serve/handler.rs L174-207. -/
def Server.set (s : Server) (i : Nat) (t : Thread) : Server := { s with threads := fun j => if j = i then t else s.threads j }

/-- One step of the server: artifact-app/src/serve/handler.rs (L38-207). -/
inductive Step (E : Env) : Server → Event → Server → Prop where
  /-- L174-196: a request comes in. -/
  | arrive {s : Server} {i r} : s.alive = true → s.threads i = .idle → Step E s (.arrive i r) (s.set i (.waiting r))
  /-- L179-196: a body that cannot be read is refused without the mutex. -/
  | reject {s : Server} {i} : s.alive = true → s.threads i = .waiting .garbage → Step E s (.finish i .garbage .rejected) (s.set i (.ready .rejected))
  /-- L79, L131: the mutex is free and not poisoned. -/
  | lock {s : Server} {i r} : s.alive = true → s.threads i = .waiting r → r ≠ .garbage → s.holder = none → s.poisoned = false →
      Step E s (.lock i) { s.set i (.working r) with holder := some (.thread i) }
  /-- L79, L131: `unwrap` panics, since the mutex is poisoned. -/
  | poisoned {s : Server} {i r} : s.alive = true → s.threads i = .waiting r → r ≠ .garbage → s.holder = none → s.poisoned = true →
      Step E s (.finish i r .dropped) (s.set i (.ready .dropped))
  /-- L77-170: the answer is made and the mutex is given back; it is poisoned by a panic. -/
  | work {s : Server} {i r out fs'} : s.alive = true → s.threads i = .working r → s.holder = some (.thread i) →
      Handles E s.disk s.value r out fs' →
      Step E s (.finish i r out.1)
        { s.set i (.ready out.1) with disk := fs', value := out.2, holder := none, poisoned := match out.1 with | .dropped => true | _ => false }
  /-- L204: the answer is sent. -/
  | send {s : Server} {i reply} : s.alive = true → s.threads i = .ready reply → Step E s (.send i reply) (s.set i .sent)
  /-- Another program changes files. -/
  | edit {s : Server} {fs'} : s.alive = true → Step E s .edit { s with disk := fs' }
  /-- L65-72: after an interrupt the main thread takes the mutex, never gives it back and the process ends; if it is poisoned, `unwrap` panics and the process ends as well. -/
  | quit {s : Server} : s.alive = true → s.holder = none → Step E s .quit { s with holder := some .main, alive := false }
  /-- The process is killed while no request writes. -/
  | kill {s : Server} : s.alive = true → (∀ i q, s.threads i ≠ .working (.modify q)) → Step E s .die { s with alive := false }
  /-- The process is killed while a request writes. -/
  | die {s : Server} {i ops ops' fs'} : s.alive = true → s.threads i = .working (.modify (some (some ops))) →
      Res.mapM' (WireOp.read E.strict) ops = .ok ops' →
      Modifies E.L E.readToml E.hash E.dbg E.ncpu s.disk s.value.project.settings.base ops' none fs' →
      Step E s .die { s with disk := fs', alive := false }

/-- Everything that can happen from a state: the events in the order of time. Histories of artifact-app/src/serve/handler.rs L38-207. -/
inductive Runs (E : Env) (s : Server) : List Event → Server → Prop where
  | nil : Runs E s [] s
  | snoc {h t e u} : Runs E s h t → Step E t e u → Runs E s (h ++ [e]) u

/-- artifact-app/src/serve/mod.rs L46-63 (`run`): the states in which `art serve`, started in `dir`, begins to listen. -/
inductive Starts (E : Env) (fs : FS) (dir repo : FilePath) : Server → Prop where
  | start {c p} : findRepo fs dir = some repo → ReadsProject E.L E.readToml E.hash E.ncpu fs repo (.ok (c, p)) →
      Starts E fs dir repo (Server.init fs ⟨p, c⟩)

end Art
