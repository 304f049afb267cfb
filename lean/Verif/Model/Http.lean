import Verif.Model.Wire

/-!
The outside of the server: artifact-app/src/serve/handler.rs L38-59 (`start_api`) and L174-252 (`handle_rpc`, `setup_headers`, `handle_options`), requests and answers of HTTP.

Simplifications: the connection is not modelled, nor the headers that the library adds by itself (`Date`, `Content-Length`, `Content-Type`). Which paths belong to the route `/json-rpc` is decided
by nickel and stands as a parameter, as does what it does with everything that is no route of the program (files of the page, 404). `HEAD` is left to nickel as well.
-/

namespace Art.Http

/-- The verbs of artifact-app/src/serve/handler.rs L42-45; all others have no route. -/
inductive Verb where
  | get
  | post
  | put
  | options
  | other (name : Str)
  deriving DecidableEq

/-- A request as artifact-app/src/serve/handler.rs L174 and L248 gets it. -/
structure HttpReq where
  verb : Verb
  path : Str
  headers : List (Str × Str)
  body : List UInt8

/-- An answer as artifact-app/src/serve/handler.rs L174-207 and L248-252 makes it. -/
structure HttpRes where
  status : Nat
  headers : List (Str × Str)
  body : Str

/-- What the libraries do: which paths belong to the route (artifact-app/src/serve/handler.rs L39), what happens with all other requests (L220), how numbers are written (L205), the export
settings and the message of an error in the bytes (L185). -/
structure HttpLibs where
  isRpc : Str → Bool
  rest : HttpReq → Option HttpRes
  w : ℚ → Str
  e : WireExport
  utf8Error : List UInt8 → Str

/-- artifact-app/src/serve/handler.rs L228-240 (`setup_headers`). -/
def corsHeaders : List (Str × Str) :=
  [(c!"Access-Control-Allow-Origin", c!"*"), (c!"Access-Control-Allow-Methods", c!"GET, POST, OPTIONS, PUT, PATCH, DELETE"),
    (c!"Access-Control-Allow-Headers", c!"X-Requested-With,content-type")]

/-- `str::from_utf8` (artifact-app/src/serve/handler.rs L181). -/
def fromUtf8 (b : List UInt8) : Option Str := b.toByteArray.utf8Decode?.map Array.toList

/-- What a request is for. artifact-app/src/serve/handler.rs L42-45, L175-207. -/
inductive Taken where
  /-- artifact-app/src/serve/handler.rs L183-186. -/
  | noText
  /-- L189-203. -/
  | call (id : Json) (r : Request)
  /-- L45, L248-252. -/
  | options
  /-- L220: the files of the page, or nothing. -/
  | rest

/-- artifact-app/src/serve/handler.rs L178-203: what `handle_rpc` takes a body for. -/
def takeBody (b : List UInt8) : Taken :=
  match fromUtf8 b with
  | none => .noText
  | some s => .call (requestOf s).1 (requestOf s).2

/-- artifact-app/src/serve/handler.rs L42-45, L220: the routes. -/
def take (H : HttpLibs) (q : HttpReq) : Taken :=
  if H.isRpc q.path then
    match q.verb with
    | .post => takeBody q.body
    | .get => takeBody q.body
    | .put => takeBody q.body
    | .options => .options
    | .other _ => .rest
  else .rest

/-- artifact-app/src/serve/handler.rs L174-207, L248-252: the answer. `reply` is what the call led to, if the request is a call (L200-203); `msg` is the text of an error. A thread that panicked answers nothing. -/
def respond (H : HttpLibs) (msg : Str) (q : HttpReq) (reply : Reply) : Option HttpRes :=
  match take H q with
  | .noText => some ⟨400, corsHeaders, c!"invalid utf8: " ++ H.utf8Error q.body⟩
  | .call id _ => (reply.body H.w H.e msg id).map fun b => ⟨200, corsHeaders, b⟩
  | .options => some ⟨200, corsHeaders, c!"ok"⟩
  | .rest => H.rest q

/-- artifact-app/src/serve/handler.rs L38-59, L174-207: one request while no other one is handled. Given the disk and what is served: the answer, what is served afterwards and the disk afterwards. -/
inductive Serves (H : HttpLibs) (E : Env) (fs : FS) (v : ProjectResult) (q : HttpReq) : Option HttpRes → ProjectResult → FS → Prop where
  /-- L200-206: a call. -/
  | call {id r out fs' msg} : take H q = .call id r → Handles E fs v r out fs' → Serves H E fs v q (respond H msg q out.1) out.2 fs'
  /-- L193-196: text that is no call. -/
  | garbage {id msg} : take H q = .call id .garbage → Serves H E fs v q (respond H msg q .rejected) v fs
  /-- L183-186, L248-252, L220: everything else does not come to the project. -/
  | other {msg} : (∀ id r, take H q ≠ .call id r) → Serves H E fs v q (respond H msg q .rejected) v fs

end Art.Http
