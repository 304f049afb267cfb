import Verif.Model.Read
import Verif.Model.Save
import Mathlib.Logic.Function.Basic
import Mathlib.Logic.Relation

/-!
# Threads and channels
Models the threads that `read_project` (artifact-data/src/project.rs L84-150), `create_backups`, `remove_backups` and `save_project`
(artifact-data/src/modify.rs L233-380) start, and the channels between them.

A channel is the one of the library `crossbeam-channel`: a queue of bounded length. Sending waits while it is full and panics (macro `ch!`)
if nobody can receive any more. A loop over a receiver waits while the queue is empty and ends when it is empty and nobody can send any more. A thread takes any
number of steps whenever the scheduler lets it.

Simplifications: a thread that ends gives back all its ends of channels in one step; all threads are there from the
beginning, which changes nothing since the thread that starts them has the ends of their channels until it has started all of them. What a thread does
between two uses of a channel is not a step of its own.
-/

namespace Art.Chan

/-! ## channels -/

/-- What a thread does next: `send` is the macro `ch!` or `Sender::send` (artifact-data/src/settings.rs L104, L119, L141), `dropTx` and `dropRx` are a `Sender`
and a `Receiver` that go out of scope (artifact-data/src/project.rs L148), `die` is a panic (artifact-data/src/implemented.rs L89). -/
inductive Op (C V : Type) where
  | send (c : C) (v : V)
  | dropTx (c : C)
  | dropRx (c : C)
  | die

/-- What a thread does: `first`, then `item` for everything that a loop over the receiver `src` gives, then `close` with all that was received. For example
artifact-data/src/project.rs L104-108. -/
structure Prog (C V : Type) where
  src : Option C
  first : List (Op C V)
  item : V → List (Op C V)
  close : List V → List (Op C V)

/-- The threads, the ends of channels that they have, and the lengths of the queues. For example artifact-data/src/project.rs L84-148. -/
structure Net (ι C V : Type) where
  prog : ι → Prog C V
  tx : ι → C → Bool
  rx : ι → C → Bool
  cap : C → Nat

/-- How a thread is: `died` is a panic. For example artifact-data/src/project.rs L104-108. -/
inductive Fate where
  | live | ended | died
  deriving DecidableEq

/-- A thread at a moment, for example artifact-data/src/project.rs L104-108. `ops` is what it does before it receives again, `got` what it has received, `closed` says that its
loop is over. `ran` is what it has done, it has no influence on anything. -/
structure Th (C V : Type) where
  ops : List (Op C V)
  closed : Bool
  fate : Fate
  tx : C → Bool
  rx : C → Bool
  got : List V
  ran : List (Op C V)

/-- All threads and queues at a moment, for example artifact-data/src/project.rs L84-148. `taken` is what has been received from a channel, it has no influence on anything. -/
structure St (ι C V : Type) where
  th : ι → Th C V
  queue : C → List V
  taken : C → List V

/-- The beginning, for example artifact-data/src/project.rs L84. -/
def Net.init (N : Net ι C V) : St ι C V :=
  ⟨fun i => ⟨(N.prog i).first, false, .live, N.tx i, N.rx i, [], []⟩, fun _ => [], fun _ => []⟩

/-- A thread is over: everything it has is dropped. For example artifact-data/src/project.rs L104-108. -/
def Th.over (t : Th C V) (f : Fate) : Th C V := { t with ops := [], fate := f, tx := fun _ => false, rx := fun _ => false }

/-- A thread changes, for example artifact-data/src/project.rs L104-108. -/
def St.set [DecidableEq ι] (s : St ι C V) (i : ι) (t : Th C V) : St ι C V := { s with th := Function.update s.th i t }

/-- One step of one thread, for example of artifact-data/src/project.rs L84-148. -/
inductive Step [DecidableEq ι] [DecidableEq C] (N : Net ι C V) : St ι C V → St ι C V → Prop where
  /-- There is room in the queue, and somebody can receive. -/
  | send (s : St ι C V) (i : ι) (c : C) (v : V) (rest : List (Op C V)) :
      (s.th i).ops = .send c v :: rest → (s.th i).tx c = true → (∃ j, (s.th j).rx c = true) → (s.queue c).length < N.cap c →
      Step N s { s.set i { s.th i with ops := rest, ran := (s.th i).ran ++ [.send c v] } with
        queue := Function.update s.queue c (s.queue c ++ [v]) }
  /-- Nobody can receive: the thread panics. -/
  | sendDead (s : St ι C V) (i : ι) (c : C) (v : V) (rest : List (Op C V)) :
      (s.th i).ops = .send c v :: rest → (s.th i).tx c = true → (∀ j, (s.th j).rx c = false) → Step N s (s.set i ((s.th i).over .died))
  | dropTx (s : St ι C V) (i : ι) (c : C) (rest : List (Op C V)) : (s.th i).ops = .dropTx c :: rest →
      Step N s (s.set i { s.th i with ops := rest, tx := Function.update (s.th i).tx c false, ran := (s.th i).ran ++ [.dropTx c] })
  | dropRx (s : St ι C V) (i : ι) (c : C) (rest : List (Op C V)) : (s.th i).ops = .dropRx c :: rest →
      Step N s (s.set i { s.th i with ops := rest, rx := Function.update (s.th i).rx c false, ran := (s.th i).ran ++ [.dropRx c] })
  | die (s : St ι C V) (i : ι) (rest : List (Op C V)) : (s.th i).ops = .die :: rest → Step N s (s.set i ((s.th i).over .died))
  /-- The loop goes on with the first value of the queue. -/
  | recv (s : St ι C V) (i : ι) (c : C) (v : V) (q : List V) :
      (s.th i).ops = [] → (s.th i).fate = .live → (s.th i).closed = false → (N.prog i).src = some c → s.queue c = v :: q →
      Step N s { s.set i { s.th i with ops := (N.prog i).item v, got := (s.th i).got ++ [v] } with
        queue := Function.update s.queue c q, taken := Function.update s.taken c (s.taken c ++ [v]) }
  /-- The loop ends: the queue is empty and nobody can send. -/
  | close (s : St ι C V) (i : ι) (c : C) :
      (s.th i).ops = [] → (s.th i).fate = .live → (s.th i).closed = false → (N.prog i).src = some c → s.queue c = [] →
      (∀ j, (s.th j).tx c = false) →
      Step N s (s.set i { s.th i with ops := (N.prog i).close (s.th i).got, closed := true })
  /-- The thread has done everything. -/
  | stop (s : St ι C V) (i : ι) : (s.th i).ops = [] → (s.th i).fate = .live → ((s.th i).closed = true ∨ (N.prog i).src = none) →
      Step N s (s.set i ((s.th i).over .ended))

/-- What can be reached from the beginning, for example of artifact-data/src/project.rs L84-148. -/
def Reach [DecidableEq ι] [DecidableEq C] (N : Net ι C V) : St ι C V → Prop := Relation.ReflTransGen (Step N) N.init

/-- All threads are over, so that joining them returns (for example artifact-data/src/project.rs L150, L157-158). -/
def St.Over (s : St ι C V) : Prop := ∀ i, (s.th i).fate ≠ .live

/-! ## what goes through the channels -/

/-- The values on all channels: a file, a place in the code, an artifact, a lint; a file to write, rename or remove together with the lint that this attempt is
going to give, if it fails. artifact-data/src/project.rs L85, L93, L101, L119, L129 and artifact-data/src/modify.rs L237-238, L278-279, L331-332. -/
inductive Item where
  | path (p : FilePath)
  | loc (l : Loc)
  | im (a : ArtifactIm)
  | lint (l : Lint)
  | job (p : FilePath) (fails : Option Lint)

/-- The lints among the values: `recv_err.iter()`, artifact-data/src/project.rs L87 and artifact-data/src/modify.rs L271, L314, L379. -/
def lintsOf : List Item → List Lint := List.filterMap fun | .lint l => some l | _ => none

/-- `recv_loc.iter()`, artifact-data/src/project.rs L113. -/
def locsOf : List Item → List Loc := List.filterMap fun | .loc l => some l | _ => none

/-- `recv_artifact_im.iter()`, artifact-data/src/project.rs L141. -/
def imsOf : List Item → List ArtifactIm := List.filterMap fun | .im a => some a | _ => none

/-- The files among the values, artifact-data/src/project.rs L105, L133. -/
def pathsOf : List Item → List FilePath := List.filterMap fun | .path p => some p | _ => none

/-! ## reading -/

/-- The channels of `read_project`: artifact-data/src/project.rs L93, L101, L119, L129, L85. -/
inductive RCh where
  | codePath | loc | artPath | im | lint
  deriving DecidableEq

/-- The threads of `read_project`: the main one, the collector of lints (artifact-data/src/project.rs L86-89), the walk (L94-99), the workers
(L102-109) and the collector (L112-115) of the code, the walk (L120-127), the workers (L130-137) and the collector (L140-145) of the artifacts. -/
inductive RTh (n : Nat) where
  | main | lints
  | codeWalk | codeWork (k : Fin 4) | locs
  | artWalk | artWork (k : Fin n) | arts
  deriving DecidableEq

/-- artifact-data/src/settings.rs L93-107 (`walk_paths`) as a thread: what is sent, in order. -/
def walkOps (L : Libs) (fs : FS) (f : FilePath → Bool → Bool) (out : RCh) (roots : ISet FilePath) : List (Op RCh Item) :=
  roots.flatMap fun r => match walkPath fs f r with
    | some l => l.map fun p => .send out (.path p)
    | none => [.send .lint (.lint (Lint.loadError r (L.errMsg .io)))]

/-- What a worker does with a file: artifact-data/src/project.rs L106, L134. It dies if the file makes it panic. -/
def workOps (out : RCh) (mk : α → Item) (x : Sent α) : List (Op RCh Item) :=
  x.items.map (fun a => .send out (mk a)) ++ x.lints.map (fun l => .send .lint (.lint l)) ++ (if x.dead then [.die] else [])

/-- What is done with a value that is a file. A channel of files has no other values. artifact-data/src/project.rs L105, L133. -/
def onPath (f : FilePath → List (Op RCh Item)) : Item → List (Op RCh Item)
  | .path p => f p
  | _ => []

/-- The threads of `read_project`, artifact-data/src/project.rs L84-148. -/
def readProg (L : Libs) (fs : FS) (s : Settings) : RTh n → Prog RCh Item
  | .main => ⟨none, [.dropTx .im, .dropRx .artPath, .dropTx .loc, .dropRx .codePath, .dropTx .lint], fun _ => [], fun _ => []⟩
  | .lints => ⟨some .lint, [], fun _ => [], fun _ => []⟩
  | .codeWalk => ⟨none, walkOps L fs (codeFilter s.excludeCodePaths) .codePath s.codePaths, fun _ => [], fun _ => []⟩
  | .codeWork _ => ⟨some .codePath, [], onPath fun p => workOps .loc .loc (codeSent L fs p), fun _ => []⟩
  | .locs => ⟨some .loc, [], fun _ => [], fun l => (joinLocations (locsOf l)).2.map fun d => .send .lint (.lint d)⟩
  | .artWalk => ⟨none, walkOps L fs (artFilter s.excludeArtifactPaths) .artPath s.artifactPaths, fun _ => [], fun _ => []⟩
  | .artWork _ => ⟨some .artPath, [], onPath fun p => workOps .im .im (artSent L s.pre fs p), fun _ => []⟩
  | .arts => ⟨some .im, [], fun _ => [], fun l => (joinArtifacts (imsOf l)).lints.map fun d => .send .lint (.lint d)⟩

/-- The senders that a thread of `read_project` has: artifact-data/src/project.rs L85, L92, L93, L101, L103, L111, L118, L119, L129, L131, L139. -/
def readTx : RTh n → RCh → Bool
  | .main, .im | .main, .loc | .main, .lint => true
  | .codeWalk, .codePath | .codeWalk, .lint => true
  | .codeWork _, .loc | .codeWork _, .lint => true
  | .locs, .lint => true
  | .artWalk, .artPath | .artWalk, .lint => true
  | .artWork _, .im | .artWork _, .lint => true
  | .arts, .lint => true
  | _, _ => false

/-- The receivers that a thread of `read_project` has: artifact-data/src/project.rs L85-87, L93, L103, L113, L119, L131, L141. -/
def readRx : RTh n → RCh → Bool
  | .main, .codePath | .main, .artPath => true
  | .lints, .lint => true
  | .codeWork _, .codePath => true
  | .locs, .loc => true
  | .artWork _, .artPath => true
  | .arts, .im => true
  | _, _ => false

/-- artifact-data/src/project.rs L84-148 on a machine with `n` processors. -/
def readNet (L : Libs) (n : Nat) (fs : FS) (s : Settings) : Net (RTh n) RCh Item :=
  ⟨readProg L fs s, readTx, readRx, fun _ => 128⟩

/-- What the collectors have received: artifact-data/src/project.rs L87, L113, L141. -/
def runOf (t : St (RTh n) RCh Item) : Run :=
  ⟨locsOf (t.th .locs).got, imsOf (t.th .arts).got, lintsOf (t.th .lints).got⟩

/-! ## writing -/

/-- The channels of each of the three phases of writing: artifact-data/src/modify.rs L237-238, L278-279, L331-332. -/
inductive WCh where
  | job | lint
  deriving DecidableEq

/-- The threads of a phase of writing: the main one, the walk (none in `save_project`) and the workers.
artifact-data/src/modify.rs L240, L249, L281, L293, L334. -/
inductive WTh (n : Nat) where
  | main | walk
  | work (k : Fin n)
  deriving DecidableEq

/-- What a worker does with a file, as far as channels are concerned: artifact-data/src/modify.rs L252-264, L296-307, L337-368. -/
def jobOps : Item → List (Op WCh Item)
  | .job _ (some l) => [.send .lint (.lint l)]
  | _ => []

/-- What `walk_paths` sends: a file or a lint. artifact-data/src/settings.rs L104, L119, L141. -/
def foundOps : FilePath × Option Lint ⊕ Lint → Op WCh Item
  | .inl x => .send .job (.job x.1 x.2)
  | .inr l => .send .lint (.lint l)

/-- The threads of `create_backups` and of `remove_backups`: artifact-data/src/modify.rs L236-271 and L277-314. `found` is what the walk finds; each file comes with what
renaming or removing it will give. -/
def backupProg (found : List (FilePath × Option Lint ⊕ Lint)) : WTh n → Prog WCh Item
  | .main => ⟨some .lint, [.dropRx .job, .dropTx .lint], fun _ => [], fun _ => []⟩
  | .walk => ⟨none, found.map foundOps, fun _ => [], fun _ => []⟩
  | .work _ => ⟨some .job, [], jobOps, fun _ => []⟩

/-- The senders in `create_backups` and `remove_backups`: artifact-data/src/modify.rs L237-250, L278-294. -/
def backupTx : WTh n → WCh → Bool
  | .main, .lint => true
  | .walk, _ => true
  | .work _, .lint => true
  | _, _ => false

/-- The receivers in all phases: artifact-data/src/modify.rs L237-250, L278-294, L331-335. -/
def writeRx : WTh n → WCh → Bool
  | .main, _ => true
  | .work _, .job => true
  | _, _ => false

/-- `create_backups` (artifact-data/src/modify.rs L236-271) and `remove_backups` (L277-314) on a machine with `n` processors. -/
def backupNet (n : Nat) (found : List (FilePath × Option Lint ⊕ Lint)) : Net (WTh n) WCh Item :=
  ⟨backupProg found, backupTx, writeRx, fun _ => 128⟩

/-- The threads of `save_project`: artifact-data/src/modify.rs L330-379. The main thread sends all files itself (L372-374) before it receives (L379). There is no
walk: that thread does nothing. -/
def saveProg (files : List (FilePath × Option Lint)) : WTh n → Prog WCh Item
  | .main => ⟨some .lint, files.map (fun x => .send .job (.job x.1 x.2)) ++ [.dropRx .job, .dropTx .job, .dropTx .lint], fun _ => [], fun _ => []⟩
  | .walk => ⟨none, [], fun _ => [], fun _ => []⟩
  | .work _ => ⟨some .job, [], jobOps, fun _ => []⟩

/-- The senders in `save_project`: artifact-data/src/modify.rs L331-335. -/
def saveTx : WTh n → WCh → Bool
  | .main, _ => true
  | .work _, .lint => true
  | _, _ => false

/-- `save_project` (artifact-data/src/modify.rs L330-379) on a machine with `n` processors; each file comes with what writing it will give. The queues have the length `q`, which
is 128 (L331-332). -/
def saveNet (q n : Nat) (files : List (FilePath × Option Lint)) : Net (WTh n) WCh Item :=
  ⟨saveProg files, saveTx, writeRx, fun _ => q⟩

end Art.Chan
