import Verif.Model.Live

/-!
# The threads that write a project, and the disk
Models `create_backups`, `save_project` and `remove_backups` of artifact-data/src/modify.rs as they run: a thread that finds the files, a number of workers
that take one file at a time, the main thread that receives the lints, the two bounded channels between them, and the disk that all of them work on.
Verif/Model/Save.lean and Verif/Model/Live.lean have the disk without channels, Verif/Model/Chan.lean has the channels without the disk.

In `create_backups` and `remove_backups` the thread that walks sends the files; in `save_project` the main thread does, and receives no lint before it has sent all of
them.

Simplifications: as in Verif/Model/Live.lean, except that channels are bounded. A thread that ends gives back its ends of channels in one step, and the threads are there from the beginning of
their phase, as in Verif/Model/Chan.lean. There is at least one processor (`num_cpus::get`), so no sender finds its receivers gone.
-/

namespace Art.Team

/-- A worker: waiting for a file, doing what has to be done with one, waiting to send a lint, or gone. artifact-data/src/modify.rs L250-265, L294-308, L335-369. -/
inductive Worker where
  | idle
  | busy (todo : List Act)
  | telling (l : Lint)
  | ended
  deriving DecidableEq

/-- The number of values that a channel takes: `ch::bounded(128)`, artifact-data/src/modify.rs L237-238, L278-279, L331-332. -/
def room : Nat := 128

/-- All threads, channels and the disk. artifact-data/src/modify.rs L233-380. -/
structure Moment where
  fs : FS
  phase : Phase
  /-- The paths that still have to be walked. -/
  roots : List FilePath
  /-- The directories that are being read. -/
  stack : List Handle
  /-- What the sender of files is about to send: files with what has to be done with them, and lints. -/
  hand : List (List Act ⊕ Lint)
  /-- The sender of files has not ended. -/
  sending : Bool
  /-- The channel of files. -/
  queue : List (List Act)
  work : List Worker
  /-- The channel of lints. -/
  mail : List Lint
  /-- The lints that the main thread has received. -/
  got : List Lint

/-- The beginning of `create_backups` on a machine with `n` processors. artifact-data/src/modify.rs L233-250. -/
def start (n : Nat) (fs : FS) (s : Settings) : Moment :=
  ⟨fs, .backup, s.artifactPaths, [], [], true, [], List.replicate n .idle, [], []⟩

/-- What the thread that walks looks at. artifact-data/src/modify.rs L240-247, L281-291. -/
def Moment.walker (t : Moment) : LiveCfg := ⟨t.fs, t.phase, t.roots, t.stack, [], []⟩

/-- The loop over the lints is over: none is left and nobody can send any more. artifact-data/src/modify.rs L271, L314, L379. -/
def Moment.Over (t : Moment) : Prop := t.mail = [] ∧ t.sending = false ∧ ∀ w ∈ t.work, w = .ended

/-- The next phase begins: new threads and new channels, `hand` is what the sender has to send from the beginning. artifact-data/src/modify.rs L236-250, L277-294, L330-335. -/
def Moment.next (t : Moment) (phase : Phase) (roots : List FilePath) (hand : List (List Act ⊕ Lint)) : Moment :=
  { t with phase := phase, roots := roots, stack := [], hand := hand, sending := true, queue := [], work := t.work.map (fun _ => .idle), mail := [] }

/-- One step of one thread. artifact-data/src/modify.rs L233-380, L78-87. -/
inductive Step (L : Libs) (s : Settings) (files : List (FilePath × Str)) : Moment → Moment → Prop where
  /-- L240-247: the walk of `create_backups`. -/
  | findArtifacts (t : Moment) (c : LiveCfg) : t.phase = .backup → t.sending = true → t.hand = [] →
      WalkStep L (artFilter s.excludeArtifactPaths) backupAct t.walker c →
      Step L s files t { t with roots := c.roots, stack := c.stack, hand := c.jobs.map .inl ++ c.lints.map .inr }
  /-- L281-291: the walk of `remove_backups`. -/
  | findBackups (t : Moment) (c : LiveCfg) : t.phase = .remove → t.sending = true → t.hand = [] →
      WalkStep L (backupFilter s.excludeArtifactPaths) .remove t.walker c →
      Step L s files t { t with roots := c.roots, stack := c.stack, hand := c.jobs.map .inl ++ c.lints.map .inr }
  /-- artifact-data/src/settings.rs L119, L141 and artifact-data/src/modify.rs L372-374: a file is sent; this waits for room. -/
  | sendFile (t : Moment) (j : List Act) (rest : List (List Act ⊕ Lint)) : t.hand = .inl j :: rest → t.queue.length < room →
      Step L s files t { t with hand := rest, queue := t.queue ++ [j] }
  /-- artifact-data/src/settings.rs L104: the walk sends a lint. -/
  | sendLint (t : Moment) (l : Lint) (rest : List (List Act ⊕ Lint)) : t.hand = .inr l :: rest → t.mail.length < room →
      Step L s files t { t with hand := rest, mail := t.mail ++ [l] }
  /-- The walk is over (L247, L291), or the main thread drops the sender of files (L377). -/
  | sent (t : Moment) : t.sending = true → t.hand = [] → t.roots = [] → t.stack = [] → Step L s files t { t with sending := false }
  /-- L252, L296, L337: a worker takes the first file of the channel. -/
  | take (t : Moment) (before after : List Worker) (j : List Act) (q : List (List Act)) : t.work = before ++ .idle :: after → t.queue = j :: q →
      Step L s files t { t with queue := q, work := before ++ .busy j :: after }
  /-- L254, L297, L358-367: it does something. -/
  | act (t : Moment) (before after : List Worker) (a : Act) (rest : List Act) (fs' : FS) : t.work = before ++ .busy (a :: rest) :: after →
      a.apply t.fs = some fs' → Step L s files t { t with fs := fs', work := before ++ .busy rest :: after }
  /-- L255-261, L298-304, L341-350: it cannot be done. -/
  | fail (t : Moment) (before after : List Worker) (a : Act) (rest : List Act) (msg : Str) : t.work = before ++ .busy (a :: rest) :: after →
      Step L s files t { t with work := before ++ .telling (failLint t.phase a msg) :: after }
  /-- L262, L305, L350-351: the lint is sent; this waits for room. -/
  | tell (t : Moment) (before after : List Worker) (l : Lint) : t.work = before ++ .telling l :: after → t.mail.length < room →
      Step L s files t { t with mail := t.mail ++ [l], work := before ++ .idle :: after }
  /-- L264, L307, L368: the worker is done with the file. -/
  | ready (t : Moment) (before after : List Worker) : t.work = before ++ .busy [] :: after → Step L s files t { t with work := before ++ .idle :: after }
  /-- L265, L308, L369: no file is left and nobody can send any more. -/
  | leave (t : Moment) (before after : List Worker) : t.work = before ++ .idle :: after → t.queue = [] → t.sending = false →
      Step L s files t { t with work := before ++ .ended :: after }
  /-- L271, L314, L379: the main thread receives a lint; in `save_project` not before it has sent all files. -/
  | hear (t : Moment) (l : Lint) (m : List Lint) : t.mail = l :: m → (t.phase = .save → t.sending = false) →
      Step L s files t { t with mail := m, got := t.got ++ [l] }
  /-- L79-80 -/
  | backupErr (t : Moment) : t.phase = .backup → t.Over → hasError t.got = true → Step L s files t { t with phase := .failed .createBackups }
  /-- L80-82 -/
  | backupOk (t : Moment) : t.phase = .backup → t.Over → hasError t.got = false →
      Step L s files t (t.next .save [] (files.map fun x => .inl (saveJob x)))
  /-- L82-83 -/
  | saveErr (t : Moment) : t.phase = .save → t.Over → hasError t.got = true → Step L s files t { t with phase := .failed .saveProject }
  /-- L83-85 -/
  | saveOk (t : Moment) : t.phase = .save → t.Over → hasError t.got = false → Step L s files t (t.next .remove s.artifactPaths [])
  /-- L85-87 -/
  | removeOk (t : Moment) : t.phase = .remove → t.Over → Step L s files t { t with phase := .done }

/-- Everything that can be reached: each such moment is a possible crash. artifact-data/src/modify.rs L78-87. -/
def Reaches (L : Libs) (s : Settings) (files : List (FilePath × Str)) : Moment → Moment → Prop := Relation.ReflTransGen (Step L s files)

/-- artifact-data/src/modify.rs L16-88 (`modify_project`), as `Art.Modifies`, with all threads and channels. -/
inductive Modifies (L : Libs) (readToml : Str → Option SettingsRaw) (hash : ArtifactIm → HashIm) (dbg : ArtifactIm → Str) (ncpu : Nat)
    (fs : FS) (base : FilePath) (ops : List ArtifactOp) : Option (Res ModifyError (Categorized × Project)) → FS → Prop where
  /-- The process dies before the disk is written. -/
  | early : Modifies L readToml hash dbg ncpu fs base ops none fs
  /-- The operations are refused, or reading panics. -/
  | refused {read out} : ReadsProject L readToml hash ncpu fs base read → PlansRead L hash dbg ops read out →
      (∀ x, out ≠ .ok x) → Modifies L readToml hash dbg ncpu fs base ops (some out) fs
  /-- The process dies while the disk is written. -/
  | crash {read c p files t} : ReadsProject L readToml hash ncpu fs base read → PlansRead L hash dbg ops read (.ok (c, p)) →
      projectFiles L p = .ok files → Reaches L p.settings files (start ncpu fs p.settings) t →
      Modifies L readToml hash dbg ncpu fs base ops none t.fs
  | failed {read c p files t kind} : ReadsProject L readToml hash ncpu fs base read → PlansRead L hash dbg ops read (.ok (c, p)) →
      projectFiles L p = .ok files → Reaches L p.settings files (start ncpu fs p.settings) t → t.phase = .failed kind →
      Modifies L readToml hash dbg ncpu fs base ops (some (.err ⟨(c.categorize t.got).sort, kind⟩)) t.fs
  | done {read c p files t} : ReadsProject L readToml hash ncpu fs base read → PlansRead L hash dbg ops read (.ok (c, p)) →
      projectFiles L p = .ok files → Reaches L p.settings files (start ncpu fs p.settings) t → t.phase = .done →
      Modifies L readToml hash dbg ncpu fs base ops (some (.ok (c.categorize t.got, p.sort))) t.fs

end Art.Team
