import Verif.Model.Save
import Verif.Model.Serve

/-!
# Several programs that change the same project
Each of them runs `modify_project` of artifact-data/src/modify.rs on the same directory: two servers, or a server and `artifact fmt`. Nothing in the code takes a lock on the project, so the steps
of the programs take turns in any order, and each of them may be killed at any time.

Simplifications: a program reads the whole project at one moment (as in Verif/Model/Save.lean, the walks of the phases see the disk of one moment, too). A file that is being written is open, so if another
program renames, truncates or replaces it meanwhile, the text does not go where the name says; `Tick.stray` allows any content there, and in the backup, instead.
-/

namespace Art.Pair

/-- Where one program is. artifact-data/src/modify.rs L16-88 (`modify_project`). -/
inductive Proc where
  /-- Before the project is read, artifact-data/src/modify.rs L32. -/
  | fresh (ops : List ArtifactOp)
  /-- The operations are accepted and the texts of the files are known, before artifact-data/src/modify.rs L78. (The texts are computed in
  artifact-data/src/modify.rs L318-366; they do not depend on the disk.) -/
  | planned (c : Categorized) (p : Project) (files : List (FilePath × Str))
  /-- The disk is written, artifact-data/src/modify.rs L78-84. -/
  | writing (c : Categorized) (p : Project) (files : List (FilePath × Str)) (phase : Phase) (jobs : List (List Act)) (lints : List Lint)
  /-- `modify_project` has returned, or the program was killed (`none`). artifact-data/src/modify.rs L24-87. -/
  | over (out : Option (Res ModifyError (Categorized × Project)))

/-- The disk and the programs. artifact-data/src/modify.rs L16-88. -/
structure System where
  fs : FS
  procs : List Proc

/-- What one program does next. artifact-data/src/modify.rs L16-88. -/
inductive Go (E : Env) (base : FilePath) : FS → Proc → FS → Proc → Prop where
  /-- artifact-data/src/modify.rs L32-76. -/
  | read {fs n ops read c p files} : ReadsProject E.L E.readToml E.hash n fs base read → PlansRead E.L E.hash E.dbg ops read (.ok (c, p)) → projectFiles E.L p = .ok files →
      Go E base fs (.fresh ops) fs (.planned c p files)
  /-- artifact-data/src/modify.rs L32-76, with an error. -/
  | refuse {fs n ops read out} : ReadsProject E.L E.readToml E.hash n fs base read → PlansRead E.L E.hash E.dbg ops read out → (∀ x, out ≠ .ok x) →
      Go E base fs (.fresh ops) fs (.over (some out))
  /-- artifact-data/src/modify.rs L78: `create_backups` looks for the files. -/
  | start {fs c p files} : Go E base fs (.planned c p files) fs
      (.writing c p files (Cfg.init E.L fs p.settings).phase (Cfg.init E.L fs p.settings).jobs (Cfg.init E.L fs p.settings).lints)
  /-- artifact-data/src/modify.rs L78-84. -/
  | write {fs c p files phase jobs lints cfg} : SaveStep E.L p.settings files ⟨fs, phase, jobs, lints⟩ cfg →
      Go E base fs (.writing c p files phase jobs lints) cfg.fs (.writing c p files cfg.phase cfg.jobs cfg.lints)
  /-- artifact-data/src/modify.rs L20-30, through L79 and L82. -/
  | fail {fs c p files kind jobs lints} : Go E base fs (.writing c p files (.failed kind) jobs lints) fs (.over (some (.err ⟨(c.categorize lints).sort, kind⟩)))
  /-- artifact-data/src/modify.rs L85-87. -/
  | finish {fs c p files jobs lints} : Go E base fs (.writing c p files .done jobs lints) fs (.over (some (.ok (c.categorize lints, p.sort))))
  /-- The program is killed, anywhere in artifact-data/src/modify.rs L16-88. -/
  | die {fs a} : (∀ out, a ≠ .over out) → Go E base fs a fs (.over none)

/-- One of the programs takes a step. artifact-data/src/modify.rs L16-88. -/
inductive Tick (E : Env) (base : FilePath) : System → System → Prop where
  | tick {fs fs' a b} (before after : List Proc) : Go E base fs a fs' b → Tick E base ⟨fs, before ++ a :: after⟩ ⟨fs', before ++ b :: after⟩
  /-- Text is written to a file that another program has renamed, truncated or replaced since it was opened, artifact-data/src/modify.rs L254, L297, L358-367. The file may be in either place with any content. -/
  | stray {fs c p files phase jobs lints before' after' path ch rest q content} (before after : List Proc) (old : Content) : before ++ after ≠ [] →
      jobs = before' ++ (Act.append path ch :: rest) :: after' → IMap.get? fs path ≠ some .dir → q = path ∨ q = backupPath path → IMap.get? fs q = some (.file old) →
      Tick E base ⟨fs, before ++ .writing c p files phase jobs lints :: after⟩
        ⟨IMap.insert fs q (.file content), before ++ .writing c p files phase (before' ++ rest :: after') lints :: after⟩
  /-- The file is opened for writing after another program has renamed or removed it: it is made anew. artifact-data/src/modify.rs L367. -/
  | reopen {fs c p files phase jobs lints before' after' path rest} (before after : List Proc) : before ++ after ≠ [] →
      jobs = before' ++ (Act.truncate path :: rest) :: after' → IMap.get? fs path = none → IMap.get? fs (parentDir path) = some .dir →
      Tick E base ⟨fs, before ++ .writing c p files phase jobs lints :: after⟩
        ⟨IMap.insert fs path (.file (.text [])), before ++ .writing c p files phase (before' ++ rest :: after') lints :: after⟩
  /-- Text is written to a file that another program has removed or replaced since it was opened, artifact-data/src/modify.rs L254, L297. -/
  | vain {fs c p files phase jobs lints before' after' path ch rest} (before after : List Proc) : before ++ after ≠ [] →
      jobs = before' ++ (Act.append path ch :: rest) :: after' →
      Tick E base ⟨fs, before ++ .writing c p files phase jobs lints :: after⟩ ⟨fs, before ++ .writing c p files phase (before' ++ rest :: after') lints :: after⟩

/-- Any number of steps, in any order. artifact-data/src/modify.rs L16-88. -/
def Ticks (E : Env) (base : FilePath) : System → System → Prop := Relation.ReflTransGen (Tick E base)

end Art.Pair
