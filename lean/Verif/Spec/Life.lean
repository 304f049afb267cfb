import Verif.Spec.Session
import Verif.Props.Serve

/-!
# Specification: the life of a project
-/

namespace Art
namespace Cli
open Spec

/-- The disk holds the project `p`: whoever reads gets `p`, up to the spelling of names, and saving is safe. -/
structure Holds (E : Env) (base : FilePath) (s : Settings) (fs : FS) (p : Project) : Prop where
  tree : FS.WF fs
  settings : SettingsOf E.readToml fs base s
  safe : Safe fs s
  reads : ∀ n out, ReadsProject E.L E.readToml E.hash n fs base out → ∃ c q, out = .ok (c, q) ∧ foldCase q = foldCase p

/-- A project that can be stored: its artifacts survive being written in their files, no two files differ only in the extension, and no reference crashes the parser. -/
structure Storable (L : Libs) (s : Settings) (p : Project) : Prop where
  survives : ∀ a ∈ editable p, Survives L s a.file ((editable p).filter (fun b => decide (b.file = a.file)))
  stems : ∀ a ∈ editable p, ∀ b ∈ editable p, SameStem a.file b.file → a.file = b.file
  parses : ¬ Crashing p

/-- What may happen in a server: everything but changes of the disk by others, a server that is killed, and modifications that fail while they write. The projects that are saved
can be stored. -/
def Clean (E : Env) (s : Settings) : Art.Event → Prop
  | .finish _ (.modify (some (some ops))) (.success w) => Storable E.L s w.project ∧
      ∀ ops', Res.mapM' (WireOp.read E.strict) ops = .ok ops' → ∀ op ∈ ops', ∀ a, Brings op a → ReadOnce s a.file
  | e => LeavesDisk e

/-- The life of a project from the disk `fs` with the project `p` to the disk and the project in the last arguments: commands that may not touch it, successful `art fmt`s, whole
runs of `art serve` with any requests, after which the project is what the server showed last, and changes elsewhere by other programs. -/
inductive Life (S : Setup) (base : FilePath) (s : Settings) (fs : FS) (p : Project) : FS → Project → Prop where
  | start : Life S base s fs p fs p
  | command {fs1 fs2 q} {cwd : FilePath} {c : Cmd} {st : Nat} : Life S base s fs p fs1 q → Ends S fs1 cwd c st fs2 → (∀ v w port, c ≠ .serve v w port) →
      (∀ x, Touches S fs1 cwd c x → ¬ InProject s x) → Life S base s fs p fs2 q
  | format {fs1 fs2 q} {cwd d : FilePath} {v : Nat} {w ty : Option Str} : Life S base s fs p fs1 q → workDir fs1 cwd w = some d → findRepo fs1 d = some base →
      Ends S fs1 cwd (.fmt v w ty) 0 fs2 → NoCollision S.E.hash q [] →
      (∀ a ∈ editable q, Survives S.E.L s a.file ((editable q).filter (fun b => decide (b.file = a.file)))) → Life S base s fs p fs2 q
  | serve {fs1 q} {dir : FilePath} {hist : List Art.Event} {s0 t : Server} : Life S base s fs p fs1 q → Starts S.E fs1 dir base s0 → Art.Runs S.E s0 hist t →
      (∀ e ∈ hist, Clean S.E s e) → Life S base s fs p t.disk t.value.project
  | others {fs1 fs2 q} : Life S base s fs p fs1 q → FS.WF fs2 → (∀ x, InProject s x → IMap.get? fs2 x = IMap.get? fs1 x) → Life S base s fs p fs2 q

end Cli
end Art
