import Verif.Props.Scan
import Verif.Props.Join
import Verif.Model.Read

/-!
# From the lines of the code to what is shown as implemented

A reference in a source file (artifact-data/src/implemented.rs L44-99 of /repo), in terms of the tokens of C09.
-/

namespace Art.Places
open Spec

/-- What can be read of a source file: all of it, or the lines before the first that is not UTF-8. -/
def SourceText (fs : FS) (f : FilePath) (t : Str) : Prop :=
  IMap.get? fs f = some (.file (.text t)) ∨ ∃ i, IMap.get? fs f = some (.file (.binary t i))

/-- At this place of a source file that is found, outside of all regions that are skipped, there is a reference to the artifact, or to the subname; and no reference
before it in the file ended the thread that reads the file. -/
def RefAt (fs : FS) (s : Settings) (n : Name) (sub : Option SubName) (loc : CodeLoc) : Prop :=
  loc.file ∈ walkCode fs s ∧ ∃ t, SourceText fs loc.file t ∧ ∃ tok : Str → Option SrcTok, (∀ u k, tok u = some k ↔ TokAt u k) ∧
    ∃ before w u after, reported (events tok t) = before ++ (loc.line, w, u) :: after ∧ (∀ y ∈ before, ∃ m, Name.fromStr y.2.1 = .ok m) ∧
      (∃ m, Name.fromStr w = .ok m ∧ key m = key n) ∧ u.map (fun x => key (SubName.mk x)) = sub.map key

/-- The place an implementation gives for the artifact or for a subname. -/
def place (i : Impl) (sub : Option SubName) : Option CodeLoc :=
  match i, sub with
  | .code c, none => c.primary
  | .code c, some x => IMap.get? c.secondary x
  | _, _ => none

end Art.Places
