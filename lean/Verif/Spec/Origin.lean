import Verif.Spec.Fault
import Verif.Props.Text

/-!
# From the lines of a file to what is shown

What it means that an artifact of a project comes from a section of a file (artifact-data/src/intermediate.rs L34-51 and artifact-lib/src/lib.rs L259-275 of /repo,
said without them).
-/

namespace Art.Origin
open Spec Grammar Fault

/-- The artifact shown is the one written in the file `f`: its name letter by letter, whether it is done, its text, and of its links those that are not
automatic, in alphabetical order. -/
structure Comes (f : FilePath) (x : Name × ArtifactRaw) (a : ArtifactIm) : Prop where
  name : a.name = x.1
  file : a.file = f
  done : a.done = x.2.done
  text : a.text = x.2.text.getD []
  links : ∀ q, q ∈ a.partof ↔ (∃ l, x.2.partof = some l ∧ q ∈ l) ∧ ¬ AutoLink x.1 q
  clean : CleanIm a

/-- The lines stand for artifacts. -/
def Stands (L : Libs) (pre s : Str) (out : IMap Name ArtifactRaw) : Prop := ∃ ps, Cut L.fold pre (lines s) ps ∧ Means L ps out

/-- The first section that is wrong ends the thread that reads the file. -/
def Breaks (L : Libs) (pre s : Str) : Prop :=
  ∃ ps, Cut L.fold pre (lines s) ps ∧ ∃ (above : List Mark) (ss : Sections), ps = above ++ ss.marks ∧ Headless above ∧ (∀ s ∈ ss, Headless s.2) ∧
    FirstWrong L ss none

end Art.Origin
