import Verif.Spec.Life
import Verif.Spec.Whole

/-!
# Specification: files that are edited by hand while the server runs (C89)
-/

namespace Art.Hand
open Spec Cli Whole

/-- The server looks at the files: it answers with success to a request to reload or to modify. -/
def Looks : Art.Event → Prop
  | .finish _ (.read (some (some true))) (.success _) => True
  | .finish _ (.modify _) (.success _) => True
  | _ => False

/-- A modification that succeeds has this operation. -/
def Did (E : Env) (e : Art.Event) (op : ArtifactOp) : Prop :=
  ∃ i ops ops' w, e = .finish i (.modify (some (some ops))) (.success w) ∧ Res.mapM' (WireOp.read E.strict) ops = .ok ops' ∧ op ∈ ops'

/-- From the files with `p` to the files with `q`, by what the server was asked for: an artifact that is gone was presented in an operation, and one that is new was brought by one. -/
structure OnlyAsked (E : Env) (hist : List Art.Event) (p q : Project) : Prop where
  kept : ∀ a ∈ editable p, HasId E.hash q (E.hash a) ∨ ∃ e ∈ hist, ∃ op, Did E e op ∧ Presents op (E.hash a)
  new : ∀ b ∈ editable q, b ∈ editable p ∨ ∃ e ∈ hist, ∃ op, Did E e op ∧ Brings op.clean b

end Art.Hand
