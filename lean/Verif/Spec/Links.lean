import Verif.Spec.Export

/-!
Specification for C78: where the links within an exported document lead to. The document has no marks of its own for its sections: the program that shows it makes
them from the headings, by some rule.
-/

namespace Art.Links
open Spec Spec.Export

/-- The link `#t` leads to the section about `a`, when the mark of a heading is made by the rule `slug`. -/
def Leads (slug : Str → Str) (t : Str) (a : Artifact) : Prop := slug a.name.raw = t

/-- It leads to the section about `a` and to no other. -/
def LeadsOnly (p : Project) (slug : Str → Str) (t : Str) (a : Artifact) : Prop := Leads slug t a ∧ ∀ b ∈ arts p, Leads slug t b → b = a

/-- It leads to no section. -/
def LeadsNowhere (p : Project) (slug : Str → Str) (t : Str) : Prop := ∀ b ∈ arts p, ¬ Leads slug t b

/-- A reference to the artifact `a` is in some text, outside of graphs. -/
def Written (p : Project) (n : Str) (sub : Option Str) (a : Artifact) : Prop :=
  ∃ b ∈ arts p, ∃ ps name, Cut true b.text ps ∧ Piece.ref n sub ∈ ps ∧ Name.fromStr n = .ok name ∧ ¬ NoTarget (arts p) name (sub.map SubName.mk) ∧ a ∈ arts p ∧ key a.name = key name

/-- A reference to the artifact `a` is in a graph in some text. -/
def Drawn (p : Project) (n : Str) (sub : Option Str) (a : Artifact) : Prop :=
  ∃ b ∈ arts p, ∃ ps head body qs name, Cut true b.text ps ∧ Piece.graph head body ∈ ps ∧ Cut true body qs ∧ Piece.ref n sub ∈ qs ∧ Name.fromStr n = .ok name ∧
    ¬ NoTarget (arts p) name (sub.map SubName.mk) ∧ a ∈ arts p ∧ key a.name = key name

/-- A part of the document is a link to `#t`. -/
def LinkIn (text t : Str) : Prop := ∃ o, o <:+: text ∧ target o = some t

/-- A part of the document draws a node that links to `#t`. -/
def NodeIn (text t : Str) : Prop := ∃ o, o <:+: text ∧ Dot.Item.link t ∈ Dot.items o

end Art.Links
