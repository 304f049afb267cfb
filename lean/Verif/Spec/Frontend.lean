import Verif.Model.Frontend

/-! Specification for C37: what the form says, what typing does, when a request was sent. -/

namespace Art
namespace Web

/-- The artifact says what the fields of the form say. -/
def Says (e : Edit) (im : ArtifactIm) : Prop :=
  im.name.raw = e.name ∧ im.file = e.file ∧ im.text = e.text ∧
  (e.done = [] ∧ im.done = none ∨ e.done ≠ [] ∧ im.done = some e.done) ∧
  (∀ n ∈ im.partof, n.raw ∈ e.partof) ∧
  ∀ s ∈ e.partof, ∃ n : Name, n.raw = s ∧ ∃ n' ∈ im.partof, n'.ty = n.ty ∧ n'.keyStr = n.keyStr

/-- The operation that saves an edit. -/
def OpFor (e : Edit) : ArtifactOp → Prop
  | .create im => e.originalId = none ∧ Says e im
  | .update im orig => e.originalId = some orig ∧ Says e im
  | .delete _ _ => False

/-- All names in the form are names. -/
def FieldsOk (e : Edit) : Prop :=
  (∃ n : Name, n.raw = e.name) ∧ ∀ s ∈ e.partof, ∃ n : Name, n.raw = s

/-- What a change of one field does to the form. -/
def Typed (e : Edit) : Field → Edit → Prop
  | .name v, e' => e' = ⟨e.originalId, v, e.file, e.partof, e.done, e.text⟩
  | .file v, e' => e' = ⟨e.originalId, e.name, v, e.partof, e.done, e.text⟩
  | .done v, e' => e' = ⟨e.originalId, e.name, e.file, e.partof, v, e.text⟩
  | .text v, e' => e' = ⟨e.originalId, e.name, e.file, e.partof, e.done, v⟩
  | .partofCreate, e' => e' = ⟨e.originalId, e.name, e.file, e.partof ++ [[]], e.done, e.text⟩
  | .partofUpdate i v, e' => ∃ a x b, e.partof = a ++ x :: b ∧ a.length = i ∧
      e' = ⟨e.originalId, e.name, e.file, a ++ v :: b, e.done, e.text⟩
  | .partofDelete i, e' => ∃ a x b, e.partof = a ++ x :: b ∧ a.length = i ∧
      e' = ⟨e.originalId, e.name, e.file, a ++ b, e.done, e.text⟩

/-- In the history `tr` from `w0` to `w`, the edits `ids` were sent in the update request `jid` when the world was `w1`, and
`after` happened since. -/
def SentIn (nd : Char → Bool) (lim : Nat) (w0 : World) (tr : List Event) (w : World) (jid : Nat) (ids : List Nat)
    (ops : List ArtifactOp) (w1 : World) (after : List Event) : Prop :=
  ∃ before w2, tr = before ++ .handled (.sendUpdate ids) [.modify jid ops] :: after ∧ Runs nd lim w0 before w1 ∧
    Step nd lim w1 (.handled (.sendUpdate ids) [.modify jid ops]) w2 ∧ Runs nd lim w2 after w ∧
    List.Forall₂ (fun id op => ∃ e, w1.ui.editing.get? id = some e ∧ OpFor e op) ids ops

/-- Where the page goes when the form it shows is closed: to the artifact that was edited if it still has its id, else to the
artifact with the name in the form, else to the graph. -/
def Lands (p : Proj) (e : Edit) (v : View) : Prop :=
  (∃ o q, e.originalId = some o ∧ q ∈ p ∧ q.2.id = o ∧ v = .artifact q.2.name) ∨
  ((∀ q ∈ p, some q.2.id ≠ e.originalId) ∧ ∃ n : Name, n.raw = e.name ∧ (p.get? n).isSome = true ∧ v = .artifact n) ∨
  ((∀ q ∈ p, some q.2.id ≠ e.originalId) ∧ (∀ n : Name, n.raw = e.name → p.get? n = none) ∧ v = .graph)

/-- No keystroke for this edit. -/
def NotTyped (id : Nat) (tr : List Event) : Prop := ∀ f sent, Event.handled (.editArtifact id f) sent ∉ tr

/-- Some request in the history carries this edit. -/
def EverSent (e : Edit) (tr : List Event) : Prop :=
  ∃ m jid ops op, Event.handled m [.modify jid ops] ∈ tr ∧ op ∈ ops ∧ OpFor e op

end Web
end Art
