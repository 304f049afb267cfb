import Verif.Model.Dot

/-! Specification for C54: reading a graph back from its text, row by row, and what it is to show. -/

namespace Art
namespace Spec.Dot

/-- What a row of a graph says. -/
inductive Item where
  /-- Here begins the node with this key. -/
  | node (key : Str)
  /-- What is written in the node. -/
  | label (text : Str)
  /-- The node is a link to this hash. -/
  | link (hash : Str)
  /-- The node has this colour. -/
  | color (c : Str)
  /-- The node is highlighted. -/
  | strong
  /-- The node says that the name was not found. -/
  | missing
  /-- An arrow. -/
  | edge (src dst : Str)
  deriving DecidableEq

/-- The rows of a text. -/
def rows : Str → List Str
  | [] => [[]]
  | c :: cs => if c = '\n' then [] :: rows cs else (c :: (rows cs).headI) :: (rows cs).tail

/-- The text up to the mark. -/
def till (q : Char) (s : Str) : Str := s.takeWhile (fun c => c ≠ q)

/-- The text from the mark on. -/
def from' (q : Char) (s : Str) : Str := s.dropWhile (fun c => c ≠ q)

/-- What a row says that begins with a quotation mark, which is left out. -/
def quoted (r : Str) : Option Item :=
  if from' '"' r = c!"\" [" then some (.node (till '"' r))
  else if (from' '"' r).take 6 = c!"\" -> \"" ∧ from' '"' ((from' '"' r).drop 6) = c!"\"" then some (.edge (till '"' r) (till '"' ((from' '"' r).drop 6)))
  else none

/-- What a row says that has the attribute in front. -/
def attr (l : Str) : Option Item :=
  if l = c!"tooltip=\"Name not found\";" then some .missing
  else if l = c!"penwidth=1.5" then some .strong
  else if l.take 7 = c!"href=\"#" then some (.link (till '"' (l.drop 7)))
  else if l.take 7 = c!"label=\"" then some (.label (till '"' (l.drop 7)))
  else if l.take 10 = c!"label=<<b>" then some (.label (till '<' (l.drop 10)))
  else if l.take 11 = c!"fontcolor=\"" then some (.color (till '"' (l.drop 11)))
  else none

/-- What a row says that has no spaces at its beginning. -/
def itemOf : Str → Option Item
  | [] => none
  | c :: r => if c = '"' then quoted r else attr (c :: r)

/-- What a row says. -/
def item (l : Str) : Option Item := itemOf (l.dropWhile (fun c => c = ' '))

/-- What a text says. -/
def items (s : Str) : List Item := (rows s).filterMap item

/-- An artifact with the key `b` says that it is a part of the one with the key `a`. -/
def IsPart (p : Project) (a b : Str) : Prop := ∃ x ∈ p.artifacts, upper x.2.name.raw = b ∧ ∃ q ∈ x.2.partof, upper q.raw = a

/-- The filter selects an artifact with this key. -/
def Selected (p : Project) (re : Str → Bool) (k : Str) : Prop := ∃ x ∈ p.artifacts, upper x.2.name.raw = k ∧ re x.2.name.raw = true

/-- How an artifact in the project is drawn: with a link to its page, in the colour of its state. -/
def drawnArt (a : Artifact) (n : Name) (color : Str) (strong : Bool) : List Item :=
  [.node (upper n.raw), .label n.raw, .link (lower a.name.raw), .color color] ++ if strong then [.strong] else []

/-- How a name is drawn for which there is no artifact. -/
def drawnMissing (n : Name) : List Item := [.node (upper n.raw), .label n.raw, .missing]

end Spec.Dot
end Art
