import Verif.Model.Address

/-!
# Specification: patterns for addresses
-/

namespace Art
namespace Url

/-- The two values. -/
inductive Value where
  | file
  | line

/-- The parts of a pattern. -/
inductive Piece where
  /-- A character that is no brace. -/
  | plain (c : Char)
  /-- `{{` for a brace. -/
  | brace
  /-- `}}` for a brace; the library lets any number of `{{` stand between the two. -/
  | close (n : Nat)
  /-- `{file}` or `{line}`. -/
  | hole (v : Value)
  /-- The same with a format: `{line:>5}`. -/
  | fmt (v : Value) (spec : Str)

/-- The name of a value. -/
def Value.name : Value → Str
  | .file => c!"file"
  | .line => c!"line"

/-- What stands for it. -/
def Value.text (file line : Str) : Value → Str
  | .file => file
  | .line => line

/-- How a part is written in the pattern. -/
def Piece.src : Piece → Str
  | .plain c => [c]
  | .brace => c!"{{"
  | .close n => c!"}" ++ (List.replicate n c!"{{").flatten ++ c!"}"
  | .hole v => c!"{" ++ v.name ++ c!"}"
  | .fmt v s => c!"{" ++ v.name ++ c!":" ++ s ++ c!"}"

/-- What is written for a part. -/
inductive Piece.Writes (S : Formats) (file line : Str) : Piece → Str → Prop where
  | plain {c} : c ≠ '{' → c ≠ '}' → Writes S file line (.plain c) [c]
  | brace : Writes S file line .brace c!"{"
  | close {n} : Writes S file line (.close n) (List.replicate n '{' ++ c!"}")
  | hole {v} : Writes S file line (.hole v) (v.text file line)
  | bare {v} : Writes S file line (.fmt v []) (v.text file line)
  | fmt {v s f} : s ≠ [] → '{' ∉ s → '}' ∉ s → S s = some f → Writes S file line (.fmt v s) (f (v.text file line))

/-- The address that a pattern stands for. -/
def Address (S : Formats) (fmt file line out : Str) : Prop :=
  ∃ ps os, fmt = (ps.map Piece.src).flatten ∧ List.Forall₂ (Piece.Writes S file line) ps os ∧ out = os.flatten

end Url
end Art
