import Verif.Model.Pattern

/-!
# What regular expressions mean
-/

namespace Art
namespace Spec

/-- What the crate `regex` knows of the characters (Unicode, which is not part of /repo): `fold` is simple case folding; as far as ASCII characters are concerned it is `foldC`.
Characters that are the same without regard to case are in the same of the classes `\d`, `\s` and `\w`. -/
structure CharsOk (U : CharData) (fold : Char → Char) : Prop where
  same : ∀ c d, d ∈ U.same c ↔ fold d = fold c
  ascii : ∀ c d : Char, d.toNat < 128 → (fold c = fold d ↔ foldC c = foldC d)
  perl : ∀ k c d, fold c = fold d → U.perl k c = U.perl k d

/-- A text that is made of pieces, each of which is in `L`. `L p m r` is about a text `m` with the character `p` before it and the text `r` after it. -/
inductive Pieces (L : Option Char → Str → Str → Prop) : Option Char → Str → Str → Prop
  | nil (p : Option Char) (r : Str) : Pieces L p [] r
  | cons {p : Option Char} {x y r : Str} : L p x (y ++ r) → Pieces L (x.getLast?.or p) y r → Pieces L p (x ++ y) r

/-- A character is among those that a member of a class stands for. -/
def Member (U : CharData) (d : Char) : Item → Prop
  | .range lo hi => lo ≤ d ∧ d ≤ hi
  | .perl k n => U.perl k d = !n

/-- A character is in a class. -/
def InClass (U : CharData) (i neg : Bool) (items : List Item) (c : Char) : Prop :=
  let plain : Prop := if i then ∃ d ∈ U.same c, ∃ it ∈ items, Member U d it else ∃ it ∈ items, Member U c it
  if neg then ¬ plain else plain

/-- The texts that a regular expression stands for, with the character before the text and the text after it. -/
def Stands (U : CharData) : Pat → Option Char → Str → Str → Prop
  | .eps, _, m, _ => m = []
  | .cls i neg l, _, m, _ => ∃ c, m = [c] ∧ InClass U i neg l c
  | .dot nl, _, m, _ => ∃ c, m = [c] ∧ (nl = true ∨ c ≠ '\n')
  | .bol b, p, m, _ => m = [] ∧ (p = none ∨ (b = true ∧ p = some '\n'))
  | .eol b, _, m, r => m = [] ∧ (r = [] ∨ (b = true ∧ r.head? = some '\n'))
  | .seq a b, p, m, r => ∃ x y, m = x ++ y ∧ Stands U a p x (y ++ r) ∧ Stands U b (x.getLast?.or p) y r
  | .alt a b, p, m, r => Stands U a p m r ∨ Stands U b p m r
  | .star _ a, p, m, r => Pieces (Stands U a) p m r
  | .cap _ a, p, m, r => Stands U a p m r

/-- Somewhere in the text there is one that the regular expression stands for. -/
def Occurs (U : CharData) (a : Pat) (t : Str) : Prop := ∃ pre m post, t = pre ++ (m ++ post) ∧ Stands U a pre.getLast? m post

/-- A text has a word in it, without regard to what `fold` disregards. -/
def HasWord (fold : Char → Char) (w t : Str) : Prop := ∃ pre m post, t = pre ++ (m ++ post) ∧ m.map fold = w.map fold

/-- A text without a character that has a meaning in a regular expression. -/
def PlainText (w : Str) : Prop := ∀ c ∈ w, c ∉ c!"\\.+*?()|[]{}^$#&-~"

end Spec
end Art
