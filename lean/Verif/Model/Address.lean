import Verif.Model.Export

/-!
# Model: the addresses of places in the code

`strfmt` (crate strfmt 0.1.6, from memory of the library) as artifact-ser/src/markdown.rs L364-372 calls it. The loop of the library counts bytes to know where the opening brace is;
here the text since the opening brace is kept instead. What a format after `:` does to a text is a parameter: the library looks at the format alone to accept or refuse it.
-/

namespace Art
namespace Url

/-- artifact-ser/src/markdown.rs L370: the formats after `:` as `strfmt` has them, for example the width; `none` is an error. -/
abbrev Formats := Str → Option (Str → Str)

/-- artifact-ser/src/markdown.rs L370: the state of the loop of `strfmt_map`: what is written, the text since an opening brace, and whether the last brace was a closing one that
waits for a second. -/
structure Scan where
  out : Str
  reading : Option Str
  closing : Bool
  deriving DecidableEq, Repr

/-- artifact-ser/src/markdown.rs L366-369: the values that can be written. -/
def lookup (file line key : Str) : Option Str :=
  if key = c!"file" then some file else if key = c!"line" then some line else none

/-- artifact-ser/src/markdown.rs L370 (`Formatter::from_str` and `Formatter::str` of the library): the text between braces. -/
def formatOne (S : Formats) (file line t : Str) : Option Str :=
  let key := t.takeWhile (· ≠ ':')
  if key = [] then none
  else
    let spec := (t.dropWhile (· ≠ ':')).tail
    match lookup file line key with
    | none => none
    | some v => if spec = [] then some v else (S spec).map (· v)

/-- artifact-ser/src/markdown.rs L370 (`strfmt_map` of the library): one character. -/
def scanChar (S : Formats) (file line : Str) (s : Scan) (c : Char) : Option Scan :=
  if c = '{' then
    match s.reading with
    | some [] => some { s with out := s.out ++ ['{'], reading := none }
    | none => some { s with reading := some [] }
    | some _ => none
  else if c = '}' then
    if s.closing then some ⟨s.out ++ ['}'], s.reading.map (· ++ ['}']), false⟩
    else
      match s.reading with
      | none => some { s with closing := true }
      | some t => (formatOne S file line t).map fun v => { s with out := s.out ++ v, reading := none }
  else if s.closing then none
  else
    match s.reading with
    | none => some { s with out := s.out ++ [c] }
    | some t => some { s with reading := some (t ++ [c]) }

/-- artifact-ser/src/markdown.rs L370 (`strfmt_map` of the library): the loop and the checks after it. -/
def scan (S : Formats) (file line : Str) : Scan → Str → Option Str
  | s, [] => if s.closing || s.reading.isSome then none else some s.out
  | s, c :: l =>
    match scanChar S file line s c with
    | none => none
    | some s => scan S file line s l

/-- artifact-ser/src/markdown.rs L364-372 (`strfmt_code_url`), with the line as text. `none` is an error. -/
def strfmt (S : Formats) (fmt file line : Str) : Option Str := scan S file line ⟨[], none, false⟩ fmt

/-- artifact-data/src/project.rs L321: the address that `lint_settings` tries. -/
def tried (S : Formats) (fmt : Str) : Option Str := strfmt S fmt c!"/fake" (showNat (0 + 1))

end Url
end Art
