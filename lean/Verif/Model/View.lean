import Verif.Model.Name

/-!
# URL routing of the web UI
Models artifact-frontend/src/view.rs L23-61 and the hashes built in artifact-frontend/src/dev_prelude.rs.

`nd` stands for the non-ASCII members of Unicode `Nd` (`\d` of the `regex` crate); every theorem is for all
`nd`. `lim` is the number of `usize` values: `2^32` in the browser, where the code is compiled to
WebAssembly.
-/

namespace Art

/-- artifact-frontend/src/dev_prelude.rs L170-176 (`View`). -/
inductive View where
  | graph
  | artifact (n : Name)
  | edit (id : Nat)
  | notFound

/-- artifact-frontend/src/view.rs L24-27 (`NAME_URL`): `(?i)(?:artifacts/)?(NAME_VALID_STR)`. -/
def nameUrlRe : Re := .seq (.opt (.litI c!"artifacts/")) (.cap 1 nameRe)

/-- An ASCII digit. Used for artifact-frontend/src/view.rs L52. -/
def asciiDigit (c : Char) : Bool := 48 ≤ c.toNat && c.toNat ≤ 57

/-- `\d` of the `regex` crate: artifact-frontend/src/view.rs L28. -/
def digitU (nd : Char → Bool) (c : Char) : Bool := asciiDigit c || (decide (128 ≤ c.toNat) && nd c)

/-- artifact-frontend/src/view.rs L28 (`EDIT_URL`): `(?i)edit/(\d+)`. -/
def editUrlRe (nd : Char → Bool) : Re := .seq (.litI c!"edit/") (.cap 1 (.plus (.ch (digitU nd))))

/-- The number spelled by decimal digits. Used for artifact-frontend/src/view.rs L52. -/
def decVal (s : Str) : Nat := s.foldl (fun a c => 10 * a + (c.toNat - 48)) 0

/-- `usize::from_str` as called in artifact-frontend/src/view.rs L52: fails on anything but ASCII digits and
on overflow. A leading `+` is not modelled, the argument is always a match of `\d+`. -/
def usizeFromStr (lim : Nat) (s : Str) : Option Nat :=
  if s ≠ [] ∧ s.all asciiDigit ∧ decVal s < lim then some (decVal s) else none

/-- `str::to_ascii_lowercase` on one character. Called at artifact-frontend/src/view.rs L46. -/
def lowerC (c : Char) : Char := if 65 ≤ c.toNat ∧ c.toNat ≤ 90 then Char.ofNat (c.toNat + 32) else c

/-- artifact-frontend/src/view.rs L45-60 (`View::from_hash`). The panic is `name!` of L49. -/
def View.fromHash (nd : Char → Bool) (lim : Nat) (hash : Str) : Res Empty View :=
  if hash.map lowerC = c!"graph" ∨ hash = [] then .ok .graph
  else
    match nameUrlRe.find hash with
    | some (_, _, c) =>
      match c.get 1 with
      | some w =>
        match Name.fromStr w with
        | .ok n => .ok (.artifact n)
        | _ => .panic
      | none => .panic
    | none =>
      match (editUrlRe nd).find hash with
      | some (_, _, c) =>
        match c.get 1 with
        | some d =>
          match usizeFromStr lim d with
          | some id => .ok (.edit id)
          | none => .ok .notFound
        | none => .panic
      | none => .ok .notFound

/-- artifact-frontend/src/dev_prelude.rs L164 (`HASH_GRAPH`). -/
def hashGraph : Str := c!"graph"

/-- `Display` of an unsigned integer. Used at artifact-frontend/src/dev_prelude.rs L167. -/
def showNat (n : Nat) : Str := Nat.toDigits 10 n

/-- artifact-frontend/src/dev_prelude.rs L166-168 (`hash_edit`). -/
def hashEdit (id : Nat) : Str := c!"edit/" ++ showNat id

end Art
