import Verif.Model.Basic

/-!
# Regular expressions with leftmost-first semantics

The Rust code uses the `regex` crate 1.1. Its source is not part of /repo, this file
models its documented semantics: alternatives and repetitions are tried in priority order and the
first overall match in that order wins; `(?i)` is Unicode simple case folding; `\s` is the Unicode
`White_Space` property.
-/

namespace Art

/-- Unicode `White_Space`: the meaning of `\s` in the `regex` crate and of `char::is_whitespace`. Used for artifact-data/src/raw.rs L209-211, artifact-data/src/implemented.rs L29, artifact-ser/src/name.rs L176-209, artifact-ser/src/markdown.rs L31-44 and artifact-frontend/src/view.rs L24-33. -/
def isWS (c : Char) : Bool :=
  let n := c.toNat
  (0x9 ≤ n && n ≤ 0xD) || n == 0x20 || n == 0x85 || n == 0xA0 || n == 0x1680 ||
  (0x2000 ≤ n && n ≤ 0x200A) || n == 0x2028 || n == 0x2029 || n == 0x202F || n == 0x205F || n == 0x3000

/-- U+017F LATIN SMALL LETTER LONG S: folds to `s`. Used for artifact-data/src/raw.rs L209-211, artifact-data/src/implemented.rs L29, artifact-ser/src/name.rs L176-209, artifact-ser/src/markdown.rs L31-44 and artifact-frontend/src/view.rs L24-33. -/
def longS : Char := Char.ofNat 0x17F
/-- U+212A KELVIN SIGN: folds to `k`. Used for artifact-data/src/raw.rs L209-211, artifact-data/src/implemented.rs L29, artifact-ser/src/name.rs L176-209, artifact-ser/src/markdown.rs L31-44 and artifact-frontend/src/view.rs L24-33. -/
def kelvin : Char := Char.ofNat 0x212A

/-- Unicode simple case folding as far as it can relate to an ASCII character: `A`-`Z` fold to
`a`-`z`, U+017F (long s) folds to `s` and U+212A (Kelvin sign) folds to `k`; there are no other
characters folding to ASCII. Simplification: folding among non-ASCII characters is left out, none
of the patterns of /repo modelled here contains a non-ASCII character. Used for artifact-data/src/raw.rs L209-211, artifact-data/src/implemented.rs L29, artifact-ser/src/name.rs L176-209, artifact-ser/src/markdown.rs L31-44 and artifact-frontend/src/view.rs L24-33. -/
def foldC (c : Char) : Char :=
  if 'A' ≤ c ∧ c ≤ 'Z' then Char.ofNat (c.toNat + 32)
  else if c = longS then 's' else if c = kelvin then 'k' else c

/-- The regular expressions used in /repo. `ch p` is one character of a class (or a literal),
`star g r` is `r*` (`g = true`, greedy) or `r*?`, `cap n r` is a capture group. Used for artifact-data/src/raw.rs L209-211, artifact-data/src/implemented.rs L29, artifact-ser/src/name.rs L176-209, artifact-ser/src/markdown.rs L31-44 and artifact-frontend/src/view.rs L24-33. -/
inductive Re where
  | eps
  | ch (p : Char → Bool)
  | seq (a b : Re)
  | alt (a b : Re)
  | star (greedy : Bool) (a : Re)
  | cap (n : Nat) (a : Re)

/-- Captured groups of one match. Used for artifact-data/src/raw.rs L209-211, artifact-data/src/implemented.rs L29, artifact-ser/src/name.rs L176-209, artifact-ser/src/markdown.rs L31-44 and artifact-frontend/src/view.rs L24-33. -/
abbrev Caps := List (Nat × Str)

/-- One way to match a prefix: the matched prefix, the remaining input and the captures. Used for artifact-data/src/raw.rs L209-211, artifact-data/src/implemented.rs L29, artifact-ser/src/name.rs L176-209, artifact-ser/src/markdown.rs L31-44 and artifact-frontend/src/view.rs L24-33. -/
abbrev Match := Str × Str × Caps

namespace Re

/-- All ways to iterate `step`, in priority order. `fuel` bounds the number of (progressing)
iterations; it is always called with the length of the input. Used for artifact-data/src/raw.rs L209-211, artifact-data/src/implemented.rs L29, artifact-ser/src/name.rs L176-209, artifact-ser/src/markdown.rs L31-44 and artifact-frontend/src/view.rs L24-33. -/
def iter (greedy : Bool) (step : Str → List Match) : Nat → Str → List Match
  | 0, s => [([], s, [])]
  | fuel + 1, s =>
    let more := (step s).flatMap fun (m, r, c) =>
      if m = [] then [] else
        (iter greedy step fuel r).map fun (m', r', c') => (m ++ m', r', c ++ c')
    if greedy then more ++ [([], s, [])] else ([], s, []) :: more

/-- All matches of a prefix of the input, in priority order (leftmost-first semantics). Used for artifact-data/src/raw.rs L209-211, artifact-data/src/implemented.rs L29, artifact-ser/src/name.rs L176-209, artifact-ser/src/markdown.rs L31-44 and artifact-frontend/src/view.rs L24-33. -/
def ms : Re → Str → List Match
  | eps, s => [([], s, [])]
  | ch _, [] => []
  | ch p, c :: s => if p c then [([c], s, [])] else []
  | seq a b, s => (ms a s).flatMap fun (m, r, c) =>
      (ms b r).map fun (m', r', c') => (m ++ m', r', c ++ c')
  | alt a b, s => ms a s ++ ms b s
  | star g a, s => iter g (ms a) s.length s
  | cap n a, s => (ms a s).map fun (m, r, c) => (m, r, (n, m) :: c)

/-- `^r$`: the captures of the first match that ends at the end of the input. artifact-ser/src/name.rs L176-181, artifact-data/src/raw.rs L209-211. -/
def full (r : Re) (s : Str) : Option Caps :=
  ((ms r s).find? (fun m => m.2.1 = [])).map (fun m => m.2.2)

/-- `Regex::is_match` for an anchored pattern `^r$`. artifact-ser/src/name.rs L345, L482. -/
def isFull (r : Re) (s : Str) : Bool := (full r s).isSome

/-- First match of `r` starting exactly at the front of the input. artifact-ser/src/markdown.rs L202. -/
def here (r : Re) (s : Str) : Option Match := (ms r s).head?

/-- `Regex::captures_iter`: successive non-overlapping leftmost-first matches. `n` is fuel, called
with the input length. All patterns searched for in /repo match at least one character. artifact-data/src/implemented.rs L76, artifact-data/src/project.rs L388. -/
def iterFrom (r : Re) : Nat → Str → List Match
  | 0, _ => []
  | n + 1, s =>
    match here r s with
    | some (m, rest, c) => if m = [] then [] else (m, rest, c) :: iterFrom r n rest
    | none =>
      match s with
      | [] => []
      | _ :: s => iterFrom r n s

/-- `Regex::captures_iter`. artifact-data/src/implemented.rs L76, artifact-data/src/project.rs L388. -/
def findIter (r : Re) (s : Str) : List Match := iterFrom r s.length s

/-- `Regex::captures` for an unanchored pattern: the leftmost match. artifact-frontend/src/view.rs L48, L51. -/
def find (r : Re) : Str → Option Match
  | [] => here r []
  | c :: s => (here r (c :: s)).or (find r s)

/-- `r+`. Used for artifact-data/src/raw.rs L209-211, artifact-data/src/implemented.rs L29, artifact-ser/src/name.rs L176-209, artifact-ser/src/markdown.rs L31-44 and artifact-frontend/src/view.rs L24-33. -/
def plus (r : Re) : Re := seq r (star true r)
/-- `r?`. Used for artifact-data/src/raw.rs L209-211, artifact-data/src/implemented.rs L29, artifact-ser/src/name.rs L176-209, artifact-ser/src/markdown.rs L31-44 and artifact-frontend/src/view.rs L24-33. -/
def opt (r : Re) : Re := alt r eps
/-- A literal. Used for artifact-data/src/raw.rs L209-211, artifact-data/src/implemented.rs L29, artifact-ser/src/name.rs L176-209, artifact-ser/src/markdown.rs L31-44 and artifact-frontend/src/view.rs L24-33. -/
def lit (s : Str) : Re := s.foldr (fun c r => seq (ch (fun x => x == c)) r) eps
/-- A literal under `(?i)`. Used for artifact-data/src/raw.rs L209-211, artifact-data/src/implemented.rs L29, artifact-ser/src/name.rs L176-209, artifact-ser/src/markdown.rs L31-44 and artifact-frontend/src/view.rs L24-33. -/
def litI (s : Str) : Re := s.foldr (fun c r => seq (ch (fun x => foldC x == foldC c)) r) eps
/-- `\s*`. Used for artifact-data/src/raw.rs L209-211, artifact-data/src/implemented.rs L29, artifact-ser/src/name.rs L176-209, artifact-ser/src/markdown.rs L31-44 and artifact-frontend/src/view.rs L24-33. -/
def ws : Re := star true (ch isWS)

/-- Declarative meaning of a regular expression: the set of strings it denotes. Used for artifact-data/src/raw.rs L209-211, artifact-data/src/implemented.rs L29, artifact-ser/src/name.rs L176-209, artifact-ser/src/markdown.rs L31-44 and artifact-frontend/src/view.rs L24-33. -/
def Lang : Re → Str → Prop
  | eps, s => s = []
  | ch p, s => ∃ c, p c = true ∧ s = [c]
  | seq a b, s => ∃ x y, Lang a x ∧ Lang b y ∧ s = x ++ y
  | alt a b, s => Lang a s ∨ Lang b s
  | star _ a, s => ∃ l : List Str, (∀ x ∈ l, Lang a x) ∧ s = l.flatten
  | cap _ a, s => Lang a s

end Re

/-- `Caps` lookup: `captures.name(..)`. artifact-data/src/implemented.rs L77-90, artifact-data/src/project.rs L390-394. -/
def Caps.get (c : Caps) (n : Nat) : Option Str := (c.find? (fun p => p.1 = n)).map (·.2)

/-- `[A-Z0-9_]` under `(?i)`: artifact-ser/src/name.rs L154-159 with the flags of L176. Note the two
non-ASCII members. -/
def nameCharI (c : Char) : Bool :=
  let d := foldC c
  ('a' ≤ d && d ≤ 'z') || ('0' ≤ d && d ≤ '9') || d == '_'

end Art
