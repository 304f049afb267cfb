import Verif.Model.Types
import Mathlib.Data.Prod.Lex
import Mathlib.Order.WithBot

/-!
# Lints
Models artifact-ser/src/lint.rs.
-/

namespace Art

/-- artifact-ser/src/lint.rs L46-51 (`Level`). -/
inductive Level where
  | error | warn
  deriving DecidableEq, Repr

/-- artifact-ser/src/lint.rs L53-71 (`Category`). -/
inductive Category where
  | loadPaths | parseCodeImplementations | parseArtifactFiles | autoPartof | artifact | settings | implCode
  | modifyPathInvalid | createExists | updateDne | deleteDne | idOverlap | createBackups | saveProject | removeBackups
  deriving DecidableEq, Repr

/-- artifact-ser/src/lint.rs L27-37 (`Lint`), fields in declaration order (the derived `Ord` compares in this order). -/
structure Lint where
  level : Level
  path : Option Str
  line : Option Nat
  category : Category
  msg : Str
  deriving DecidableEq, Repr

/-- Position of a variant in the declaration: the derived `Ord` of `Level`. artifact-ser/src/lint.rs L46-51. -/
def Level.rank : Level → Nat
  | .error => 0
  | .warn => 1

/-- Position of a variant in the declaration: the derived `Ord` of `Category`. artifact-ser/src/lint.rs L53-71. -/
def Category.rank : Category → Nat
  | .loadPaths => 0 | .parseCodeImplementations => 1 | .parseArtifactFiles => 2 | .autoPartof => 3
  | .artifact => 4 | .settings => 5 | .implCode => 6 | .modifyPathInvalid => 7 | .createExists => 8
  | .updateDne => 9 | .deleteDne => 10 | .idOverlap => 11 | .createBackups => 12 | .saveProject => 13
  | .removeBackups => 14

/-- The derived `Ord for Lint` (artifact-ser/src/lint.rs L27): lexicographic in the fields, `None` below
`Some`, strings by scalar values (equal to the byte order of UTF-8). -/
def Lint.ord (l : Lint) : Nat ×ₗ WithBot Str ×ₗ WithBot Nat ×ₗ Nat ×ₗ Str :=
  toLex (l.level.rank, toLex (l.path, toLex (l.line, toLex (l.category.rank, l.msg))))

/-- artifact-ser/src/lint.rs L39-44 (`Categorized`). -/
structure Categorized where
  error : List Lint
  other : List Lint
  deriving DecidableEq, Repr

/-- `Vec::dedup`: remove consecutive repetitions. Called at artifact-ser/src/lint.rs L89-92. -/
def dedupAdj {α : Type _} [DecidableEq α] : List α → List α
  | [] => []
  | [a] => [a]
  | a :: b :: l => if a = b then dedupAdj (b :: l) else a :: dedupAdj (b :: l)

/-- artifact-ser/src/lint.rs L74-84 (`Categorized::categorize`). -/
def Categorized.categorize (c : Categorized) (lints : List Lint) : Categorized :=
  lints.foldl (fun c l =>
    match l.level with
    | .error => { c with error := c.error ++ [l] }
    | _ => { c with other := c.other ++ [l] }) c

/-- artifact-ser/src/lint.rs L86-93 (`Categorized::sort`). -/
def Categorized.sort (c : Categorized) : Categorized :=
  ⟨dedupAdj (sortOn Lint.ord c.error), dedupAdj (sortOn Lint.ord c.other)⟩

/-- artifact-ser/src/lint.rs L95-98 (`Categorized::is_empty`). -/
def Categorized.isEmpty (c : Categorized) : Bool := c.error.isEmpty && c.other.isEmpty

/-- artifact-ser/src/lint.rs L123-131 (`Lint::load_error`); `err` is the text of the underlying error. -/
def Lint.loadError (path : Str) (err : Str) : Lint :=
  ⟨.error, some path, none, .loadPaths, c!"Error during loading: " ++ err⟩

/-- artifact-ser/src/lint.rs L133-171 (`create_exists`, `update_dne`, `delete_dne`, `id_overlap`). -/
def Lint.opError (c : Category) (msg : Str) : Lint := ⟨.error, none, none, c, msg⟩

end Art
