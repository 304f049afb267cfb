import Verif.Model.Archive
import Verif.Spec.Art

/-!
# Specification: the archive with the web page
-/

namespace Art
namespace Archive
open Spec

/-- The file at this path, relative to the directory. -/
inductive Tree.Has : Tree → List Str → Bytes → Prop where
  | here {n c r} : Tree.Has (.file n c r) [n] c
  | file {n c r p d} : Tree.Has r p d → Tree.Has (.file n c r) p d
  | sub {n s r p d} : Tree.Has s p d → Tree.Has (.dir n s r) (n :: p) d
  | dir {n s r p d} : Tree.Has r p d → Tree.Has (.dir n s r) p d

/-- A name in the directory. -/
inductive Tree.Named : Tree → Str → Prop where
  | fileHere {n c r} : Tree.Named (.file n c r) n
  | file {n c r m} : Tree.Named r m → Tree.Named (.file n c r) m
  | dirHere {n s r} : Tree.Named (.dir n s r) n
  | dir {n s r m} : Tree.Named r m → Tree.Named (.dir n s r) m

/-- What a name of a file can be. -/
structure NameOk (n : Str) : Prop where
  some : n ≠ []
  slash : '/' ∉ n
  zero : '\x00' ∉ n
  dot : n ≠ c!"."
  dots : n ≠ c!".."

/-- A directory of a disk: names are possible names and no two things have the same name. Files are smaller than 8 GiB. -/
inductive Tree.WF : Tree → Prop where
  | nil : Tree.WF .nil
  | file {n c r} : NameOk n → ¬ Tree.Named r n → c.length < 8 ^ 11 → Tree.WF r → Tree.WF (.file n c r)
  | dir {n s r} : NameOk n → ¬ Tree.Named r n → Tree.WF s → Tree.WF r → Tree.WF (.dir n s r)

/-- The path does not fit into a header. -/
def Long (p : List Str) : Prop := 100 < (strBytes (pathText p)).length

/-- The files of the page as the program sees them. `content` says what is in a file with these bytes. -/
def SiteOf (content : Bytes → Content) (l : List (List Bytes × Bytes)) (site : List (List Str × Content)) : Prop :=
  site.map (fun x => x.1.map strBytes) = l.map (fun e => e.1) ∧ site.map (fun x => x.2) = l.map (fun e => content e.2)

end Archive
end Art
