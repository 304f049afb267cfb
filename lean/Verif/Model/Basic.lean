import Mathlib.Data.List.Lex
import Mathlib.Data.Char
import Mathlib.Data.List.Sort

/-!
# Basic vocabulary of the model

Strings, results with an explicit panic outcome, and the insertion ordered maps and sets
(`indexmap` crate) that every part of the Rust code base uses.
-/

namespace Art

/-- A Rust `str`/`String`: the list of its Unicode scalar values.
Used for every string in /repo. Simplification: UTF-8 byte positions are only modelled where
the code slices by bytes (see `byteSplit`). E.g. artifact-ser/src/name.rs L142. -/
abbrev Str := List Char

open Lean in
/-- `c!"abc"` is the `Str` literal `['a','b','c']`. -/
macro:max "c!" s:str : term => do
  let cs : Array (TSyntax `term) :=
    (s.getString.toList.map (fun c => (⟨Syntax.mkCharLit c⟩ : TSyntax `term))).toArray
  `(([$cs,*] : Str))

/-- Outcome of a Rust function returning `Result<α, ε>` that may also panic.
Panic sources are `unwrap`/`expect!`/`unreachable!`/`panic!`/index out of range. E.g. artifact-ser/src/name.rs L344. -/
inductive Res (ε : Type _) (α : Type _) where
  | ok (a : α)
  | err (e : ε)
  | panic
  deriving DecidableEq, Repr

namespace Res
variable {ε α β : Type _}

/-- The `?` operator: sequencing of fallible computations. E.g. artifact-data/src/raw.rs L253. -/
@[simp] def bind : Res ε α → (α → Res ε β) → Res ε β
  | ok a, f => f a
  | err e, _ => err e
  | panic, _ => panic

instance : Monad (Res ε) where
  pure := ok
  bind := bind

@[simp] theorem pure_def (a : α) : (pure a : Res ε α) = ok a := rfl
@[simp] theorem bind_ok (a : α) (f : α → Res ε β) : (ok a >>= f) = f a := rfl
@[simp] theorem bind_err (e : ε) (f : α → Res ε β) : ((err e : Res ε α) >>= f) = err e := rfl
@[simp] theorem bind_panic (f : α → Res ε β) : ((panic : Res ε α) >>= f) = panic := rfl

/-- `Result::is_ok`. E.g. artifact-ser/src/name.rs L40. -/
def isOk : Res ε α → Bool
  | ok _ => true
  | _ => false

/-- `Result::ok`. E.g. artifact-ser/src/name.rs L330. -/
def toOption : Res ε α → Option α
  | ok a => some a
  | _ => none

/-- `Result::map_err`. E.g. artifact-data/src/raw_names.rs L124. -/
def mapErr {ε' : Type _} (f : ε → ε') : Res ε α → Res ε' α
  | ok a => ok a
  | err e => err (f e)
  | panic => panic

@[simp] theorem isOk_ok (a : α) : (ok a : Res ε α).isOk = true := rfl
@[simp] theorem isOk_err (e : ε) : (err e : Res ε α).isOk = false := rfl
@[simp] theorem isOk_panic : (panic : Res ε α).isOk = false := rfl

theorem isOk_iff {r : Res ε α} : r.isOk = true ↔ ∃ a, r = ok a := by
  cases r <;> simp

theorem bind_eq_ok {r : Res ε α} {f : α → Res ε β} {b : β} :
    (r >>= f) = ok b ↔ ∃ a, r = ok a ∧ f a = ok b := by
  cases r <;> simp

/-- Sequential `map(f).collect::<Result<Vec<_>, _>>()`: stops at the first error (or panic). E.g. artifact-app/src/ls.rs L553-561. -/
def mapM' (f : α → Res ε β) : List α → Res ε (List β)
  | [] => ok []
  | a :: as => do
    let b ← f a
    let bs ← mapM' f as
    pure (b :: bs)

theorem mapM'_eq_ok {f : α → Res ε β} {l : List α} {r : List β} :
    mapM' f l = ok r ↔ List.Forall₂ (fun a b => f a = ok b) l r := by
  induction l generalizing r with
  | nil => cases r <;> simp [mapM']
  | cons a as ih =>
    cases r with
    | nil => simp [mapM', bind_eq_ok]
    | cons b bs =>
      simp only [mapM', bind_eq_ok, List.forall₂_cons, ← ih, pure_def]
      constructor
      · rintro ⟨b', h1, bs', h2, h3⟩
        cases h3
        exact ⟨h1, h2⟩
      · rintro ⟨h1, h2⟩
        exact ⟨b, h1, bs, h2, rfl⟩

end Res

/-- Number of bytes of the UTF-8 encoding of a scalar value (Rust `char::len_utf8`). Used for the slices at artifact-ser/src/name.rs L350 and artifact-ser/src/family.rs L113. -/
def utf8Len (c : Char) : Nat :=
  if c.toNat < 0x80 then 1 else if c.toNat < 0x800 then 2 else if c.toNat < 0x10000 then 3 else 4

/-- `(&s[0..n], &s[n..])`: `none` stands for the panic when `n` is out of range or not on a
char boundary. Used at artifact-ser/src/name.rs L350 and artifact-ser/src/family.rs L113. -/
def byteSplit : Nat → Str → Option (Str × Str)
  | 0, s => some ([], s)
  | _ + 1, [] => none
  | n + 1, c :: s =>
    if utf8Len c ≤ n + 1 then (byteSplit (n + 1 - utf8Len c) s).map (fun p => (c :: p.1, p.2))
    else none

/-- Length of a string in bytes (`str::len`). Used for the slice at artifact-ser/src/name.rs L350. -/
def byteLen (s : Str) : Nat := (s.map utf8Len).sum

/-- Rust `char::to_ascii_uppercase`. artifact-ser/src/name.rs L349, L434. -/
def upperC (c : Char) : Char :=
  if 'a' ≤ c ∧ c ≤ 'z' then Char.ofNat (c.toNat - 32) else c

/-- Rust `str::to_ascii_uppercase` (used in artifact-ser/src/name.rs L349, L434). -/
def upper (s : Str) : Str := s.map upperC

/-- `slice::sort` (stable) with the ordering induced by a key function. E.g. artifact-data/src/raw_names.rs L96. -/
def sortOn {α κ : Type _} [LinearOrder κ] (f : α → κ) (l : List α) : List α :=
  l.insertionSort (fun a b => f a ≤ f b)

/-- The part of a value that its `Eq`/`Hash` implementations look at. For `Name` this
is `(ty, key)`, see artifact-ser/src/name.rs L365-378. -/
class HasKey (α : Type _) (κ : outParam (Type _)) where
  key : α → κ

export HasKey (key)

/-- `vec.swap_remove(i)` for an in-range `i`: the last element takes the freed position.
This is what `IndexMap::remove` / `IndexSet::remove` do in indexmap 1.0. Part of `IndexMap::remove`, artifact-data/src/modify.rs L206, L217. -/
def swapRemove {α : Type _} (l : List α) (i : Nat) : List α :=
  match l.getLast? with
  | none => l
  | some x => (l.set i x).dropLast

/-- `indexmap::IndexMap` 1.0: entries in insertion order. Used e.g. at artifact-lib/src/lib.rs L393-394. -/
abbrev IMap (α β : Type _) := List (α × β)

namespace IMap
variable {α β κ : Type _} [HasKey α κ] [DecidableEq κ]

/-- `IndexMap::get`. E.g. artifact-data/src/project.rs L267. -/
def get? : IMap α β → α → Option β
  | [], _ => none
  | (a', b) :: m, a => if key a' = key a then some b else get? m a

/-- `IndexMap::contains_key`. E.g. artifact-data/src/project.rs L189. -/
def contains (m : IMap α β) (a : α) : Bool := (get? m a).isSome

/-- `IndexMap::insert`: an existing entry keeps its key and its position, its value is replaced. E.g. artifact-data/src/implemented.rs L115. -/
def insert : IMap α β → α → β → IMap α β
  | [], a, b => [(a, b)]
  | (a', b') :: m, a, b => if key a' = key a then (a', b) :: m else (a', b') :: insert m a b

/-- `IndexMap::remove` (swap remove). E.g. artifact-data/src/implemented.rs L128. -/
def remove (m : IMap α β) (a : α) : IMap α β :=
  match m.findIdx? (fun p => key p.1 = key a) with
  | none => m
  | some i => swapRemove m i

/-- `IndexMap::from_iter` / `collect`. E.g. artifact-data/src/graph.rs L145-156. -/
def collect (l : List (α × β)) : IMap α β := l.foldl (fun m p => insert m p.1 p.2) []

/-- `IndexMap::keys`. E.g. artifact-frontend/src/nav.rs L211. -/
abbrev keys (m : IMap α β) : List α := m.map (·.1)

/-- The representation invariant of an index map: no two entries have equal keys. Used e.g. at artifact-lib/src/lib.rs L393-394. -/
def Nodup (m : IMap α β) : Prop := (m.map (fun p => key p.1)).Nodup

end IMap

/-- `indexmap::IndexSet` 1.0: elements in insertion order. Used e.g. at artifact-lib/src/lib.rs L53-60. -/
abbrev ISet (α : Type _) := List α

namespace ISet
variable {α κ : Type _} [HasKey α κ] [DecidableEq κ]

/-- `IndexSet::contains`. E.g. artifact-data/src/project.rs L189. -/
def contains (m : ISet α) (a : α) : Bool := m.any (fun x => key x = key a)

/-- `IndexSet::insert`: an existing element is kept. E.g. artifact-data/src/implemented.rs L115. -/
def insert (m : ISet α) (a : α) : ISet α := if contains m a then m else m ++ [a]

/-- `IndexSet::extend`. E.g. artifact-data/src/raw_names.rs L135. -/
def extend (m : ISet α) (l : List α) : ISet α := l.foldl insert m

/-- `IndexSet::from_iter` / `collect`. E.g. artifact-data/src/graph.rs L145-156. -/
def collect (l : List α) : ISet α := extend [] l

/-- `IndexSet::remove` (swap remove). E.g. artifact-data/src/implemented.rs L128. -/
def remove (m : ISet α) (a : α) : ISet α :=
  match m.findIdx? (fun x => key x = key a) with
  | none => m
  | some i => swapRemove m i

/-- The representation invariant of an index set. Used e.g. at artifact-lib/src/lib.rs L393-394. -/
def Nodup (m : ISet α) : Prop := (m.map key).Nodup

/-- The set of identities represented: the observable content of the set (iteration order aside). Used e.g. at artifact-lib/src/lib.rs L53-60. -/
def ids (m : ISet α) : Set κ := {k | ∃ x ∈ m, key x = k}

end ISet

end Art
