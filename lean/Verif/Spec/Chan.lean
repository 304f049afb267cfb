import Verif.Model.Basic

/-!
# What is expected of threads
Independent of the model: endless executions, which files are handled, when writing blocks.
-/

namespace Art.Spec

/-- A relation has no endless sequence that begins with `a`. -/
def Terminates (r : α → α → Prop) (a : α) : Prop := ¬ ∃ f : Nat → α, f 0 = a ∧ ∀ k, r (f k) (f (k + 1))

/-- `got` are the first of `all`; either all of them and fewer than `n` are deadly, or `got` ends with the `n`-th deadly one. -/
def Handled (n : Nat) (deadly : α → Bool) (all got : List α) : Prop :=
  got <+: all ∧ ((got = all ∧ all.countP deadly < n) ∨
    (got.countP deadly = n ∧ ∀ before x, got = before ++ [x] → deadly x = true))

/-- Among the first files so many fail that their messages fill a queue of length `q` and the hands of `n` workers, and after them there are more files than
another queue of that length takes. -/
def Blocks (q n : Nat) (fails : α → Bool) (files : List α) : Prop :=
  ∃ first others, files = first ++ others ∧ q + n ≤ first.countP fails ∧ q < others.length

end Art.Spec
