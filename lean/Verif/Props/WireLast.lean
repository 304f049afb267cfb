import Verif.Model.Wire

/-! # C63: which of several entries with one key counts -/

namespace Art

/-- The last entry with a key. -/
def lastWith (k : Str) (l : List (Str × Json)) : Option Json := l.reverse.lookup k

theorem putField_lookup {k k' : Str} {v : Json} : ∀ {l : List (Str × Json)}, (putField k v l).lookup k' = if k' = k then some v else l.lookup k'
  | [] => by unfold putField; by_cases h : k' = k <;> simp [List.lookup_cons, h, beq_eq_false_iff_ne.2]
  | e :: l => by
    unfold putField
    split_ifs with h1 h2 h3 h3 <;> by_cases h : k' = k
    all_goals (try subst h1)
    all_goals (try subst h)
    all_goals (try (simp_all [List.lookup_cons]; done))
    all_goals (obtain ⟨a, b⟩ := e; simp only [List.lookup_cons, putField_lookup (l := l)]; try split <;> simp_all)

theorem lookup_append' {k : Str} {l m : List (Str × Json)} : (l ++ m).lookup k = (l.lookup k).or (m.lookup k) := by
  induction l with
  | nil => simp
  | cons e l ih => obtain ⟨a, b⟩ := e; simp only [List.cons_append, List.lookup_cons]; split <;> simp [ih]

theorem valueFields_lookup {k : Str} : ∀ {l acc : List (Str × Json)}, (valueFields l acc).lookup k = ((lastWith k l).map Json.value).or (acc.lookup k)
  | [], acc => by simp [valueFields, lastWith]
  | (n, v) :: l, acc => by
    unfold lastWith
    rw [valueFields, valueFields_lookup, putField_lookup, List.reverse_cons, lookup_append']
    show (Option.map _ (l.reverse.lookup k)).or _ = _
    cases l.reverse.lookup k with
    | some w => simp
    | none =>
      simp only [Option.map_none, Option.none_or, List.lookup_cons, List.lookup_nil]
      split_ifs with h
      · subst h; simp
      · rw [show (k == n) = false from by simpa using h]; simp

/-- When the text of a call has several entries with one key, the last one counts; entries with other keys do not matter. -/
theorem C63_last (l : List (Str × Json)) : ∃ m, Json.value (.obj l) = .obj m ∧ ∀ k, m.lookup k = (lastWith k l).map Json.value :=
  ⟨_, rfl, fun k => by rw [valueFields_lookup]; simp⟩

/-- A call with two methods is the call with the second. -/
example : Json.value (.obj [(c!"method", .str c!"ReadProject"), (c!"id", .num c!"1"), (c!"method", .str c!"ModifyProject")]) =
    .obj [(c!"id", .num c!"1"), (c!"method", .str c!"ModifyProject")] := by rfl

end Art
