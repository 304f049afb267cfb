import Verif.Model.Basic

/-! Helper lemmas about the index map/set model, sorting and byte prefixes. -/

set_option linter.unusedSectionVars false
set_option linter.unusedSimpArgs false

namespace Art

section SortLemmas
variable {α κ : Type _} [LinearOrder κ] (f : α → κ)

theorem sortOn_perm (l : List α) : (sortOn f l).Perm l := List.perm_insertionSort _ l

theorem mem_sortOn {l : List α} {a : α} : a ∈ sortOn f l ↔ a ∈ l := (sortOn_perm f l).mem_iff

theorem sortOn_sorted (l : List α) : (sortOn f l).Pairwise (fun a b => f a ≤ f b) := by
  have : Std.Total (fun a b => f a ≤ f b) := ⟨fun a b => le_total _ _⟩
  have : IsTrans α (fun a b => f a ≤ f b) := ⟨fun a b c => le_trans⟩
  exact List.pairwise_insertionSort _ l

/-- Sorting by an injective-on-the-list key is canonical: it only depends on the multiset. -/
theorem sortOn_eq_of_perm {l₁ l₂ : List α} (h : l₁.Perm l₂)
    (hinj : ∀ a ∈ l₁, ∀ b ∈ l₁, f a = f b → a = b) : sortOn f l₁ = sortOn f l₂ := by
  refine List.Perm.eq_of_pairwise (le := fun a b => f a ≤ f b) ?_ (sortOn_sorted f l₁) (sortOn_sorted f l₂)
    ((sortOn_perm f l₁).trans (h.trans (sortOn_perm f l₂).symm))
  intro a b ha hb h1 h2
  exact hinj a ((mem_sortOn f).1 ha) b (h.mem_iff.2 ((mem_sortOn f).1 hb)) (le_antisymm h1 h2)

theorem sortOn_eq_self {l : List α} (h : l.Pairwise (fun a b => f a ≤ f b)) : sortOn f l = l :=
  h.insertionSort_eq

theorem sortOn_idem (l : List α) : sortOn f (sortOn f l) = sortOn f l :=
  sortOn_eq_self f (sortOn_sorted f l)

theorem sortOn_nodup_key {l : List α} (h : (l.map f).Nodup) : ((sortOn f l).map f).Nodup :=
  ((sortOn_perm f l).map f).nodup_iff.2 h

end SortLemmas

theorem nodup_map_inj {α κ : Type _} {f : α → κ} {l : List α} (h : (l.map f).Nodup) :
    ∀ a ∈ l, ∀ b ∈ l, f a = f b → a = b := by
  intro a ha b hb hab
  exact List.inj_on_of_nodup_map h ha hb hab

theorem swapRemove_perm {α : Type _} (l : List α) (i : Nat) (h : i < l.length) :
    l.Perm (l[i] :: swapRemove l i) := by
  have hne : l ≠ [] := by rintro rfl; simp at h
  obtain ⟨init, x, rfl⟩ : ∃ init x, l = init ++ [x] := ⟨l.dropLast, l.getLast hne, (List.dropLast_append_getLast hne).symm⟩
  have hl : (init ++ [x]).getLast? = some x := by simp
  simp only [swapRemove, hl]
  by_cases hi : i < init.length
  · have : (init ++ [x]).set i x = init.set i x ++ [x] := by simp [hi]
    rw [this, List.dropLast_concat]
    have h2 : (init ++ [x])[i] = init[i] := by simp [hi]
    rw [h2]
    have h3 : init = init.take i ++ init[i] :: init.drop (i+1) := by
      rw [List.getElem_cons_drop, List.take_append_drop]
    have h4 : init.set i x = init.take i ++ x :: init.drop (i+1) := by
      rw [List.set_eq_take_append_cons_drop, if_pos hi]
    rw [h4]
    conv_lhs => rw [h3]
    generalize init.take i = A
    generalize init.drop (i+1) = B
    generalize init[i] = y
    calc (A ++ y :: B ++ [x]).Perm (A ++ y :: (B ++ [x])) := by simp
      _ |>.Perm (y :: (A ++ (B ++ [x]))) := List.perm_middle
      _ |>.Perm (y :: (A ++ x :: B)) := by
        refine List.Perm.cons _ (List.Perm.append_left _ ?_)
        exact List.perm_append_singleton _ _
  · have hi' : i = init.length := by simp at h; omega
    subst hi'
    simp

namespace IMap
variable {α β κ : Type _} [HasKey α κ] [DecidableEq κ]

@[simp] theorem get?_nil (a : α) : get? ([] : IMap α β) a = none := rfl

theorem get?_congr (m : IMap α β) {a a' : α} (h : key a = key a') : get? m a = get? m a' := by
  induction m with
  | nil => rfl
  | cons p m ih => obtain ⟨x, b⟩ := p; simp [get?, h, ih]

theorem get?_eq_none {m : IMap α β} {a : α} :
    get? m a = none ↔ ∀ p ∈ m, key p.1 ≠ key a := by
  induction m with
  | nil => simp
  | cons p m ih => obtain ⟨x, b⟩ := p; by_cases h : key x = key a <;> simp [get?, h, ih]

theorem mem_of_get? {m : IMap α β} {a : α} {b : β} (h : get? m a = some b) :
    ∃ a', key a' = key a ∧ (a', b) ∈ m := by
  induction m with
  | nil => simp at h
  | cons p m ih =>
    obtain ⟨x, b'⟩ := p
    by_cases hk : key x = key a
    · simp [get?, hk] at h; subst h; exact ⟨x, hk, by simp⟩
    · simp [get?, hk] at h
      obtain ⟨a', h1, h2⟩ := ih h
      exact ⟨a', h1, by simp [h2]⟩

theorem get?_isSome {m : IMap α β} {a : α} :
    (get? m a).isSome ↔ ∃ p ∈ m, key p.1 = key a := by
  rw [← not_iff_not, Option.not_isSome_iff_eq_none, get?_eq_none]; simp

theorem contains_iff {m : IMap α β} {a : α} :
    contains m a = true ↔ ∃ p ∈ m, key p.1 = key a := get?_isSome

@[simp] theorem nodup_nil : Nodup ([] : IMap α β) := List.nodup_nil

theorem nodup_cons {m : IMap α β} {p : α × β} :
    Nodup (p :: m) ↔ (∀ q ∈ m, key q.1 ≠ key p.1) ∧ Nodup m := by
  simp [Nodup, List.nodup_cons, not_exists]

theorem get?_of_mem {m : IMap α β} (hm : Nodup m) {a : α} {b : β} (h : (a, b) ∈ m) :
    get? m a = some b := by
  induction m with
  | nil => simp at h
  | cons p m ih =>
    obtain ⟨x, b'⟩ := p
    rw [nodup_cons] at hm
    rcases List.mem_cons.1 h with h | h
    · cases h; simp [get?]
    · have : key x ≠ key a := fun e => hm.1 _ h e.symm
      simp [get?, this, ih hm.2 h]

theorem get?_eq_some_iff {m : IMap α β} (hm : Nodup m) {a : α} {b : β} :
    get? m a = some b ↔ ∃ a', key a' = key a ∧ (a', b) ∈ m :=
  ⟨mem_of_get?, fun ⟨_, h1, h2⟩ => by rw [← get?_congr m h1]; exact get?_of_mem hm h2⟩

theorem get?_perm {m m' : IMap α β} (h : m.Perm m') (hm : Nodup m) (a : α) :
    get? m a = get? m' a := by
  have hm' : Nodup m' := (h.map (fun p : α × β => key p.1)).nodup_iff.1 hm
  cases h' : get? m' a with
  | none =>
    rw [get?_eq_none] at h' ⊢
    exact fun p hp => h' p (h.mem_iff.1 hp)
  | some b =>
    rw [get?_eq_some_iff hm'] at h'
    rw [get?_eq_some_iff hm]
    obtain ⟨a', h1, h2⟩ := h'
    exact ⟨a', h1, h.mem_iff.2 h2⟩

theorem nodup_perm {m m' : IMap α β} (h : m.Perm m') : Nodup m ↔ Nodup m' :=
  (h.map (fun p : α × β => key p.1)).nodup_iff

theorem map_key_insert (m : IMap α β) (a : α) (b : β) :
    (insert m a b).map (fun p => key p.1) =
      if contains m a then m.map (fun p => key p.1) else m.map (fun p => key p.1) ++ [key a] := by
  induction m with
  | nil => simp [insert, contains]
  | cons p m ih =>
    obtain ⟨x, b'⟩ := p
    by_cases h : key x = key a
    · simp [insert, h, contains, get?]
    · simp only [insert, h, if_false, List.map_cons, ih]
      have : contains ((x, b') :: m) a = contains m a := by simp [contains, get?, h]
      rw [this]; split <;> simp

theorem insert_of_not_contains {m : IMap α β} {a : α} (h : contains m a = false) (b : β) :
    insert m a b = m ++ [(a, b)] := by
  induction m with
  | nil => rfl
  | cons p m ih =>
    obtain ⟨x, b'⟩ := p
    by_cases hk : key x = key a
    · simp [contains, get?, hk] at h
    · simp only [insert, hk, if_false, List.cons_append]
      rw [ih]; simpa [contains, get?, hk] using h

theorem nodup_insert {m : IMap α β} (hm : Nodup m) (a : α) (b : β) : Nodup (insert m a b) := by
  unfold Nodup
  rw [map_key_insert]
  split
  · exact hm
  · rename_i h
    rw [List.nodup_append]
    refine ⟨hm, by simp, ?_⟩
    intro k hk k' hk' e
    simp at hk'
    subst hk' e
    obtain ⟨p, hp, e⟩ := List.mem_map.1 hk
    exact h (contains_iff.2 ⟨p, hp, e⟩)

theorem get?_insert (m : IMap α β) (a : α) (b : β) (a' : α) :
    get? (insert m a b) a' = if key a = key a' then some b else get? m a' := by
  induction m with
  | nil => simp [insert, get?]
  | cons p m ih =>
    obtain ⟨x, b'⟩ := p
    by_cases h : key x = key a
    · by_cases h2 : key a = key a' <;> simp [insert, h, get?, h2]
    · by_cases h2 : key a = key a'
      · have h3 : key x ≠ key a' := by rw [← h2]; exact h
        simp [insert, h, get?, h2, h3, ih]
      · simp [insert, h, get?, h2, ih]

theorem mem_insert_of_get?_none {m : IMap α β} {a : α} (h : get? m a = none) (b : β) (p : α × β) :
    p ∈ insert m a b ↔ p ∈ m ∨ p = (a, b) := by
  rw [insert_of_not_contains (by simp [contains, h])]; simp

theorem get?_eq_find? (m : IMap α β) (a : α) :
    get? m a = (m.find? (fun p => key p.1 = key a)).map (·.2) := by
  induction m with
  | nil => rfl
  | cons p m ih => obtain ⟨x, b⟩ := p; by_cases h : key x = key a <;> simp [get?, List.find?, h, ih]

theorem remove_cases (m : IMap α β) (a : α) :
    (get? m a = none ∧ remove m a = m) ∨
    (∃ p ∈ m, key p.1 = key a ∧ get? m a = some p.2 ∧ m.Perm (p :: remove m a)) := by
  unfold remove
  cases h : m.findIdx? (fun p => key p.1 = key a) with
  | none =>
    left
    rw [List.findIdx?_eq_none_iff] at h
    refine ⟨get?_eq_none.2 (fun p hp => by simpa using h p hp), rfl⟩
  | some i =>
    right
    rw [List.findIdx?_eq_some_iff_getElem] at h
    obtain ⟨hi, h1, h2⟩ := h
    refine ⟨m[i], List.getElem_mem hi, by simpa using h1, ?_, swapRemove_perm m i hi⟩
    rw [get?_eq_find?]
    have : m.find? (fun p => key p.1 = key a) = some m[i] := by
      rw [List.find?_eq_some_iff_getElem]
      exact ⟨h1, i, hi, rfl, fun j hj => by simpa using h2 j hj⟩
    rw [this]; rfl

theorem get?_remove {m : IMap α β} (hm : Nodup m) (a a' : α) :
    get? (remove m a) a' = if key a = key a' then none else get? m a' := by
  rcases remove_cases m a with ⟨h1, h2⟩ | ⟨p, hp, hk, hg, hperm⟩
  · rw [h2]; split
    · rename_i h; rw [← get?_congr m h, h1]
    · rfl
  · rw [get?_perm hperm hm]
    have hm' := (nodup_perm hperm).1 hm
    rw [nodup_cons] at hm'
    split
    · rename_i h
      rw [get?_eq_none]
      intro q hq
      rw [← h, ← hk]; exact hm'.1 q hq
    · rename_i h
      obtain ⟨x, b⟩ := p
      simp only at hk
      simp [get?, hk, h]

theorem nodup_remove {m : IMap α β} (hm : Nodup m) (a : α) : Nodup (remove m a) := by
  rcases remove_cases m a with ⟨_, h2⟩ | ⟨p, _, _, _, hperm⟩
  · rw [h2]; exact hm
  · exact (nodup_cons.1 ((nodup_perm hperm).1 hm)).2

theorem mem_remove {m : IMap α β} (hm : Nodup m) (a : α) (q : α × β) :
    q ∈ remove m a ↔ q ∈ m ∧ key q.1 ≠ key a := by
  rcases remove_cases m a with ⟨h1, h2⟩ | ⟨p, hp, hk, _, hperm⟩
  · rw [h2]
    exact ⟨fun h => ⟨h, get?_eq_none.1 h1 q h⟩, fun h => h.1⟩
  · have hm' := nodup_cons.1 ((nodup_perm hperm).1 hm)
    constructor
    · intro h
      exact ⟨hperm.mem_iff.2 (by simp [h]), by rw [← hk]; exact hm'.1 q h⟩
    · rintro ⟨h, hne⟩
      rcases List.mem_cons.1 (hperm.mem_iff.1 h) with rfl | h
      · exact absurd hk hne
      · exact h

theorem length_remove_of_get? {m : IMap α β} {a : α} {b : β} (h : get? m a = some b) :
    (remove m a).length + 1 = m.length := by
  rcases remove_cases m a with ⟨h1, _⟩ | ⟨p, _, _, _, hperm⟩
  · simp [h1] at h
  · simpa using hperm.length_eq.symm

theorem foldl_insert_nodup (l : List (α × β)) (m : IMap α β) (hm : Nodup m) :
    Nodup (l.foldl (fun m p => insert m p.1 p.2) m) := by
  induction l generalizing m with
  | nil => exact hm
  | cons p l ih => exact ih _ (nodup_insert hm _ _)

theorem nodup_collect (l : List (α × β)) : Nodup (collect l) :=
  foldl_insert_nodup l [] nodup_nil

theorem foldl_insert_append (l : List (α × β)) (m : IMap α β) (h : Nodup (m ++ l)) :
    l.foldl (fun m p => insert m p.1 p.2) m = m ++ l := by
  induction l generalizing m with
  | nil => simp
  | cons p l ih =>
    have hn : contains m p.1 = false := by
      rw [Bool.eq_false_iff]
      intro hc
      obtain ⟨q, hq, hk⟩ := contains_iff.1 hc
      unfold Nodup at h
      rw [List.map_append, List.nodup_append] at h
      exact h.2.2 _ (List.mem_map_of_mem hq) (key p.1) (by simp) hk
    simp only [List.foldl_cons]
    rw [insert_of_not_contains hn, ih]
    · simp
    · simpa using h

/-- Collecting entries with distinct keys keeps the list as is. -/
theorem collect_of_nodup {l : List (α × β)} (h : Nodup l) : collect l = l :=
  foldl_insert_append l [] (by simpa using h)

theorem get?_foldl_insert (l : List (α × β)) (m : IMap α β) (a : α) :
    get? (l.foldl (fun m p => insert m p.1 p.2) m) a =
      ((l.reverse.find? (fun p => key p.1 = key a)).map (·.2)).or (get? m a) := by
  induction l generalizing m with
  | nil => simp
  | cons p l ih =>
    simp only [List.foldl_cons, ih, List.reverse_cons, List.find?_append, get?_insert]
    cases h : l.reverse.find? (fun p => key p.1 = key a) with
    | some q => simp
    | none => by_cases hk : key p.1 = key a <;> simp [List.find?, hk]

theorem contains_foldl_insert (l : List (α × β)) (m : IMap α β) (a : α) :
    contains (l.foldl (fun m p => insert m p.1 p.2) m) a = true ↔
      (∃ p ∈ l, key p.1 = key a) ∨ contains m a = true := by
  induction l generalizing m with
  | nil => simp
  | cons p l ih =>
    simp only [List.foldl_cons, ih]
    have : contains (insert m p.1 p.2) a = true ↔ key p.1 = key a ∨ contains m a = true := by
      simp only [contains, get?_insert]; split <;> simp [*]
    rw [this, List.exists_mem_cons_iff]; exact or_left_comm.trans or_assoc.symm

theorem contains_collect (l : List (α × β)) (a : α) :
    contains (collect l) a = true ↔ ∃ p ∈ l, key p.1 = key a := by
  unfold collect; rw [contains_foldl_insert]; simp [contains]

end IMap

namespace ISet
variable {α κ : Type _} [HasKey α κ] [DecidableEq κ]

theorem contains_iff {m : ISet α} {a : α} : contains m a = true ↔ ∃ x ∈ m, key x = key a := by
  simp [contains]

theorem contains_congr (m : ISet α) {a a' : α} (h : key a = key a') :
    contains m a = contains m a' := by simp [contains, h]

theorem contains_insert (m : ISet α) (a b : α) :
    contains (insert m a) b = true ↔ contains m b = true ∨ key a = key b := by
  unfold insert
  split
  · rename_i h
    constructor
    · exact Or.inl
    · rintro (h' | h')
      · exact h'
      · rw [← contains_congr m h']; exact h
  · simp [contains, or_comm]

theorem nodup_insert {m : ISet α} (h : Nodup m) (a : α) : Nodup (insert m a) := by
  unfold insert
  split
  · exact h
  · rename_i hc
    unfold Nodup at *
    rw [List.map_append, List.nodup_append]
    refine ⟨h, by simp, ?_⟩
    intro k hk k' hk' e
    simp at hk'; subst hk' e
    obtain ⟨x, hx, e⟩ := List.mem_map.1 hk
    exact hc (contains_iff.2 ⟨x, hx, e⟩)

theorem contains_extend (m : ISet α) (l : List α) (b : α) :
    contains (extend m l) b = true ↔ contains m b = true ∨ ∃ x ∈ l, key x = key b := by
  unfold extend
  induction l generalizing m with
  | nil => simp
  | cons a l ih => simp only [List.foldl_cons, ih, contains_insert]; simp; tauto

theorem nodup_extend {m : ISet α} (h : Nodup m) (l : List α) : Nodup (extend m l) := by
  unfold extend
  induction l generalizing m with
  | nil => exact h
  | cons a l ih => exact ih (nodup_insert h a)

theorem nodup_collect (l : List α) : Nodup (collect l) := nodup_extend (by simp [Nodup]) l

theorem contains_collect (l : List α) (b : α) :
    contains (collect l) b = true ↔ ∃ x ∈ l, key x = key b := by
  unfold collect; rw [contains_extend]; simp [contains]

theorem mem_extend {m : ISet α} {l : List α} {x : α} (h : x ∈ extend m l) : x ∈ m ∨ x ∈ l := by
  unfold extend at h
  induction l generalizing m with
  | nil => exact Or.inl h
  | cons a l ih =>
    rcases ih h with h | h
    · unfold insert at h
      split at h
      · exact Or.inl h
      · rcases List.mem_append.1 h with h | h
        · exact Or.inl h
        · simp at h; subst h; simp
    · simp [h]

theorem subset_extend {m : ISet α} (l : List α) {x : α} (h : x ∈ m) : x ∈ extend m l := by
  unfold extend
  induction l generalizing m with
  | nil => exact h
  | cons a l ih => 
    apply ih
    unfold insert
    split
    · exact h
    · simp [h]

theorem extend_append (l : List α) (m : ISet α) (h : Nodup (m ++ l)) : extend m l = m ++ l := by
  unfold extend
  induction l generalizing m with
  | nil => simp
  | cons p l ih =>
    have hn : contains m p = false := by
      rw [Bool.eq_false_iff]
      intro hc
      obtain ⟨q, hq, hk⟩ := contains_iff.1 hc
      unfold Nodup at h
      rw [List.map_append, List.nodup_append] at h
      exact h.2.2 _ (List.mem_map_of_mem hq) (key p) (by simp) hk
    simp only [List.foldl_cons]
    rw [show insert m p = m ++ [p] by simp [insert, hn], ih]
    · simp
    · simpa using h

theorem collect_of_nodup {l : List α} (h : Nodup l) : collect l = l :=
  extend_append l [] (by simpa using h)

theorem remove_cases (m : ISet α) (a : α) :
    (contains m a = false ∧ remove m a = m) ∨
    (∃ p ∈ m, key p = key a ∧ m.Perm (p :: remove m a)) := by
  unfold remove
  cases h : m.findIdx? (fun p => key p = key a) with
  | none =>
    left
    rw [List.findIdx?_eq_none_iff] at h
    refine ⟨?_, rfl⟩
    rw [Bool.eq_false_iff]
    intro hc
    obtain ⟨x, hx, e⟩ := contains_iff.1 hc
    simpa [e] using h x hx
  | some i =>
    right
    rw [List.findIdx?_eq_some_iff_getElem] at h
    obtain ⟨hi, h1, h2⟩ := h
    exact ⟨m[i], List.getElem_mem hi, by simpa using h1, swapRemove_perm m i hi⟩

theorem nodup_perm {m m' : ISet α} (h : m.Perm m') : Nodup m ↔ Nodup m' := (h.map key).nodup_iff

theorem nodup_cons {m : ISet α} {p : α} :
    Nodup (p :: m) ↔ (∀ q ∈ m, key q ≠ key p) ∧ Nodup m := by
  simp [Nodup, List.nodup_cons, not_exists]

theorem nodup_remove {m : ISet α} (hm : Nodup m) (a : α) : Nodup (remove m a) := by
  rcases remove_cases m a with ⟨_, h2⟩ | ⟨p, _, _, hperm⟩
  · rw [h2]; exact hm
  · exact (nodup_cons.1 ((nodup_perm hperm).1 hm)).2

theorem mem_remove {m : ISet α} (hm : Nodup m) (a : α) (q : α) :
    q ∈ remove m a ↔ q ∈ m ∧ key q ≠ key a := by
  rcases remove_cases m a with ⟨h1, h2⟩ | ⟨p, hp, hk, hperm⟩
  · rw [h2]
    refine ⟨fun h => ⟨h, fun e => ?_⟩, fun h => h.1⟩
    rw [Bool.eq_false_iff] at h1
    exact h1 (contains_iff.2 ⟨q, h, e⟩)
  · have hm' := nodup_cons.1 ((nodup_perm hperm).1 hm)
    constructor
    · intro h
      exact ⟨hperm.mem_iff.2 (by simp [h]), by rw [← hk]; exact hm'.1 q h⟩
    · rintro ⟨h, hne⟩
      rcases List.mem_cons.1 (hperm.mem_iff.1 h) with rfl | h
      · exact absurd hk hne
      · exact h

end ISet

end Art
