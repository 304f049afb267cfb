import Verif.Model.Lint
import Verif.Lemmas.IMap

/-!
# Property C32: lints are neither lost nor invented, and the lists are canonical
-/

namespace Art

theorem Level.rank_inj {a b : Level} (h : a.rank = b.rank) : a = b := by
  cases a <;> cases b <;> simp [Level.rank] at h <;> rfl

theorem Category.rank_inj {a b : Category} (h : a.rank = b.rank) : a = b := by
  cases a <;> cases b <;> simp [Category.rank] at h <;> rfl

theorem Lint.ord_inj {a b : Lint} (h : a.ord = b.ord) : a = b := by
  have h1 : a.level.rank = b.level.rank := congrArg (fun x => (ofLex x).1) h
  have h2 : a.path = b.path := congrArg (fun x => (ofLex (ofLex x).2).1) h
  have h3 : a.line = b.line := congrArg (fun x => (ofLex (ofLex (ofLex x).2).2).1) h
  have h4 : a.category.rank = b.category.rank := congrArg (fun x => (ofLex (ofLex (ofLex (ofLex x).2).2).2).1) h
  have h5 : a.msg = b.msg := congrArg (fun x => (ofLex (ofLex (ofLex (ofLex x).2).2).2).2) h
  cases a; cases b
  simp only at *
  rw [Level.rank_inj h1, h2, h3, Category.rank_inj h4, h5]

section
variable {α : Type _} [DecidableEq α]

theorem mem_dedupAdj {l : List α} {a : α} : a ∈ dedupAdj l ↔ a ∈ l := by
  induction l using dedupAdj.induct with
  | case1 => simp [dedupAdj]
  | case2 => simp [dedupAdj]
  | case3 b l ih => simp [dedupAdj]; simpa using ih
  | case4 b c l hne ih =>
    rw [dedupAdj, if_neg hne, List.mem_cons, ih, List.mem_cons (a := a) (b := b)]

theorem dedupAdj_sublist (l : List α) : (dedupAdj l).Sublist l := by
  induction l using dedupAdj.induct with
  | case1 => simp [dedupAdj]
  | case2 => simp [dedupAdj]
  | case3 b l ih => rw [dedupAdj, if_pos rfl]; exact ih.cons _
  | case4 b c l hne ih => rw [dedupAdj, if_neg hne]; exact ih.cons_cons _

theorem dedupAdj_strict {κ : Type _} [LinearOrder κ] (f : α → κ) (hf : ∀ a b, f a = f b → a = b) (l : List α)
    (h : l.Pairwise (fun a b => f a ≤ f b)) : (dedupAdj l).Pairwise (fun a b => f a < f b) := by
  induction l using dedupAdj.induct with
  | case1 => simp [dedupAdj]
  | case2 => simp [dedupAdj]
  | case3 b l ih => rw [dedupAdj, if_pos rfl]; exact ih h.of_cons
  | case4 b c l hne ih =>
    rw [dedupAdj, if_neg hne, List.pairwise_cons]
    refine ⟨?_, ih h.of_cons⟩
    intro x hx
    rw [mem_dedupAdj] at hx
    have hbc : f b ≤ f c := (List.pairwise_cons.1 h).1 c (by simp)
    have hcx : f c ≤ f x := by
      rcases List.mem_cons.1 hx with rfl | hx
      · exact le_refl _
      · exact (List.pairwise_cons.1 h.of_cons).1 x hx
    exact lt_of_lt_of_le (lt_of_le_of_ne hbc (fun e => hne (hf _ _ e))) hcx

omit [DecidableEq α] in
theorem strict_unique {κ : Type _} [LinearOrder κ] (f : α → κ) {l l' : List α}
    (h : l.Pairwise (fun a b => f a < f b)) (h' : l'.Pairwise (fun a b => f a < f b))
    (hm : ∀ a, a ∈ l ↔ a ∈ l') : l = l' := by
  have n : l.Nodup := h.imp (fun hab e => by subst e; exact lt_irrefl _ hab)
  have n' : l'.Nodup := h'.imp (fun hab e => by subst e; exact lt_irrefl _ hab)
  have hp := (List.perm_ext_iff_of_nodup n n').2 hm
  exact hp.eq_of_pairwise (fun a b _ _ hab hba => absurd hab (lt_asymm hba)) h h'

end

theorem categorize_eq (c : Categorized) (lints : List Lint) :
    c.categorize lints = ⟨c.error ++ lints.filter (fun l => l.level = .error),
      c.other ++ lints.filter (fun l => l.level ≠ .error)⟩ := by
  unfold Categorized.categorize
  induction lints generalizing c with
  | nil => simp
  | cons l lints ih =>
    rw [List.foldl_cons, ih]
    cases h : l.level <;> simp [h]

/-- After categorising any sequence of lints and sorting, the error list contains exactly the error-level
lints and the other list exactly the others; both are strictly ascending (so each lint occurs once). -/
theorem C32_exact (lints : List Lint) :
    let c := (Categorized.categorize ⟨[], []⟩ lints).sort
    (∀ l, l ∈ c.error ↔ l ∈ lints ∧ l.level = .error) ∧
    (∀ l, l ∈ c.other ↔ l ∈ lints ∧ l.level ≠ .error) ∧
    c.error.Pairwise (fun a b => a.ord < b.ord) ∧ c.other.Pairwise (fun a b => a.ord < b.ord) := by
  intro c
  have hc : c = ⟨dedupAdj (sortOn Lint.ord (lints.filter (fun l => l.level = .error))),
      dedupAdj (sortOn Lint.ord (lints.filter (fun l => l.level ≠ .error)))⟩ := by
    show Categorized.sort _ = _
    rw [categorize_eq]; simp [Categorized.sort]
  rw [hc]
  refine ⟨?_, ?_, dedupAdj_strict _ (fun _ _ => Lint.ord_inj) _ (sortOn_sorted _ _),
    dedupAdj_strict _ (fun _ _ => Lint.ord_inj) _ (sortOn_sorted _ _)⟩
  · intro l; simp [mem_dedupAdj, mem_sortOn]
  · intro l; simp [mem_dedupAdj, mem_sortOn]

/-- The final lists depend only on the set of lints received, not on the order or repetition of arrival, nor on how
they are split over several `categorize` calls. -/
theorem C32_canonical (a b a' b' : List Lint) (h : ∀ l, l ∈ a ++ b ↔ l ∈ a' ++ b') :
    ((Categorized.categorize ⟨[], []⟩ a).categorize b).sort =
      ((Categorized.categorize ⟨[], []⟩ a').categorize b').sort := by
  have hcat : ∀ x y, (Categorized.categorize ⟨[], []⟩ x).categorize y = Categorized.categorize ⟨[], []⟩ (x ++ y) := by
    intro x y; unfold Categorized.categorize; rw [List.foldl_append]
  rw [hcat, hcat]
  obtain ⟨e1, o1, se1, so1⟩ := C32_exact (a ++ b)
  obtain ⟨e2, o2, se2, so2⟩ := C32_exact (a' ++ b')
  have h1 := strict_unique Lint.ord se1 se2 (fun l => by rw [e1, e2, h])
  have h2 := strict_unique Lint.ord so1 so2 (fun l => by rw [o1, o2, h])
  show Categorized.mk _ _ = Categorized.mk _ _
  exact congr (congrArg Categorized.mk h1) h2

/-- Sorting twice changes nothing. -/
theorem C32_sort_idem (lints : List Lint) :
    let c := (Categorized.categorize ⟨[], []⟩ lints).sort
    c.sort = c := by
  intro c
  obtain ⟨_, _, se, so⟩ := C32_exact lints
  have key : ∀ l : List Lint, l.Pairwise (fun a b => a.ord < b.ord) → dedupAdj (sortOn Lint.ord l) = l := by
    intro l hl
    rw [sortOn_eq_self _ (hl.imp le_of_lt)]
    refine strict_unique Lint.ord (dedupAdj_strict _ (fun _ _ => Lint.ord_inj) _ (hl.imp le_of_lt)) hl ?_
    intro x; rw [mem_dedupAdj]
  show Categorized.mk _ _ = c
  rw [key _ se, key _ so]

/-- `is_empty` holds exactly when no lint was received. -/
theorem C32_isEmpty (lints : List Lint) :
    ((Categorized.categorize ⟨[], []⟩ lints).sort).isEmpty = true ↔ lints = [] := by
  obtain ⟨e, o, _, _⟩ := C32_exact lints
  unfold Categorized.isEmpty
  rw [Bool.and_eq_true, List.isEmpty_iff, List.isEmpty_iff]
  constructor
  · rintro ⟨h1, h2⟩
    by_contra hne
    obtain ⟨l, hl⟩ := List.exists_mem_of_ne_nil _ hne
    by_cases hlv : l.level = .error
    · have := (e l).2 ⟨hl, hlv⟩; rw [h1] at this; simp at this
    · have := (o l).2 ⟨hl, hlv⟩; rw [h2] at this; simp at this
  · rintro rfl; exact ⟨rfl, rfl⟩

def exL1 : Lint := ⟨.warn, none, none, .artifact, c!"b"⟩
def exL2 : Lint := ⟨.error, some c!"/x", some 3, .artifact, c!"a"⟩
def exL3 : Lint := ⟨.error, none, some 3, .settings, c!"a"⟩

example : (Categorized.categorize ⟨[], []⟩ [exL1, exL2, exL3, exL2]).sort = ⟨[exL3, exL2], [exL1]⟩ := by decide
example : ∀ l, l ∈ [exL1, exL2] ++ [exL2] ↔ l ∈ [exL2] ++ [exL1] := by intro l; simp; tauto

end Art
