import Verif.Lemmas.ReadJoin

/-! # Errors about duplicates, for any order of arrival -/

namespace Art
open Spec

theorem first_of {α : Type _} (P : α → Prop) [DecidablePred P] {l : List α} (h : ∃ y ∈ l, P y) :
    ∃ b y c, l = b ++ y :: c ∧ P y ∧ ∀ z ∈ b, ¬ P z := by
  have : (l.find? (fun y => P y)).isSome = true := by
    obtain ⟨y, hy, hp⟩ := h
    rw [List.find?_isSome]; exact ⟨y, hy, by simpa using hp⟩
  obtain ⟨y, hy⟩ := Option.isSome_iff_exists.1 this
  rw [List.find?_eq_some_iff_append] at hy
  obtain ⟨h1, as, bs, e, h2⟩ := hy
  exact ⟨as, y, bs, e, by simpa using h1, fun z hz => by simpa using h2 z hz⟩

theorem last_of {α : Type _} (P : α → Prop) [DecidablePred P] {l : List α} (h : ∃ y ∈ l, P y) :
    ∃ a y b, l = a ++ y :: b ∧ P y ∧ ∀ z ∈ b, ¬ P z := by
  obtain ⟨b, y, c, e, h1, h2⟩ := first_of P (l := l.reverse) (by obtain ⟨y, hy, hp⟩ := h; exact ⟨y, by simpa using hy, hp⟩)
  refine ⟨c.reverse, y, b.reverse, ?_, h1, fun z hz => h2 z (by simpa using hz)⟩
  have := congrArg List.reverse e
  simpa using this

/-- `x` has a neighbour among the elements related to it exactly when it is not alone. -/
theorem consec_iff {α : Type _} (R : α → α → Prop) [DecidableRel R] (hr : ∀ x, R x x) (_hs : ∀ {x y}, R x y → R y x)
    (_ht : ∀ {x y z}, R x y → R y z → R x z) (l : List α) (x : α) :
    (∃ a b y c, (l = a ++ x :: (b ++ y :: c) ∨ l = a ++ y :: (b ++ x :: c)) ∧ R x y ∧ ∀ z ∈ b, ¬ R x z) ↔
      x ∈ l ∧ 2 ≤ l.countP (fun y => R x y) := by
  constructor
  · rintro ⟨a, b, y, c, h | h, h1, _⟩ <;> subst h <;> refine ⟨by simp, ?_⟩ <;>
      simp only [List.countP_append, List.countP_cons, hr x, h1, decide_true, if_true] <;> omega
  · rintro ⟨hx, hc⟩
    obtain ⟨a, b, rfl⟩ := List.append_of_mem hx
    by_cases hb : ∃ y ∈ b, R x y
    · obtain ⟨b1, y, c, rfl, h1, h2⟩ := first_of (fun y => R x y) hb
      exact ⟨a, b1, y, c, Or.inl rfl, h1, h2⟩
    · by_cases ha : ∃ y ∈ a, R x y
      · obtain ⟨a1, y, b1, rfl, h1, h2⟩ := last_of (fun y => R x y) ha
        exact ⟨a1, b1, y, b, Or.inr (by simp), h1, h2⟩
      · exfalso
        have e1 : a.countP (fun y => R x y) = 0 := by
          rw [List.countP_eq_zero]; intro y hy; simpa using fun h => ha ⟨y, hy, h⟩
        have e2 : b.countP (fun y => R x y) = 0 := by
          rw [List.countP_eq_zero]; intro y hy; simpa using fun h => hb ⟨y, hy, h⟩
        rw [List.countP_append, List.countP_cons, e1, e2] at hc
        simp [hr x] at hc

/-- Lints sent for neighbours are the lints for everything that is not alone, if they are the same for related elements. -/
theorem neighbour_lints {α : Type _} (R : α → α → Prop) [DecidableRel R] (hr : ∀ x, R x x) (hs : ∀ {x y}, R x y → R y x)
    (ht : ∀ {x y z}, R x y → R y z → R x z) (f : α → α → Lint) (l : List α)
    (hf : ∀ x ∈ l, ∀ y ∈ l, R x y → f x y = f x x) (d : Lint) :
    (∃ a x b y c, l = a ++ x :: (b ++ y :: c) ∧ R x y ∧ (∀ z ∈ b, ¬ R z y) ∧ (d = f x y ∨ d = f y y)) ↔
      ∃ x ∈ l, 2 ≤ l.countP (fun y => R x y) ∧ d = f x x := by
  constructor
  · rintro ⟨a, x, b, y, c, e, h1, h2, h3⟩
    have hxl : x ∈ l := by rw [e]; simp
    have hyl : y ∈ l := by rw [e]; simp
    rcases h3 with h3 | h3
    · obtain ⟨i1, i2⟩ := (consec_iff R hr hs ht l x).1 ⟨a, b, y, c, Or.inl e, h1, fun z hz h => h2 z hz (ht (hs h) h1)⟩
      exact ⟨x, i1, i2, by rw [h3, hf x hxl y hyl h1]⟩
    · obtain ⟨i1, i2⟩ := (consec_iff R hr hs ht l y).1 ⟨a, b, x, c, Or.inr e, hs h1, fun z hz h => h2 z hz (hs h)⟩
      exact ⟨y, i1, i2, h3⟩
  · rintro ⟨x, hx, hc, rfl⟩
    obtain ⟨a, b, y, c, e, h1, h2⟩ := (consec_iff R hr hs ht l x).2 ⟨hx, hc⟩
    rcases e with e | e
    · have hyl : y ∈ l := by rw [e]; simp
      exact ⟨a, x, b, y, c, e, h1, fun z hz h => h2 z hz (ht h1 (hs h)), Or.inl (hf x hx y hyl h1).symm⟩
    · exact ⟨a, y, b, x, c, e, hs h1, fun z hz h => h2 z hz (hs h), Or.inr rfl⟩

/-- Code references are spelled consistently: the same artifact or the same subname is always written the same way. -/
def Spec.OneCodeSpelling (l : List Loc) : Prop :=
  (∀ x ∈ l, ∀ y ∈ l, key x.2.1 = key y.2.1 → x.2.1 = y.2.1) ∧ ∀ x ∈ l, ∀ y ∈ l, SameSlot x y → x.2 = y.2

/-- A name is written in (or derived from) one of the artifacts: as its name, one of its links, its parent, or the name it is
automatically linked to. -/
def Spec.SpelledIn (l : List ArtifactIm) (n : Name) : Prop :=
  ∃ a ∈ l, n = a.name ∨ n ∈ a.partof ∨ a.name.parent = .ok (some n) ∨ a.name.autoPartof = .ok (some n)

/-- The artifacts spell every name in one way. -/
def Spec.OneSpelling (l : List ArtifactIm) : Prop := ∀ n m, SpelledIn l n → SpelledIn l m → key n = key m → n = m

theorem join_lints_perm {l l' : List Loc} (hp : l.Perm l') (h : OneCodeSpelling l) (d : Lint) :
    d ∈ (joinLocations l).2 ↔ d ∈ (joinLocations l').2 := by
  have h' : OneCodeSpelling l' :=
    ⟨fun x hx y hy => h.1 x (hp.mem_iff.2 hx) y (hp.mem_iff.2 hy), fun x hx y hy => h.2 x (hp.mem_iff.2 hx) y (hp.mem_iff.2 hy)⟩
  have key1 : ∀ {l : List Loc}, OneCodeSpelling l → (d ∈ (joinLocations l).2 ↔ ∃ x ∈ l, 2 ≤ l.countP (fun y => SameSlot x y) ∧ d = dupLint x.1 x) := by
    intro l h
    rw [C10_lints]
    exact neighbour_lints SameSlot (fun x => ⟨rfl, rfl⟩) sameSlot_symm sameSlot_trans (fun x y => dupLint x.1 y) l
      (fun x hx y hy hxy => by unfold dupLint; rw [h.2 x hx y hy hxy]) d
  rw [key1 h, key1 h']
  constructor
  · rintro ⟨x, hx, hc, e⟩; exact ⟨x, hp.mem_iff.1 hx, by rw [← hp.countP_eq]; exact hc, e⟩
  · rintro ⟨x, hx, hc, e⟩; exact ⟨x, hp.mem_iff.2 hx, by rw [hp.countP_eq]; exact hc, e⟩

theorem art_lints_perm {l l' : List ArtifactIm} (hp : l.Perm l') (h : OneSpelling l) (d : Lint) :
    d ∈ (joinArtifacts l).lints ↔ d ∈ (joinArtifacts l').lints := by
  have hn : ∀ x ∈ l, ∀ y ∈ l, key x.name = key y.name → x.name = y.name :=
    fun x hx y hy e => h _ _ ⟨x, hx, Or.inl rfl⟩ ⟨y, hy, Or.inl rfl⟩ e
  have hn' : ∀ x ∈ l', ∀ y ∈ l', key x.name = key y.name → x.name = y.name :=
    fun x hx y hy e => hn x (hp.mem_iff.2 hx) y (hp.mem_iff.2 hy) e
  have key1 : ∀ {l : List ArtifactIm}, (∀ x ∈ l, ∀ y ∈ l, key x.name = key y.name → x.name = y.name) →
      (d ∈ (joinArtifacts l).lints ↔ ∃ x ∈ l, 2 ≤ l.countP (fun y => key x.name = key y.name) ∧ d = dupArtLint x.name x.file) := by
    intro l h
    rw [C11_lints]
    exact neighbour_lints (fun x y => key x.name = key y.name) (fun x => rfl) (fun h => Eq.symm h) (fun h h' => Eq.trans h h')
      (fun x y => dupArtLint y.name x.file) l (fun x hx y hy hxy => by rw [h x hx y hy hxy]) d
  rw [key1 hn, key1 hn']
  constructor
  · rintro ⟨x, hx, hc, e⟩; exact ⟨x, hp.mem_iff.1 hx, by rw [← hp.countP_eq]; exact hc, e⟩
  · rintro ⟨x, hx, hc, e⟩; exact ⟨x, hp.mem_iff.2 hx, by rw [hp.countP_eq]; exact hc, e⟩

theorem art_err_perm {l l' : List ArtifactIm} (hp : l.Perm l') : (joinArtifacts l).lints = [] ↔ (joinArtifacts l').lints = [] := by
  rw [C11_reported, C11_reported]
  exact hp.pairwise_iff (fun h h' => h h'.symm)

end Art
