import Verif.Lemmas.Read

/-! # The lints of a project do not depend on the order of its entries -/

namespace Art
open Spec

theorem mapM'_of_map {ε α β γ : Type} (f : β → Res ε γ) (g : α → β) (l : List α) :
    Res.mapM' f (l.map g) = Res.mapM' (fun a => f (g a)) l := by
  induction l with
  | nil => rfl
  | cons a l ih => simp only [List.map_cons, Res.mapM', ih]

theorem mapM'_congr {ε α β : Type} {f g : α → Res ε β} {l : List α} (h : ∀ a ∈ l, f a = g a) : Res.mapM' f l = Res.mapM' g l := by
  induction l with
  | nil => rfl
  | cons a l ih => simp only [Res.mapM', h a (by simp), ih (fun x hx => h x (by simp [hx]))]

theorem mapM'_perm {ε α β : Type} {f : α → Res ε β} {l l' : List α} (hp : l.Perm l') :
    ∀ r, Res.mapM' f l = .ok r → ∃ r', Res.mapM' f l' = .ok r' ∧ r.Perm r' := by
  simp only [Res.mapM'_eq_ok]
  induction hp with
  | nil => intro r h; cases h; exact ⟨[], .nil, .refl _⟩
  | cons a _ ih =>
    intro r h
    cases h with
    | cons h1 h2 =>
      obtain ⟨r', h3, h4⟩ := ih _ h2
      exact ⟨_, .cons h1 h3, h4.cons _⟩
  | swap a b l =>
    intro r h
    cases h with
    | cons h1 h2 =>
      cases h2 with
      | cons h3 h4 => exact ⟨_, .cons h3 (.cons h1 h4), .swap _ _ _⟩
  | trans _ _ ih1 ih2 =>
    intro r h
    obtain ⟨r', h1, h2⟩ := ih1 r h
    obtain ⟨r'', h3, h4⟩ := ih2 r' h1
    exact ⟨r'', h3, h2.trans h4⟩

/-- A project reduced to what matters for lints. -/
def Project.bare (p : Project) : Project :=
  { p with codeImpls := p.codeImpls.map (fun x => (x.1, x.2.sort)), artifacts := p.artifacts.map (fun x => (x.1, x.2.bare)) }

theorem get?_bare (p : Project) (n : Name) : IMap.get? p.bare.artifacts n = (IMap.get? p.artifacts n).map Artifact.bare :=
  IMap.get?_map_val p.artifacts (fun x => x.2.bare) (fun _ _ _ _ => rfl) n

theorem contains_bare (p : Project) (n : Name) : IMap.contains p.bare.artifacts n = IMap.contains p.artifacts n := by
  unfold IMap.contains; rw [get?_bare]; simp

theorem isDone_sort (i : Impl) : i.sort.isDone = i.isDone := by cases i <;> rfl

theorem lintErrors_bare (L : Libs) (p : Project) : p.bare.lintErrors L = p.lintErrors L := by
  unfold Project.lintErrors lintPartofDne lintPartofTypes lintText lintDoneSubnames
  simp only [contains_bare]
  simp only [Project.bare, List.flatMap_map, List.filterMap_map, Artifact.bare, isDone_sort, Function.comp_def]

theorem refLintOf_bare (p : Project) (n : Name) (f : FilePath) (m : Match) : refLintOf p.bare n f m = refLintOf p n f m := by
  unfold refLintOf
  cases Caps.get m.2.2 1 with
  | none => rfl
  | some s =>
    simp only
    cases Name.fromStr s with
    | ok r =>
      simp only [get?_bare]
      cases IMap.get? p.artifacts r <;> cases Caps.get m.2.2 2 <;> rfl
    | err e => rfl
    | panic => rfl

theorem lintTextRefs_bare (p : Project) : lintTextRefs p.bare = lintTextRefs p := by
  unfold lintTextRefs
  have : Res.mapM' (refLintsOf p.bare) p.bare.artifacts = Res.mapM' (refLintsOf p) p.artifacts := by
    show Res.mapM' _ (p.artifacts.map _) = _
    rw [mapM'_of_map]
    refine mapM'_congr fun x _ => ?_
    unfold refLintsOf
    have : Res.mapM' (refLintOf p.bare x.1 x.2.bare.file) (Re.findIter textRefRe x.2.bare.text) =
        Res.mapM' (refLintOf p x.1 x.2.file) (Re.findIter textRefRe x.2.text) :=
      mapM'_congr fun m _ => refLintOf_bare p _ _ m
    simp only [this]
  rw [this]

theorem codeLintAll_sort (n : Name) (c : ImplCode) (msg : Str) : (codeLintAll n c.sort msg).Perm (codeLintAll n c msg) := by
  unfold codeLintAll
  exact (List.Perm.refl _).append ((sortOn_perm _ _).map _)

theorem codeLintStep_bare (p : Project) (x : Name × ImplCode) : (codeLintStep p.bare (x.1, x.2.sort)).Perm (codeLintStep p x) := by
  unfold codeLintStep
  simp only [get?_bare]
  cases IMap.get? p.artifacts x.1 with
  | none => exact codeLintAll_sort _ _ _
  | some a =>
    simp only [Option.map_some]
    have : a.bare.impl = a.impl.sort := rfl
    rw [this]
    cases hi : a.impl with
    | done d => exact codeLintAll_sort _ _ _
    | code c =>
      simp only [Impl.sort]
      have : a.bare.subnames = a.subnames := rfl
      rw [this]
      exact (sortOn_perm _ _).filterMap _
    | notImpl => exact List.Perm.refl _

theorem lintCodeImpls_bare (p : Project) : (lintCodeImpls p.bare).Perm (lintCodeImpls p) := by
  unfold lintCodeImpls
  show (List.flatMap _ (p.codeImpls.map _)).Perm _
  rw [List.flatMap_map]
  generalize p.codeImpls = l
  induction l with
  | nil => exact List.Perm.refl _
  | cons x l ih =>
    rw [List.flatMap_cons, List.flatMap_cons]
    exact (codeLintStep_bare p x).append ih

/-- The same lints for a project and its reduced form. -/
theorem lint_bare (L : Libs) (p : Project) : (∀ ls, p.lint L = .ok ls → ∃ ls', p.bare.lint L = .ok ls' ∧ ls'.Perm ls) ∧
    (∀ ls', p.bare.lint L = .ok ls' → ∃ ls, p.lint L = .ok ls ∧ ls'.Perm ls) := by
  have hs : lintSettings L p.bare = lintSettings L p := rfl
  constructor
  · intro ls h
    obtain ⟨refs, h1, rfl⟩ := lint_ok.1 h
    refine ⟨_, lint_ok.2 ⟨refs, (lintTextRefs_bare p).trans h1, rfl⟩, ?_⟩
    rw [lintErrors_bare, hs]
    exact (List.Perm.refl _).append (((List.Perm.refl _).append (lintCodeImpls_bare p)).append (List.Perm.refl _))
  · intro ls h
    obtain ⟨refs, h1, rfl⟩ := lint_ok.1 h
    refine ⟨_, lint_ok.2 ⟨refs, (lintTextRefs_bare p).symm.trans h1, rfl⟩, ?_⟩
    rw [lintErrors_bare, hs]
    exact (List.Perm.refl _).append (((List.Perm.refl _).append (lintCodeImpls_bare p)).append (List.Perm.refl _))

/-- The order of the entries of a project does not matter for its lints. -/
theorem lint_perm (L : Libs) {p p' : Project} (hs : p.settings = p'.settings) (ha : p.artifacts.Perm p'.artifacts)
    (hc : p.codeImpls.Perm p'.codeImpls) (hn : IMap.Nodup p.artifacts) :
    ∀ ls, p.lint L = .ok ls → ∃ ls', p'.lint L = .ok ls' ∧ ls.Perm ls' := by
  have hget : ∀ n, IMap.get? p.artifacts n = IMap.get? p'.artifacts n := fun n => IMap.get?_perm ha hn n
  have hcon : ∀ n, IMap.contains p.artifacts n = IMap.contains p'.artifacts n := by intro n; unfold IMap.contains; rw [hget]
  intro ls h
  obtain ⟨refs, h1, rfl⟩ := lint_ok.1 h
  have hrefs : ∃ refs', lintTextRefs p' = .ok refs' ∧ refs.Perm refs' := by
    unfold lintTextRefs at h1 ⊢
    obtain ⟨ks, hk, h1⟩ := Res.bind_eq_ok.1 h1
    cases h1
    obtain ⟨ks', hk', hp⟩ := mapM'_perm ha _ hk
    have : Res.mapM' (refLintsOf p') p'.artifacts = .ok ks' := by
      rw [← hk']
      refine mapM'_congr fun x _ => ?_
      unfold refLintsOf
      have : refLintOf p' x.1 x.2.file = refLintOf p x.1 x.2.file := by
        funext m; unfold refLintOf; simp only [hget]
      rw [this]
    rw [this]
    exact ⟨ks'.flatten, rfl, hp.flatten⟩
  obtain ⟨refs', h2, hp⟩ := hrefs
  refine ⟨_, lint_ok.2 ⟨refs', h2, rfl⟩, ?_⟩
  have e1 : (p.lintErrors L).Perm (p'.lintErrors L) := by
    unfold Project.lintErrors lintPartofDne lintPartofTypes lintText lintDoneSubnames
    simp only [hcon, hs]
    exact (((ha.flatMap_right _).append (ha.flatMap_right _)).append (ha.flatMap_right _)).append (ha.filterMap _)
  have e2 : (lintCodeImpls p).Perm (lintCodeImpls p') := by
    unfold lintCodeImpls
    have : codeLintStep p = codeLintStep p' := by
      funext x; unfold codeLintStep; simp only [hget]
    rw [this]
    exact hc.flatMap_right _
  have e3 : lintSettings L p = lintSettings L p' := by unfold lintSettings; rw [hs]
  rw [e3]
  exact e1.append ((hp.append e2).append (List.Perm.refl _))

theorem lint_ne_err (L : Libs) (p : Project) : (∃ ls, p.lint L = .ok ls) ∨ p.lint L = .panic := by
  rcases C40_crash (L := L) p with h | ⟨h, _⟩
  · exact Or.inl h
  · exact Or.inr h

/-- Two projects that are the same up to order (and the list of parts) have the same lints. -/
theorem lint_same (L : Libs) {p p' : Project} (hs : p.settings = p'.settings) (ha : p.bare.artifacts.Perm p'.bare.artifacts)
    (hc : p.bare.codeImpls.Perm p'.bare.codeImpls) (hn : IMap.Nodup p.artifacts) :
    (∃ ls ls', p.lint L = .ok ls ∧ p'.lint L = .ok ls' ∧ ls.Perm ls') ∨ (p.lint L = .panic ∧ p'.lint L = .panic) := by
  have hn1 : IMap.Nodup p.bare.artifacts := IMap.nodup_of_fst hn (by show List.map _ (List.map _ _) = _; rw [List.map_map]; rfl)
  have hn2 : IMap.Nodup p'.bare.artifacts := (IMap.nodup_perm ha).1 hn1
  rcases lint_ne_err L p with ⟨ls, h⟩ | h
  · left
    obtain ⟨l1, h1, e1⟩ := (lint_bare L p).1 ls h
    obtain ⟨l2, h2, e2⟩ := lint_perm L (p := p.bare) (p' := p'.bare) hs ha hc hn1 l1 h1
    obtain ⟨l3, h3, e3⟩ := (lint_bare L p').2 l2 h2
    exact ⟨ls, l3, h, h3, e1.symm.trans (e2.trans e3)⟩
  · rcases lint_ne_err L p' with ⟨ls, h'⟩ | h'
    · obtain ⟨l1, h1, e1⟩ := (lint_bare L p').1 ls h'
      obtain ⟨l2, h2, e2⟩ := lint_perm L (p := p'.bare) (p' := p.bare) hs.symm ha.symm hc.symm hn2 l1 h1
      obtain ⟨l3, h3, e3⟩ := (lint_bare L p).2 l2 h2
      rw [h] at h3; cases h3
    · exact Or.inr ⟨h, h'⟩

end Art
