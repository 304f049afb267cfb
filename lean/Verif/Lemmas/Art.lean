import Verif.Spec.Art
import Verif.Lemmas.Save

/-!
# Lemmas about unpacking the web page
-/

namespace Art
namespace Cli
open Spec

theorem disk_insert (fs : FS) (p q : FilePath) (n : Node) : IMap.get? (IMap.insert fs p n) q = if p = q then some n else IMap.get? fs q :=
  IMap.get?_insert fs p n q

theorem below_eq (dir : FilePath) (l : List Str) : below dir l = dir ++ Path l := by rw [below, pathOf_eq]

theorem path_cons (d : FilePath) (n : Str) (l : List Str) : d ++ Path (n :: l) = d ++ Path [n] ++ Path l := by
  rw [List.append_assoc, ← Path_append]
  rfl

theorem path_one (d : FilePath) (n : Str) : d ++ Path [n] = d ++ '/' :: n := by
  simp [Path]

theorem path_ne {d : FilePath} {l : List Str} (h : l ≠ []) : d ++ Path l ≠ d := by
  intro e
  have : Path l = [] := List.append_right_eq_self.1 e
  cases l with
  | nil => exact h rfl
  | cons c l => simp [Path] at this

theorem path_inj {d : FilePath} {l l' : List Str} (h : ∀ c ∈ l, c ≠ [] ∧ '/' ∉ c) (h' : ∀ c ∈ l', c ≠ [] ∧ '/' ∉ c) (e : d ++ Path l = d ++ Path l') : l = l' := by
  have := List.append_cancel_left e
  rw [← pathComps_Path h, ← pathComps_Path h', this]

/-- The effect of making one file with its directories. -/
structure PutDone (g : FS) (dir : FilePath) (l : List Str) (c : Content) (g' : FS) : Prop where
  file : IMap.get? g' (dir ++ Path l) = some (.file c)
  dirs : ∀ a b, l = a ++ b → a ≠ [] → b ≠ [] → IMap.get? g' (dir ++ Path a) = some .dir
  rest : ∀ q, (∀ a b, l = a ++ b → a ≠ [] → q ≠ dir ++ Path a) → IMap.get? g' q = IMap.get? g q

/-- One file can be made. -/
def CanPut (g : FS) (dir : FilePath) (l : List Str) : Prop :=
  IMap.get? g (dir ++ Path l) ≠ some .dir ∧ ∀ a b, l = a ++ b → a ≠ [] → b ≠ [] → ∀ x, IMap.get? g (dir ++ Path a) ≠ some (.file x)

theorem put_ends (c : Content) : ∀ (l : List Str) (g : FS) (dir : FilePath), l ≠ [] → (∀ n ∈ l, n ≠ [] ∧ '/' ∉ n) → IMap.get? g dir = some .dir →
    (CanPut g dir l → ∃ g', runSite g (putSteps dir c l) = (true, g') ∧ PutDone g dir l c g') ∧
    (¬ CanPut g dir l → ∃ g', runSite g (putSteps dir c l) = (false, g'))
  | [], _, _, h, _, _ => absurd rfl h
  | [n], g, dir, _, hn, hd => by
    have hpar : parentDir (dir ++ Path [n]) = dir := by rw [path_one]; exact parentDir_ok (hn n (by simp)).2
    have hsplit : ∀ a b : List Str, [n] = a ++ b → a ≠ [] → a = [n] ∧ b = [] := by
      intro a b e ha
      cases a with
      | nil => exact absurd rfl ha
      | cons x a =>
        simp only [List.cons_append, List.cons.injEq, List.nil_eq, List.append_eq_nil_iff] at e
        obtain ⟨rfl, rfl, rfl⟩ := e
        exact ⟨rfl, rfl⟩
    have hcan : CanPut g dir [n] ↔ IMap.get? g (dir ++ Path [n]) ≠ some .dir := by
      refine ⟨fun h => h.1, fun h => ⟨h, fun a b e ha hb => absurd (hsplit a b e ha).2 hb⟩⟩
    have hdone : PutDone g dir [n] c (IMap.insert g (dir ++ Path [n]) (.file c)) := by
      refine ⟨by rw [disk_insert, if_pos rfl], fun a b e ha hb => absurd (hsplit a b e ha).2 hb, fun q hq => ?_⟩
      rw [disk_insert, if_neg]
      exact fun e => hq [n] [] (by simp) (by simp) e.symm
    rw [hcan]
    simp only [putSteps, runSite, below_eq, SiteStep.apply]
    cases hg : IMap.get? g (dir ++ Path [n]) with
    | none =>
      rw [hpar, if_pos hd]
      exact ⟨fun _ => ⟨_, rfl, hdone⟩, fun h => absurd (by simp) h⟩
    | some x =>
      cases x with
      | dir => exact ⟨fun h => absurd rfl h, fun _ => ⟨_, rfl⟩⟩
      | file y => exact ⟨fun _ => ⟨_, rfl, hdone⟩, fun h => absurd (by simp) h⟩
  | n :: m :: l, g, dir, _, hn, hd => by
    have hpar : parentDir (dir ++ Path [n]) = dir := by rw [path_one]; exact parentDir_ok (hn n (by simp)).2
    -- once the directory is there
    have key : ∀ g1 : FS, IMap.get? g1 (dir ++ Path [n]) = some .dir → (∀ q, q ≠ dir ++ Path [n] → IMap.get? g1 q = IMap.get? g q) →
        (∀ x, IMap.get? g (dir ++ Path [n]) ≠ some (.file x)) →
        (CanPut g dir (n :: m :: l) → ∃ g', runSite g1 (putSteps (dir ++ Path [n]) c (m :: l)) = (true, g') ∧ PutDone g dir (n :: m :: l) c g') ∧
        (¬ CanPut g dir (n :: m :: l) → ∃ g', runSite g1 (putSteps (dir ++ Path [n]) c (m :: l)) = (false, g')) := by
      intro g1 h1 h2 h3
      obtain ⟨i1, i2⟩ := put_ends c (m :: l) g1 (dir ++ Path [n]) (by simp) (fun x hx => hn x (List.mem_cons_of_mem _ hx)) h1
      have hcan : CanPut g dir (n :: m :: l) ↔ CanPut g1 (dir ++ Path [n]) (m :: l) := by
        unfold CanPut
        rw [path_cons dir n (m :: l), h2 _ (path_ne (by simp))]
        refine and_congr_right fun _ => ⟨fun h a b e ha hb x => ?_, fun h a b e ha hb x => ?_⟩
        · rw [h2 _ (path_ne ha), ← path_cons]
          exact h (n :: a) b (by rw [e]; rfl) (by simp) hb x
        · cases a with
          | nil => exact absurd rfl ha
          | cons y a =>
            simp only [List.cons_append, List.cons.injEq] at e
            obtain ⟨rfl, e⟩ := e
            by_cases ha' : a = []
            · subst ha'
              exact h3 x
            · rw [path_cons, ← h2 _ (path_ne ha')]
              exact h a b e ha' hb x
      rw [hcan]
      refine ⟨fun h => ?_, i2⟩
      obtain ⟨g', r, hd'⟩ := i1 h
      refine ⟨g', r, ⟨by rw [path_cons]; exact hd'.file, fun a b e ha hb => ?_, fun q hq => ?_⟩⟩
      · cases a with
        | nil => exact absurd rfl ha
        | cons y a =>
          simp only [List.cons_append, List.cons.injEq] at e
          obtain ⟨rfl, e⟩ := e
          by_cases ha' : a = []
          · subst ha'
            rw [hd'.rest _ fun a' b' _ ha' => (path_ne ha').symm]
            exact h1
          · rw [path_cons]
            exact hd'.dirs a b e ha' hb
      · rw [hd'.rest q, h2 q]
        · exact hq [n] (m :: l) rfl (by simp)
        · intro a b e ha
          rw [← path_cons]
          exact hq (n :: a) b (by rw [e]; rfl) (by simp)
    simp only [putSteps, runSite, below_eq, SiteStep.apply, makeDir]
    cases hg : IMap.get? g (dir ++ Path [n]) with
    | none =>
      simp only [hpar, if_pos hd]
      refine key _ (by rw [disk_insert, if_pos rfl]) (fun q hq => by rw [disk_insert, if_neg (fun e => hq e.symm)]) (by simp [hg])
    | some x =>
      cases x with
      | dir => exact key g hg (fun _ _ => rfl) (by simp [hg])
      | file y => exact ⟨fun h => absurd hg (h.2 [n] (m :: l) rfl (by simp) (by simp) y), fun _ => ⟨_, rfl⟩⟩

theorem runSite_append (a b : List SiteStep) (fs : FS) : runSite fs (a ++ b) = match runSite fs a with
    | (true, fs') => runSite fs' b
    | (false, fs') => (false, fs') := by
  induction a generalizing fs with
  | nil => rfl
  | cons x a ih =>
    simp only [List.cons_append, runSite]
    cases x.apply fs with
    | none => rfl
    | some g => exact ih g

/-- The effect of making all files. -/
structure AllDone (g : FS) (dest : FilePath) (site : List (List Str × Content)) (g' : FS) : Prop where
  files : ∀ e ∈ site, IMap.get? g' (dest ++ Path e.1) = some (.file e.2)
  dirs : ∀ e ∈ site, ∀ l r, e.1 = l ++ r → l ≠ [] → r ≠ [] → IMap.get? g' (dest ++ Path l) = some .dir
  rest : ∀ q, (∀ e ∈ site, ∀ l r, e.1 = l ++ r → l ≠ [] → q ≠ dest ++ Path l) → IMap.get? g' q = IMap.get? g q

theorem all_ends (dest : FilePath) : ∀ (site : List (List Str × Content)) (g : FS), (∀ e ∈ site, e.1 ≠ [] ∧ ∀ n ∈ e.1, n ≠ [] ∧ '/' ∉ n) →
    site.Pairwise (fun e e' => ¬ e.1 <+: e'.1 ∧ ¬ e'.1 <+: e.1) → IMap.get? g dest = some .dir →
    ((∀ e ∈ site, CanPut g dest e.1) → ∃ g', runSite g (site.flatMap fun e => putSteps dest e.2 e.1) = (true, g') ∧ AllDone g dest site g') ∧
    ((¬ ∀ e ∈ site, CanPut g dest e.1) → ∃ g', runSite g (site.flatMap fun e => putSteps dest e.2 e.1) = (false, g'))
  | [], g, _, _, _ => ⟨fun _ => ⟨g, rfl, ⟨by simp, by simp, fun _ _ => rfl⟩⟩, fun h => absurd (by simp) h⟩
  | e :: site, g, hn, hp, hd => by
    obtain ⟨p1, p2⟩ := put_ends e.2 e.1 g dest (hn e (by simp)).1 (hn e (by simp)).2 hd
    rw [List.flatMap_cons, runSite_append]
    by_cases hc : CanPut g dest e.1
    · obtain ⟨g1, r1, d1⟩ := p1 hc
      rw [r1]
      simp only
      obtain ⟨hp1, hp2⟩ := List.pairwise_cons.1 hp
      have names : ∀ e' ∈ e :: site, ∀ a b, e'.1 = a ++ b → ∀ n ∈ a, n ≠ [] ∧ '/' ∉ n := fun e' he' a b h n hna => (hn e' he').2 n (by rw [h]; simp [hna])
      have hd1 : IMap.get? g1 dest = some .dir := by
        rw [d1.rest dest fun a b _ ha => (path_ne ha).symm]
        exact hd
      -- what was there before for the other files
      have other : ∀ e' ∈ site, ∀ a b, e'.1 = a ++ b → a ≠ [] → (IMap.get? g1 (dest ++ Path a) = IMap.get? g (dest ++ Path a) ∨
          (IMap.get? g1 (dest ++ Path a) = some .dir ∧ b ≠ [] ∧ ∀ x, IMap.get? g (dest ++ Path a) ≠ some (.file x))) := by
        intro e' he' a b hab ha
        by_cases hq : ∃ a' b', e.1 = a' ++ b' ∧ a' ≠ [] ∧ dest ++ Path a = dest ++ Path a'
        · obtain ⟨a', b', h1, h2, h3⟩ := hq
          have : a = a' := path_inj (names e' (List.mem_cons_of_mem _ he') a b hab) (names e (by simp) a' b' h1) h3
          subst this
          have hb' : b' ≠ [] := by
            rintro rfl
            exact (hp1 e' he').1 ⟨b, by rw [h1, hab, List.append_nil]⟩
          have hb : b ≠ [] := by
            rintro rfl
            exact (hp1 e' he').2 ⟨b', by rw [h1, hab, List.append_nil]⟩
          exact .inr ⟨d1.dirs a b' h1 ha hb', hb, hc.2 a b' h1 ha hb'⟩
        · exact .inl (d1.rest _ fun a' b' h1 h2 h3 => hq ⟨a', b', h1, h2, h3⟩)
      have same : ∀ e' ∈ site, (CanPut g1 dest e'.1 ↔ CanPut g dest e'.1) := by
        intro e' he'
        unfold CanPut
        have hfull : IMap.get? g1 (dest ++ Path e'.1) = IMap.get? g (dest ++ Path e'.1) := by
          rcases other e' he' e'.1 [] (by simp) (hn e' (List.mem_cons_of_mem _ he')).1 with h | h
          · exact h
          · exact absurd rfl h.2.1
        rw [hfull]
        refine and_congr_right fun _ => forall_congr' fun a => forall_congr' fun b => ⟨fun h hab ha hb x => ?_, fun h hab ha hb x => ?_⟩
        · rcases other e' he' a b hab ha with h1 | h1
          · rw [← h1]; exact h hab ha hb x
          · exact h1.2.2 x
        · rcases other e' he' a b hab ha with h1 | h1
          · rw [h1]; exact h hab ha hb x
          · rw [h1.1]; simp
      obtain ⟨i1, i2⟩ := all_ends dest site g1 (fun e' he' => hn e' (List.mem_cons_of_mem _ he')) hp2 hd1
      constructor
      · intro h
        obtain ⟨g', r', d'⟩ := i1 fun e' he' => (same e' he').2 (h e' (List.mem_cons_of_mem _ he'))
        -- what the others leave of this file
        have keep : ∀ a b, e.1 = a ++ b → a ≠ [] → (IMap.get? g' (dest ++ Path a) = IMap.get? g1 (dest ++ Path a) ∨ (IMap.get? g' (dest ++ Path a) = some .dir ∧ b ≠ [])) := by
          intro a b hab ha
          by_cases hq : ∃ e' ∈ site, ∃ a' b', e'.1 = a' ++ b' ∧ a' ≠ [] ∧ dest ++ Path a = dest ++ Path a'
          · obtain ⟨e', he', a', b', h1, h2, h3⟩ := hq
            have : a = a' := path_inj (names e (by simp) a b hab) (names e' (List.mem_cons_of_mem _ he') a' b' h1) h3
            subst this
            have hb : b ≠ [] := by
              rintro rfl
              exact (hp1 e' he').1 ⟨b', by rw [h1, hab, List.append_nil]⟩
            have hb' : b' ≠ [] := by
              rintro rfl
              exact (hp1 e' he').2 ⟨b, by rw [h1, hab, List.append_nil]⟩
            exact .inr ⟨d'.dirs e' he' a b' h1 ha hb', hb⟩
          · exact .inl (d'.rest _ fun e' he' a' b' h1 h2 h3 => hq ⟨e', he', a', b', h1, h2, h3⟩)
        refine ⟨g', r', ⟨fun e' he' => ?_, fun e' he' a b hab ha hb => ?_, fun q hq => ?_⟩⟩
        · rcases List.mem_cons.1 he' with rfl | he'
          · rcases keep e'.1 [] (by simp) (hn e' (by simp)).1 with h1 | h1
            · rw [h1]; exact d1.file
            · exact absurd rfl h1.2
          · exact d'.files e' he'
        · rcases List.mem_cons.1 he' with rfl | he'
          · rcases keep a b hab ha with h1 | h1
            · rw [h1]; exact d1.dirs a b hab ha hb
            · exact h1.1
          · exact d'.dirs e' he' a b hab ha hb
        · rw [d'.rest q fun e' he' => hq e' (List.mem_cons_of_mem _ he'), d1.rest q (hq e (by simp))]
      · intro h
        refine i2 fun h' => h fun e' he' => ?_
        rcases List.mem_cons.1 he' with rfl | he'
        · exact hc
        · exact (same e' he').1 (h' e' he')
    · obtain ⟨g1, r1⟩ := p2 hc
      rw [r1]
      exact ⟨fun h => absurd (h e (by simp)) hc, fun _ => ⟨_, rfl⟩⟩

/-- Unpacking works exactly if the directory can take the page. -/
theorem export_ends {site : List (List Str × Content)} (hs : GoodSite site) (fs : FS) (dest : FilePath) (initial : Str) :
    (Ready fs dest site → ∃ fs', exportHtml site fs dest initial = (0, fs') ∧ Unpacked fs dest site initial fs') ∧
    (¬ Ready fs dest site → ∃ fs', exportHtml site fs dest initial = (1, fs')) := by
  obtain ⟨hn, hp, c0, hc0⟩ := hs
  have hi : ∀ n ∈ [c!"initial.json"], n ≠ [] ∧ '/' ∉ n := (hn _ hc0).2
  -- once the directory is there
  have key : ∀ g : FS, IMap.get? g dest = some .dir → (∀ q, q ≠ dest → IMap.get? g q = IMap.get? fs q) →
      (IMap.get? fs dest = some .dir ∨ (IMap.get? fs dest = none ∧ IMap.get? fs (parentDir dest) = some .dir)) →
      (Ready fs dest site → ∃ fs', runSite g ((site.flatMap fun e => putSteps dest e.2 e.1) ++ [.rewrite (below dest [c!"initial.json"]) initial]) = (true, fs') ∧
        Unpacked fs dest site initial fs') ∧
      (¬ Ready fs dest site → ∃ fs', runSite g ((site.flatMap fun e => putSteps dest e.2 e.1) ++ [.rewrite (below dest [c!"initial.json"]) initial]) = (false, fs')) := by
    intro g h1 h2 h3
    obtain ⟨i1, i2⟩ := all_ends dest site g hn hp h1
    have hcan : (∀ e ∈ site, CanPut g dest e.1) ↔ Ready fs dest site := by
      constructor
      · intro h
        refine ⟨h3, fun e he => ?_, fun e he l r hlr hl hr c => ?_⟩
        · rw [← h2 _ (path_ne (hn e he).1)]; exact (h e he).1
        · rw [← h2 _ (path_ne hl)]; exact (h e he).2 l r hlr hl hr c
      · intro h e he
        refine ⟨by rw [h2 _ (path_ne (hn e he).1)]; exact h.files e he, fun a b hab ha hb x => ?_⟩
        rw [h2 _ (path_ne ha)]; exact h.dirs e he a b hab ha hb x
    rw [runSite_append, ← hcan]
    constructor
    · intro h
      obtain ⟨g', r, d⟩ := i1 h
      have hfile := d.files _ hc0
      rw [r]
      simp only [runSite, SiteStep.apply, below_eq, hfile]
      have names : ∀ e' ∈ site, ∀ a b, e'.1 = a ++ b → ∀ n ∈ a, n ≠ [] ∧ '/' ∉ n := fun e' he' a b h n hna => (hn e' he').2 n (by rw [h]; simp [hna])
      refine ⟨_, rfl, ⟨?_, fun e he hne => ?_, by rw [disk_insert, if_pos rfl], fun e he l r' hlr hl hr => ?_, fun q hq hr => ?_⟩⟩
      · rw [disk_insert, if_neg (path_ne (by simp)), d.rest dest fun e he a b _ ha => (path_ne ha).symm]
        exact h1
      · rw [disk_insert, if_neg]
        · exact d.files e he
        · exact fun x => hne (path_inj hi (hn e he).2 x).symm
      · rw [disk_insert, if_neg]
        · exact d.dirs e he l r' hlr hl hr
        · intro x
          have hl' : [c!"initial.json"] = l := path_inj hi (names e he l r' hlr) x
          have hdir := d.dirs e he l r' hlr hl hr
          rw [← hl', hfile] at hdir
          cases hdir
      · rw [disk_insert, if_neg, d.rest q hr, h2 q hq]
        exact fun x => hr _ hc0 [c!"initial.json"] [] (by simp) (by simp) x.symm
    · intro h
      obtain ⟨g', r⟩ := i2 h
      rw [r]
      exact ⟨_, rfl⟩
  have run : (Ready fs dest site → ∃ fs', runSite fs (siteSteps site dest initial) = (true, fs') ∧ Unpacked fs dest site initial fs') ∧
      (¬ Ready fs dest site → ∃ fs', runSite fs (siteSteps site dest initial) = (false, fs')) := by
    unfold siteSteps
    rw [List.cons_append]
    simp only [runSite, SiteStep.apply, makeDir]
    cases hd : IMap.get? fs dest with
    | none =>
      by_cases hpd : IMap.get? fs (parentDir dest) = some .dir
      · simp only [if_pos hpd]
        exact key (IMap.insert fs dest .dir) (by rw [disk_insert, if_pos rfl]) (fun q hq => by rw [disk_insert, if_neg (fun e => hq e.symm)]) (.inr ⟨hd, hpd⟩)
      · simp only [if_neg hpd]
        exact ⟨fun h => absurd h.dir (by simp [hd, hpd]), fun _ => ⟨_, rfl⟩⟩
    | some x =>
      cases x with
      | file y => exact ⟨fun h => absurd h.dir (by simp [hd]), fun _ => ⟨_, rfl⟩⟩
      | dir => exact key fs hd (fun _ _ => rfl) (.inl hd)
  refine ⟨fun h => ?_, fun h => ?_⟩
  · obtain ⟨f, r, u⟩ := run.1 h
    exact ⟨f, by simp [exportHtml, r], u⟩
  · obtain ⟨f, r⟩ := run.2 h
    exact ⟨f, by simp [exportHtml, r]⟩

end Cli
end Art
