import Verif.Model.Live
import Verif.Lemmas.Save

/-!
# Lemmas about walking while files are renamed and removed
-/

namespace Art
open Spec

/-- What a walk that starts at `e` finds. -/
def Found (fs : FS) (f : FilePath → Bool → Bool) (e p : FilePath) : Prop :=
  IsFile fs p ∧ Under e p ∧ ∀ x m, IMap.get? fs x = some m → Under e x → Under x p → f x m.isDir = true

theorem found_file {fs : FS} (w : FS.WF fs) {f : FilePath → Bool → Bool} {e p : FilePath} {c : Content} (h : IMap.get? fs e = some (.file c)) :
    Found fs f e p ↔ p = e ∧ f e false = true := by
  have := mem_walk w f (walkFuel fs + 1) e _ h (by omega) p
  unfold Found
  rw [← this]
  simp only [walk, List.mem_ite_nil_right, List.mem_singleton]
  exact and_comm

theorem found_dir {fs : FS} (w : FS.WF fs) {f : FilePath → Bool → Bool} {e p : FilePath} (h : IMap.get? fs e = some .dir) :
    Found fs f e p ↔ f e true = true ∧ ∃ x, isChild e x = true ∧ (∃ n, IMap.get? fs x = some n) ∧ Found fs f x p := by
  have := mem_walk w f (walkFuel fs + 1) e _ h (by omega) p
  unfold Found
  rw [← this]
  simp only [walk, List.mem_ite_nil_right, List.mem_flatMap, mem_children]
  constructor
  · rintro ⟨hf, ⟨x, n⟩, ⟨h1, h2⟩, h3⟩
    exact ⟨hf, x, h2, ⟨n, w.mem_iff.1 h1⟩, (mem_walk w f _ x n (w.mem_iff.1 h1) (by omega) p).1 h3⟩
  · rintro ⟨hf, x, h2, ⟨n, h1⟩, h3⟩
    exact ⟨hf, (x, n), ⟨w.mem_iff.2 h1, h2⟩, (mem_walk w f _ x n h1 (by omega) p).2 h3⟩

/-- The names in a directory. -/
def kids (fs : FS) (d : FilePath) : List FilePath := (children fs d).map Prod.fst

theorem mem_kids {fs : FS} (w : FS.WF fs) {d e : FilePath} : e ∈ kids fs d ↔ isChild d e = true ∧ ∃ n, IMap.get? fs e = some n := by
  unfold kids
  simp only [List.mem_map, mem_children]
  constructor
  · rintro ⟨⟨x, n⟩, ⟨h1, h2⟩, rfl⟩
    exact ⟨h2, n, w.mem_iff.1 h1⟩
  · rintro ⟨h2, n, h1⟩
    exact ⟨(e, n), ⟨w.mem_iff.2 h1, h2⟩, rfl⟩

theorem kids_nodup {fs : FS} (w : FS.WF fs) (d : FilePath) : (kids fs d).Nodup := by
  have := w.nodup
  unfold IMap.Nodup at this
  exact (List.filter_sublist.map _).nodup this

/-- Neither contains the other. -/
def Far (a b : FilePath) : Prop := ¬ Under a b ∧ ¬ Under b a

theorem Far.symm {a b : FilePath} (h : Far a b) : Far b a := ⟨h.2, h.1⟩

theorem under_of_child {d e : FilePath} (h : isChild d e = true) : Under d e := by
  obtain ⟨n, rfl, _, _⟩ := isChild_iff.1 h
  exact Or.inr ⟨n, rfl⟩

theorem Far.child {d e x : FilePath} (h : Far d x) (hc : isChild d e = true) : Far e x := by
  refine ⟨fun hu => h.1 ((under_of_child hc).trans hu), fun hu => ?_⟩
  have hde := under_of_child hc
  obtain ⟨n, rfl, _, h2⟩ := isChild_iff.1 hc
  rcases hu.child h2 with rfl | hu
  · exact h.1 hde
  · exact h.2 hu

theorem kids_far {fs : FS} (w : FS.WF fs) (d : FilePath) : (kids fs d).Pairwise Far := by
  have := kids_nodup w d
  refine List.Pairwise.imp_of_mem ?_ this
  intro a b ha hb hne
  have h1 := ((mem_kids w).1 ha).1
  have h2 := ((mem_kids w).1 hb).1
  exact ⟨fun h => hne (isChild_unique h1 h2 h (Under.refl _)), fun h => hne (isChild_unique h1 h2 (Under.refl _) h)⟩

/-! ## what is still to be found -/

/-- `D` was found and the rest of `W` is below `I`. -/
structure Front (fs0 : FS) (f : FilePath → Bool → Bool) (W D I : List FilePath) : Prop where
  nodup : D.Nodup
  far : I.Pairwise Far
  cover : ∀ p, p ∈ W ↔ p ∈ D ∨ ∃ e ∈ I, Found fs0 f e p
  apart : ∀ p ∈ D, ∀ e ∈ I, ¬ Under e p

namespace Front
variable {fs0 : FS} {f : FilePath → Bool → Bool} {W D I J : List FilePath} {e : FilePath}

theorem perm (h : Front fs0 f W D I) (hp : I.Perm J) : Front fs0 f W D J := by
  refine ⟨h.nodup, hp.pairwise h.far (fun h => h.symm), ?_, ?_⟩
  · intro p
    rw [h.cover]
    simp only [hp.mem_iff]
  · intro p hp' e he
    exact h.apart p hp' e (hp.mem_iff.2 he)

theorem drop (h : Front fs0 f W D (e :: I)) (hn : ∀ p, ¬ Found fs0 f e p) : Front fs0 f W D I := by
  refine ⟨h.nodup, (List.pairwise_cons.1 h.far).2, ?_, fun p hp x hx => h.apart p hp x (List.mem_cons_of_mem _ hx)⟩
  intro p
  rw [h.cover]
  simp only [List.mem_cons, exists_eq_or_imp, hn, false_or]

theorem dropAll (h : Front fs0 f W D (J ++ I)) (hn : ∀ e ∈ J, ∀ p, ¬ Found fs0 f e p) : Front fs0 f W D I := by
  induction J with
  | nil => exact h
  | cons e J ih => exact ih (h.drop (hn e (by simp))) (fun x hx => hn x (by simp [hx]))

theorem send (w : FS.WF fs0) (h : Front fs0 f W D (e :: I)) {x : Content} (he : IMap.get? fs0 e = some (.file x)) (hf : f e false = true) :
    Front fs0 f W (D ++ [e]) I := by
  have hfar := List.pairwise_cons.1 h.far
  refine ⟨?_, hfar.2, ?_, ?_⟩
  · rw [List.nodup_append]
    refine ⟨h.nodup, by simp, ?_⟩
    rintro a ha b hb rfl
    simp only [List.mem_singleton] at hb
    subst hb
    exact h.apart _ ha _ (by simp) (Under.refl _)
  · intro p
    rw [h.cover]
    simp only [List.mem_cons, exists_eq_or_imp, found_file w he, hf, and_true, List.mem_append, List.not_mem_nil, or_false, or_assoc]
  · intro p hp y hy
    rcases List.mem_append.1 hp with hp | hp
    · exact h.apart p hp y (by simp [hy])
    · simp only [List.mem_singleton] at hp
      subst hp
      exact (hfar.1 y hy).2

theorem enter (w : FS.WF fs0) (h : Front fs0 f W D (e :: I)) (he : IMap.get? fs0 e = some .dir) (hf : f e true = true) :
    Front fs0 f W D (kids fs0 e ++ I) := by
  have hfar := List.pairwise_cons.1 h.far
  refine ⟨h.nodup, ?_, ?_, ?_⟩
  · rw [List.pairwise_append]
    exact ⟨kids_far w e, hfar.2, fun a ha b hb => (hfar.1 b hb).child ((mem_kids w).1 ha).1⟩
  · intro p
    rw [h.cover]
    have := found_dir w (f := f) (p := p) he
    simp only [hf, true_and] at this
    simp only [List.mem_cons, this, List.mem_append, or_and_right, exists_or, exists_eq_left, mem_kids w, and_assoc]
  · intro p hp y hy hu
    rcases List.mem_append.1 hy with hy | hy
    · exact h.apart p hp e (by simp) ((under_of_child ((mem_kids w).1 hy).1).trans hu)
    · exact h.apart p hp y (by simp [hy]) hu

end Front

/-! ## the state of a walk -/

/-- The entries of an open directory that were not shown. -/
def unseen (fs0 : FS) (h : Handle) : List FilePath := (kids fs0 h.dir).filter (fun e => decide (e ∉ h.seen))

/-- Where files can still be found. -/
def frontier (fs0 : FS) (c : LiveCfg) : List FilePath := c.roots ++ c.stack.flatMap (unseen fs0)

/-- The job for a file: nothing is left to do if it is closed. -/
def jobOf (mk : FilePath → Act) (C : List FilePath) (p : FilePath) : List Act := if p ∈ C then [] else [mk p]

/-- A walk has to show this entry. -/
def Matters (fs0 : FS) (f : FilePath → Bool → Bool) (e : FilePath) : Prop :=
  IMap.get? fs0 e = some .dir ∨ (f e false = true ∧ ∃ x, IMap.get? fs0 e = some (.file x))

/-- A walk that began on the disk `fs0` has sent `D`; the jobs for `C` have ended. -/
structure Walking (fs0 : FS) (f : FilePath → Bool → Bool) (mk : FilePath → Act) (W : List FilePath) (c : LiveCfg) (D C : List FilePath) : Prop where
  front : Front fs0 f W D (frontier fs0 c)
  jobs : c.jobs = D.map (jobOf mk C)
  sub : ∀ p ∈ C, p ∈ D
  roots : ∀ r ∈ c.roots, IMap.get? fs0 r = some .dir
  dirs : ∀ e, IMap.get? c.fs e = some .dir ↔ IMap.get? fs0 e = some .dir
  files : ∀ e, f e false = true → e ∉ C → ((∃ x, IMap.get? c.fs e = some (.file x)) ↔ ∃ x, IMap.get? fs0 e = some (.file x))
  has : ∀ h ∈ c.stack, ∀ e, isChild h.dir e = true → Matters fs0 f e → e ∈ h.listed
  kept : ∀ h ∈ c.stack, ∀ e, e ∈ h.listed ∨ e ∈ h.fetched → isChild h.dir e = true ∧ (e ∉ C → ∃ n, IMap.get? c.fs e = some n)

/-- What is known about the files that a walk finds. -/
def Findable (fs0 : FS) (f : FilePath → Bool → Bool) (W : List FilePath) : Prop :=
  ∀ p ∈ W, (∃ x, IMap.get? fs0 p = some (.file x)) ∧ f p false = true

namespace Walking
variable {L : Libs} {fs0 : FS} {f : FilePath → Bool → Bool} {mk : FilePath → Act} {W D C : List FilePath} {c c' : LiveCfg}

theorem not_found (h : Walking fs0 f mk W c D C) (w : FS.WF fs0) (hW : Findable fs0 f W) {hd : Handle} (hh : hd ∈ c.stack) {e : FilePath}
    (hc : isChild hd.dir e = true) (hs : e ∉ hd.seen) : e ∉ D := by
  intro he
  obtain ⟨⟨x, hx⟩, _⟩ := hW e ((h.front.cover e).2 (Or.inl he))
  refine h.front.apart e he e ?_ (Under.refl _)
  refine List.mem_append_right _ (List.mem_flatMap.2 ⟨hd, hh, ?_⟩)
  exact List.mem_filter.2 ⟨(mem_kids w).2 ⟨hc, _, hx⟩, by simpa using hs⟩

theorem opened (h : Walking fs0 f mk W c D C) (wc : FS.WF c.fs) {d : FilePath} (hd : ∀ p ∈ D, ¬ Under d p) {e : FilePath} (hc : isChild d e = true)
    (hm : Matters fs0 f e) : e ∈ (children c.fs d).map Prod.fst := by
  refine (mem_kids wc).2 ⟨hc, ?_⟩
  rcases hm with hm | ⟨hf, hm⟩
  · exact ⟨_, (h.dirs e).2 hm⟩
  · have : e ∉ C := fun he => hd e (h.sub e he) (under_of_child hc)
    obtain ⟨x, hx⟩ := (h.files e hf this).2 hm
    exact ⟨_, hx⟩

theorem listed_children (wc : FS.WF c.fs) {d e : FilePath} (h : e ∈ (openDir c.fs d).listed ∨ e ∈ (openDir c.fs d).fetched) :
    isChild d e = true ∧ (e ∉ C → ∃ n, IMap.get? c.fs e = some n) := by
  rcases h with h | h
  · have := (mem_kids wc).1 h
    exact ⟨this.1, fun _ => this.2⟩
  · cases h

theorem unseen_see (w : FS.WF fs0) {h : Handle} {e : FilePath} {n : Node} (hc : isChild h.dir e = true) (hs : e ∉ h.seen)
    (he : IMap.get? fs0 e = some n) : (unseen fs0 h).Perm (e :: unseen fs0 (h.see e)) := by
  have nd := kids_nodup w h.dir
  have hmem : e ∈ kids fs0 h.dir := (mem_kids w).2 ⟨hc, n, he⟩
  rw [List.perm_ext_iff_of_nodup]
  · intro x
    simp only [unseen, Handle.see, List.mem_filter, List.mem_cons, decide_eq_true_eq, not_or]
    constructor
    · rintro ⟨h1, h2⟩
      by_cases hx : x = e
      · exact Or.inl hx
      · exact Or.inr ⟨h1, hx, h2⟩
    · rintro (rfl | ⟨h1, _, h2⟩)
      · exact ⟨hmem, hs⟩
      · exact ⟨h1, h2⟩
  · exact nd.filter _
  · rw [List.nodup_cons]
    refine ⟨?_, nd.filter _⟩
    simp [unseen, Handle.see]

theorem unseen_see_none (w : FS.WF fs0) {h : Handle} {e : FilePath} (he : IMap.get? fs0 e = none) : unseen fs0 (h.see e) = unseen fs0 h := by
  unfold unseen Handle.see
  refine List.filter_congr ?_
  intro x hx
  obtain ⟨n, hn⟩ := ((mem_kids w).1 hx).2
  have : x ≠ e := by
    rintro rfl
    rw [he] at hn
    cases hn
  simp [this]

/-- Showing an entry. -/
theorem frontier_see (w : FS.WF fs0) {h : Handle} {st : List Handle} {e : FilePath} {n : Node} (hst : c.stack = h :: st) (hc : isChild h.dir e = true)
    (hs : e ∉ h.seen) (he : IMap.get? fs0 e = some n) :
    (frontier fs0 c).Perm (e :: (c.roots ++ (unseen fs0 (h.see e) ++ st.flatMap (unseen fs0)))) := by
  unfold frontier
  rw [hst, List.flatMap_cons]
  refine (List.Perm.append_left c.roots ((unseen_see w hc hs he).append_right _)).trans ?_
  exact List.perm_middle

theorem step (w : FS.WF fs0) (wc : FS.WF c.fs) (hW : Findable fs0 f W) (h : Walking fs0 f mk W c D C) (hs : WalkStep L f mk c c') :
    (∃ D', Walking fs0 f mk W c' D' C) ∧ c'.fs = c.fs ∧ c'.lints = c.lints ∧ c'.phase = c.phase := by
  cases hs with
  | missing r rs h1 h2 h3 =>
    have := (h.dirs r).2 (h.roots r (by rw [h2]; simp))
    rw [h3] at this
    cases this
  | fileRoot r rs x h1 h2 h3 =>
    have := (h.dirs r).2 (h.roots r (by rw [h2]; simp))
    rw [h3] at this
    cases this
  | dirRoot r rs h1 h2 h3 =>
    refine ⟨⟨D, ?_⟩, rfl, rfl, rfl⟩
    have hr := (h.dirs r).1 h3
    have hfr := h.front
    unfold frontier at hfr
    rw [h1, h2] at hfr
    simp only [List.flatMap_nil, List.append_nil] at hfr
    refine ⟨?_, h.jobs, h.sub, fun x hx => h.roots x (by rw [h2]; simp [hx]), h.dirs, h.files, ?_, ?_⟩
    · unfold frontier enterDir
      simp only
      by_cases hf : f r true = true
      · rw [if_pos hf]
        simp only [List.flatMap_cons, List.flatMap_nil, List.append_nil]
        have : unseen fs0 (openDir c.fs r) = kids fs0 r := by
          unfold unseen openDir
          simp
        rw [this]
        exact (hfr.enter w hr hf).perm List.perm_append_comm
      · rw [if_neg hf]
        simp only [List.flatMap_nil, List.append_nil]
        exact hfr.drop (fun p hp => hf ((found_dir w hr).1 hp).1)
    · intro hd hhd e hc hm
      simp only [enterDir] at hhd
      split at hhd
      · simp only [List.mem_singleton] at hhd
        subst hhd
        exact h.opened wc (fun p hp => hfr.apart p hp r (by simp)) hc hm
      · cases hhd
    · intro hd hhd e he
      simp only [enterDir] at hhd
      split at hhd
      · simp only [List.mem_singleton] at hhd
        subst hhd
        exact listed_children wc he
      · cases hhd
  | file hd st e x h1 h2 h3 h4 =>
    have hmem : hd ∈ c.stack := by rw [h1]; simp
    have hnD := h.not_found w hW hmem h2 h3
    have hnC : e ∉ C := fun he => hnD (h.sub e he)
    have hhas : ∀ h' ∈ hd.see e :: st, ∀ e', isChild h'.dir e' = true → Matters fs0 f e' → e' ∈ h'.listed := by
      intro h' hh'
      rcases List.mem_cons.1 hh' with rfl | hh'
      · exact h.has hd hmem
      · exact h.has h' (by rw [h1]; simp [hh'])
    have hkept : ∀ h' ∈ hd.see e :: st, ∀ e', e' ∈ h'.listed ∨ e' ∈ h'.fetched →
        isChild h'.dir e' = true ∧ (e' ∉ C → ∃ n, IMap.get? c.fs e' = some n) := by
      intro h' hh'
      rcases List.mem_cons.1 hh' with rfl | hh'
      · exact h.kept hd hmem
      · exact h.kept h' (by rw [h1]; simp [hh'])
    by_cases hf : f e false = true
    · obtain ⟨y, hy⟩ := (h.files e hf hnC).1 ⟨x, h4⟩
      refine ⟨⟨D ++ [e], ?_⟩, rfl, rfl, rfl⟩
      refine ⟨?_, ?_, ?_, h.roots, h.dirs, h.files, hhas, hkept⟩
      · unfold frontier
        simp only [List.flatMap_cons]
        exact (h.front.perm (frontier_see w h1 h2 h3 hy)).send w hy hf
      · simp only [sendFile, hf, if_true, h.jobs, List.map_append, List.map_cons, List.map_nil, jobOf, hnC, if_false]
      · intro p hp
        exact List.mem_append_left _ (h.sub p hp)
    · refine ⟨⟨D, ?_⟩, rfl, rfl, rfl⟩
      refine ⟨?_, ?_, h.sub, h.roots, h.dirs, h.files, hhas, hkept⟩
      · unfold frontier
        simp only [List.flatMap_cons]
        cases hg : IMap.get? fs0 e with
        | none =>
          rw [unseen_see_none w hg]
          have := h.front
          unfold frontier at this
          rw [h1, List.flatMap_cons] at this
          exact this
        | some n =>
          refine (h.front.perm (frontier_see w h1 h2 h3 hg)).drop ?_
          cases n with
          | dir =>
            have := (h.dirs e).2 hg
            rw [h4] at this
            cases this
          | file y =>
            intro p hp
            exact hf ((found_file w hg).1 hp).2
      · simp only [sendFile, hf, h.jobs]
        simp
  | dir hd st e h1 h2 h3 h4 =>
    have hmem : hd ∈ c.stack := by rw [h1]; simp
    have he := (h.dirs e).1 h4
    have hfr := h.front.perm (frontier_see w h1 h2 h3 he)
    refine ⟨⟨D, ?_⟩, rfl, rfl, rfl⟩
    refine ⟨?_, h.jobs, h.sub, h.roots, h.dirs, h.files, ?_, ?_⟩
    · unfold frontier enterDir
      simp only
      by_cases hf : f e true = true
      · rw [if_pos hf]
        simp only [List.singleton_append, List.flatMap_cons]
        have : unseen fs0 (openDir c.fs e) = kids fs0 e := by
          unfold unseen openDir
          simp
        rw [this]
        refine (hfr.enter w he hf).perm ?_
        rw [← List.append_assoc, ← List.append_assoc c.roots]
        exact List.perm_append_comm.append_right _
      · rw [if_neg hf]
        simp only [List.nil_append, List.flatMap_cons]
        exact hfr.drop (fun p hp => hf ((found_dir w he).1 hp).1)
    · intro h' hh'
      rcases List.mem_append.1 hh' with hh' | hh'
      · simp only [enterDir] at hh'
        split at hh'
        · simp only [List.mem_singleton] at hh'
          subst hh'
          intro e' hc hm
          exact h.opened wc (fun p hp => hfr.apart p hp e (by simp)) hc hm
        · cases hh'
      · rcases List.mem_cons.1 hh' with rfl | hh'
        · exact h.has hd hmem
        · exact h.has h' (by rw [h1]; simp [hh'])
    · intro h' hh'
      rcases List.mem_append.1 hh' with hh' | hh'
      · simp only [enterDir] at hh'
        split at hh'
        · simp only [List.mem_singleton] at hh'
          subst hh'
          intro e' he'
          exact listed_children wc he'
        · cases hh'
      · rcases List.mem_cons.1 hh' with rfl | hh'
        · exact h.kept hd hmem
        · exact h.kept h' (by rw [h1]; simp [hh'])
  | fetch above below hd e n h1 h2 h3 =>
    refine ⟨⟨D, ?_⟩, rfl, rfl, rfl⟩
    refine ⟨?_, h.jobs, h.sub, h.roots, h.dirs, h.files, ?_, ?_⟩
    · have := h.front
      unfold frontier at this ⊢
      rw [h1] at this
      simp only [List.flatMap_append, List.flatMap_cons] at this ⊢
      exact this
    · intro h' hh'
      rcases List.mem_append.1 hh' with hh' | hh'
      · exact h.has h' (by rw [h1]; simp [hh'])
      · rcases List.mem_cons.1 hh' with rfl | hh'
        · exact h.has hd (by rw [h1]; simp)
        · exact h.has h' (by rw [h1]; simp [hh'])
    · intro h' hh'
      rcases List.mem_append.1 hh' with hh' | hh'
      · exact h.kept h' (by rw [h1]; simp [hh'])
      · rcases List.mem_cons.1 hh' with rfl | hh'
        · intro e' he'
          rcases he' with he' | he'
          · exact h.kept hd (by rw [h1]; simp) e' (Or.inl he')
          · rcases List.mem_cons.1 he' with rfl | he'
            · exact ⟨h2, fun _ => ⟨n, h3⟩⟩
            · exact h.kept hd (by rw [h1]; simp) e' (Or.inr he')
        · exact h.kept h' (by rw [h1]; simp [hh'])
  | stale hd st e h1 h2 h3 h4 =>
    have hmem : hd ∈ c.stack := by rw [h1]; simp
    obtain ⟨hc, hk⟩ := h.kept hd hmem e h2
    obtain ⟨n, hn⟩ := hk (fun he => h.not_found w hW hmem hc h3 (h.sub e he))
    rw [h4] at hn
    cases hn
  | lost hd st e h1 h2 h3 h4 =>
    have hmem : hd ∈ c.stack := by rw [h1]; simp
    obtain ⟨hc, hk⟩ := h.kept hd hmem e h2
    obtain ⟨n, hn⟩ := hk (fun he => h.not_found w hW hmem hc h3 (h.sub e he))
    rw [h4] at hn
    cases hn
  | close hd st h1 h2 =>
    have hmem : hd ∈ c.stack := by rw [h1]; simp
    refine ⟨⟨D, ?_⟩, rfl, rfl, rfl⟩
    refine ⟨?_, h.jobs, h.sub, h.roots, h.dirs, h.files, fun h' hh' => h.has h' (by rw [h1]; simp [hh']),
      fun h' hh' => h.kept h' (by rw [h1]; simp [hh'])⟩
    have hfr := h.front
    unfold frontier at hfr ⊢
    rw [h1, List.flatMap_cons] at hfr
    simp only
    have hperm : (c.roots ++ (unseen fs0 hd ++ st.flatMap (unseen fs0))).Perm (unseen fs0 hd ++ (c.roots ++ st.flatMap (unseen fs0))) := by
      rw [← List.append_assoc, ← List.append_assoc (unseen fs0 hd)]
      exact List.perm_append_comm.append_right _
    refine (hfr.perm hperm).dropAll ?_
    intro e he p hp
    obtain ⟨hk, hs⟩ := List.mem_filter.1 he
    have hs : e ∉ hd.seen := by simpa using hs
    obtain ⟨hc, n, hn⟩ := (mem_kids w).1 hk
    have hm : Matters fs0 f e := by
      cases n with
      | dir => exact Or.inl hn
      | file x => exact Or.inr ⟨((found_file w hn).1 hp).2, x, hn⟩
    have hl := h.has hd hmem e hc hm
    obtain ⟨m, hm'⟩ := (h.kept hd hmem e (Or.inl hl)).2 (fun hC => h.not_found w hW hmem hc hs (h.sub e hC))
    rcases h2 e hl with h2 | h2
    · exact hs h2
    · rw [h2] at hm'
      cases hm'

end Walking

end Art
