import Verif.Lemmas.ReadDup

/-!
# Property C20: reading a project is deterministic

The threads of `read_project` race: a schedule decides in which order artifacts, code references and lints arrive, in which order a
directory is listed, and which topological order is found. The theorems are about every schedule.
-/

namespace Art.Spec

/-- A project without the spelling of the names in `parts` and without the spelling of the names of the code references: these are compared
ignoring case. Everything else is kept, order included. -/
def foldCase (p : Project) : Settings × List ((Ty × Str) × ImplCode) × List (Name × Artifact × List (Ty × Str)) :=
  (p.settings, p.codeImpls.map (fun x => (key x.1, x.2)),
    p.artifacts.map (fun x => (x.1, { x.2 with parts := [] }, x.2.parts.map key)))

/-- All code references and all artifacts in the files of the project. -/
def allLocs (L : Libs) (fs : FS) (s : Settings) : List Loc := (walkCode fs s).flatMap (fun f => (codeSent L fs f).items)
def allArts (L : Libs) (fs : FS) (s : Settings) : List ArtifactIm := (walkArtifacts fs s).flatMap (fun f => (artSent L s.pre fs f).items)

end Art.Spec

namespace Art
open Spec

section
variable {L : Libs} {hash : ArtifactIm → HashIm} {ncpu ncpu' : Nat} {fs fs' : FS} {s : Settings} {r r' : Run}

/-! ## the order of directories -/

theorem wf_perm (hp : fs.Perm fs') (w : FS.WF fs) : FS.WF fs' :=
  ⟨(IMap.nodup_perm hp).1 w.nodup, by rw [← IMap.get?_perm hp w.nodup]; exact w.root, fun p h hne => by
    obtain ⟨q, n, e⟩ := w.parent p (hp.mem_iff.2 h) hne
    rw [IMap.get?_perm hp w.nodup] at e
    exact ⟨q, n, e⟩⟩

theorem isFile_perm (hp : fs.Perm fs') (p : FilePath) : IsFile fs p ↔ IsFile fs' p := by
  unfold IsFile; simp only [hp.mem_iff]

theorem walkArtifacts_perm (hp : fs.Perm fs') (w : FS.WF fs) (s : Settings) : (walkArtifacts fs s).Perm (walkArtifacts fs' s) := by
  classical
  rw [List.perm_iff_count]
  intro p
  rw [C29_artifacts w, C29_artifacts (wf_perm hp w)]
  refine List.countP_congr fun x _ => ?_
  rw [decide_eq_true_eq, decide_eq_true_eq]
  simp only [Finds, isFile_perm hp]

theorem walkCode_perm (hp : fs.Perm fs') (w : FS.WF fs) (s : Settings) : (walkCode fs s).Perm (walkCode fs' s) := by
  classical
  rw [List.perm_iff_count]
  intro p
  rw [C29_code w, C29_code (wf_perm hp w)]
  refine List.countP_congr fun x _ => ?_
  rw [decide_eq_true_eq, decide_eq_true_eq]
  simp only [Finds, isFile_perm hp]

theorem walkLints_perm (hp : fs.Perm fs') (f : FilePath → Bool → Bool) (roots : ISet FilePath) (d : Lint) :
    d ∈ walkLints L fs f roots ↔ d ∈ walkLints L fs' f roots := by
  rw [C29_missing, C29_missing]
  simp only [Missing, hp.mem_iff]

theorem codeSent_perm (hp : fs.Perm fs') (w : FS.WF fs) (f : FilePath) : codeSent L fs f = codeSent L fs' f := by
  unfold codeSent; rw [IMap.get?_perm hp w.nodup]

theorem artSent_perm (hp : fs.Perm fs') (w : FS.WF fs) (pre : Str) (f : FilePath) : artSent L pre fs f = artSent L pre fs' f := by
  unfold artSent; rw [IMap.get?_perm hp w.nodup]

/-! ## arrivals -/

theorem locs_perm (hp : fs.Perm fs') (w : FS.WF fs) (h : Arrives L ncpu fs s r) (h' : Arrives L ncpu' fs' s r') : r.locs.Perm r'.locs := by
  refine h.locs.trans (List.Perm.trans ?_ h'.locs.symm)
  have : (fun f => (codeSent L fs f).items) = (fun f => (codeSent L fs' f).items) := by funext f; rw [codeSent_perm hp w]
  rw [this]
  exact (walkCode_perm hp w s).flatMap_right _

theorem arts_perm (hp : fs.Perm fs') (w : FS.WF fs) (h : Arrives L ncpu fs s r) (h' : Arrives L ncpu' fs' s r') : r.arts.Perm r'.arts := by
  refine h.arts.trans (List.Perm.trans ?_ h'.arts.symm)
  have : (fun f => (artSent L s.pre fs f).items) = (fun f => (artSent L s.pre fs' f).items) := by funext f; rw [artSent_perm hp w]
  rw [this]
  exact (walkArtifacts_perm hp w s).flatMap_right _

/-- The lints of the walks and of the files. -/
def fileLints (L : Libs) (fs : FS) (s : Settings) : List Lint :=
  walkLints L fs (codeFilter s.excludeCodePaths) s.codePaths ++ (walkCode fs s).flatMap (fun f => (codeSent L fs f).lints) ++
  walkLints L fs (artFilter s.excludeArtifactPaths) s.artifactPaths ++ (walkArtifacts fs s).flatMap (fun f => (artSent L s.pre fs f).lints)

theorem fileLints_perm (hp : fs.Perm fs') (w : FS.WF fs) (d : Lint) : d ∈ fileLints L fs s ↔ d ∈ fileLints L fs' s := by
  unfold fileLints
  simp only [List.mem_append, List.mem_flatMap, walkLints_perm hp, (walkCode_perm hp w s).mem_iff, (walkArtifacts_perm hp w s).mem_iff,
    codeSent_perm hp w, artSent_perm hp w]

theorem mem_lints (h : Arrives L ncpu fs s r) (d : Lint) :
    d ∈ r.lints ↔ d ∈ fileLints L fs s ∨ d ∈ (joinLocations r.locs).2 ∨ d ∈ (joinArtifacts r.arts).lints := by
  rw [h.lints.mem_iff]
  unfold sentLints fileLints
  simp only [List.mem_append, or_assoc]

theorem noError_iff (r : Run) : r.categorized.error = [] ↔ ∀ d ∈ r.lints, d.level ≠ .error := by
  unfold Run.categorized
  rw [categorize_eq]
  simp [List.filter_eq_nil_iff]

theorem join_level (l : List Loc) : ∀ d ∈ (joinLocations l).2, d.level = .error := by
  intro d hd
  obtain ⟨_, _, _, _, _, _, _, _, h⟩ := (C10_lints l d).1 hd
  rcases h with rfl | rfl <;> rfl

theorem noError_parts (h : Arrives L ncpu fs s r) : r.categorized.error = [] ↔
    (∀ d ∈ fileLints L fs s, d.level ≠ .error) ∧ (joinLocations r.locs).2 = [] ∧ (joinArtifacts r.arts).lints = [] := by
  rw [noError_iff]
  simp only [mem_lints h]
  constructor
  · intro H
    refine ⟨fun d hd => H d (Or.inl hd), List.eq_nil_iff_forall_not_mem.2 fun d hd => ?_, List.eq_nil_iff_forall_not_mem.2 fun d hd => ?_⟩
    · exact H d (Or.inr (Or.inl hd)) (join_level _ d hd)
    · exact H d (Or.inr (Or.inr hd)) ((C11_all_named _).1 d hd)
  · rintro ⟨h1, h2, h3⟩ d (hd | hd | hd)
    · exact h1 d hd
    · rw [h2] at hd; simp at hd
    · rw [h3] at hd; simp at hd

theorem noError_same (hp : fs.Perm fs') (w : FS.WF fs) (h : Arrives L ncpu fs s r) (h' : Arrives L ncpu' fs' s r') :
    r.categorized.error = [] ↔ r'.categorized.error = [] := by
  rw [noError_parts h, noError_parts h', join_err_perm (locs_perm hp w h h'), art_err_perm (arts_perm hp w h h')]
  simp only [fileLints_perm hp w]

/-! ## sorting -/

theorem strict_sortOn {α κ : Type _} [LinearOrder κ] (f : α → κ) {l : List α} (h : (l.map f).Nodup) :
    (sortOn f l).Pairwise (fun a b => f a < f b) := by
  have h1 := sortOn_sorted f l
  have h2 : ((sortOn f l).map f).Nodup := ((sortOn_perm f l).map f).nodup_iff.2 h
  rw [List.Nodup, List.pairwise_map] at h2
  exact (h1.and h2).imp (fun h => lt_of_le_of_ne h.1 h.2)

theorem imap_nodup_keyStr {β : Type} {m : IMap Name β} (h : IMap.Nodup m) : (m.map (fun x => x.1.keyStr)).Nodup := by
  have : ISet.Nodup (m.map Prod.fst) := by
    unfold ISet.Nodup; rw [List.map_map]; exact h
  have := nodup_keyStr this
  rw [List.map_map] at this
  exact this

theorem keyStr_key {n n' : Name} (h : key n = key n') : n.keyStr = n'.keyStr := congrArg Prod.snd h

/-- What is the same in two projects that were read from the same files, before sorting. -/
structure Same (p p' : Project) : Prop where
  settings : p.settings = p'.settings
  nodup : IMap.Nodup p.artifacts
  nodup' : IMap.Nodup p'.artifacts
  cnodup : IMap.Nodup p.codeImpls
  cnodup' : IMap.Nodup p'.codeImpls
  arts : ∀ x ∈ p.artifacts, ∃ x' ∈ p'.artifacts, x'.1 = x.1 ∧ x'.2.bare = x.2.bare ∧ (x'.2.parts.map key).Perm (x.2.parts.map key)
  pnodup : ∀ x ∈ p.artifacts, ISet.Nodup x.2.parts
  code : ∀ n, (IMap.get? p.codeImpls n).map ImplCode.sort = (IMap.get? p'.codeImpls n).map ImplCode.sort

theorem bare_fields {a a' : Artifact} (h : a'.bare = a.bare) (hp : (a'.parts.map key).Perm (a.parts.map key)) (hn : ISet.Nodup a.parts) :
    ({ a'.sort with parts := [] } : Artifact) = { a.sort with parts := [] } ∧ a'.sort.parts.map key = a.sort.parts.map key := by
  constructor
  · have : ∀ b : Artifact, ({ b.sort with parts := [] } : Artifact) =
        { b.bare with partof := sortNames b.bare.partof, subnames := sortOn SubName.keyStr b.bare.subnames } := fun b => rfl
    rw [this, this, h]
  · -- both sides are sorted and have the same elements
    have e : ∀ b : Artifact, ISet.Nodup b.parts → (b.sort.parts.map key).Pairwise (fun x y : Ty × Str => x.2 < y.2) := by
      intro b hb
      show ((sortOn Name.keyStr b.parts).map key).Pairwise _
      rw [List.pairwise_map]
      exact strict_sortOn Name.keyStr (nodup_keyStr hb)
    have hn' : ISet.Nodup a'.parts := by
      unfold ISet.Nodup at *
      exact hp.nodup_iff.2 hn
    refine strict_unique (fun x : Ty × Str => x.2) (e a' hn') (e a hn) fun k => ?_
    have m : ∀ b : Artifact, k ∈ b.sort.parts.map key ↔ k ∈ b.parts.map key := fun b => ((sortNames_perm b.parts).map key).mem_iff
    rw [m, m, hp.mem_iff]

theorem Same.symm {p p' : Project} (h : Same p p') (h2 : ∀ x ∈ p'.artifacts, ∃ x' ∈ p.artifacts, x'.1 = x.1 ∧ x'.2.bare = x.2.bare ∧
    (x'.2.parts.map key).Perm (x.2.parts.map key)) : Same p' p := by
  refine ⟨h.settings.symm, h.nodup', h.nodup, h.cnodup', h.cnodup, h2, ?_, fun n => (h.code n).symm⟩
  intro x hx
  obtain ⟨y, hy, _, _, hp⟩ := h2 x hx
  have := h.pnodup y hy
  unfold ISet.Nodup at *
  exact hp.nodup_iff.1 this

theorem foldCase_sort {p p' : Project} (h : Same p p') (h2 : Same p' p) : foldCase p.sort = foldCase p'.sort := by
  have hc : p.sort.codeImpls.map (fun x => (key x.1, x.2)) = p'.sort.codeImpls.map (fun x => (key x.1, x.2)) := by
    have st : ∀ m : IMap Name ImplCode, IMap.Nodup m →
        (((sortOn (fun x => x.1.keyStr) m).map (fun x : Name × ImplCode => (x.1, x.2.sort))).map (fun x => (key x.1, x.2))).Pairwise
          (fun a b : (Ty × Str) × ImplCode => a.1.2 < b.1.2) := by
      intro m hm
      rw [List.map_map, List.pairwise_map]
      exact strict_sortOn (fun x : Name × ImplCode => x.1.keyStr) (imap_nodup_keyStr hm)
    have me : ∀ {q q' : Project}, Same q q' → ∀ y, y ∈ q.sort.codeImpls.map (fun x => (key x.1, x.2)) →
        y ∈ q'.sort.codeImpls.map (fun x => (key x.1, x.2)) := by
      intro q q' hq y hy
      obtain ⟨z, hz, rfl⟩ := List.mem_map.1 hy
      obtain ⟨x, hx, rfl⟩ := List.mem_map.1 hz
      rw [mem_sortOn] at hx
      have hg := IMap.get?_of_mem hq.cnodup (a := x.1) (b := x.2) hx
      have hcode := hq.code x.1
      rw [hg] at hcode
      cases hg' : IMap.get? q'.codeImpls x.1 with
      | none => rw [hg'] at hcode; cases hcode
      | some c' =>
        rw [hg'] at hcode
        simp only [Option.map_some, Option.some.injEq] at hcode
        obtain ⟨n', hk, hm⟩ := IMap.mem_of_get? hg'
        refine List.mem_map.2 ⟨(n', c'.sort), List.mem_map.2 ⟨(n', c'), by rw [mem_sortOn]; exact hm, rfl⟩, ?_⟩
        simp only [hk, hcode]
    exact strict_unique (fun a : (Ty × Str) × ImplCode => a.1.2) (st _ h.cnodup) (st _ h.cnodup') fun y => ⟨me h y, me h2 y⟩
  have ha : p.sort.artifacts.map (fun x => (x.1, ({ x.2 with parts := [] } : Artifact), x.2.parts.map key)) =
      p'.sort.artifacts.map (fun x => (x.1, ({ x.2 with parts := [] } : Artifact), x.2.parts.map key)) := by
    have st : ∀ m : IMap Name Artifact, IMap.Nodup m →
        (((sortOn (fun x => x.1.keyStr) m).map (fun x : Name × Artifact => (x.1, x.2.sort))).map
          (fun x => (x.1, ({ x.2 with parts := [] } : Artifact), x.2.parts.map key))).Pairwise
          (fun a b : Name × Artifact × List (Ty × Str) => a.1.keyStr < b.1.keyStr) := by
      intro m hm
      rw [List.map_map, List.pairwise_map]
      exact strict_sortOn (fun x : Name × Artifact => x.1.keyStr) (imap_nodup_keyStr hm)
    have me : ∀ {q q' : Project}, Same q q' → ∀ y, y ∈ q.sort.artifacts.map (fun x => (x.1, ({ x.2 with parts := [] } : Artifact), x.2.parts.map key)) →
        y ∈ q'.sort.artifacts.map (fun x => (x.1, ({ x.2 with parts := [] } : Artifact), x.2.parts.map key)) := by
      intro q q' hq y hy
      obtain ⟨z, hz, rfl⟩ := List.mem_map.1 hy
      obtain ⟨x, hx, rfl⟩ := List.mem_map.1 hz
      rw [mem_sortOn] at hx
      obtain ⟨x', hx', e1, e2, e3⟩ := hq.arts x hx
      obtain ⟨f1, f2⟩ := bare_fields e2 e3 (hq.pnodup x hx)
      refine List.mem_map.2 ⟨(x'.1, x'.2.sort), List.mem_map.2 ⟨x', by rw [mem_sortOn]; exact hx', rfl⟩, ?_⟩
      simp only [e1, f1, f2]
    exact strict_unique (fun a : Name × Artifact × List (Ty × Str) => a.1.keyStr) (st _ h.nodup) (st _ h.nodup') fun y => ⟨me h y, me h2 y⟩
  unfold foldCase
  rw [hc, ha]
  show (p.settings, _) = (p'.settings, _)
  rw [h.settings]

/-- The artifacts of two reads without errors. -/
theorem same_of_reads (hp : fs.Perm fs') (w : FS.WF fs) (h : Arrives L ncpu fs s r) (h' : Arrives L ncpu' fs' s r')
    (he : r.categorized.error = []) {arts arts' : IMap Name Artifact}
    (hl : Loads hash (joinArtifacts r.arts).arts (joinLocations r.locs).1 (joinArtifacts r.arts).files arts)
    (hl' : Loads hash (joinArtifacts r'.arts).arts (joinLocations r'.locs).1 (joinArtifacts r'.arts).files arts') :
    Same ⟨s, (joinLocations r.locs).1, arts⟩ ⟨s, (joinLocations r'.locs).1, arts'⟩ := by
  have he' := (noError_same hp w h h').1 he
  obtain ⟨_, j1, a1⟩ := (noError_parts h).1 he
  obtain ⟨_, j1', a1'⟩ := (noError_parts h').1 he'
  obtain ⟨f1, f2⟩ := C11_present _ a1
  obtain ⟨f1', f2'⟩ := C11_present _ a1'
  have inp := joinArtifacts_input r.arts
  have inp' := joinArtifacts_input r'.arts
  have pa := arts_perm hp w h h'
  have hf : (joinArtifacts r.arts).files.map Prod.fst = (joinArtifacts r.arts).arts.map Prod.fst := by
    rw [f1, f2, List.map_map, List.map_map]; rfl
  have hf' : (joinArtifacts r'.arts).files.map Prod.fst = (joinArtifacts r'.arts).arts.map Prod.fst := by
    rw [f1', f2', List.map_map, List.map_map]; rfl
  have pi : (joinArtifacts r.arts).arts.Perm (joinArtifacts r'.arts).arts := by rw [f2, f2']; exact pa.map _
  have pd : (joinArtifacts r.arts).files.Perm (joinArtifacts r'.arts).files := by rw [f1, f1']; exact pa.map _
  have hc := joinLocations_perm (locs_perm hp w h h') j1 j1'
  refine ⟨rfl, IMap.nodup_of_fst inp.dnodup (hl.spec inp).1, IMap.nodup_of_fst inp'.dnodup (hl'.spec inp').1, (C10_no_empty _).1,
    (C10_no_empty _).1, Loads.same inp hf hl inp' hf' hl' pi pd hc, ?_, hc⟩
  intro x hx
  obtain ⟨im, sp⟩ := (hl.spec inp).2.2.2.2.2.1 x.2 (List.mem_map.2 ⟨x, hx, rfl⟩)
  exact sp.partsNodup

/-- The lints are the same if the code references are spelled consistently. -/
theorem lints_of_reads {p p' : Project} (h : Same p p') (h2 : Same p' p)
    (hn : ∀ x ∈ p.codeImpls, ∀ y ∈ p'.codeImpls, key x.1 = key y.1 → x.1 = y.1) :
    (∃ ls ls', p.lint L = .ok ls ∧ p'.lint L = .ok ls' ∧ ls.Perm ls') ∨ (p.lint L = .panic ∧ p'.lint L = .panic) := by
  have bn : ∀ q : Project, IMap.Nodup q.artifacts → IMap.Nodup q.bare.artifacts := fun q hq =>
    IMap.nodup_of_fst hq (by show List.map _ (List.map _ _) = _; rw [List.map_map]; rfl)
  have bc : ∀ q : Project, IMap.Nodup q.codeImpls → IMap.Nodup q.bare.codeImpls := fun q hq =>
    IMap.nodup_of_fst hq (by show List.map _ (List.map _ _) = _; rw [List.map_map]; rfl)
  have ma : ∀ {q q' : Project}, Same q q' → ∀ y, y ∈ q.bare.artifacts → y ∈ q'.bare.artifacts := by
    intro q q' hq y hy
    obtain ⟨x, hx, rfl⟩ := List.mem_map.1 hy
    obtain ⟨x', hx', e1, e2, _⟩ := hq.arts x hx
    exact List.mem_map.2 ⟨x', hx', by simp only [e1, e2]⟩
  have mc : ∀ {q q' : Project}, Same q q' → (∀ x ∈ q.codeImpls, ∀ y ∈ q'.codeImpls, key x.1 = key y.1 → x.1 = y.1) →
      ∀ y, y ∈ q.bare.codeImpls → y ∈ q'.bare.codeImpls := by
    intro q q' hq hn y hy
    obtain ⟨x, hx, rfl⟩ := List.mem_map.1 hy
    have hg := IMap.get?_of_mem hq.cnodup (a := x.1) (b := x.2) hx
    have hcode := hq.code x.1
    rw [hg] at hcode
    cases hg' : IMap.get? q'.codeImpls x.1 with
    | none => rw [hg'] at hcode; cases hcode
    | some c' =>
      rw [hg'] at hcode
      simp only [Option.map_some, Option.some.injEq] at hcode
      obtain ⟨n', hk, hm⟩ := IMap.mem_of_get? hg'
      have := hn x hx _ hm hk.symm
      simp only at this
      exact List.mem_map.2 ⟨_, hm, by simp only [this, hcode]⟩
  refine lint_same L h.settings (perm_of_mem_iff (IMap.nodup_list (bn p h.nodup)) (IMap.nodup_list (bn p' h.nodup')) fun y => ⟨ma h y, ma h2 y⟩)
    (perm_of_mem_iff (IMap.nodup_list (bc p h.cnodup)) (IMap.nodup_list (bc p' h.cnodup')) fun y =>
      ⟨mc h hn y, mc h2 (fun x hx y hy e => (hn y hy x hx e.symm).symm) y⟩) h.nodup

/-- Crashing in the lints depends only on the texts. -/
theorem panic_of_reads {p p' : Project} (h : Same p p') : p.lint L = .panic → p'.lint L = .panic := by
  rw [C40_crash_iff, C40_crash_iff]
  rintro ⟨x, hx, n, sub, hw, hp⟩
  obtain ⟨x', hx', _, e, _⟩ := h.arts x hx
  have : x'.2.text = x.2.text := by
    have := congrArg (fun a : Artifact => a.text) e
    simpa only [Artifact.bare] using this
  exact ⟨x', hx', n, sub, by rw [this]; exact hw, hp⟩

theorem iset_remove_sub {m : ISet Name} {a x : Name} (h : x ∈ ISet.remove m a) : x ∈ m := by
  rcases ISet.remove_cases m a with ⟨_, h2⟩ | ⟨p, _, _, hperm⟩
  · rw [h2] at h; exact h
  · exact hperm.mem_iff.2 (List.mem_cons_of_mem _ h)

theorem strip_sub {n x : Name} {m : ISet Name} (h : x ∈ stripAuto n m) : x ∈ m := by
  unfold stripAuto at h
  cases hp : n.parent? <;> cases hu : n.auto? <;> simp only [hp, hu] at h
  · exact h
  · exact iset_remove_sub h
  · exact iset_remove_sub h
  · exact iset_remove_sub (iset_remove_sub h)

/-- A name in `parts` is written in one of the artifacts that were read. -/
theorem parts_spelled {l : List ArtifactIm} (he : (joinArtifacts l).lints = []) {code : IMap Name ImplCode} {arts : IMap Name Artifact}
    (hl : Loads hash (joinArtifacts l).arts code (joinArtifacts l).files arts) : ∀ x ∈ arts, ∀ q ∈ x.2.parts, SpelledIn l q := by
  obtain ⟨f1, f2⟩ := C11_present _ he
  have hf : (joinArtifacts l).files.map Prod.fst = (joinArtifacts l).arts.map Prod.fst := by
    rw [f1, f2, List.map_map, List.map_map]; rfl
  intro x hx q hq
  obtain ⟨_, _, _, _, _, hq'⟩ := Loads.raw (joinArtifacts_input l) hf hl x hx
  obtain ⟨y, hy, h⟩ := hq' q hq
  rw [f2] at hy
  obtain ⟨a, ha, rfl⟩ := List.mem_map.1 hy
  refine ⟨a, ha, ?_⟩
  rcases h with h | h
  · exact Or.inl h
  · rcases extend_spelled h with h | h
    · simp only [autoPartofOf] at h
      rw [parent?_eq, auto?_eq]
      cases hp : a.name.parent? with
      | none =>
        cases hu : a.name.auto? with
        | none => simp [hp, hu] at h
        | some u =>
          simp only [hp, hu] at h
          split at h
          · rcases iset_insert_sub h with h | h
            · simp at h
            · subst h; simp
          · simp at h
      | some u' =>
        cases hu : a.name.auto? with
        | none =>
          simp only [hp, hu] at h
          split at h
          · rcases iset_insert_sub h with h | h
            · simp at h
            · subst h; simp
          · simp at h
        | some u =>
          simp only [hp, hu] at h
          split at h
          · rcases iset_insert_sub h with h | h
            · split at h
              · rcases iset_insert_sub h with h | h
                · simp at h
                · subst h; simp
              · simp at h
            · subst h; simp
          · split at h
            · rcases iset_insert_sub h with h | h
              · simp at h
              · subst h; simp
            · simp at h
    · refine Or.inr (Or.inl ?_)
      simp only [ArtifactIm.clean] at h
      have h' := (sortNames_perm _).mem_iff.1 h
      exact strip_sub h'

theorem map_inj_on {α β : Type _} (f : α → β) {l l' : List α} (h : l.map f = l'.map f) (hi : ∀ x ∈ l, ∀ y ∈ l', f x = f y → x = y) : l = l' := by
  induction l generalizing l' with
  | nil => cases l' <;> simp_all
  | cons a l ih =>
    cases l' with
    | nil => simp at h
    | cons b l' =>
      simp only [List.map_cons, List.cons.injEq] at h
      rw [hi a (by simp) b (by simp) h.1, ih h.2 fun x hx y hy => hi x (by simp [hx]) y (by simp [hy])]

/-- Without a difference in spelling the projects are equal. -/
theorem eq_of_foldCase {p p' : Project} (h : foldCase p = foldCase p')
    (hc : ∀ x ∈ p.codeImpls, ∀ y ∈ p'.codeImpls, key x.1 = key y.1 → x.1 = y.1)
    (ha : ∀ x ∈ p.artifacts, ∀ y ∈ p'.artifacts, ∀ q ∈ x.2.parts, ∀ q' ∈ y.2.parts, key q = key q' → q = q') : p = p' := by
  obtain ⟨s, c, a⟩ := p
  obtain ⟨s', c', a'⟩ := p'
  simp only [foldCase, Prod.mk.injEq] at h
  obtain ⟨h1, h2, h3⟩ := h
  simp only at hc ha
  have e2 : c = c' := map_inj_on _ h2 fun x hx y hy e => by
    simp only [Prod.mk.injEq] at e
    exact Prod.ext (hc x hx y hy e.1) e.2
  have e3 : a = a' := map_inj_on _ h3 fun x hx y hy e => by
    simp only [Prod.mk.injEq] at e
    obtain ⟨e1, e2, e3⟩ := e
    have e4 : x.2.parts = y.2.parts := map_inj_on _ e3 fun q hq q' hq' e => ha x hx y hy q hq q' hq' e
    refine Prod.ext e1 ?_
    have : ({ ({ x.2 with parts := [] } : Artifact) with parts := x.2.parts } : Artifact) =
        { ({ y.2 with parts := [] } : Artifact) with parts := y.2.parts } := by rw [e2, e4]
    exact this
  rw [h1, e2, e3]

/-! ## the property -/

/-- Which of the three outcomes there is, and the project except for the spelling of names, do not depend on the schedule, the number of processors
or the order of directory listings. -/
theorem reads_fold {out out' : Res Categorized (Categorized × Project)} (hp : fs.Perm fs') (w : FS.WF fs)
    (h : ReadsWith L hash ncpu fs s out) (h' : ReadsWith L hash ncpu' fs' s out') :
    (∃ e e', out = .err e ∧ out' = .err e') ∨ (out = .panic ∧ out' = .panic) ∨
    ∃ ls q ls' q', out = .ok (ls, q) ∧ out' = .ok (ls', q') ∧ foldCase q = foldCase q' := by
  obtain ⟨r, hr, g⟩ := h
  obtain ⟨r', hr', g'⟩ := h'
  have hne := noError_same hp w hr hr'
  rcases g with ⟨he, rfl⟩ | ⟨he, arts, hl, rfl⟩
  · rcases g' with ⟨_, rfl⟩ | ⟨he', _⟩
    · exact Or.inl ⟨_, _, rfl, rfl⟩
    · exact absurd (hne.2 he') he
  · rcases g' with ⟨he', _⟩ | ⟨he', arts', hl', rfl⟩
    · exact absurd (hne.1 he) he'
    · right
      have S := same_of_reads hp w hr hr' he hl hl'
      have S' := same_of_reads hp.symm (wf_perm hp w) hr' hr he' hl' hl
      unfold finishRead
      cases e : Project.lint L ⟨s, (joinLocations r.locs).1, arts⟩ with
      | panic => rw [panic_of_reads S e]; exact Or.inl ⟨rfl, rfl⟩
      | err x => rcases lint_ne_err L ⟨s, (joinLocations r.locs).1, arts⟩ with ⟨_, h⟩ | h <;> rw [h] at e <;> cases e
      | ok ls =>
        cases e' : Project.lint L ⟨s, (joinLocations r'.locs).1, arts'⟩ with
        | panic => rw [panic_of_reads S' e'] at e; cases e
        | err x => rcases lint_ne_err L ⟨s, (joinLocations r'.locs).1, arts'⟩ with ⟨_, h⟩ | h <;> rw [h] at e' <;> cases e'
        | ok ls' => exact Or.inr ⟨_, _, _, _, rfl, rfl, foldCase_sort S S'⟩

/-- If names are spelled in one way the outcome is the same, lints and messages included. -/
theorem reads_same {out out' : Res Categorized (Categorized × Project)} (hp : fs.Perm fs') (w : FS.WF fs)
    (hc : OneCodeSpelling (allLocs L fs s)) (ha : OneSpelling (allArts L fs s))
    (h : ReadsWith L hash ncpu fs s out) (h' : ReadsWith L hash ncpu' fs' s out') : out = out' := by
  obtain ⟨r, hr, g⟩ := h
  obtain ⟨r', hr', g'⟩ := h'
  have hcr : OneCodeSpelling r.locs :=
    ⟨fun x hx y hy => hc.1 x (hr.locs.mem_iff.1 hx) y (hr.locs.mem_iff.1 hy), fun x hx y hy => hc.2 x (hr.locs.mem_iff.1 hx) y (hr.locs.mem_iff.1 hy)⟩
  have hsp : ∀ {l : List ArtifactIm} {n}, l.Perm (allArts L fs s) → SpelledIn l n → SpelledIn (allArts L fs s) n :=
    fun hpm ⟨a, ha, h⟩ => ⟨a, hpm.mem_iff.1 ha, h⟩
  have har : OneSpelling r.arts := fun n m hn hm => ha n m (hsp hr.arts hn) (hsp hr.arts hm)
  have pl := locs_perm hp w hr hr'
  have pa := arts_perm hp w hr hr'
  have hlint : ∀ d, d ∈ r.lints ↔ d ∈ r'.lints := fun d => by
    rw [mem_lints hr, mem_lints hr', fileLints_perm hp w, join_lints_perm pl hcr, art_lints_perm pa har]
  have hne := noError_same hp w hr hr'
  rcases g with ⟨he, rfl⟩ | ⟨he, arts, hl, rfl⟩
  · rcases g' with ⟨_, rfl⟩ | ⟨he', _⟩
    · have := C32_canonical r.lints [] r'.lints [] (fun d => by simpa using hlint d)
      exact congrArg Res.err this
    · exact absurd (hne.2 he') he
  · rcases g' with ⟨he', _⟩ | ⟨he', arts', hl', rfl⟩
    · exact absurd (hne.1 he) he'
    · have S := same_of_reads hp w hr hr' he hl hl'
      have S' := same_of_reads hp.symm (wf_perm hp w) hr' hr he' hl' hl
      have hn : ∀ x ∈ (joinLocations r.locs).1, ∀ y ∈ (joinLocations r'.locs).1, key x.1 = key y.1 → x.1 = y.1 := by
        intro x hx y hy e
        obtain ⟨z, hz, ez⟩ := joinLocations_from _ x hx
        obtain ⟨z', hz', ez'⟩ := joinLocations_from _ y hy
        rw [← ez, ← ez'] at e ⊢
        exact hcr.1 z hz z' (pl.mem_iff.2 hz') e
      have hq : ∀ x ∈ arts, ∀ y ∈ arts', ∀ q ∈ x.2.parts, ∀ q' ∈ y.2.parts, key q = key q' → q = q' := by
        intro x hx y hy q hq q' hq' e
        have := parts_spelled ((noError_parts hr).1 he).2.2 hl x hx q hq
        obtain ⟨a, ha', h⟩ := parts_spelled ((noError_parts hr').1 he').2.2 hl' y hy q' hq'
        exact har q q' this ⟨a, pa.mem_iff.2 ha', h⟩ e
      have hproj : Project.sort ⟨s, (joinLocations r.locs).1, arts⟩ = Project.sort ⟨s, (joinLocations r'.locs).1, arts'⟩ := by
        refine eq_of_foldCase (foldCase_sort S S') ?_ ?_
        · intro x hx y hy e
          obtain ⟨x0, hx0, rfl⟩ := List.mem_map.1 hx
          obtain ⟨y0, hy0, rfl⟩ := List.mem_map.1 hy
          exact hn x0 ((mem_sortOn _).1 hx0) y0 ((mem_sortOn _).1 hy0) e
        · intro x hx y hy q hqx q' hqy e
          obtain ⟨x0, hx0, rfl⟩ := List.mem_map.1 hx
          obtain ⟨y0, hy0, rfl⟩ := List.mem_map.1 hy
          exact hq x0 ((mem_sortOn _).1 hx0) y0 ((mem_sortOn _).1 hy0) q ((sortNames_perm _).mem_iff.1 hqx) q' ((sortNames_perm _).mem_iff.1 hqy) e
      unfold finishRead
      rcases lints_of_reads (L := L) S S' hn with ⟨ls, ls', e, e', hpm⟩ | ⟨e, e'⟩
      · rw [e, e']
        have := C32_canonical r.lints ls r'.lints ls' (fun d => by rw [List.mem_append, List.mem_append, hlint, hpm.mem_iff])
        simp only [hproj, Run.categorized, this]
      · rw [e, e']

/-! ## from the settings on -/

theorem loadSettingsRaw_perm (readToml : Str → Option SettingsRaw) (hp : fs.Perm fs') (w : FS.WF fs) (base : FilePath) :
    loadSettingsRaw readToml fs base = loadSettingsRaw readToml fs' base := by
  unfold loadSettingsRaw
  simp only [IMap.get?_perm hp w.nodup]

/-- C20, whatever the names look like. Two reads of the same files agree whether it is an error, a crash or a project; and in the latter case
on the project with all links, values and orders, except for the spelling of the names in `parts` and in the code references. The
schedule, the number of processors, the order of directory listings and the topological order may differ. -/
theorem C20_same_but_spelling (readToml : Str → Option SettingsRaw) (hp : fs.Perm fs') (w : FS.WF fs) (base : FilePath)
    {out out' : Res Categorized (Categorized × Project)}
    (h : ReadsProject L readToml hash ncpu fs base out) (h' : ReadsProject L readToml hash ncpu' fs' base out') :
    (∃ e e', out = .err e ∧ out' = .err e') ∨ (out = .panic ∧ out' = .panic) ∨
    ∃ ls q ls' q', out = .ok (ls, q) ∧ out' = .ok (ls', q') ∧ foldCase q = foldCase q' := by
  unfold ReadsProject at h h'
  rw [← loadSettingsRaw_perm readToml hp w] at h'
  cases e : loadSettingsRaw readToml fs base with
  | none => rw [e] at h h'; exact Or.inl ⟨_, _, h, h'⟩
  | some x =>
    obtain ⟨path, raw⟩ := x
    simp only [e] at h h'
    cases e2 : resolveSettings base path raw with
    | ok s => simp only [e2] at h h'; exact reads_fold hp w h h'
    | err _ => simp only [e2] at h h'; exact Or.inr (Or.inl ⟨h, h'⟩)
    | panic => simp only [e2] at h h'; exact Or.inr (Or.inl ⟨h, h'⟩)

/-- C20: if the files spell each name in one way, reading is deterministic: the outcome, including every lint and its message, does not depend
on the schedule. -/
theorem C20_deterministic (readToml : Str → Option SettingsRaw) (hp : fs.Perm fs') (w : FS.WF fs) (base : FilePath)
    (hs : ∀ path raw s, loadSettingsRaw readToml fs base = some (path, raw) → resolveSettings base path raw = .ok s →
      OneCodeSpelling (allLocs L fs s) ∧ OneSpelling (allArts L fs s))
    {out out' : Res Categorized (Categorized × Project)}
    (h : ReadsProject L readToml hash ncpu fs base out) (h' : ReadsProject L readToml hash ncpu' fs' base out') : out = out' := by
  unfold ReadsProject at h h'
  rw [← loadSettingsRaw_perm readToml hp w] at h'
  cases e : loadSettingsRaw readToml fs base with
  | none => rw [e] at h h'; exact h.trans h'.symm
  | some x =>
    obtain ⟨path, raw⟩ := x
    simp only [e] at h h'
    cases e2 : resolveSettings base path raw with
    | ok s =>
      simp only [e2] at h h'
      obtain ⟨h1, h2⟩ := hs path raw s e e2
      exact reads_same hp w h1 h2 h h'
    | err _ => simp only [e2] at h h'; exact h.trans h'.symm
    | panic => simp only [e2] at h h'; exact h.trans h'.symm

/-! ## every schedule has an outcome -/

/-- One outcome of a run, with the topological order of `DiGraph.toposort`. -/
def Run.now (L : Libs) (hash : ArtifactIm → HashIm) (s : Settings) (r : Run) : Res Categorized (Categorized × Project) :=
  if r.categorized.error = [] then
    match finalizeLoadArtifact (joinArtifacts r.arts).arts with
    | .ok l =>
      match determineArtifacts hash l.graphs.full.toposort l (joinLocations r.locs).1 (joinArtifacts r.arts).files with
      | .ok arts => finishRead L r.categorized ⟨s, (joinLocations r.locs).1, arts⟩
      | _ => .panic
    | _ => .panic
  else .err r.categorized.sort

theorem Run.now_gives (L : Libs) (hash : ArtifactIm → HashIm) (s : Settings) (r : Run) : r.Gives L hash s (r.now L hash s) := by
  unfold Run.now Run.Gives
  by_cases he : r.categorized.error = []
  · right
    rw [if_pos he]
    have inp := joinArtifacts_input r.arts
    obtain ⟨l, hl, hall⟩ := Loads.exists (hash := hash) (code := (joinLocations r.locs).1) inp
    have ht := toposort_contract _ inp.nodup l hl
    obtain ⟨arts, ha⟩ := hall _ ht
    refine ⟨he, arts, ⟨l, _, hl, ht, ha⟩, ?_⟩
    rw [hl]
    simp only [ha]
  · left
    rw [if_neg he]
    exact ⟨he, rfl⟩

/-- Every order of arrival is possible and leads to an outcome: what is said about all outcomes is not said about nothing. The hypotheses state that
fewer files crash a worker than there are workers. -/
theorem C20_total (hc : (walkCode fs s).countP (fun f => (codeSent L fs f).dead) < 4)
    (ha : (walkArtifacts fs s).countP (fun f => (artSent L s.pre fs f).dead) < ncpu)
    {locs : List Loc} {arts : List ArtifactIm} (hl : locs.Perm (allLocs L fs s)) (hr : arts.Perm (allArts L fs s)) :
    ∃ lints, Arrives L ncpu fs s ⟨locs, arts, lints⟩ ∧ ∃ out, Run.Gives L hash s ⟨locs, arts, lints⟩ out :=
  ⟨sentLints L fs s locs arts, ⟨hc, ha, hl, hr, List.Perm.refl _⟩, _, Run.now_gives _ _ _ _⟩

end

/-! ## what a worker sends is what `parse_locations` finds -/

theorem sendMatches_scan (file : FilePath) (line : Nat) (ms : List Match) : ∀ sk,
    scanMatches file line sk ms = match sendMatches file line sk ms with
      | (locs, some sk') => .ok (sk', locs)
      | (_, none) => .panic := by
  induction ms with
  | nil => intro sk; rfl
  | cons m ms ih =>
    intro sk
    unfold scanMatches sendMatches
    cases ht : srcTok m with
    | none => cases sk <;> simp [ih]
    | some t =>
      cases t with
      | skip => simp only [ih]
      | done => simp only [ih]
      | ref n sub =>
        cases sk with
        | true => simp only [if_true, ih]
        | false =>
          simp only [Bool.false_eq_true, if_false]
          cases hn : Name.fromStr n with
          | ok name =>
            simp only [ih]
            rcases sendMatches file line false ms with ⟨locs, _ | sk'⟩ <;> rfl
          | err _ => rfl
          | panic => rfl

theorem sendLines_scan (file : FilePath) (s : Str) :
    parseLocations file s = if (sendLines file 0 false (lines s)).2 then .panic else .ok (sendLines file 0 false (lines s)).1 := by
  unfold parseLocations
  generalize 0 = n
  generalize false = sk
  induction lines s generalizing n sk with
  | nil => rfl
  | cons l ls ih =>
    unfold scanLines sendLines
    rw [sendMatches_scan]
    rcases sendMatches file n sk (srcRe.findIter l) with ⟨locs, _ | sk'⟩
    · rfl
    · simp only [bind, Res.bind, ih]
      cases (sendLines file (n + 1) sk' ls).2 <;> rfl

/-- A worker sends exactly what the scan of C09 finds in the file, and dies where the scan crashes. Of a file that is not UTF-8 it sends what is found before
the bad line, and reports an error. -/
theorem C20_sends_scan (L : Libs) (fs : FS) (file : FilePath) (good : Str) :
    (IMap.get? fs file = some (.file (.text good)) →
      parseLocations file good = (if (codeSent L fs file).dead then .panic else .ok (codeSent L fs file).items) ∧ (codeSent L fs file).lints = []) ∧
    (∀ bad, IMap.get? fs file = some (.file (.binary good bad)) →
      parseLocations file good = (if (codeSent L fs file).dead then .panic else .ok (codeSent L fs file).items) ∧
      ((codeSent L fs file).dead = false → (codeSent L fs file).lints = [Lint.loadError file (L.errMsg .io)])) := by
  refine ⟨fun h => ?_, fun bad h => ?_⟩
  · unfold codeSent
    rw [h]
    exact ⟨sendLines_scan file good, rfl⟩
  · unfold codeSent
    rw [h]
    refine ⟨sendLines_scan file good, fun hd => ?_⟩
    simp only at hd
    simp [hd]

/-! ## concrete projects -/

/-- Settings that read `/p/design` and `/p/src`. -/
def exRaw : SettingsRaw := ⟨[c!"design"], [], [c!"src"], [], none, .default, .hashes⟩

/-- A project with a requirement, two specifications and code. -/
def exFs (a b x y : Str) : FS :=
  [(c!"", .dir), (c!"/p", .dir), (c!"/p/.art", .dir), (c!"/p/.art/settings.toml", .file (.text c!"")), (c!"/p/design", .dir),
   (c!"/p/design/a.md", .file (.text a)), (c!"/p/design/b.md", .file (.text b)), (c!"/p/src", .dir),
   (c!"/p/src/x.rs", .file (.text x)), (c!"/p/src/y.rs", .file (.text y))]

/-- The second line of the file holds a reference. -/
example : IMap.get? (exFs [] [] (c!"fn main() {}\n// #SPC-one.two") []) c!"/p/src/x.rs" = some (.file (.text c!"fn main() {}\n// #SPC-one.two")) ∧
    (codeSent exLibs (exFs [] [] (c!"fn main() {}\n// #SPC-one.two") []) c!"/p/src/x.rs").items =
      [(⟨c!"/p/src/x.rs", 1⟩, Name.lit c!"SPC-one", some ⟨c!".two"⟩)] := by
  decide +kernel

theorem exFs_wf (a b x y : Str) : FS.WF (exFs a b x y) where
  nodup := by
    show (List.map (fun p : FilePath × Node => key p.1) (exFs a b x y)).Nodup
    have : List.map (fun p : FilePath × Node => key p.1) (exFs a b x y) = List.map (fun p : FilePath × Node => key p.1) (exFs [] [] [] []) := rfl
    rw [this]; decide
  root := rfl
  parent := by
    intro e he hne
    simp only [exFs, List.mem_cons, List.not_mem_nil, or_false] at he
    rcases he with rfl | rfl | rfl | rfl | rfl | rfl | rfl | rfl | rfl | rfl
    · exact absurd rfl hne
    · exact ⟨c!"", c!"p", rfl, by decide, by decide, rfl⟩
    · exact ⟨c!"/p", c!".art", rfl, by decide, by decide, rfl⟩
    · exact ⟨c!"/p/.art", c!"settings.toml", rfl, by decide, by decide, rfl⟩
    · exact ⟨c!"/p", c!"design", rfl, by decide, by decide, rfl⟩
    · exact ⟨c!"/p/design", c!"a.md", rfl, by decide, by decide, rfl⟩
    · exact ⟨c!"/p/design", c!"b.md", rfl, by decide, by decide, rfl⟩
    · exact ⟨c!"/p", c!"src", rfl, by decide, by decide, rfl⟩
    · exact ⟨c!"/p/src", c!"x.rs", rfl, by decide, by decide, rfl⟩
    · exact ⟨c!"/p/src", c!"y.rs", rfl, by decide, by decide, rfl⟩

/-- The settings of the examples. -/
def exS : Settings := ⟨c!"/p", c!"/p/.art/settings.toml", [c!"/p/src"], [], [c!"/p/design"], [], none, .default, .hashes⟩

theorem exFs_settings (a b x y : Str) : loadSettingsRaw (fun _ => some exRaw) (exFs a b x y) c!"/p" = some (exS.settingsPath, exRaw) ∧
    resolveSettings c!"/p" exS.settingsPath exRaw = .ok exS := by
  constructor
  · rfl
  · decide +kernel

/-- The names `SpelledIn` talks about. -/
def spelledList (l : List ArtifactIm) : List Name := l.flatMap (fun a => a.name :: a.partof ++ a.name.parent?.toList ++ a.name.auto?.toList)

theorem oneSpelling_of {l : List ArtifactIm} (h : ∀ n ∈ spelledList l, ∀ m ∈ spelledList l, key n = key m → n = m) : OneSpelling l := by
  have hm : ∀ n, SpelledIn l n → n ∈ spelledList l := by
    rintro n ⟨a, ha, h⟩
    refine List.mem_flatMap.2 ⟨a, ha, ?_⟩
    rw [parent?_eq, auto?_eq] at h
    simp only [Res.ok.injEq] at h
    simp only [List.mem_cons, List.mem_append, Option.mem_toList]
    tauto
  exact fun n m hn hm' => h n (hm n hn) m (hm m hm')

/-- A run in which everything arrives in the order of the files, or in the reverse order. -/
def exRun (fs : FS) (rev : Bool) : Run :=
  let locs := if rev then (allLocs exLibs fs exS).reverse else allLocs exLibs fs exS
  let arts := if rev then (allArts exLibs fs exS).reverse else allArts exLibs fs exS
  ⟨locs, arts, sentLints exLibs fs exS locs arts⟩

theorem exRun_arrives (fs : FS) (rev : Bool) (hc : (walkCode fs exS).countP (fun f => (codeSent exLibs fs f).dead) < 4)
    (ha : (walkArtifacts fs exS).countP (fun f => (artSent exLibs exS.pre fs f).dead) < 4) : Arrives exLibs 4 fs exS (exRun fs rev) := by
  refine ⟨hc, ha, ?_, ?_, List.Perm.refl _⟩
  · unfold exRun; cases rev
    · exact List.Perm.refl _
    · exact List.reverse_perm _
  · unfold exRun; cases rev
    · exact List.Perm.refl _
    · exact List.reverse_perm _

theorem exRun_reads (a b x y : Str) (rev : Bool)
    (hc : (walkCode (exFs a b x y) exS).countP (fun f => (codeSent exLibs (exFs a b x y) f).dead) < 4)
    (ha : (walkArtifacts (exFs a b x y) exS).countP (fun f => (artSent exLibs exS.pre (exFs a b x y) f).dead) < 4) :
    ReadsProject exLibs (fun _ => some exRaw) exHash 4 (exFs a b x y) c!"/p" ((exRun (exFs a b x y) rev).now exLibs exHash exS) := by
  unfold ReadsProject
  rw [(exFs_settings a b x y).1]
  simp only [(exFs_settings a b x y).2]
  exact ⟨_, exRun_arrives _ rev hc ha, Run.now_gives _ _ _ _⟩

/-- Two design files and two source files that spell names consistently. -/
def exGood : FS := exFs c!"# REQ-a\nwhat\n# SPC-a\nhow [[.x]]\n" c!"# SPC-b\nmore\n" c!"// #SPC-a\n// #SPC-a.x" c!"// #SPC-b"

/-- The hypotheses of `C20_deterministic` and `C20_total` hold for a project that loads, with three artifacts and no lint. -/
example : FS.WF exGood ∧ OneCodeSpelling (allLocs exLibs exGood exS) ∧ OneSpelling (allArts exLibs exGood exS) ∧
    ((exRun exGood true).now exLibs exHash exS).toOption.map (fun r => (r.1, r.2.artifacts.map (fun x => String.ofList x.1.raw))) =
      some (⟨[], []⟩, ["REQ-a", "SPC-a", "SPC-b"]) :=
  ⟨exFs_wf _ _ _ _, by unfold OneCodeSpelling; decide +kernel, oneSpelling_of (by decide +kernel), by decide +kernel⟩

/-- Why spelling is excepted: two references to one artifact in different case, in two files. -/
def exCase : FS := exFs c!"# SPC-a\n[[.x]] [[.y]]\n" c!"" c!"// #SPC-a.x" c!"// #SPC-A.y"

/-- Which spelling is shown for a code reference depends on the schedule: the same files can be read as two different projects, both without any lint. -/
theorem C20_case_matters : FS.WF exCase ∧ ∃ out out',
    ReadsProject exLibs (fun _ => some exRaw) exHash 4 exCase c!"/p" (.ok (⟨[], []⟩, out)) ∧
    ReadsProject exLibs (fun _ => some exRaw) exHash 4 exCase c!"/p" (.ok (⟨[], []⟩, out')) ∧
    out.codeImpls.map (fun x => x.1.raw) = [c!"SPC-a"] ∧ out'.codeImpls.map (fun x => x.1.raw) = [c!"SPC-A"] := by
  refine ⟨exFs_wf _ _ _ _, ?_⟩
  have h1 := exRun_reads c!"# SPC-a\n[[.x]] [[.y]]\n" c!"" c!"// #SPC-a.x" c!"// #SPC-A.y" false (by decide +kernel) (by decide +kernel)
  have h2 := exRun_reads c!"# SPC-a\n[[.x]] [[.y]]\n" c!"" c!"// #SPC-a.x" c!"// #SPC-A.y" true (by decide +kernel) (by decide +kernel)
  have e1 : ((exRun exCase false).now exLibs exHash exS).toOption.map (fun r => (r.1, r.2.codeImpls.map (fun x => x.1.raw))) =
      some (⟨[], []⟩, [c!"SPC-a"]) := by decide +kernel
  have e2 : ((exRun exCase true).now exLibs exHash exS).toOption.map (fun r => (r.1, r.2.codeImpls.map (fun x => x.1.raw))) =
      some (⟨[], []⟩, [c!"SPC-A"]) := by decide +kernel
  have get : ∀ {o : Res Categorized (Categorized × Project)} {c : Categorized} {l : List Str},
      o.toOption.map (fun r => (r.1, r.2.codeImpls.map (fun x => x.1.raw))) = some (c, l) →
      ∃ q : Project, o = .ok (c, q) ∧ q.codeImpls.map (fun x => x.1.raw) = l := by
    rintro (⟨c', q⟩ | _ | _) c l h
    · simp only [Res.toOption, Option.map_some, Option.some.injEq, Prod.mk.injEq] at h
      exact ⟨q, by rw [h.1], h.2⟩
    · cases h
    · cases h
  obtain ⟨q, hq, hl⟩ := get e1
  obtain ⟨q', hq', hl'⟩ := get e2
  exact ⟨q, q', hq ▸ h1, hq' ▸ h2, hl, hl'⟩

/-- A design file with an artifact and then a name that crashes the parser. -/
def exLostText : Str := c!"# SPC-ok\nfine\n# " ++ [Char.ofNat 0x17F] ++ c!"PC-bad\n"
def exLost : FS := exFs exLostText c!"# SPC-b\nmore\n" c!"" c!""

/-- A design file that crashes a worker is dropped silently: the read succeeds, without a lint, and the artifact that was written in the file is
missing from the project. -/
theorem C20_panicking_file_lost : FS.WF exLost ∧ IMap.get? exLost c!"/p/design/a.md" = some (.file (.text exLostText)) ∧ ∃ q : Project,
    ReadsProject exLibs (fun _ => some exRaw) exHash 4 exLost c!"/p" (.ok (⟨[], []⟩, q)) ∧
    q.artifacts.map (fun x => x.1.raw) = [c!"SPC-b"] := by
  refine ⟨exFs_wf _ _ _ _, rfl, ?_⟩
  have h1 := exRun_reads exLostText c!"# SPC-b\nmore\n" c!"" c!"" false (by decide +kernel) (by decide +kernel)
  have e1 : ((exRun exLost false).now exLibs exHash exS).toOption.map (fun r => (r.1, r.2.artifacts.map (fun x => x.1.raw))) =
      some (⟨[], []⟩, [c!"SPC-b"]) := by decide +kernel
  cases h : (exRun exLost false).now exLibs exHash exS with
  | ok r =>
    rw [h] at e1
    simp only [Res.toOption, Option.map_some, Option.some.injEq, Prod.mk.injEq] at e1
    have hr : r = (⟨[], []⟩, r.2) := Prod.ext e1.1 rfl
    refine ⟨r.2, ?_, e1.2⟩
    rw [← hr, ← h]
    exact h1
  | err _ => rw [h] at e1; cases e1
  | panic => rw [h] at e1; cases e1

end Art
