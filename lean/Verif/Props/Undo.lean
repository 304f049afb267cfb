import Verif.Spec.Undo
import Verif.Props.Life

/-!
# C80: every edit can be taken back
-/

namespace Art.Undo
open Spec Cli

variable {L : Libs} {readToml : Str → Option SettingsRaw} {hash : ArtifactIm → HashIm} {dbg : ArtifactIm → Str} {c c' : Categorized} {p p' q : Project}
  {ops ops' l : List ArtifactOp} {op op' : ArtifactOp}

/-! ## one operation and the one that takes it back -/

theorem editable_clean (hs : ProjectSets p) {b : ArtifactIm} (h : b ∈ editable p) : b.clean = b ∧ ISet.Nodup b.partof := by
  obtain ⟨x, hx, rfl⟩ := List.mem_map.1 h
  obtain ⟨h1, h2⟩ := clean_toIm (hs.links x hx)
  exact ⟨h2, h1.distinct⟩

theorem idle_update {a : ArtifactIm} {id : HashIm} : Idle hash (.update a id) ↔ id = hash a :=
  ⟨fun ⟨x, h⟩ => by cases h; rfl, fun h => ⟨a, by rw [h]⟩⟩

theorem idle_create {a : ArtifactIm} : ¬ Idle hash (.create a) := fun ⟨_, h⟩ => nomatch h
theorem idle_delete {n : Name} {id : HashIm} : ¬ Idle hash (.delete n id) := fun ⟨_, h⟩ => nomatch h

theorem back_facts (hs : ProjectSets p) (h : Back hash p op op') :
    (Idle hash op'.clean ↔ Idle hash op.clean) ∧ (∀ id, Presents op'.clean id ↔ ∃ a, Brings op.clean a ∧ hash a = id) ∧
    (∀ b, Brings op'.clean b → b ∈ editable p ∧ Presents op.clean (hash b)) ∧ ∀ id, Presents op.clean id → ∃ b, Brings op'.clean b ∧ hash b = id := by
  cases h with
  | create =>
    refine ⟨iff_of_false idle_delete idle_create, fun id => ?_, fun b h => absurd h brings_delete, fun id h => absurd h presents_create⟩
    simp only [ArtifactOp.clean, presents_delete, brings_create, exists_eq_left]
    exact eq_comm
  | delete hb =>
    refine ⟨iff_of_false idle_create idle_delete, fun id => iff_of_false presents_create fun ⟨_, h, _⟩ => brings_delete h, fun b h => ?_, fun id h => ?_⟩
    · rw [ArtifactOp.clean, brings_create, (editable_clean hs hb).1] at h
      subst h
      exact ⟨hb, presents_delete.2 rfl⟩
    · rw [ArtifactOp.clean, presents_delete] at h
      exact ⟨_, brings_create.2 (editable_clean hs hb).1.symm, h.symm⟩
  | update hb =>
    refine ⟨?_, fun id => ?_, fun b h => ?_, fun id h => ?_⟩
    · simp only [ArtifactOp.clean, idle_update, (editable_clean hs hb).1]
      exact eq_comm
    · simp only [ArtifactOp.clean, presents_update, brings_update, exists_eq_left]
      exact eq_comm
    · rw [ArtifactOp.clean, brings_update, (editable_clean hs hb).1] at h
      subst h
      exact ⟨hb, presents_update.2 rfl⟩
    · rw [ArtifactOp.clean, presents_update] at h
      exact ⟨_, brings_update.2 (editable_clean hs hb).1.symm, h.symm⟩

theorem back_touches (hs : ProjectSets p) (h : Back hash p op op') (id : HashIm) : Spec.Touches hash op'.clean id ↔ Spec.Touches hash op.clean id := by
  obtain ⟨f1, f2, f3, f4⟩ := back_facts hs h
  unfold Spec.Touches
  rw [f1, f2]
  refine and_congr_right fun _ => ⟨?_, ?_⟩
  · rintro (h | ⟨b, hb, rfl⟩)
    · exact Or.inr h
    · exact Or.inl (f3 b hb).2
  · rintro (h | h)
    · exact Or.inr (f4 id h)
    · exact Or.inl h

theorem forall₂_pairwise {α β : Type} {R : α → β → Prop} {S : α → α → Prop} {T : β → β → Prop} {l : List α} {m : List β} (h : List.Forall₂ R l m)
    (hst : ∀ a b x y, R a x → R b y → S a b → T x y) (hp : l.Pairwise S) : m.Pairwise T := by
  induction h with
  | nil => exact List.Pairwise.nil
  | cons hab hr ih =>
    obtain ⟨h1, h2⟩ := List.pairwise_cons.1 hp
    refine List.pairwise_cons.2 ⟨fun y hy => ?_, ih h2⟩
    obtain ⟨x, hx, hxy⟩ := forall₂_mem_right hr hy
    exact hst _ _ _ _ hab hxy (h1 x hx)

/-! ## the whole batch -/

/-- The two batches in terms of each other. -/
structure Opposite (hash : ArtifactIm → HashIm) (p : Project) (o o' : List ArtifactOp) : Prop where
  overlap : NoOverlap hash o → NoOverlap hash o'
  there : ∀ x ∈ o, ∃ y ∈ o', (Idle hash y ↔ Idle hash x) ∧ ∀ id, Presents x id → ∃ b, Brings y b ∧ hash b = id
  back : ∀ y ∈ o', ∃ x ∈ o, (Idle hash y ↔ Idle hash x) ∧ (∀ id, Presents y id ↔ ∃ a, Brings x a ∧ hash a = id) ∧ ∀ b, Brings y b → b ∈ editable p ∧ Presents x (hash b)
  taken : ∀ x ∈ o, ∃ y ∈ o', (Idle hash y ↔ Idle hash x) ∧ ∀ a, Brings x a → Presents y (hash a)

theorem opposite (hs : ProjectSets p) (h : TakesBack hash p ops ops') : Opposite hash p (ops.map ArtifactOp.clean) (ops'.map ArtifactOp.clean) := by
  obtain ⟨l, hl, hp⟩ := h
  have hpc := hp.map ArtifactOp.clean
  refine ⟨fun hn => ?_, fun x hx => ?_, fun y hy => ?_, fun x hx => ?_⟩
  · rw [(presents_perm (p := p) hpc).2.2.2.1]
    unfold NoOverlap at hn ⊢
    rw [List.pairwise_map] at hn ⊢
    refine forall₂_pairwise hl (fun a b x y hax hby h id h1 h2 => ?_) hn
    exact h id ((back_touches hs hax id).1 h1) ((back_touches hs hby id).1 h2)
  · obtain ⟨x0, hx0, rfl⟩ := List.mem_map.1 hx
    obtain ⟨y0, hy0, hb⟩ := forall₂_mem_left hl hx0
    obtain ⟨f1, f2, f3, f4⟩ := back_facts hs hb
    exact ⟨_, hpc.mem_iff.2 (List.mem_map_of_mem hy0), f1, f4⟩
  · obtain ⟨y0, hy0, rfl⟩ := List.mem_map.1 hy
    obtain ⟨x0, hx0, hb⟩ := forall₂_mem_right hl (hp.mem_iff.1 hy0)
    obtain ⟨f1, f2, f3, f4⟩ := back_facts hs hb
    exact ⟨_, List.mem_map_of_mem hx0, f1, f2, f3⟩
  · obtain ⟨x0, hx0, rfl⟩ := List.mem_map.1 hx
    obtain ⟨y0, hy0, hb⟩ := forall₂_mem_left hl hx0
    obtain ⟨f1, f2, f3, f4⟩ := back_facts hs hb
    exact ⟨_, hpc.mem_iff.2 (List.mem_map_of_mem hy0), f1, fun a ha => (f2 _).2 ⟨a, ha, rfl⟩⟩

/-- What is needed of the second batch to be accepted, and what it leaves. `q` has the artifacts after the first batch. -/
theorem opposite_fits {o o' : List ArtifactOp} (O : Opposite hash p o o') (hno : NoOverlap hash o) (hcol : NoCollision hash p o) (hu : Unchained hash o) (hm : Matches hash p o)
    (fresh : ∀ x ∈ o, ¬ Idle hash x → ∀ a, Brings x a → a ∉ editable p)
    (hq : ∀ a, a ∈ editable q ↔ (a ∈ editable p ∧ ¬ TakenOut hash o (hash a)) ∨ ∃ x ∈ o, ¬ Idle hash x ∧ Brings x a) :
    NoOverlap hash o' ∧ Unchained hash o' ∧ Matches hash q o' ∧ NoCollision hash q o' ∧
    ∀ a, a ∈ editable p ↔ (a ∈ editable q ∧ ¬ TakenOut hash o' (hash a)) ∨ ∃ y ∈ o', ¬ Idle hash y ∧ Brings y a := by
  have hall : ∀ a, (a ∈ editable q ∨ ∃ y ∈ o', Brings y a) → a ∈ editable p ∨ ∃ x ∈ o, Brings x a := by
    rintro a (h | ⟨y, hy, hb⟩)
    · rcases (hq a).1 h with ⟨h, _⟩ | ⟨x, hx, _, hb⟩
      · exact Or.inl h
      · exact Or.inr ⟨x, hx, hb⟩
    · obtain ⟨x, _, _, _, h3⟩ := O.back y hy
      exact Or.inl (h3 a hb).1
  have t1 : ∀ id, TakenOut hash o' id → BroughtIn hash o id := by
    rintro id ⟨y, hy, hi, hp⟩
    obtain ⟨x, hx, h1, h2, _⟩ := O.back y hy
    exact ⟨x, hx, fun h => hi (h1.2 h), (h2 id).1 hp⟩
  have t2 : ∀ id, BroughtIn hash o id → TakenOut hash o' id := by
    rintro id ⟨x, hx, hi, a, ha, rfl⟩
    obtain ⟨y, hy, h1, h2⟩ := O.taken x hx
    exact ⟨y, hy, fun h => hi (h1.1 h), h2 a ha⟩
  have b1 : ∀ id, BroughtIn hash o' id → TakenOut hash o id := by
    rintro id ⟨y, hy, hi, b, hb, rfl⟩
    obtain ⟨x, hx, h1, _, h3⟩ := O.back y hy
    exact ⟨x, hx, fun h => hi (h1.2 h), (h3 b hb).2⟩
  refine ⟨O.overlap hno, ?_, ⟨?_, ?_⟩, ?_, fun a => ⟨fun ha => ?_, ?_⟩⟩
  · intro a ha
    obtain ⟨x, hx, h1, h2, h3⟩ := O.back _ ha
    obtain ⟨z, rfl⟩ := h1.1 ⟨a, rfl⟩
    have e := (h3 a (brings_update.2 rfl)).2
    rw [presents_update] at e
    rw [e]
    obtain ⟨u1, u2⟩ := hu z hx
    exact ⟨fun h => u2 (b1 _ h), fun h => u1 (t1 _ h)⟩
  · intro y hy id hp
    obtain ⟨x, hx, h1, h2, h3⟩ := O.back y hy
    obtain ⟨a, ha, rfl⟩ := (h2 id).1 hp
    by_cases hi : Idle hash x
    · obtain ⟨z, rfl⟩ := hi
      rw [brings_update] at ha
      subst ha
      obtain ⟨d, hd, e⟩ := hm.1 _ hx (hash a) (presents_update.2 rfl)
      have := hcol d a (Or.inl hd) (Or.inr ⟨_, hx, brings_update.2 rfl⟩) e
      subst this
      exact ⟨d, (hq d).2 (Or.inl ⟨hd, (hu d hx).2⟩), rfl⟩
    · exact ⟨a, (hq a).2 (Or.inr ⟨x, hx, hi, ha⟩), rfl⟩
  · intro b hb d hd e
    obtain ⟨x, hx, h1, h2, h3⟩ := O.back _ hb
    obtain ⟨k1, k2⟩ := h3 b (brings_create.2 rfl)
    have hi : ¬ Idle hash x := fun h => idle_create (h1.2 h)
    rcases (hq d).1 hd with ⟨_, hd2⟩ | ⟨z, hz, hzi, hzb⟩
    · exact hd2 ⟨x, hx, hi, e ▸ k2⟩
    · have := hcol d b (Or.inr ⟨z, hz, hzb⟩) (Or.inl k1) e
      subst this
      exact fresh z hz hzi d hzb k1
  · intro a b ha hb e
    exact hcol a b (hall a ha) (hall b hb) e
  · by_cases ht : TakenOut hash o (hash a)
    · obtain ⟨x, hx, hi, hp⟩ := ht
      obtain ⟨y, hy, h1, h2⟩ := O.there x hx
      obtain ⟨b, hb, e⟩ := h2 _ hp
      obtain ⟨_, _, _, _, h3⟩ := O.back y hy
      have := hcol b a (Or.inl (h3 b hb).1) (Or.inl ha) e
      subst this
      exact Or.inr ⟨y, hy, fun h => hi (h1.1 h), hb⟩
    · refine Or.inl ⟨(hq a).2 (Or.inl ⟨ha, ht⟩), fun h => ?_⟩
      obtain ⟨x, hx, hi, b, hb, e⟩ := t1 _ h
      have := hcol b a (Or.inr ⟨x, hx, hb⟩) (Or.inl ha) e
      subst this
      exact fresh x hx hi b hb ha
  · rintro (⟨h1, h2⟩ | ⟨y, hy, _, hb⟩)
    · rcases (hq a).1 h1 with ⟨h, _⟩ | ⟨x, hx, hi, hb⟩
      · exact h
      · exact absurd (t2 _ ⟨x, hx, hi, a, hb, rfl⟩) h2
    · obtain ⟨_, _, _, _, h3⟩ := O.back y hy
      exact (h3 a hb).1

/-! ## the decision about the second batch -/

/-- The lints of a project that are errors. -/
theorem lint_errors {P : Project} {ls : List Lint} (h : P.lint L = .ok ls) (d : Lint) :
    (d ∈ ls ∧ d.level = .error) ↔ (d ∈ P.lintErrors L ∨ d ∈ lintSettings L P) ∧ d.level = .error := by
  obtain ⟨refs, hr, rfl⟩ := lint_ok.1 h
  refine and_congr_left fun hd => ?_
  simp only [List.mem_append]
  constructor
  · rintro (h | (h | h) | h)
    · exact Or.inl h
    · obtain ⟨x, _, m, _, k, e, hl⟩ := (lintTextRefs_mem hr d).1 h
      rw [(refLintOf_shape e d hl).1] at hd; cases hd
    · obtain ⟨x, _, hl⟩ := List.mem_flatMap.1 h
      rw [(codeLintStep_shape d hl).1] at hd; cases hd
    · exact Or.inr h
  · rintro (h | h)
    · exact Or.inl h
    · exact Or.inr (Or.inr h)

theorem categorize_errors {ls : List Lint} : (Categorized.categorize ⟨[], []⟩ ls).sort.error = [] ↔ ∀ d ∈ ls, d.level ≠ .error := by
  obtain ⟨e, _⟩ := C32_exact ls
  rw [List.eq_nil_iff_forall_not_mem]
  constructor
  · intro h d hd hl; exact h d ((e d).2 ⟨hd, hl⟩)
  · intro h d hd; exact h d ((e d).1 hd).1 ((e d).1 hd).2

variable {n n' n2 : Nat} {fs fs' fs'' : FS} {base : FilePath} {s : Settings} {files : List (FilePath × Str)} {cfg : Cfg} {c2 : Categorized}

/-- What is read after a successful save has no error: it can be edited again. -/
theorem read_clean (w : FS.WF fs) (hs : SettingsOf readToml fs base s) (hsafe : Safe fs s) (ap : Apart s) (hl : LinkSets ops)
    (hr : ReadsProject L readToml hash n fs base (.ok (c, p))) (hpl : Plans L hash dbg c p ops (.ok (c', p')))
    (hf : projectFiles L p' = .ok files) (hre : Reaches L p'.settings files (Cfg.init L fs p'.settings) cfg) (hd : cfg.phase = .done)
    (once : ∀ op ∈ ops, ∀ a, Brings op a → ReadOnce s a.file)
    (kept : ∀ a ∈ editable p', Survives L s a.file (inFile (editable p') a.file))
    (h' : ReadsProject L readToml hash n' cfg.fs base (.ok (c2, q))) :
    c2.error = [] ∧ q.settings = p.settings ∧ (editable q).Perm (editable p') ∧
    ∀ m, (IMap.get? q.codeImpls m).map ImplCode.sort = (IMap.get? p.codeImpls m).map ImplCode.sort := by
  obtain ⟨r', q2, ha', he', S, S', e⟩ := reload w hs hsafe ap hl hr hpl hf hre hd once kept h'
  obtain ⟨raw, path, s0, r, arts, ls, g1, g2, ha, he, hlo, hli, hp, hcc⟩ := reads_parts hr
  obtain ⟨k1, _, _, _, ims, _, _, _, hpp, hlv, _⟩ := plans_ok hpl
  unfold finishRead at e
  cases e2 : q2.lint L with
  | err x => rw [e2] at e; cases e
  | panic => rw [e2] at e; cases e
  | ok ls2 =>
    rw [e2] at e
    obtain ⟨rfl, rfl⟩ := Prod.mk.inj (Res.ok.inj e)
    have hset : p'.settings = p.settings := by rw [hpp]
    have z : r.categorized = ⟨[], []⟩ := by unfold Run.categorized; rw [read_no_lints ha he]; rfl
    have z' : r'.categorized = ⟨[], []⟩ := by unfold Run.categorized; rw [read_no_lints ha' he']; rfl
    refine ⟨?_, ?_, ?_, fun m => ?_⟩
    · rw [z', categorize_errors]
      intro d hd hl
      rw [hcc, z, categorize_errors] at k1
      rcases (lint_errors e2 d).1 ⟨hd, hl⟩ |>.1 with h | h
      · exact hlv d ((lintErrors_same S S').mem_iff.2 h) hl
      · have : lintSettings L q2 = lintSettings L ⟨s0, (joinLocations r.locs).1, arts⟩ := by
          have : q2.settings = s0 := by rw [← S.settings, hset, hp]; rfl
          unfold lintSettings
          rw [this]
        rw [this] at h
        exact k1 d ((lint_errors hli d).2 ⟨Or.inr h, hl⟩).1 hl
    · rw [← hset, S.settings]; rfl
    · rw [editable_foldCase (foldCase_sort S' S)]
      exact editable_sort (plans_nodup hpl)
    · have h1 : (IMap.get? q2.sort.codeImpls m).map ImplCode.sort = (IMap.get? q2.codeImpls m).map ImplCode.sort := get_sorted S.cnodup' m
      rw [h1, ← S.code m, hpp]

/-- A batch on a project `q` that leaves exactly the artifacts of a project `p` with the same settings and code, which was read without errors, is accepted and gives `p`. -/
theorem plan_back (hr : ReadsProject L readToml hash n fs base (.ok (c, p))) (hc : c.error = []) (hset : q.settings = p.settings)
    (hcode : ∀ m, (IMap.get? q.codeImpls m).map ImplCode.sort = (IMap.get? p.codeImpls m).map ImplCode.sort) (sq : ProjectSets q) (hl : LinkSets ops) (hc2 : c2.error = [])
    (hno : NoOverlap hash (ops.map ArtifactOp.clean)) (hpath : PathsOk q.settings (ops.map ArtifactOp.clean)) (hu : Unchained hash (ops.map ArtifactOp.clean))
    (hm : Matches hash q (ops.map ArtifactOp.clean)) (hcol : NoCollision hash q (ops.map ArtifactOp.clean))
    (hall : ∀ a, a ∈ editable p ↔ (a ∈ editable q ∧ ¬ TakenOut hash (ops.map ArtifactOp.clean) (hash a)) ∨ ∃ y ∈ ops.map ArtifactOp.clean, ¬ Idle hash y ∧ Brings y a)
    {out : Res ModifyError (Categorized × Project)} (h : Plans L hash dbg c2 q ops out) :
    ∃ c3 p3, out = .ok (c3, p3) ∧ foldCase p3.sort = foldCase p := by
  have hf : (performOps hash dbg (artifactIms hash q) (ops.map ArtifactOp.clean)).1 = [] := by
    by_contra hx
    obtain ⟨e, he, hk⟩ := ((prepare_cases (hash := hash) (dbg := dbg) c2 q ops).2.2.2 hc2 hno hpath).1 hx
    refine (C24_mismatch_iff h hc2 hno hpath hu).1 ?_ hm
    unfold Plans at h
    rw [he] at h
    exact ⟨e, h, hk⟩
  obtain ⟨m1, m2⟩ := ims_mem hno hf hcol
  have g := ((prepare_cases (hash := hash) (dbg := dbg) c2 q ops).2.2.2 hc2 hno hpath).2 hf
  have hclean := ims_clean (hash := hash) (dbg := dbg) sq hl
  unfold Plans at h
  rw [g] at h
  obtain ⟨arts2, l2, o2⟩ := h
  generalize hims : (performOps hash dbg (artifactIms hash q) (ops.map ArtifactOp.clean)).2.map Prod.snd = ims at *
  obtain ⟨raw, path, s0, r, arts, ls, g1, g2, ha, he, hlo, hli, hp, hcc⟩ := reads_parts hr
  obtain ⟨n1, n2, n3⟩ := (noError_parts ha).1 he
  have hn : ∀ x ∈ arts, ISet.Nodup x.2.partof := by
    intro x hx
    obtain ⟨im, as⟩ := (hlo.spec (joinArtifacts_input r.arts)).2.2.2.2.2.1 x.2 (List.mem_map.2 ⟨x, hx, rfl⟩)
    exact as.pnodup
  have hpe : (editable p).Perm (r.arts.map ArtifactIm.clean) := by
    rw [hp]
    refine (editable_sort (p := ⟨s0, (joinLocations r.locs).1, arts⟩) hn).trans ?_
    show (arts.map (fun x => x.2.toIm)).Perm _
    rw [loads_toIm n3 (fun a h => (arrives_art ha h).2.2) hlo]
  have hnames : (r.arts.map ArtifactIm.clean).Pairwise (fun a b => key a.name ≠ key b.name) := by
    rw [C11_reported] at n3
    rw [List.pairwise_map]
    exact n3
  have hnd : (editable p).Nodup := by
    rw [hpe.nodup_iff]
    exact List.Nodup.of_map (fun a : ArtifactIm => key a.name) (List.pairwise_map.2 hnames)
  have hperm : ims.Perm (editable p) := (List.perm_ext_iff_of_nodup m1 hnd).2 fun a => by rw [m2 a, hall a]
  have hmap : ims.map ArtifactIm.clean = ims := by
    conv_rhs => rw [← List.map_id ims]
    exact List.map_congr_left fun a ha => (hclean a ha).1
  have hj : (joinArtifacts ims).lints = [] := by
    rw [C11_reported]
    exact hnames.perm (hperm.trans hpe).symm fun h => Ne.symm h
  have hcode' : ∀ m, (IMap.get? q.codeImpls m).map ImplCode.sort = (IMap.get? (joinLocations r.locs).1 m).map ImplCode.sort := by
    intro m
    rw [hcode m, hp]
    exact get_sorted (C10_no_empty _).1 m
  have hpc : (ims.map ArtifactIm.clean).Perm (r.arts.map ArtifactIm.clean) := by rw [hmap]; exact hperm.trans hpe
  have hs0 : q.settings = s0 := by rw [hset, hp]; rfl
  have S := same_of_clean (s := s0) hpc sq.code (C10_no_empty _).1 hcode' hj l2 hlo
  have S' := same_of_clean (s := s0) hpc.symm (C10_no_empty _).1 sq.code (fun m => (hcode' m).symm) n3 hlo l2
  have hq : ({ q with artifacts := arts2 } : Project) = ⟨s0, q.codeImpls, arts2⟩ := by rw [← hs0]
  rw [hq, hj] at o2
  have z : r.categorized = ⟨[], []⟩ := by unfold Run.categorized; rw [read_no_lints ha he]; rfl
  rw [hcc, z, categorize_errors] at hc
  rcases finishPlan_cases L c2 hc2 [] ⟨s0, q.codeImpls, arts2⟩ with ⟨_, e⟩ | ⟨⟨d, hd, hlv⟩, _⟩
  · refine ⟨_, _, o2.trans e, ?_⟩
    rw [hp]
    exact foldCase_sort S S'
  · rw [List.nil_append] at hd
    exact absurd hlv (hc d ((lint_errors hli d).2 ⟨Or.inl ((lintErrors_same S S').mem_iff.1 hd), hlv⟩).1)

/-! ## on the disk -/

theorem count_one {α : Type} {P : α → Prop} [DecidablePred P] {l : List α} (h : l.countP (fun x => decide (P x)) = 1) :
    ∃ a r b, l = a ++ r :: b ∧ P r ∧ ∀ x ∈ a ++ b, ¬ P x := by
  induction l with
  | nil => cases h
  | cons x l ih =>
    rw [List.countP_cons] at h
    by_cases hx : P x
    · rw [if_pos (by simpa using hx)] at h
      refine ⟨[], x, l, rfl, hx, fun y hy => ?_⟩
      have h0 : l.countP (fun x => decide (P x)) = 0 := by omega
      simpa using (List.countP_eq_zero.1 h0) y hy
    · rw [if_neg (by simpa using hx)] at h
      obtain ⟨a, r, b, rfl, h1, h2⟩ := ih h
      refine ⟨x :: a, r, b, rfl, h1, fun y hy => ?_⟩
      rcases List.mem_cons.1 hy with rfl | hy
      · exact hx
      · exact h2 y hy

/-- The files of a project that was read are read once, and they may be written if no artifact path lies inside an excluded path. -/
theorem read_file (w : FS.WF fs) (hs : SettingsOf readToml fs base s) (hsafe : Safe fs s) (hr : ReadsProject L readToml hash n fs base (.ok (c, p))) {b : ArtifactIm}
    (hb : b ∈ editable p) : ReadOnce s b.file ∧ (RootsIncluded s → checkPath s b.file = none) := by
  have hset := settings_of_read hs hr
  obtain ⟨h7, h8⟩ := reads_files hr b hb
  rw [hset] at h7
  obtain ⟨r0, hr0, hf, hu⟩ := (C29_mem w _ _).1 h7
  obtain ⟨cc, hc⟩ := w.isFile_iff.1 hf
  have hsup := (supported_iff (w.absolute hc)).1 h8
  constructor
  · obtain ⟨r, ha, he, hp⟩ := reads_editable hr
    rw [hset] at ha
    obtain ⟨a, ha2, rfl⟩ := List.mem_map.1 (hp.mem_iff.1 hb)
    have h1 : (walkArtifacts fs s).count a.clean.file = 1 := read_once (a := a) ha he ha2
    have h2 : ways s a.clean.file = 1 := (count_ways w hsafe.roots hf hsup).symm.trans h1
    unfold ways at h2
    classical exact count_one (P := fun r => Reaching s r a.clean.file) (by convert h2)
  · intro hri
    refine (checkPath_none_iff s (w.absolute hc)).2 ⟨hsup, ⟨r0, hr0, ?_⟩, fun e he _ r hr _ => hri r hr e he⟩
    rcases hu with rfl | hu
    · exact Under.refl _
    · exact hu.1

variable {E : Env} {out : Res ModifyError (Categorized × Project)} {ops2 : List ArtifactOp}

/-- A save that succeeded leaves a project that can be edited: no later request crashes or is refused because the project does not load. -/
theorem C80_again (H : Holds E base s fs p) (ap : Apart s) (hl : LinkSets ops) (once : ∀ op ∈ ops, ∀ a, Brings op a → ReadOnce s a.file)
    (h : Modifies E.L E.readToml E.hash E.dbg n fs base ops (some (.ok (c, q))) fs') (hq : Storable E.L s q)
    (h2 : Modifies E.L E.readToml E.hash E.dbg n2 fs' base ops2 (some out) fs'') : out ≠ .panic ∧ ∀ e, out = .err e → e.kind ≠ .invalidFromLoad := by
  have H' := C74_modify H ap hl once h hq
  obtain ⟨w, hs, hsafe, -⟩ := H
  obtain ⟨c1, p1, c1', p1', files, cfg, a1, a2, a3, a4, a5, e0, e⟩ := modifies_done h
  have e : q = p1'.sort := e
  have hp := editable_sort (plans_nodup a2)
  rw [← e] at hp
  have clean : ∀ {c2 q2}, ReadsProject E.L E.readToml E.hash n2 fs' base (.ok (c2, q2)) → c2.error = [] := by
    intro c2 q2 hr
    rw [← e0] at hr
    exact (read_clean w hs hsafe ap hl a1 a2 a3 a4 a5 once (fun a ha => survives_perm (inFile_perm hp _) (hq.survives a (hp.mem_iff.2 ha))) hr).1
  generalize hsome : some out = o at h2
  cases h2 with
  | early => cases hsome
  | crash => cases hsome
  | @refused read _ h1 h2 h3 =>
    cases hsome
    obtain ⟨c2, q2, rfl, -⟩ := H'.reads _ _ h1
    have hc := clean h1
    constructor
    · rintro rfl
      obtain ⟨d1, d2, d3⟩ := C23_decision h2
      by_cases b : NoOverlap E.hash (ops2.map ArtifactOp.clean) ∧ PathsOk q2.settings (ops2.map ArtifactOp.clean)
      · rcases d3.2 ⟨hc, b⟩ with ⟨_, h, _⟩ | ⟨_, h⟩ <;> cases h
      · obtain ⟨_, h, _⟩ := d2.2 ⟨hc, b⟩; cases h
    · rintro x rfl hk
      exact (C23_decision h2).1.1 ⟨x, rfl, hk⟩ hc
  | failed h1 h2 h3 h4 h5 =>
    cases hsome
    refine ⟨nofun, fun x hx hk => ?_⟩
    cases hx
    rcases reaches_failed h4 rfl h5 with h | h <;> rw [h] at hk <;> cases hk
  | done =>
    cases hsome
    exact ⟨nofun, nofun⟩

theorem crashing_folded : Crashing p ↔ ∃ y ∈ (foldCase p).2.2, ∃ x sub, WritesRef y.2.1.text x sub ∧ Name.fromStr x = .panic := by
  constructor
  · rintro ⟨x, hx, h⟩
    exact ⟨_, List.mem_map_of_mem hx, h⟩
  · rintro ⟨y, hy, h⟩
    obtain ⟨x, hx, rfl⟩ := List.mem_map.1 hy
    exact ⟨x, hx, h⟩

theorem storable_same (h : foldCase q = foldCase p) (hp : Storable L s p) : Storable L s q := by
  have e := editable_foldCase h
  refine ⟨?_, ?_, ?_⟩
  · rw [e]; exact hp.survives
  · rw [e]; exact hp.stems
  · rw [crashing_folded, h, ← crashing_folded]; exact hp.parses

/-- C80. Every edit can be taken back. After a batch of operations that succeeded, the batch that takes it back is never refused: it gives the project of before, up to the spelling of
names in `parts` and in code references, or writing the disk fails. -/
theorem C80_back (H : Holds E base s fs p) (ap : Apart s) (inc : RootsIncluded s) (hl : LinkSets ops) (once : ∀ op ∈ ops, ∀ a, Brings op a → ReadOnce s a.file)
    (hcol : NoCollision E.hash p (ops.map ArtifactOp.clean)) (hu : Unchained E.hash (ops.map ArtifactOp.clean)) (hme : NoMerge E.hash p ops)
    (h : Modifies E.L E.readToml E.hash E.dbg n fs base ops (some (.ok (c, q))) fs') (hq : Storable E.L s q) (hb : TakesBack E.hash p ops ops')
    (h2 : Modifies E.L E.readToml E.hash E.dbg n2 fs' base ops' (some out) fs'') :
    (∃ c2 q2, out = .ok (c2, q2) ∧ foldCase q2 = foldCase p ∧ (Storable E.L s p → Holds E base s fs'' p)) ∨
    ∃ e, out = .err e ∧ (e.kind = .createBackups ∨ e.kind = .saveProject) := by
  have H' := C74_modify H ap hl once h hq
  obtain ⟨w, hs, hsafe, hreads⟩ := H
  obtain ⟨c1, p1, c1', p1', files, cfg, a1, a2, a3, a4, a5, e0, e⟩ := modifies_done h
  obtain ⟨_, _, e1, hfold⟩ := hreads _ _ a1
  cases e1
  have hed := editable_foldCase hfold
  have e : q = p1'.sort := e
  have hp := editable_sort (plans_nodup a2)
  rw [← e] at hp
  have sets := C25_read_sets a1
  have hset1 := settings_of_read hs a1
  have hb1 : TakesBack E.hash p1 ops ops' := by
    obtain ⟨l, h1, h2⟩ := hb
    refine ⟨l, h1.imp fun x y h => ?_, h2⟩
    cases h with
    | create => exact .create
    | delete h => exact .delete (hed ▸ h)
    | update h => exact .update (hed ▸ h)
  have hcol1 : NoCollision E.hash p1 (ops.map ArtifactOp.clean) := by unfold NoCollision at hcol ⊢; rw [hed]; exact hcol
  have O := opposite sets hb1
  obtain ⟨k1, k2, k3, -⟩ := plans_ok a2
  have hm : Matches E.hash p1 (ops.map ArtifactOp.clean) := by
    by_contra hm
    obtain ⟨_, h, _⟩ := (C24_mismatch_iff a2 k1 k2 k3 hu).2 hm
    cases h
  have fresh : ∀ x ∈ ops.map ArtifactOp.clean, ¬ Idle E.hash x → ∀ a, Brings x a → a ∉ editable p1 := by
    intro x hx hi a ha hin
    obtain ⟨y, hy, rfl⟩ := List.mem_map.1 hx
    cases y with
    | create b =>
      rw [ArtifactOp.clean, brings_create] at ha
      subst ha
      exact hm.2 _ hx _ hin rfl
    | update b id =>
      rw [ArtifactOp.clean, brings_update] at ha
      subst ha
      rw [ArtifactOp.clean, idle_update] at hi
      exact hme b id hy (Ne.symm hi) (hed ▸ hin)
    | delete => exact absurd ha brings_delete
  have hbatch := C25_batch sets hl hcol1 a2
  have hl' : LinkSets ops' := by
    intro op ho a ha
    obtain ⟨l, f, hperm⟩ := hb1
    obtain ⟨x, _, hx⟩ := forall₂_mem_right f (hperm.mem_iff.1 ho)
    cases hx with
    | create => exact absurd ha brings_delete
    | delete h => rw [brings_create.1 ha]; exact (editable_clean sets h).2
    | update h => rw [brings_update.1 ha]; exact (editable_clean sets h).2
  have once' : ∀ op ∈ ops', ∀ a, Brings op a → ReadOnce s a.file := by
    intro op ho a ha
    obtain ⟨l, f, hperm⟩ := hb1
    obtain ⟨x, _, hx⟩ := forall₂_mem_right f (hperm.mem_iff.1 ho)
    cases hx with
    | create => exact absurd ha brings_delete
    | delete h => rw [brings_create.1 ha]; exact (read_file w hs hsafe a1 h).1
    | update h => rw [brings_update.1 ha]; exact (read_file w hs hsafe a1 h).1
  have plan : ∀ {c2 q2 out}, ReadsProject E.L E.readToml E.hash n2 fs' base (.ok (c2, q2)) → Plans E.L E.hash E.dbg c2 q2 ops' out →
      ∃ c3 p3, out = .ok (c3, p3) ∧ foldCase p3.sort = foldCase p := by
    intro c2 q2 out hr hpl
    have sq := C25_read_sets hr
    rw [← e0] at hr
    obtain ⟨r1, r2, r3, r4⟩ := read_clean w hs hsafe ap hl a1 a2 a3 a4 a5 once (fun a ha => survives_perm (inFile_perm hp _) (hq.survives a (hp.mem_iff.2 ha))) hr
    obtain ⟨f1, f2, f3, f4, f5⟩ := opposite_fits (q := q2) O k2 hcol1 hu hm fresh (fun a => by rw [r3.mem_iff, hbatch a])
    have hpath : PathsOk q2.settings (ops'.map ArtifactOp.clean) := by
      intro y hy b hyb
      obtain ⟨_, _, _, _, h3⟩ := O.back y hy
      rw [r2, hset1]
      exact (read_file w hs hsafe a1 (h3 b hyb).1).2 inc
    obtain ⟨c3, p3, h1, h2⟩ := plan_back a1 k1 r2 r4 sq hl' r1 f1 hpath f2 f3 f4 f5 hpl
    exact ⟨c3, p3, h1, h2.trans hfold⟩
  generalize hsome : some out = o at h2
  have h2' := h2
  cases h2 with
  | early => cases hsome
  | crash => cases hsome
  | @refused read _ h1 h2 h3 =>
    cases hsome
    obtain ⟨c2, q2, rfl, -⟩ := H'.reads _ _ h1
    obtain ⟨c3, p3, rfl, -⟩ := plan h1 h2
    exact absurd rfl (h3 _)
  | failed h1 h2 h3 h4 h5 =>
    cases hsome
    exact Or.inr ⟨_, rfl, reaches_failed h4 rfl h5⟩
  | @done read c3 p3 files3 cfg3 h1 h2 h3 h4 h5 =>
    cases hsome
    obtain ⟨c2, q2, rfl, -⟩ := H'.reads _ _ h1
    obtain ⟨_, _, e3, hf3⟩ := plan h1 h2
    cases e3
    refine Or.inl ⟨_, _, rfl, hf3, fun hst => ?_⟩
    exact (C74_modify H' ap hl' once' h2' (storable_same hf3 hst)).same hf3.symm

/-- Taking back is always possible to ask for: for every batch that was accepted there is a batch that takes it back. -/
theorem C80_exists (H : Holds E base s fs p) (hu : Unchained E.hash (ops.map ArtifactOp.clean))
    (h : Modifies E.L E.readToml E.hash E.dbg n fs base ops (some (.ok (c, q))) fs') : ∃ ops', TakesBack E.hash p ops ops' ∧ ops'.length = ops.length := by
  obtain ⟨c1, p1, c1', p1', files, cfg, a1, a2, a3, a4, a5, e0, e⟩ := modifies_done h
  obtain ⟨_, _, e1, hfold⟩ := H.reads _ _ a1
  cases e1
  have hed := editable_foldCase hfold
  obtain ⟨k1, k2, k3, -⟩ := plans_ok a2
  have hm : Matches E.hash p1 (ops.map ArtifactOp.clean) := by
    by_contra hm
    obtain ⟨_, h, _⟩ := (C24_mismatch_iff a2 k1 k2 k3 hu).2 hm
    cases h
  have each : ∀ op ∈ ops, ∃ op', Back E.hash p op op' := by
    intro op ho
    have hx := hm.1 _ (List.mem_map_of_mem ho)
    cases op with
    | create a => exact ⟨.delete a.name _, .create⟩
    | delete n id =>
      obtain ⟨b, hb, rfl⟩ := hx id (.inr ⟨_, rfl⟩)
      exact ⟨_, .delete (hed ▸ hb)⟩
    | update a id =>
      obtain ⟨b, hb, rfl⟩ := hx id (.inl ⟨_, rfl⟩)
      exact ⟨_, .update (hed ▸ hb)⟩
  clear hm k3 k2 hu a2 h
  have : ∃ l, List.Forall₂ (Back E.hash p) ops l := by
    induction ops with
    | nil => exact ⟨[], .nil⟩
    | cons op ops ih =>
      obtain ⟨l, hl⟩ := ih fun x hx => each x (List.mem_cons_of_mem _ hx)
      obtain ⟨y, hy⟩ := each op (List.mem_cons_self ..)
      exact ⟨y :: l, .cons hy hl⟩
  obtain ⟨l, hl⟩ := this
  exact ⟨l, ⟨l, hl, .refl _⟩, hl.length_eq.symm⟩

end Art.Undo
