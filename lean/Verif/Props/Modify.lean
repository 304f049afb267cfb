import Verif.Lemmas.Modify

/-!
# Modifying a project
C23 (a refused batch leaves the disk alone), C24 (stale ids), C25 (what a batch does), C26 (order of operations).

The operations are cleaned before anything else, so the statements speak of `ops.map ArtifactOp.clean`.
-/

namespace Art
open Spec

section
variable {L : Libs} {hash : ArtifactIm → HashIm} {dbg : ArtifactIm → Str} {c c' : Categorized} {p p' : Project}
  {ops : List ArtifactOp} {out : Res ModifyError (Categorized × Project)}

/-! ## the decision -/

theorem presents_clean {op : ArtifactOp} {id : HashIm} : Presents op.clean id ↔ Presents op id := by
  cases op with
  | create a => exact iff_of_false presents_create presents_create
  | update a i => simp only [ArtifactOp.clean, presents_update]
  | delete n i => rfl

theorem brings_clean {op : ArtifactOp} {a : ArtifactIm} : Brings op.clean a ↔ ∃ b, Brings op b ∧ a = b.clean := by
  cases op with
  | create b => simp only [ArtifactOp.clean, brings_create, exists_eq_left]
  | update b i => simp only [ArtifactOp.clean, brings_update, exists_eq_left]
  | delete n i => exact iff_of_false brings_delete fun ⟨_, h, _⟩ => brings_delete h

theorem finishPlan_cases (L : Libs) (c : Categorized) (hc : c.error = []) (ls : List Lint) (p : Project) :
    ((∀ d ∈ ls ++ p.lintErrors L, d.level ≠ .error) ∧ finishPlan L c ls p = .ok (c.categorize (ls ++ p.lintErrors L), p)) ∨
    ((∃ d ∈ ls ++ p.lintErrors L, d.level = .error) ∧ ∃ e, finishPlan L c ls p = .err e ∧ e.kind = .invalidFromModify) := by
  unfold finishPlan
  simp only [checkLints_eq, categorize_eq, hc, List.nil_append, List.filter_eq_nil_iff, decide_eq_true_eq]
  by_cases h : ∀ d ∈ ls ++ p.lintErrors L, ¬ d.level = .error
  · left
    refine ⟨h, ?_⟩
    rw [if_pos h]
    rfl
  · right
    rw [if_neg h]
    simp only [not_forall, not_not] at h
    obtain ⟨d, hd, hl⟩ := h
    exact ⟨⟨d, hd, hl⟩, _, rfl, rfl⟩

theorem plans_ok (h : Plans L hash dbg c p ops (.ok (c', p'))) : c.error = [] ∧ NoOverlap hash (ops.map ArtifactOp.clean) ∧
    PathsOk p.settings (ops.map ArtifactOp.clean) ∧ (performOps hash dbg (artifactIms hash p) (ops.map ArtifactOp.clean)).1 = [] ∧
    ∃ ims, ims = (performOps hash dbg (artifactIms hash p) (ops.map ArtifactOp.clean)).2.map Prod.snd ∧
      Loads hash (joinArtifacts ims).arts p.codeImpls (joinArtifacts ims).files p'.artifacts ∧ (joinArtifacts ims).lints = [] ∧
      p' = { p with artifacts := p'.artifacts } ∧ (∀ d ∈ p'.lintErrors L, d.level ≠ .error) ∧ c' = c.categorize (p'.lintErrors L) := by
  unfold Plans at h
  cases hp : prepare hash dbg c p ops with
  | ok r =>
    obtain ⟨c1, ims⟩ := r
    rw [hp] at h
    obtain ⟨arts, hl, ho⟩ := h
    obtain ⟨h1, rfl, h3, h4, h5, h6⟩ := prepare_ok hp
    rcases finishPlan_cases L c1 h1 (joinArtifacts ims).lints { p with artifacts := arts } with ⟨hlv, e⟩ | ⟨_, e, he, _⟩
    · rw [e] at ho
      obtain ⟨rfl, rfl⟩ := Prod.mk.inj (Res.ok.inj ho)
      have hj : (joinArtifacts ims).lints = [] := by
        cases hjl : (joinArtifacts ims).lints with
        | nil => rfl
        | cons d r =>
          exfalso
          have hd : d ∈ (joinArtifacts ims).lints := by rw [hjl]; simp
          refine hlv d (List.mem_append_left _ hd) ?_
          obtain ⟨_, _, _, _, _, _, _, _, h | h⟩ := (C11_lints ims d).1 hd <;> rw [h] <;> rfl
      refine ⟨h1, h3, h4, h5, ims, h6, hl, hj, rfl, fun d hd => hlv d (List.mem_append_right _ hd), ?_⟩
      rw [hj, List.nil_append]
    · rw [he] at ho; cases ho
  | err e => rw [hp] at h; cases h
  | panic => rw [hp] at h; cases h

/-- How a batch is judged: which kind of error is reported for which reason, in terms of the request. The reason for `HashMismatch` is made precise
by `C24_stale` and `C24_mismatch_iff`, `InvalidFromModify` means that the new project has an error. -/
theorem C23_decision (h : Plans L hash dbg c p ops out) :
    ((∃ e, out = .err e ∧ e.kind = .invalidFromLoad) ↔ c.error ≠ []) ∧
    ((∃ e, out = .err e ∧ e.kind = .invalidPaths) ↔
      c.error = [] ∧ ¬ (NoOverlap hash (ops.map ArtifactOp.clean) ∧ PathsOk p.settings (ops.map ArtifactOp.clean))) ∧
    ((∃ e, out = .err e ∧ (e.kind = .hashMismatch ∨ e.kind = .invalidFromModify)) ∨ (∃ r, out = .ok r) ↔
      c.error = [] ∧ NoOverlap hash (ops.map ArtifactOp.clean) ∧ PathsOk p.settings (ops.map ArtifactOp.clean)) := by
  obtain ⟨h1, h2, h3, h4⟩ := prepare_cases (hash := hash) (dbg := dbg) c p ops
  have fin : ∀ {e k}, prepare hash dbg c p ops = .err e → e.kind = k → ∃ e, out = .err e ∧ e.kind = k := by
    intro e k he hk
    unfold Plans at h
    rw [he] at h
    exact ⟨e, h, hk⟩
  by_cases a : c.error = []
  · by_cases b : NoOverlap hash (ops.map ArtifactOp.clean)
    · by_cases d : PathsOk p.settings (ops.map ArtifactOp.clean)
      · have res : (∃ e, out = .err e ∧ (e.kind = .hashMismatch ∨ e.kind = .invalidFromModify)) ∨ (∃ r, out = .ok r) := by
          obtain ⟨h5, h6⟩ := h4 a b d
          by_cases e : (performOps hash dbg (artifactIms hash p) (ops.map ArtifactOp.clean)).1 = []
          · unfold Plans at h
            rw [h6 e] at h
            obtain ⟨arts, hl, ho⟩ := h
            rcases finishPlan_cases L c a (joinArtifacts ((performOps hash dbg (artifactIms hash p) (ops.map ArtifactOp.clean)).2.map Prod.snd)).lints
              { p with artifacts := arts } with ⟨_, e⟩ | ⟨_, e, he, hk⟩
            · exact Or.inr ⟨_, ho.trans e⟩
            · exact Or.inl ⟨e, ho.trans he, Or.inr hk⟩
          · obtain ⟨e, he, hk⟩ := h5 e
            obtain ⟨e, he, hk⟩ := fin he hk
            exact Or.inl ⟨e, he, Or.inl hk⟩
        refine ⟨iff_of_false ?_ (fun x => x a), iff_of_false ?_ (fun x => x.2 ⟨b, d⟩), iff_of_true res ⟨a, b, d⟩⟩
        · rintro ⟨e, rfl, hk⟩
          rcases res with ⟨e', he, hk' | hk'⟩ | ⟨r, hr⟩
          · cases he; rw [hk] at hk'; cases hk'
          · cases he; rw [hk] at hk'; cases hk'
          · cases hr
        · rintro ⟨e, rfl, hk⟩
          rcases res with ⟨e', he, hk' | hk'⟩ | ⟨r, hr⟩
          · cases he; rw [hk] at hk'; cases hk'
          · cases he; rw [hk] at hk'; cases hk'
          · cases hr
      · obtain ⟨e, he, hk⟩ := h3 a b d
        obtain ⟨e, rfl, hk⟩ := fin he hk
        refine ⟨iff_of_false ?_ (fun x => x a), iff_of_true ⟨e, rfl, hk⟩ ⟨a, fun x => d x.2⟩, iff_of_false ?_ fun x => d x.2.2⟩
        · rintro ⟨e', he, hk'⟩; cases he; rw [hk] at hk'; cases hk'
        · rintro (⟨e', he, hk' | hk'⟩ | ⟨r, hr⟩)
          · cases he; rw [hk] at hk'; cases hk'
          · cases he; rw [hk] at hk'; cases hk'
          · cases hr
    · obtain ⟨e, he, hk⟩ := h2 a b
      obtain ⟨e, rfl, hk⟩ := fin he hk
      refine ⟨iff_of_false ?_ (fun x => x a), iff_of_true ⟨e, rfl, hk⟩ ⟨a, fun x => b x.1⟩, iff_of_false ?_ fun x => b x.2.1⟩
      · rintro ⟨e', he, hk'⟩; cases he; rw [hk] at hk'; cases hk'
      · rintro (⟨e', he, hk' | hk'⟩ | ⟨r, hr⟩)
        · cases he; rw [hk] at hk'; cases hk'
        · cases he; rw [hk] at hk'; cases hk'
        · cases hr
  · obtain ⟨e, he, hk⟩ := h1 a
    obtain ⟨e, rfl, hk⟩ := fin he hk
    refine ⟨iff_of_true ⟨e, rfl, hk⟩ a, iff_of_false ?_ (fun x => a x.1), iff_of_false ?_ fun x => a x.1⟩
    · rintro ⟨e', he, hk'⟩; cases he; rw [hk] at hk'; cases hk'
    · rintro (⟨e', he, hk' | hk'⟩ | ⟨r, hr⟩)
      · cases he; rw [hk] at hk'; cases hk'
      · cases he; rw [hk] at hk'; cases hk'
      · cases hr

/-- Deciding about a batch only gives these errors. -/
theorem C23_refused {read : Res Categorized (Categorized × Project)} {e : ModifyError} (h : PlansRead L hash dbg ops read (.err e)) :
    e.kind = .invalidFromLoad ∨ e.kind = .invalidPaths ∨ e.kind = .hashMismatch ∨ e.kind = .invalidFromModify := by
  unfold PlansRead at h
  split at h
  · rename_i c p
    obtain ⟨h1, h2, h3⟩ := C23_decision h
    by_cases a : c.error = []
    · by_cases b : NoOverlap hash (ops.map ArtifactOp.clean) ∧ PathsOk p.settings (ops.map ArtifactOp.clean)
      · rcases h3.2 ⟨a, b⟩ with ⟨e', he, hk | hk⟩ | ⟨r, hr⟩
        · cases he; exact Or.inr (Or.inr (Or.inl hk))
        · cases he; exact Or.inr (Or.inr (Or.inr hk))
        · cases hr
      · obtain ⟨e', he, hk⟩ := h2.2 ⟨a, b⟩
        cases he; exact Or.inr (Or.inl hk)
    · obtain ⟨e', he, hk⟩ := h1.2 a
      cases he; exact Or.inl hk
  · rename_i c
    rw [checkLints_eq] at h
    split at h
    · cases h
    · cases h; exact Or.inl rfl
  · cases h

/-- Only two kinds of error come from writing. -/
theorem reaches_failed {s : Settings} {files : List (FilePath × Str)} {c0 cfg : Cfg} (h : Reaches L s files c0 cfg) {k : ModifyErrorKind}
    (h0 : c0.phase = .backup) (hk : cfg.phase = .failed k) : k = .createBackups ∨ k = .saveProject := by
  have inv : ∀ k, cfg.phase = .failed k → k = .createBackups ∨ k = .saveProject := by
    clear hk
    induction h with
    | refl => intro k hk; rw [h0] at hk; cases hk
    | tail _ st ih =>
      intro k hk
      cases st with
      | act => exact ih k hk
      | fail => exact ih k hk
      | backupErr => cases hk; exact Or.inl rfl
      | backupOk => cases hk
      | saveErr => cases hk; exact Or.inr rfl
      | saveOk => cases hk
      | removeOk => cases hk
  exact inv k hk

/-- A request that fails because the project does not load, ids overlap, paths are invalid, ids do not match or the new project has errors changes
nothing on disk; nor does one that panics. -/
theorem C23_untouched {readToml : Str → Option SettingsRaw} {ncpu : Nat} {fs fs' : FS} {base : FilePath} {e : ModifyError}
    (h : Modifies L readToml hash dbg ncpu fs base ops (some (.err e)) fs')
    (hk : e.kind = .invalidFromLoad ∨ e.kind = .invalidPaths ∨ e.kind = .hashMismatch ∨ e.kind = .invalidFromModify) : fs' = fs := by
  cases h with
  | refused => rfl
  | failed hr hp hf hre hph =>
    exfalso
    rcases reaches_failed hre rfl hph with h | h <;> subst h <;> simp at hk

theorem C23_panic_untouched {readToml : Str → Option SettingsRaw} {ncpu : Nat} {fs fs' : FS} {base : FilePath}
    (h : Modifies L readToml hash dbg ncpu fs base ops (some .panic) fs') : fs' = fs := by
  cases h with
  | refused => rfl

/-! ## stale ids -/

theorem matches_iff (ops : List ArtifactOp) : Matches hash p ops ↔
    (∀ op ∈ ops, ∀ id, Presents op id → IMap.contains (artifactIms hash p) id = true) ∧
    (∀ a, ArtifactOp.create a ∈ ops → IMap.contains (artifactIms hash p) (hash a) = false) := by
  unfold Matches
  refine and_congr (by simp only [contains_artifactIms]) (forall₂_congr fun a _ => ?_)
  rw [Bool.eq_false_iff, Ne, contains_artifactIms]
  simp

/-- An update or delete of something that is not in the project makes the whole batch fail. The exception is an
update that changes nothing of an artifact that the batch itself brings in. -/
theorem C24_stale (h : Plans L hash dbg c p ops out) {op : ArtifactOp} {id : HashIm} (ho : op ∈ ops) (hp : Presents op id)
    (hs : ∀ a ∈ editable p, hash a ≠ id) (hx : ¬ (Idle hash op.clean ∧ BroughtIn hash (ops.map ArtifactOp.clean) id)) :
    ∃ e, out = .err e ∧ (e.kind = .hashMismatch ∨ e.kind = .invalidPaths ∨ e.kind = .invalidFromLoad) ∧
      (c.error = [] → NoOverlap hash (ops.map ArtifactOp.clean) → PathsOk p.settings (ops.map ArtifactOp.clean) → e.kind = .hashMismatch) := by
  obtain ⟨d1, d2, d3⟩ := C23_decision h
  by_cases a : c.error = []
  · by_cases b : NoOverlap hash (ops.map ArtifactOp.clean) ∧ PathsOk p.settings (ops.map ArtifactOp.clean)
    · obtain ⟨new, e1, _, _, _, e5, _⟩ := performOps_fold (dbg := dbg) (hash := hash) (ops.map ArtifactOp.clean) (artifactIms hash p) []
        (IMap.nodup_collect _)
      have hne : (performOps hash dbg (artifactIms hash p) (ops.map ArtifactOp.clean)).1 ≠ [] := by
        unfold performOps
        rw [e1, List.nil_append]
        intro hnil
        rcases (e5 hnil ((noOverlap_iff _).2 b.1)).2.1 _ (List.mem_map_of_mem ho) id (presents_clean.2 hp) with hc | hc
        · obtain ⟨x, hx, e⟩ := (contains_artifactIms p id).1 hc
          exact hs x hx e
        · exact hx hc
      obtain ⟨e, he, hk⟩ := ((prepare_cases (hash := hash) (dbg := dbg) c p ops).2.2.2 a b.1 b.2).1 hne
      unfold Plans at h
      rw [he] at h
      exact ⟨e, h, Or.inl hk, fun _ _ _ => hk⟩
    · obtain ⟨e, he, hk⟩ := d2.2 ⟨a, b⟩
      exact ⟨e, he, Or.inr (Or.inl hk), fun _ x y => absurd ⟨x, y⟩ b⟩
  · obtain ⟨e, he, hk⟩ := d1.2 a
    exact ⟨e, he, Or.inr (Or.inr hk), fun x => absurd x a⟩

/-- Without chained ids, a batch that passes the other checks fails with `HashMismatch` exactly when an id does not exist, or
something is created that exists. -/
theorem C24_mismatch_iff (h : Plans L hash dbg c p ops out) (hc : c.error = []) (hn : NoOverlap hash (ops.map ArtifactOp.clean))
    (hp : PathsOk p.settings (ops.map ArtifactOp.clean)) (hu : Unchained hash (ops.map ArtifactOp.clean)) :
    (∃ e, out = .err e ∧ e.kind = .hashMismatch) ↔ ¬ Matches hash p (ops.map ArtifactOp.clean) := by
  obtain ⟨new, e1, _, _, _, e5, e6⟩ := performOps_fold (dbg := dbg) (hash := hash) (ops.map ArtifactOp.clean) (artifactIms hash p) []
    (IMap.nodup_collect _)
  have hm : (performOps hash dbg (artifactIms hash p) (ops.map ArtifactOp.clean)).1 = [] ↔ Matches hash p (ops.map ArtifactOp.clean) := by
    unfold performOps
    rw [e1, List.nil_append, matches_iff]
    constructor
    · intro hnil
      obtain ⟨_, A, B⟩ := e5 hnil ((noOverlap_iff _).2 hn)
      refine ⟨fun op ho id hpr => ?_, B⟩
      rcases A op ho id hpr with h | ⟨⟨a, rfl⟩, h⟩
      · exact h
      · rw [presents_update.1 hpr] at h
        exact absurd h (hu a ho).1
    · rintro ⟨A, B⟩
      exact e6 ((noOverlap_iff _).2 hn) hu A B
  obtain ⟨f1, f2⟩ := (prepare_cases (hash := hash) (dbg := dbg) c p ops).2.2.2 hc hn hp
  rw [← hm]
  constructor
  · rintro ⟨e, rfl, hk⟩ hnil
    unfold Plans at h
    rw [f2 hnil] at h
    obtain ⟨arts, _, ho⟩ := h
    rcases finishPlan_cases L c hc (joinArtifacts ((performOps hash dbg (artifactIms hash p) (ops.map ArtifactOp.clean)).2.map Prod.snd)).lints
      { p with artifacts := arts } with ⟨_, e⟩ | ⟨_, e, he, hk'⟩
    · rw [e] at ho; cases ho
    · rw [he] at ho; cases ho; rw [hk] at hk'; cases hk'
  · intro hne
    obtain ⟨e, he, hk⟩ := f1 hne
    unfold Plans at h
    rw [he] at h
    exact ⟨e, h, hk⟩

/-! ## what an accepted batch does -/

theorem ims_clean (hs : ProjectSets p) (hl : LinkSets ops) :
    ∀ a ∈ (performOps hash dbg (artifactIms hash p) (ops.map ArtifactOp.clean)).2.map Prod.snd, a.clean = a ∧ ISet.Nodup a.partof := by
  intro a ha
  obtain ⟨e, he, rfl⟩ := List.mem_map.1 ha
  obtain ⟨_, _, _, _, e4, _⟩ := performOps_fold (dbg := dbg) (hash := hash) (ops.map ArtifactOp.clean) (artifactIms hash p) []
    (IMap.nodup_collect _)
  rcases e4 e he with h | ⟨_, op, ho, hb⟩
  · obtain ⟨x, hx, e1⟩ := List.mem_map.1 (mem_artifactIms p e h).1
    rw [← e1]
    obtain ⟨h1, h2⟩ := clean_toIm (hs.links x hx)
    exact ⟨h2, h1.distinct⟩
  · obtain ⟨op', ho', rfl⟩ := List.mem_map.1 ho
    obtain ⟨b, hb, e1⟩ := brings_clean.1 hb
    rw [e1]
    obtain ⟨h1, _, h2⟩ := C05_clean b (hl op' ho' b hb)
    exact ⟨h2, h1.distinct⟩

theorem editable_new (hs : ProjectSets p) (hl : LinkSets ops) (h : Plans L hash dbg c p ops (.ok (c', p'))) :
    editable p' = (performOps hash dbg (artifactIms hash p) (ops.map ArtifactOp.clean)).2.map Prod.snd := by
  obtain ⟨_, _, _, _, ims, rfl, hlo, hj, _⟩ := plans_ok h
  have hc := ims_clean (hash := hash) (dbg := dbg) hs hl
  unfold editable
  rw [loads_toIm hj (fun a ha => (hc a ha).2) hlo]
  conv_rhs => rw [← List.map_id ((performOps hash dbg (artifactIms hash p) (ops.map ArtifactOp.clean)).2.map Prod.snd)]
  exact List.map_congr_left fun a ha => (hc a ha).1

/-- What an accepted batch leaves, by id: what is brought in, and what was there and is not taken out. Settings and code references stay. Nothing
appears that was not in the project or the batch, and no name occurs twice. -/
theorem C25_ids (hs : ProjectSets p) (hl : LinkSets ops) (h : Plans L hash dbg c p ops (.ok (c', p'))) :
    p'.settings = p.settings ∧ p'.codeImpls = p.codeImpls ∧
    (∀ id, (∃ a ∈ editable p', hash a = id) ↔
      BroughtIn hash (ops.map ArtifactOp.clean) id ∨ ((∃ a ∈ editable p, hash a = id) ∧ ¬ TakenOut hash (ops.map ArtifactOp.clean) id)) ∧
    (∀ a ∈ editable p', a ∈ editable p ∨ ∃ op ∈ ops, Brings op.clean a) ∧
    ((editable p').map (fun a => key a.name)).Nodup := by
  have hed := editable_new hs hl h
  obtain ⟨_, hno, _, hpf, ims, rfl, hlo, hj, hp', _⟩ := plans_ok h
  obtain ⟨new, e1, _, e3, e4, e5, _⟩ := performOps_fold (dbg := dbg) (hash := hash) (ops.map ArtifactOp.clean) (artifactIms hash p) []
    (IMap.nodup_collect _)
  have hnew : new = [] := by
    unfold performOps at hpf
    rw [e1, List.nil_append] at hpf
    exact hpf
  have hkey : ∀ e ∈ (performOps hash dbg (artifactIms hash p) (ops.map ArtifactOp.clean)).2, e.1 = hash e.2 := by
    intro e he
    rcases e4 e he with h | ⟨h, _⟩
    · exact (mem_artifactIms p e h).2
    · exact h
  refine ⟨by rw [hp'], by rw [hp'], fun id => ?_, ?_, ?_⟩
  · rw [← contains_artifactIms p, ← (e5 hnew ((noOverlap_iff _).2 hno)).1 id, IMap.contains_iff, hed]
    constructor
    · rintro ⟨a, ha, rfl⟩
      obtain ⟨e, he, rfl⟩ := List.mem_map.1 ha
      exact ⟨e, he, hkey e he⟩
    · rintro ⟨e, he, hk⟩
      exact ⟨e.2, List.mem_map_of_mem he, (hkey e he).symm.trans hk⟩
  · rw [hed]
    intro a ha
    obtain ⟨e, he, rfl⟩ := List.mem_map.1 ha
    rcases e4 e he with h | ⟨_, op, ho, hb⟩
    · exact Or.inl (mem_artifactIms p e h).1
    · obtain ⟨op', ho', rfl⟩ := List.mem_map.1 ho
      exact Or.inr ⟨op', ho', hb⟩
  · rw [hed]
    have := (C11_reported _).1 hj
    rw [List.Nodup, List.pairwise_map]; exact this

/-- An accepted batch is exactly: the project without what is taken out, plus what is brought in. -/
theorem C25_batch (hs : ProjectSets p) (hl : LinkSets ops) (hcol : NoCollision hash p (ops.map ArtifactOp.clean))
    (h : Plans L hash dbg c p ops (.ok (c', p'))) (a : ArtifactIm) :
    a ∈ editable p' ↔ (a ∈ editable p ∧ ¬ TakenOut hash (ops.map ArtifactOp.clean) (hash a)) ∨
      ∃ op ∈ ops.map ArtifactOp.clean, ¬ Idle hash op ∧ Brings op a := by
  obtain ⟨_, _, A, B, _⟩ := C25_ids hs hl h
  have B' : ∀ a ∈ editable p', a ∈ editable p ∨ ∃ op ∈ ops.map ArtifactOp.clean, Brings op a := by
    intro a ha
    rcases B a ha with h | ⟨op, ho, hb⟩
    · exact Or.inl h
    · exact Or.inr ⟨_, List.mem_map_of_mem ho, hb⟩
  constructor
  · intro ha
    rcases (A (hash a)).1 ⟨a, ha, rfl⟩ with ⟨op, ho, hi, b, hb, e⟩ | ⟨⟨b, hb, e⟩, ht⟩
    · rw [← hcol b a (Or.inr ⟨op, ho, hb⟩) (B' a ha) e]
      exact Or.inr ⟨op, ho, hi, hb⟩
    · left
      refine ⟨?_, ht⟩
      rw [← hcol b a (Or.inl hb) (B' a ha) e]
      exact hb
  · rintro (⟨ha, ht⟩ | ⟨op, ho, hi, hb⟩)
    · obtain ⟨b, hb, e⟩ := (A (hash a)).2 (Or.inr ⟨⟨a, ha, rfl⟩, ht⟩)
      rw [← hcol b a (B' b hb) (Or.inl ha) e]
      exact hb
    · obtain ⟨b, hb', e⟩ := (A (hash a)).2 (Or.inl ⟨op, ho, hi, a, hb, rfl⟩)
      rw [← hcol b a (B' b hb') (Or.inr ⟨op, ho, hb⟩) e]
      exact hb'

/-- The same for all operations, idle or not, provided no idle update is about an artifact that another operation takes out. -/
theorem C25_literal (hs : ProjectSets p) (hl : LinkSets ops) (hcol : NoCollision hash p (ops.map ArtifactOp.clean))
    (h : Plans L hash dbg c p ops (.ok (c', p')))
    (hi : ∀ a, ArtifactOp.update a (hash a) ∈ ops.map ArtifactOp.clean → ¬ TakenOut hash (ops.map ArtifactOp.clean) (hash a)) (a : ArtifactIm) :
    a ∈ editable p' ↔ (a ∈ editable p ∧ ∀ op ∈ ops.map ArtifactOp.clean, ¬ Presents op (hash a)) ∨
      ∃ op ∈ ops.map ArtifactOp.clean, Brings op a := by
  rw [C25_batch hs hl hcol h]
  constructor
  · rintro (⟨ha, ht⟩ | ⟨op, ho, _, hb⟩)
    · by_cases hx : ∃ op ∈ ops.map ArtifactOp.clean, Presents op (hash a)
      · obtain ⟨op, ho, hp⟩ := hx
        right
        by_cases hidle : Idle hash op
        · obtain ⟨b, rfl⟩ := hidle
          have := hcol a b (Or.inl ha) (Or.inr ⟨_, ho, brings_update.2 rfl⟩) (presents_update.1 hp)
          subst this
          exact ⟨_, ho, brings_update.2 rfl⟩
        · exact absurd ⟨op, ho, hidle, hp⟩ ht
      · left
        exact ⟨ha, fun op ho hp => hx ⟨op, ho, hp⟩⟩
    · exact Or.inr ⟨op, ho, hb⟩
  · rintro (⟨ha, ht⟩ | ⟨op, ho, hb⟩)
    · exact Or.inl ⟨ha, fun ⟨op, ho, _, hp⟩ => ht op ho hp⟩
    · by_cases hidle : Idle hash op
      · obtain ⟨b, rfl⟩ := hidle
        have e := brings_update.1 hb
        subst e
        have hnt := hi a ho
        -- the id existed, or was brought in
        obtain ⟨_, hno, _, hpf, _⟩ := plans_ok h
        obtain ⟨new, e1, _, _, _, e5, _⟩ := performOps_fold (dbg := dbg) (hash := hash) (ops.map ArtifactOp.clean) (artifactIms hash p) []
          (IMap.nodup_collect _)
        have hnew : new = [] := by
          unfold performOps at hpf
          rw [e1, List.nil_append] at hpf
          exact hpf
        rcases (e5 hnew ((noOverlap_iff _).2 hno)).2.1 _ ho _ (presents_update.2 rfl) with hc | ⟨_, op, ho', hi', b, hb', e⟩
        · obtain ⟨x, hx, e⟩ := (contains_artifactIms p _).1 hc
          have := hcol x a (Or.inl hx) (Or.inr ⟨_, ho, hb⟩) e
          subst this
          exact Or.inl ⟨hx, hnt⟩
        · have := hcol b a (Or.inr ⟨op, ho', hb'⟩) (Or.inr ⟨_, ho, hb⟩) e
          subst this
          exact Or.inr ⟨op, ho', hi', hb'⟩
      · exact Or.inr ⟨op, ho, hidle, hb⟩

/-- An accepted batch removes only artifacts whose id was presented by an update or delete. -/
theorem C24_only_presented (hs : ProjectSets p) (hl : LinkSets ops) (h : Plans L hash dbg c p ops (.ok (c', p'))) {a : ArtifactIm}
    (ha : a ∈ editable p) (hgone : ∀ b ∈ editable p', hash b ≠ hash a) : ∃ op ∈ ops, Presents op (hash a) := by
  obtain ⟨_, _, A, _⟩ := C25_ids hs hl h
  by_contra hx
  obtain ⟨b, hb, e⟩ := (A (hash a)).2 (Or.inr ⟨⟨a, ha, rfl⟩, by
    rintro ⟨op, ho, _, hp⟩
    obtain ⟨op', ho', rfl⟩ := List.mem_map.1 ho
    exact hx ⟨op', ho', presents_clean.1 hp⟩⟩)
  exact hgone b hb e

/-! ## the order of operations -/

theorem presents_perm {ops' : List ArtifactOp} (hp : ops.Perm ops') :
    (∀ id, BroughtIn hash ops id ↔ BroughtIn hash ops' id) ∧ (∀ id, TakenOut hash ops id ↔ TakenOut hash ops' id) ∧
    (Unchained hash ops ↔ Unchained hash ops') ∧ (NoOverlap hash ops ↔ NoOverlap hash ops') ∧
    (∀ s, PathsOk s ops ↔ PathsOk s ops') ∧ (Matches hash p ops ↔ Matches hash p ops') ∧ (NoCollision hash p ops ↔ NoCollision hash p ops') ∧
    (LinkSets ops ↔ LinkSets ops') := by
  have hm : ∀ op, op ∈ ops ↔ op ∈ ops' := fun op => hp.mem_iff
  have hb : ∀ id, BroughtIn hash ops id ↔ BroughtIn hash ops' id := fun id => by unfold BroughtIn; simp only [hm]
  have ht : ∀ id, TakenOut hash ops id ↔ TakenOut hash ops' id := fun id => by unfold TakenOut; simp only [hm]
  refine ⟨hb, ht, by unfold Unchained; simp only [hm, hb, ht], ?_, fun s => by unfold PathsOk; simp only [hm],
    by unfold Matches; simp only [hm], by unfold NoCollision; simp only [hm], by unfold LinkSets; simp only [hm]⟩
  unfold NoOverlap
  exact hp.pairwise_iff fun h id h1 h2 => h id h2 h1

/-- Whether the ids of a batch overlap does not depend on the order. -/
theorem C26_overlap {ops' : List ArtifactOp} (hp : ops.Perm ops') (hc : c.error = []) :
    (checkOverlap hash c ops).1.error = [] ↔ (checkOverlap hash c ops').1.error = [] := by
  rw [checkOverlap_ok c ops hc, checkOverlap_ok c ops' hc]
  unfold NoOverlap
  exact (hp.map _).pairwise_iff fun h id h1 h2 => h id h2 h1

/-- The artifacts after the operations, before the new project is put together. -/
theorem ims_mem (hno : NoOverlap hash (ops.map ArtifactOp.clean)) (hpf : (performOps hash dbg (artifactIms hash p) (ops.map ArtifactOp.clean)).1 = [])
    (hcol : NoCollision hash p (ops.map ArtifactOp.clean)) :
    ((performOps hash dbg (artifactIms hash p) (ops.map ArtifactOp.clean)).2.map Prod.snd).Nodup ∧
    ∀ a, a ∈ (performOps hash dbg (artifactIms hash p) (ops.map ArtifactOp.clean)).2.map Prod.snd ↔
      (a ∈ editable p ∧ ¬ TakenOut hash (ops.map ArtifactOp.clean) (hash a)) ∨
      ∃ op ∈ ops.map ArtifactOp.clean, ¬ Idle hash op ∧ Brings op a := by
  obtain ⟨new, e1, _, e3, e4, e5, _⟩ := performOps_fold (dbg := dbg) (hash := hash) (ops.map ArtifactOp.clean) (artifactIms hash p) []
    (IMap.nodup_collect _)
  have hnew : new = [] := by
    unfold performOps at hpf
    rw [e1, List.nil_append] at hpf
    exact hpf
  have A := (e5 hnew ((noOverlap_iff _).2 hno)).1
  have B : ∀ e ∈ (performOps hash dbg (artifactIms hash p) (ops.map ArtifactOp.clean)).2,
      e.1 = hash e.2 ∧ (e.2 ∈ editable p ∨ ∃ op ∈ ops.map ArtifactOp.clean, Brings op e.2) := by
    intro e he
    rcases e4 e he with h | ⟨h, h'⟩
    · exact ⟨(mem_artifactIms p e h).2, Or.inl (mem_artifactIms p e h).1⟩
    · exact ⟨h, Or.inr h'⟩
  constructor
  · refine List.Nodup.of_map hash ?_
    have : ((performOps hash dbg (artifactIms hash p) (ops.map ArtifactOp.clean)).2.map Prod.snd).map hash =
        (performOps hash dbg (artifactIms hash p) (ops.map ArtifactOp.clean)).2.map (fun e => key e.1) := by
      rw [List.map_map]
      exact List.map_congr_left fun e he => (B e he).1.symm
    rw [this]
    exact e3
  intro a
  constructor
  · intro ha
    obtain ⟨e, he, rfl⟩ := List.mem_map.1 ha
    obtain ⟨hk, hin⟩ := B e he
    rcases (A e.1).1 (IMap.contains_iff.2 ⟨e, he, rfl⟩) with ⟨op, ho, hi, b, hb, h'⟩ | ⟨h1, h2⟩
    · rw [hk] at h'
      rw [← hcol b e.2 (Or.inr ⟨op, ho, hb⟩) hin h']
      exact Or.inr ⟨op, ho, hi, hb⟩
    · obtain ⟨b, hb, h'⟩ := (contains_artifactIms p _).1 h1
      rw [hk] at h' h2
      have := hcol b e.2 (Or.inl hb) hin h'
      exact Or.inl ⟨this ▸ hb, h2⟩
  · intro ha
    have hin : a ∈ editable p ∨ ∃ op ∈ ops.map ArtifactOp.clean, Brings op a := by
      rcases ha with h | ⟨op, ho, _, hb⟩
      · exact Or.inl h.1
      · exact Or.inr ⟨op, ho, hb⟩
    have hc : IMap.contains (performOps hash dbg (artifactIms hash p) (ops.map ArtifactOp.clean)).2 (hash a) = true := by
      refine (A _).2 ?_
      rcases ha with ⟨h1, h2⟩ | ⟨op, ho, hi, hb⟩
      · exact Or.inr ⟨(contains_artifactIms p _).2 ⟨a, h1, rfl⟩, h2⟩
      · exact Or.inl ⟨op, ho, hi, a, hb, rfl⟩
    obtain ⟨e, he, hk⟩ := IMap.contains_iff.1 hc
    obtain ⟨hk', hin'⟩ := B e he
    have : e.2 = a := hcol e.2 a hin' hin (hk'.symm.trans hk)
    rw [← this]
    exact List.mem_map_of_mem he

/-- Putting together the same artifacts in another order. -/
theorem joined_same {ims ims' : List ArtifactIm} (hp : ims.Perm ims') {p : Project} (hs : IMap.Nodup p.codeImpls)
    (hj : (joinArtifacts ims).lints = []) {arts arts' : IMap Name Artifact}
    (hl : Loads hash (joinArtifacts ims).arts p.codeImpls (joinArtifacts ims).files arts)
    (hl' : Loads hash (joinArtifacts ims').arts p.codeImpls (joinArtifacts ims').files arts') :
    Same { p with artifacts := arts } { p with artifacts := arts' } := by
  have hj' : (joinArtifacts ims').lints = [] := by
    rw [C11_reported] at hj ⊢
    exact hj.perm hp fun h => Ne.symm h
  obtain ⟨f1, f2⟩ := C11_present _ hj
  obtain ⟨f1', f2'⟩ := C11_present _ hj'
  have inp := joinArtifacts_input ims
  have inp' := joinArtifacts_input ims'
  have hf : (joinArtifacts ims).files.map Prod.fst = (joinArtifacts ims).arts.map Prod.fst := by
    rw [f1, f2, List.map_map, List.map_map]; rfl
  have hf' : (joinArtifacts ims').files.map Prod.fst = (joinArtifacts ims').arts.map Prod.fst := by
    rw [f1', f2', List.map_map, List.map_map]; rfl
  have pi : (joinArtifacts ims).arts.Perm (joinArtifacts ims').arts := by rw [f2, f2']; exact hp.map _
  have pd : (joinArtifacts ims).files.Perm (joinArtifacts ims').files := by rw [f1, f1']; exact hp.map _
  refine ⟨rfl, IMap.nodup_of_fst inp.dnodup (hl.spec inp).1, IMap.nodup_of_fst inp'.dnodup (hl'.spec inp').1, hs, hs,
    Loads.same inp hf hl inp' hf' hl' pi pd (fun _ => rfl), ?_, fun _ => rfl⟩
  intro x hx
  obtain ⟨im, sp⟩ := (hl.spec inp).2.2.2.2.2.1 x.2 (List.mem_map.2 ⟨x, hx, rfl⟩)
  exact sp.partsNodup

theorem lintErrors_same {q q' : Project} (h : Same q q') (h2 : Same q' q) : (q.lintErrors L).Perm (q'.lintErrors L) := by
  have bn : ∀ q : Project, IMap.Nodup q.artifacts → IMap.Nodup q.bare.artifacts := fun q hq =>
    IMap.nodup_of_fst hq (by show List.map _ (List.map _ _) = _; rw [List.map_map]; rfl)
  have ma : ∀ {q q' : Project}, Same q q' → ∀ y, y ∈ q.bare.artifacts → y ∈ q'.bare.artifacts := by
    intro q q' hq y hy
    obtain ⟨x, hx, rfl⟩ := List.mem_map.1 hy
    obtain ⟨x', hx', e1, e2, _⟩ := hq.arts x hx
    exact List.mem_map.2 ⟨x', hx', by simp only [e1, e2]⟩
  have ha := perm_of_mem_iff (IMap.nodup_list (bn q h.nodup)) (IMap.nodup_list (bn q' h.nodup')) fun y => ⟨ma h y, ma h2 y⟩
  have hget : ∀ n, IMap.get? q.bare.artifacts n = IMap.get? q'.bare.artifacts n := fun n => IMap.get?_perm ha (bn q h.nodup) n
  have hcon : ∀ n, IMap.contains q.bare.artifacts n = IMap.contains q'.bare.artifacts n := by intro n; unfold IMap.contains; rw [hget]
  have hs : q.bare.settings = q'.bare.settings := h.settings
  rw [← lintErrors_bare L q, ← lintErrors_bare L q']
  unfold Project.lintErrors lintPartofDne lintPartofTypes lintText lintDoneSubnames
  simp only [hcon, hs]
  exact (((ha.flatMap_right _).append (ha.flatMap_right _)).append (ha.flatMap_right _)).append (ha.filterMap _)

/-- If two orders of a batch are both accepted, the new projects are the same, up to the spelling of names in `parts` and of names in code references. -/
theorem C26_same {ops' : List ArtifactOp} {c1 c2 : Categorized} {p1 p2 : Project} (hp : ops.Perm ops') (hs : ProjectSets p)
    (hcol : NoCollision hash p (ops.map ArtifactOp.clean))
    (h1 : Plans L hash dbg c p ops (.ok (c1, p1))) (h2 : Plans L hash dbg c p ops' (.ok (c2, p2))) :
    foldCase p1.sort = foldCase p2.sort ∧ c1.error = [] ∧ c2.error = [] ∧ c1.other.Perm c2.other := by
  obtain ⟨a1, b1, d1, f1, ims1, g1, l1, j1, q1, v1, w1⟩ := plans_ok h1
  obtain ⟨a2, b2, d2, f2, ims2, g2, l2, j2, q2, v2, w2⟩ := plans_ok h2
  have hpc := hp.map ArtifactOp.clean
  obtain ⟨_, pt, _, _, _, _, pc, _⟩ := presents_perm (hash := hash) (p := p) hpc
  obtain ⟨n1, m1⟩ := ims_mem b1 f1 hcol
  obtain ⟨n2, m2⟩ := ims_mem b2 f2 (pc.1 hcol)
  have hi : ims1.Perm ims2 := by
    rw [g1, g2]
    refine perm_of_mem_iff n1 n2 fun a => ?_
    rw [m1, m2, pt]
    simp only [hpc.mem_iff]
  have S1 := joined_same hi hs.code j1 l1 l2
  have S2 := joined_same hi.symm hs.code j2 l2 l1
  rw [← q1, ← q2] at S1 S2
  refine ⟨foldCase_sort S1 S2, ?_, ?_, ?_⟩
  · rw [w1, categorize_eq, a1]
    simp only [List.nil_append, List.filter_eq_nil_iff, decide_eq_true_eq]
    exact v1
  · rw [w2, categorize_eq, a2]
    simp only [List.nil_append, List.filter_eq_nil_iff, decide_eq_true_eq]
    exact v2
  · rw [w1, w2, categorize_eq, categorize_eq]
    exact (List.Perm.refl _).append ((lintErrors_same S1 S2).filter _)

theorem accepted_perm {ops' : List ArtifactOp} {out' : Res ModifyError (Categorized × Project)} (hp : ops.Perm ops') (hs : ProjectSets p)
    (hcol : NoCollision hash p (ops.map ArtifactOp.clean)) (hu : Unchained hash (ops.map ArtifactOp.clean))
    (h1 : Plans L hash dbg c p ops out) (h2 : Plans L hash dbg c p ops' out') :
    (∃ e, out = .err e ∧ e.kind = .invalidFromModify) → ∃ e, out' = .err e ∧ e.kind = .invalidFromModify := by
  rintro ⟨e, rfl, hk⟩
  have hpc := hp.map ArtifactOp.clean
  obtain ⟨_, pt, pu, pn, pp, pm, pc, _⟩ := presents_perm (hash := hash) (p := p) hpc
  obtain ⟨d1, d2, d3⟩ := C23_decision h1
  obtain ⟨d1', d2', d3'⟩ := C23_decision h2
  obtain ⟨a, b, d⟩ := d3.1 (Or.inl ⟨e, rfl, Or.inr hk⟩)
  have hm : Matches hash p (ops.map ArtifactOp.clean) := by
    by_contra hm
    obtain ⟨e', he, hk'⟩ := (C24_mismatch_iff h1 a b d hu).2 hm
    cases he; rw [hk] at hk'; cases hk'
  have nomis : ∀ {o : List ArtifactOp} {ou}, Plans L hash dbg c p o ou → NoOverlap hash (o.map ArtifactOp.clean) →
      PathsOk p.settings (o.map ArtifactOp.clean) → Unchained hash (o.map ArtifactOp.clean) → Matches hash p (o.map ArtifactOp.clean) →
      (performOps hash dbg (artifactIms hash p) (o.map ArtifactOp.clean)).1 = [] := by
    intro o ou ho b d u m
    by_contra hx
    obtain ⟨e, he, hk⟩ := ((prepare_cases (hash := hash) (dbg := dbg) c p o).2.2.2 a b d).1 hx
    refine (C24_mismatch_iff ho a b d u).1 ?_ m
    unfold Plans at ho
    rw [he] at ho
    exact ⟨e, ho, hk⟩
  have f1 := nomis h1 b d hu hm
  have f2 := nomis h2 (pn.1 b) ((pp _).1 d) (pu.1 hu) (pm.1 hm)
  obtain ⟨n1, m1⟩ := ims_mem b f1 hcol
  obtain ⟨n2, m2⟩ := ims_mem (pn.1 b) f2 (pc.1 hcol)
  have hi : ((performOps hash dbg (artifactIms hash p) (ops.map ArtifactOp.clean)).2.map Prod.snd).Perm
      ((performOps hash dbg (artifactIms hash p) (ops'.map ArtifactOp.clean)).2.map Prod.snd) := by
    refine perm_of_mem_iff n1 n2 fun a => ?_
    rw [m1, m2, pt]
    simp only [hpc.mem_iff]
  have g1 := ((prepare_cases (hash := hash) (dbg := dbg) c p ops).2.2.2 a b d).2 f1
  have g2 := ((prepare_cases (hash := hash) (dbg := dbg) c p ops').2.2.2 a (pn.1 b) ((pp _).1 d)).2 f2
  unfold Plans at h1 h2
  rw [g1] at h1
  rw [g2] at h2
  obtain ⟨arts, l1, o1⟩ := h1
  obtain ⟨arts', l2, o2⟩ := h2
  rcases finishPlan_cases L c a (joinArtifacts ((performOps hash dbg (artifactIms hash p) (ops.map ArtifactOp.clean)).2.map Prod.snd)).lints
      { p with artifacts := arts } with ⟨_, e⟩ | ⟨⟨dl, hdl, hlv⟩, _⟩
  · rw [e] at o1; cases o1
  rcases finishPlan_cases L c a (joinArtifacts ((performOps hash dbg (artifactIms hash p) (ops'.map ArtifactOp.clean)).2.map Prod.snd)).lints
      { p with artifacts := arts' } with ⟨hno, _⟩ | ⟨_, e, he, hk⟩
  · exfalso
    have hj' : (joinArtifacts ((performOps hash dbg (artifactIms hash p) (ops'.map ArtifactOp.clean)).2.map Prod.snd)).lints = [] := by
      by_contra hx
      obtain ⟨x, hx⟩ := List.exists_mem_of_ne_nil _ hx
      refine hno x (List.mem_append_left _ hx) ?_
      obtain ⟨_, _, _, _, _, _, _, _, h | h⟩ := (C11_lints _ x).1 hx <;> rw [h] <;> rfl
    have S2 := joined_same hi.symm hs.code hj' l2 l1
    have hj : (joinArtifacts ((performOps hash dbg (artifactIms hash p) (ops.map ArtifactOp.clean)).2.map Prod.snd)).lints = [] := by
      rw [C11_reported] at hj' ⊢
      exact hj'.perm hi.symm fun h => Ne.symm h
    have S1 := joined_same hi hs.code hj l1 l2
    rw [hj, List.nil_append] at hdl
    exact hno dl (List.mem_append_right _ ((lintErrors_same S1 S2).mem_iff.1 hdl)) hlv
  · exact ⟨e, o2.trans he, hk⟩

/-- Without chained ids the order of a batch does not matter: it is accepted in every order or in none, and if it is refused, it is
refused with the same kind of error. -/
theorem C26_order {ops' : List ArtifactOp} {out' : Res ModifyError (Categorized × Project)} (hp : ops.Perm ops') (hs : ProjectSets p)
    (hcol : NoCollision hash p (ops.map ArtifactOp.clean)) (hu : Unchained hash (ops.map ArtifactOp.clean))
    (h1 : Plans L hash dbg c p ops out) (h2 : Plans L hash dbg c p ops' out') :
    ((∃ r, out = .ok r) ↔ ∃ r, out' = .ok r) ∧
    ∀ k, (∃ e, out = .err e ∧ e.kind = k) ↔ ∃ e, out' = .err e ∧ e.kind = k := by
  have hpc := hp.map ArtifactOp.clean
  obtain ⟨_, pt, pu, pn, pp, pm, pc, _⟩ := presents_perm (hash := hash) (p := p) hpc
  obtain ⟨d1, d2, d3⟩ := C23_decision h1
  obtain ⟨d1', d2', d3'⟩ := C23_decision h2
  have k1 : (∃ e, out = .err e ∧ e.kind = .invalidFromLoad) ↔ ∃ e, out' = .err e ∧ e.kind = .invalidFromLoad := by rw [d1, d1']
  have k2 : (∃ e, out = .err e ∧ e.kind = .invalidPaths) ↔ ∃ e, out' = .err e ∧ e.kind = .invalidPaths := by rw [d2, d2', pn, pp]
  have k3 : (∃ e, out = .err e ∧ e.kind = .hashMismatch) ↔ ∃ e, out' = .err e ∧ e.kind = .hashMismatch := by
    constructor
    · rintro ⟨e, he, hk⟩
      obtain ⟨a, b, d⟩ := d3.1 (Or.inl ⟨e, he, Or.inl hk⟩)
      rw [C24_mismatch_iff h2 a (pn.1 b) ((pp _).1 d) (pu.1 hu), ← pm, ← C24_mismatch_iff h1 a b d hu]
      exact ⟨e, he, hk⟩
    · rintro ⟨e, he, hk⟩
      obtain ⟨a, b, d⟩ := d3'.1 (Or.inl ⟨e, he, Or.inl hk⟩)
      rw [C24_mismatch_iff h1 a (pn.2 b) ((pp _).2 d) hu, pm, ← C24_mismatch_iff h2 a b d (pu.1 hu)]
      exact ⟨e, he, hk⟩
  have k4 : (∃ e, out = .err e ∧ e.kind = .invalidFromModify) ↔ ∃ e, out' = .err e ∧ e.kind = .invalidFromModify :=
    ⟨accepted_perm hp hs hcol hu h1 h2, accepted_perm hp.symm hs (pc.1 hcol) (pu.1 hu) h2 h1⟩
  -- every outcome is one of these
  have cases' : ∀ {o : List ArtifactOp} {ou}, Plans L hash dbg c p o ou → (∃ r, ou = .ok r) ∨ ∃ e, ou = .err e ∧
      (e.kind = .invalidFromLoad ∨ e.kind = .invalidPaths ∨ e.kind = .hashMismatch ∨ e.kind = .invalidFromModify) := by
    intro o ou ho
    obtain ⟨d1, d2, d3⟩ := C23_decision ho
    by_cases a : c.error = []
    · by_cases b : NoOverlap hash (o.map ArtifactOp.clean) ∧ PathsOk p.settings (o.map ArtifactOp.clean)
      · rcases d3.2 ⟨a, b⟩ with ⟨e, he, hk | hk⟩ | h
        · exact Or.inr ⟨e, he, by simp [hk]⟩
        · exact Or.inr ⟨e, he, by simp [hk]⟩
        · exact Or.inl h
      · obtain ⟨e, he, hk⟩ := d2.2 ⟨a, b⟩
        exact Or.inr ⟨e, he, by simp [hk]⟩
    · obtain ⟨e, he, hk⟩ := d1.2 a
      exact Or.inr ⟨e, he, by simp [hk]⟩
  have half : ∀ {o o' : Res ModifyError (Categorized × Project)}, (∃ r, o = .ok r) →
      (∀ k, k = .invalidFromLoad ∨ k = .invalidPaths ∨ k = .hashMismatch ∨ k = .invalidFromModify →
        (∃ e, o' = .err e ∧ e.kind = k) → ∃ e, o = .err e ∧ e.kind = k) →
      ((∃ r, o' = .ok r) ∨ ∃ e, o' = .err e ∧
        (e.kind = .invalidFromLoad ∨ e.kind = .invalidPaths ∨ e.kind = .hashMismatch ∨ e.kind = .invalidFromModify)) → ∃ r, o' = .ok r := by
    rintro o o' ⟨r, rfl⟩ hk (h | ⟨e, he, h⟩)
    · exact h
    · obtain ⟨e', he', _⟩ := hk e.kind h ⟨e, he, rfl⟩
      cases he'
  refine ⟨⟨fun h => half h ?_ (cases' h2), fun h => half h ?_ (cases' h1)⟩, fun k => ?_⟩
  · rintro k (rfl | rfl | rfl | rfl)
    exacts [k1.2, k2.2, k3.2, k4.2]
  · rintro k (rfl | rfl | rfl | rfl)
    exacts [k1.1, k2.1, k3.1, k4.1]
  · have only : ∀ {o : List ArtifactOp} {ou}, Plans L hash dbg c p o ou → (∃ e, ou = .err e ∧ e.kind = k) →
        (k = .invalidFromLoad ∨ k = .invalidPaths ∨ k = .hashMismatch ∨ k = .invalidFromModify) := by
      rintro o ou ho ⟨e, he, hk⟩
      rcases cases' ho with ⟨r, hr⟩ | ⟨e', he', hk'⟩
      · rw [he] at hr; cases hr
      · rw [he] at he'; cases he'; rw [hk] at hk'; exact hk'
    constructor
    · intro h
      rcases only h1 h with rfl | rfl | rfl | rfl
      exacts [k1.1 h, k2.1 h, k3.1 h, k4.1 h]
    · intro h
      rcases only h2 h with rfl | rfl | rfl | rfl
      exacts [k1.2 h, k2.2 h, k3.2 h, k4.2 h]

/-! ## projects that were read -/

/-- A project that was read has these invariants: the hypotheses about the project are always met. -/
theorem C25_read_sets {readToml : Str → Option SettingsRaw} {ncpu : Nat} {fs : FS} {base : FilePath}
    (h : ReadsProject L readToml hash ncpu fs base (.ok (c, p))) : ProjectSets p := by
  unfold ReadsProject at h
  split at h
  · cases h
  · split at h
    · rename_i s _
      obtain ⟨r, ha, h | ⟨he, arts, hl, ho⟩⟩ := h
      · cases h.2
      · unfold finishRead at ho
        split at ho
        · obtain ⟨_, rfl⟩ := Prod.mk.inj (Res.ok.inj ho)
          have inp := joinArtifacts_input r.arts
          have sp := hl.spec inp
          have hn : IMap.Nodup arts := IMap.nodup_of_fst inp.dnodup sp.1
          have nodupSort : ∀ {β : Type} (m : IMap Name β) (f : β → β), IMap.Nodup m →
              IMap.Nodup ((sortOn (fun x => x.1.keyStr) m).map (fun x => (x.1, f x.2))) := by
            intro β m f hm
            have := (IMap.nodup_perm (sortOn_perm (fun x : Name × β => x.1.keyStr) m)).2 hm
            exact IMap.nodup_of_fst this (by rw [List.map_map]; rfl)
          refine ⟨nodupSort _ _ hn, nodupSort _ _ (C10_no_empty _).1, ?_⟩
          intro x hx
          obtain ⟨y, hy, rfl⟩ := List.mem_map.1 hx
          rw [mem_sortOn] at hy
          obtain ⟨im, as⟩ := sp.2.2.2.2.2.1 y.2 (List.mem_map.2 ⟨y, hy, rfl⟩)
          exact nodup_sortNames as.pnodup
        · cases ho
    · cases h

end

/-! ## examples -/

/-- A hash that tells the artifacts of the examples apart. -/
def exId (a : ArtifactIm) : HashIm :=
  let sum := fun s : Str => UInt8.ofNat ((s.map Char.toNat).sum)
  ⟨#v[sum a.name.raw, sum a.text, sum a.file, 0, 0, 0, 0, 0, 0, 0, 0, 0, 0, 0, 0, 0]⟩

theorem exReads (a b x y : Str) (rev : Bool)
    (hc : (walkCode (exFs a b x y) exS).countP (fun f => (codeSent exLibs (exFs a b x y) f).dead) < 4)
    (ha : (walkArtifacts (exFs a b x y) exS).countP (fun f => (artSent exLibs exS.pre (exFs a b x y) f).dead) < 4) :
    ReadsProject exLibs (fun _ => some exRaw) exId 4 (exFs a b x y) c!"/p" ((exRun (exFs a b x y) rev).now exLibs exId exS) := by
  unfold ReadsProject
  rw [(exFs_settings a b x y).1]
  simp only [(exFs_settings a b x y).2]
  exact ⟨_, exRun_arrives _ rev hc ha, Run.now_gives _ _ _ _⟩

/-- One decision about operations, with the topological order of `DiGraph.toposort`. -/
def planNow (L : Libs) (hash : ArtifactIm → HashIm) (dbg : ArtifactIm → Str) (c : Categorized) (p : Project) (ops : List ArtifactOp) :
    Res ModifyError (Categorized × Project) :=
  match prepare hash dbg c p ops with
  | .ok (c, ims) =>
    match finalizeLoadArtifact (joinArtifacts ims).arts with
    | .ok l =>
      match determineArtifacts hash l.graphs.full.toposort l p.codeImpls (joinArtifacts ims).files with
      | .ok arts => finishPlan L c (joinArtifacts ims).lints { p with artifacts := arts }
      | _ => .panic
    | _ => .panic
  | .err e => .err e
  | .panic => .panic

/-- Every request has an outcome. -/
theorem C23_total (L : Libs) (hash : ArtifactIm → HashIm) (dbg : ArtifactIm → Str) (c : Categorized) (p : Project) (ops : List ArtifactOp) :
    Plans L hash dbg c p ops (planNow L hash dbg c p ops) := by
  unfold Plans planNow
  cases prepare hash dbg c p ops with
  | ok r =>
    obtain ⟨c1, ims⟩ := r
    have inp := joinArtifacts_input ims
    obtain ⟨l, hl, hall⟩ := Loads.exists (hash := hash) (code := p.codeImpls) inp
    have ht := toposort_contract _ inp.nodup l hl
    obtain ⟨arts, ha⟩ := hall _ ht
    refine ⟨arts, ⟨l, _, hl, ht, ha⟩, ?_⟩
    simp only [hl, ha]
  | err e => rfl
  | panic => rfl

/-- The project of the examples: the requirement REQ-a and the specifications SPC-a and SPC-b. -/
def exProject : Project := match (exRun exGood false).now exLibs exId exS with
  | .ok r => r.2
  | _ => ⟨exS, [], []⟩

theorem exProject_read : ReadsProject exLibs (fun _ => some exRaw) exId 4 exGood c!"/p" (.ok (⟨[], []⟩, exProject)) := by
  have h := exReads c!"# REQ-a\nwhat\n# SPC-a\nhow [[.x]]\n" c!"# SPC-b\nmore\n" c!"// #SPC-a\n// #SPC-a.x" c!"// #SPC-b" false
    (by decide +kernel) (by decide +kernel)
  have e : ((exRun exGood false).now exLibs exId exS).toOption.map (fun r => r.1) = some ⟨[], []⟩ := by decide +kernel
  have g : ∀ o : Res Categorized (Categorized × Project), o.toOption.map (fun r => r.1) = some ⟨[], []⟩ →
      o = .ok (⟨[], []⟩, match o with | .ok r => r.2 | _ => ⟨exS, [], []⟩) := by
    rintro (⟨c, q⟩ | _ | _) h
    · simp only [Res.toOption, Option.map_some, Option.some.injEq] at h
      rw [h]
    · cases h
    · cases h
  have := g _ e
  unfold exGood at *
  rw [this] at h
  exact h

def exImA : ArtifactIm := ⟨Name.lit c!"SPC-a", c!"/p/design/a.md", [], none, c!"how [[.x]]"⟩
def exImB : ArtifactIm := ⟨Name.lit c!"SPC-b", c!"/p/design/b.md", [], none, c!"more"⟩
/-- Another text for SPC-b, with an automatic link that is cleaned away. -/
def exImB' : ArtifactIm := ⟨Name.lit c!"SPC-b", c!"/p/design/b.md", [Name.lit c!"REQ-b", Name.lit c!"REQ-a"], none, c!"even more  \n"⟩
def exImC : ArtifactIm := ⟨Name.lit c!"SPC-c", c!"/p/design/c.toml", [], none, c!"new"⟩

/-- Change SPC-b, add SPC-c, remove SPC-a. -/
def exOps : List ArtifactOp := [.update exImB' (exId exImB), .create exImC, .delete (Name.lit c!"SPC-a") (exId exImA)]

/-- What the decision about a batch is, with the artifacts of the new project. -/
def exDecides (ops : List ArtifactOp) : List (String × String) ⊕ Option ModifyErrorKind :=
  match planNow exLibs exId (fun _ => []) ⟨[], []⟩ exProject ops with
  | .ok r => .inl ((editable r.2).map (fun a => (String.ofList a.name.raw, String.ofList a.text)))
  | .err e => .inr (some e.kind)
  | .panic => .inr none

theorem exDecides_err {ops : List ArtifactOp} {k : ModifyErrorKind} (h : exDecides ops = .inr (some k)) :
    ∃ e, e.kind = k ∧ Plans exLibs exId (fun _ => []) ⟨[], []⟩ exProject ops (.err e) := by
  have := C23_total exLibs exId (fun _ => []) ⟨[], []⟩ exProject ops
  unfold exDecides at h
  split at h
  · cases h
  · rename_i e he
    rw [he] at this
    exact ⟨e, by simpa using h, this⟩
  · cases h

theorem exDecides_ok {ops : List ArtifactOp} {l : List (String × String)} (h : exDecides ops = .inl l) :
    ∃ c' p', Plans exLibs exId (fun _ => []) ⟨[], []⟩ exProject ops (.ok (c', p')) ∧
      (editable p').map (fun a => (String.ofList a.name.raw, String.ofList a.text)) = l := by
  have := C23_total exLibs exId (fun _ => []) ⟨[], []⟩ exProject ops
  unfold exDecides at h
  split at h
  · rename_i r hr
    rw [hr] at this
    exact ⟨r.1, r.2, this, by simpa using h⟩
  · cases h
  · cases h

/-- The artifact an operation brings. -/
def ArtifactOp.brought : ArtifactOp → List ArtifactIm
  | .create a => [a]
  | .update a _ => [a]
  | .delete _ _ => []

theorem mem_brought {op : ArtifactOp} {a : ArtifactIm} : a ∈ op.brought ↔ Brings op a := by
  cases op with
  | create b => simp [ArtifactOp.brought, brings_create]
  | update b i => simp [ArtifactOp.brought, brings_update]
  | delete n i => simp [ArtifactOp.brought, brings_delete]

theorem noCollision_of {hash : ArtifactIm → HashIm} {p : Project} {ops : List ArtifactOp}
    (h : ∀ a ∈ editable p ++ ops.flatMap ArtifactOp.brought, ∀ b ∈ editable p ++ ops.flatMap ArtifactOp.brought, hash a = hash b → a = b) :
    NoCollision hash p ops := by
  have m : ∀ a, (a ∈ editable p ∨ ∃ op ∈ ops, Brings op a) → a ∈ editable p ++ ops.flatMap ArtifactOp.brought := by
    rintro a (h | ⟨op, ho, hb⟩)
    · exact List.mem_append_left _ h
    · exact List.mem_append_right _ (List.mem_flatMap.2 ⟨op, ho, mem_brought.2 hb⟩)
  exact fun a b ha hb => h a (m a ha) b (m b hb)

theorem exOps_ok : ProjectSets exProject ∧ LinkSets exOps ∧ NoCollision exId exProject (exOps.map ArtifactOp.clean) ∧
    NoOverlap exId (exOps.map ArtifactOp.clean) ∧ PathsOk exProject.settings (exOps.map ArtifactOp.clean) ∧
    Unchained exId (exOps.map ArtifactOp.clean) := by
  refine ⟨C25_read_sets exProject_read, ?_, noCollision_of (by decide +kernel), (noOverlap_iff _).1 (by decide +kernel), ?_, ?_⟩
  · have : ∀ op ∈ exOps, ∀ a ∈ op.brought, (List.map (fun n : Name => key n) a.partof).Nodup := by decide +kernel
    exact fun op ho a hb => this op ho a (mem_brought.2 hb)
  · have : ∀ op ∈ exOps.map ArtifactOp.clean, ∀ a ∈ op.brought, checkPath exProject.settings a.file = none := by decide +kernel
    exact fun op ho a hb => this op ho a (mem_brought.2 hb)
  · have : ∀ op ∈ exOps.map ArtifactOp.clean, ∀ a ∈ op.brought, ArtifactOp.update a (exId a) ≠ op := by decide +kernel
    intro a ha
    exact absurd rfl (this _ ha a (mem_brought.2 (brings_update.2 rfl)))

/-- The batch is accepted in both orders: the hypotheses of `C25_ids`, `C25_batch`, `C25_literal`, `C26_same` and `C26_order` are met. SPC-b
has its new text and SPC-c is there; REQ-a was not touched. -/
theorem exOps_accepted : exDecides exOps = .inl [("REQ-a", "what"), ("SPC-c", "new"), ("SPC-b", "even more")] ∧
    exDecides exOps.reverse = .inl [("REQ-a", "what"), ("SPC-c", "new"), ("SPC-b", "even more")] := by
  constructor <;> decide +kernel

/-- The different refusals: an id is used twice, a file is not inside the paths, an id does not exist, a link leads nowhere. -/
example : exDecides (exOps ++ [.delete (Name.lit c!"SPC-b") (exId exImB)]) = .inr (some .invalidPaths) ∧
    exDecides [.create { exImC with file := c!"/q/c.toml" }] = .inr (some .invalidPaths) ∧
    exDecides [.delete (Name.lit c!"SPC-a") (exId exImB'), .create exImC] = .inr (some .hashMismatch) ∧
    exDecides [.create { exImC with partof := [Name.lit c!"REQ-none"] }] = .inr (some .invalidFromModify) := by
  refine ⟨?_, ?_, ?_, ?_⟩ <;> decide +kernel

/-- `C24_stale` and `C24_mismatch_iff` at work: the stale id of another version of SPC-b. -/
example : (∀ a ∈ editable exProject, exId a ≠ exId exImB') ∧
    ¬ Matches exId exProject ([ArtifactOp.delete (Name.lit c!"SPC-a") (exId exImB'), .create exImC].map ArtifactOp.clean) := by
  have h : ∀ a ∈ editable exProject, exId a ≠ exId exImB' := by decide +kernel
  refine ⟨h, fun m => ?_⟩
  obtain ⟨a, ha, e⟩ := m.1 (.delete (Name.lit c!"SPC-a") (exId exImB')) (by decide +kernel) (exId exImB') (presents_delete.2 rfl)
  exact h a ha e

/-- A refused request on this disk. -/
theorem exRefused : ∃ e, e.kind = .hashMismatch ∧
    Modifies exLibs (fun _ => some exRaw) exId (fun _ => []) 4 exGood c!"/p" [.delete (Name.lit c!"SPC-a") (exId exImB'), .create exImC]
      (some (.err e)) exGood := by
  have h : exDecides [.delete (Name.lit c!"SPC-a") (exId exImB'), .create exImC] = .inr (some .hashMismatch) := by decide +kernel
  obtain ⟨e, hk, hp⟩ := exDecides_err h
  exact ⟨e, hk, .refused exProject_read hp (fun x hx => by cases hx)⟩

/-- The exception for chained ids is real: creating an artifact and then "updating" it to itself is accepted, in the other order it is
refused, because the id does not exist yet. So without `Unchained` the order matters. -/
theorem C26_chained :
    exDecides [.create exImC, .update exImC (exId exImC)] = .inl [("REQ-a", "what"), ("SPC-a", "how [[.x]]"), ("SPC-b", "more"), ("SPC-c", "new")] ∧
    exDecides [.update exImC (exId exImC), .create exImC] = .inr (some .hashMismatch) ∧
    -- an update to itself and a removal
    exDecides [.update exImB (exId exImB), .delete exImB.name (exId exImB)] = .inl [("REQ-a", "what"), ("SPC-a", "how [[.x]]")] ∧
    exDecides [.delete exImB.name (exId exImB), .update exImB (exId exImB)] = .inr (some .hashMismatch) := by
  refine ⟨?_, ?_, ?_, ?_⟩ <;> decide +kernel

/-- The exception in `C24_stale` is real: the update presents an id that is not in the project, and the batch is accepted. -/
theorem C24_stale_accepted : ∃ ops c' p', Plans exLibs exId (fun _ => []) ⟨[], []⟩ exProject ops (.ok (c', p')) ∧
    ∃ op ∈ ops, Presents op (exId exImC) ∧ ∀ a ∈ editable exProject, exId a ≠ exId exImC := by
  obtain ⟨c', p', h, _⟩ := exDecides_ok C26_chained.1
  exact ⟨_, c', p', h, .update exImC (exId exImC), by simp, presents_update.2 rfl, by decide +kernel⟩

end Art
