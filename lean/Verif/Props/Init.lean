import Verif.Lemmas.Init
import Verif.Props.Check
import Verif.Props.SaveEx

/-!
# Property C56: starting a project
-/

namespace Art.Spec

/-- The settings of a new project. -/
def startSettings (work : FilePath) : Settings :=
  { base := work, settingsPath := work ++ c!"/.art/settings.toml", codePaths := [], excludeCodePaths := [],
    artifactPaths := [work ++ c!"/design"], excludeArtifactPaths := [], codeUrl := none, mdName := .default, mdAttrs := .hashes }

/-- What a new project shows: one requirement, which is not linked and not implemented. -/
def startProject (hash : ArtifactIm → HashIm) (work : FilePath) : Project :=
  ⟨startSettings work, [], [(Name.lit c!"REQ-purpose",
    { id := hash (purposeArt work), name := Name.lit c!"REQ-purpose", file := work ++ c!"/design/purpose.md", partof := [], parts := [],
      completed := ⟨0, 0⟩, text := c!"The goal of this project is...", impl := .notImpl, subnames := [] })]⟩

end Art.Spec

namespace Art
open Spec

section
variable {L : Libs} {readToml : Str → Option SettingsRaw} {hash : ArtifactIm → HashIm} {ncpu : Nat} {fs fs' : FS} {work : FilePath}

theorem missing_below (w : FS.WF fs) {d n : FilePath} (hn : '/' ∉ n) (h : IMap.get? fs d ≠ some .dir) : IMap.get? fs (d ++ '/' :: n) = none := by
  cases hg : IMap.get? fs (d ++ '/' :: n) with
  | none => rfl
  | some x =>
    obtain ⟨q, m, e1, e2, e3, e4⟩ := w.parent _ (w.mem_iff.2 hg) (by simp)
    have e : parentDir (d ++ '/' :: n) = parentDir (q ++ '/' :: m) := congrArg _ e1
    rw [parentDir_ok hn, parentDir_ok e3] at e
    rw [e] at h
    exact absurd e4 h

theorem paths_ne (work : FilePath) : (artDir work ≠ settingsFile work ∧ artDir work ≠ designDir work ∧ artDir work ≠ purposeFile work) ∧
    (settingsFile work ≠ designDir work ∧ settingsFile work ≠ purposeFile work ∧ designDir work ≠ purposeFile work) ∧
    (work ≠ artDir work ∧ work ≠ settingsFile work) := by
  unfold artDir settingsFile designDir purposeFile
  simp

/-- All outcomes of the actions. -/
theorem runInit (w : FS.WF fs) (hd : IMap.get? fs work = some .dir) (hf : IMap.get? fs (artDir work) = none) :
    (Startable fs work ∧ ∃ fs', runSteps fs (initSteps work) = (true, fs') ∧ Started fs work fs') ∨
    (¬ Startable fs work ∧ ∃ fs', runSteps fs (initSteps work) = (false, fs') ∧ IMap.get? fs' (artDir work) = some .dir ∧
      IMap.get? fs' (settingsFile work) = some (.file (.text initSettings)) ∧
      ∀ q, q ≠ artDir work → q ≠ settingsFile work → IMap.get? fs' q = IMap.get? fs q) := by
  obtain ⟨⟨n1, n2, n3⟩, ⟨n4, n5, n6⟩, n7, n8⟩ := paths_ne work
  have hset : IMap.get? fs (settingsFile work) = none := by
    rw [settingsFile_eq]; exact missing_below w (by decide) (by rw [hf]; simp)
  have start : Startable fs work ↔ (∀ x, IMap.get? fs (designDir work) ≠ some (.file x)) ∧ IMap.get? fs (purposeFile work) ≠ some .dir :=
    ⟨fun h => ⟨h.design, h.purpose⟩, fun h => ⟨hd, hf, h.1, h.2⟩⟩
  unfold initSteps
  rw [runSteps_cons]
  obtain ⟨⟨x, hx⟩, _⟩ | ⟨_, f1, a1, a2⟩ := makeDir_spec (fs := fs) (p := artDir work) (by rw [parent_art]; exact hd)
  · rw [hf] at hx; cases hx
  have b1 : InitStep.apply fs (.mkdir (artDir work)) = some f1 := a1
  rw [b1]
  dsimp only
  rw [runSteps_append]
  obtain ⟨hx, _⟩ | ⟨_, f2, a3, a4⟩ := runSteps_write (fs := f1) (p := settingsFile work) initSettings (by rw [parent_settings, a2, if_pos rfl])
  · rw [a2, if_neg n1, hset] at hx; cases hx
  rw [a3]
  simp only [if_true]
  rw [runSteps_cons]
  have keep : ∀ q, q ≠ artDir work → q ≠ settingsFile work → IMap.get? f2 q = IMap.get? fs q := by
    intro q h1 h2
    rw [a4, if_neg (Ne.symm h2), a2, if_neg (Ne.symm h1)]
  have hart : IMap.get? f2 (artDir work) = some .dir := by rw [a4, if_neg (Ne.symm n1), a2, if_pos rfl]
  have hsett : IMap.get? f2 (settingsFile work) = some (.file (.text initSettings)) := by rw [a4, if_pos rfl]
  obtain ⟨⟨x, hx⟩, a5⟩ | ⟨hx, f3, a5, a6⟩ := makeDir_spec (fs := f2) (p := designDir work) (by rw [parent_design, keep _ n7 n8]; exact hd)
  · have b2 : InitStep.apply f2 (.mkdir (designDir work)) = none := a5
    rw [b2]
    rw [keep _ (Ne.symm n2) (Ne.symm n4)] at hx
    exact Or.inr ⟨fun h => h.design x hx, f2, rfl, hart, hsett, keep⟩
  · have b2 : InitStep.apply f2 (.mkdir (designDir work)) = some f3 := a5
    rw [b2]
    rw [keep _ (Ne.symm n2) (Ne.symm n4)] at hx
    dsimp only
    obtain ⟨hy, a7⟩ | ⟨hy, f4, a7, a8⟩ := runSteps_write (fs := f3) (p := purposeFile work) initPurpose (by rw [parent_purpose, a6, if_pos rfl])
    · rw [a6, if_neg n6, keep _ (Ne.symm n3) (Ne.symm n5)] at hy
      refine Or.inr ⟨fun h => h.purpose hy, f3, a7, ?_, ?_, ?_⟩
      · rw [a6, if_neg (Ne.symm n2)]; exact hart
      · rw [a6, if_neg (Ne.symm n4)]; exact hsett
      · intro q h1 h2
        rw [a6]
        split
        · subst q
          have : IMap.get? fs (designDir work) = some .dir := by
            by_contra hne
            have := missing_below w (d := designDir work) (n := c!"purpose.md") (by decide) hne
            rw [← purposeFile_eq, hy] at this
            cases this
          exact this.symm
        · exact keep q h1 h2
    · rw [a6, if_neg n6, keep _ (Ne.symm n3) (Ne.symm n5)] at hy
      refine Or.inl ⟨start.2 ⟨hx, hy⟩, f4, a7, ⟨?_, ?_, ?_, ?_, ?_⟩⟩
      · show IMap.get? f4 (artDir work) = _
        rw [a8, if_neg (Ne.symm n3), a6, if_neg (Ne.symm n2)]; exact hart
      · show IMap.get? f4 (settingsFile work) = _
        rw [a8, if_neg (Ne.symm n5), a6, if_neg (Ne.symm n4)]; exact hsett
      · show IMap.get? f4 (designDir work) = _
        rw [a8, if_neg (Ne.symm n6), a6, if_pos rfl]
      · show IMap.get? f4 (purposeFile work) = _
        rw [a8, if_pos rfl]; rfl
      · intro q hq
        unfold projectPaths at hq
        simp only [List.mem_cons, List.not_mem_nil, or_false, not_or] at hq
        obtain ⟨q1, q2, q3, q4⟩ := hq
        have q4 : ¬ purposeFile work = q := Ne.symm q4
        have q3 : ¬ designDir work = q := Ne.symm q3
        rw [a8, if_neg q4, a6, if_neg q3]
        exact keep q q1 q2

theorem initStarts_iff : initStarts fs work = true ↔ IMap.get? fs work = some .dir ∧ IMap.get? fs (work ++ c!"/.art") = none := by
  unfold initStarts artDir
  simp

/-- The disk stays a tree, whenever the process is killed. -/
theorem C56_tree (w : FS.WF fs) (k : Nat) : FS.WF (initKilled fs work k) := by
  unfold initKilled
  split
  · exact runSteps_keep (P := FS.WF) (fun a ha _ _ w e => initStep_wf (List.mem_of_mem_take ha) w e) w
  · exact w

/-- Whenever the process is killed: everything but the four paths of the new project is as before, and no path has been removed. -/
theorem C56_only (k : Nat) : (∀ q, q ∉ projectPaths work → IMap.get? (initKilled fs work k) q = IMap.get? fs q) ∧
    ∀ q, (IMap.get? fs q).isSome = true → (IMap.get? (initKilled fs work k) q).isSome = true := by
  unfold initKilled
  split
  · refine ⟨fun q hq => ?_, fun q hq => ?_⟩
    · exact runSteps_keep (P := fun g => IMap.get? g q = IMap.get? fs q)
        (fun a ha _ _ h e => (initStep_other (List.mem_of_mem_take ha) e hq).trans h) rfl
    · exact runSteps_keep (P := fun g => (IMap.get? g q).isSome = true)
        (fun a ha _ _ h e => initStep_keeps (List.mem_of_mem_take ha) e h) hq
  · exact ⟨fun _ _ => rfl, fun _ h => h⟩

/-- The complete run is the one that is not killed. -/
theorem initRun_killed : ∃ k, (initRun fs work).2 = initKilled fs work k := by
  refine ⟨(initSteps work).length, ?_⟩
  unfold initRun initKilled
  rw [List.take_length]
  split <;> rfl

/-- `art init` succeeds exactly if a project can be started; it then makes the project. -/
theorem C56_started (w : FS.WF fs) : (initRun fs work).1 = 0 ↔ Startable fs work := by
  by_cases hs : initStarts fs work = true
  · obtain ⟨h1, h2⟩ := initStarts_iff.1 hs
    unfold initRun
    rw [if_pos hs]
    obtain ⟨h, f, e, _⟩ | ⟨h, f, e, _⟩ := runInit w h1 h2
    · rw [e]; exact ⟨fun _ => h, fun _ => rfl⟩
    · rw [e]; exact ⟨fun h => by simp at h, fun h' => absurd h' h⟩
  · unfold initRun
    rw [if_neg hs]
    exact ⟨fun h => by simp at h, fun h => absurd (initStarts_iff.2 ⟨h.dir, h.fresh⟩) hs⟩

theorem C56_makes (w : FS.WF fs) (h : Startable fs work) : ∃ fs', initRun fs work = (0, fs') ∧ Started fs work fs' ∧ FS.WF fs' := by
  obtain ⟨_, f, e, hst⟩ | ⟨h', _⟩ := runInit w h.dir h.fresh
  · have e' : initRun fs work = (0, f) := by
      unfold initRun
      rw [if_pos (initStarts_iff.2 ⟨h.dir, h.fresh⟩), e]
      rfl
    refine ⟨f, e', hst, ?_⟩
    obtain ⟨k, hk⟩ := initRun_killed (fs := fs) (work := work)
    rw [e'] at hk
    have hk : f = initKilled fs work k := hk
    rw [hk]
    exact C56_tree w k
  · exact absurd h h'

/-- If there is no such directory, or it has a `.art`, then `art init` fails and changes nothing. -/
theorem C56_refused (h : IMap.get? fs work ≠ some .dir ∨ IMap.get? fs (work ++ c!"/.art") ≠ none) : initRun fs work = (1, fs) := by
  unfold initRun
  rw [if_neg]
  rw [initStarts_iff]
  tauto

/-- The other failures leave exactly `.art` with its settings behind. -/
theorem C56_half_made (w : FS.WF fs) (hd : IMap.get? fs work = some .dir) (hf : IMap.get? fs (work ++ c!"/.art") = none) (h : ¬ Startable fs work) :
    ∃ fs', initRun fs work = (1, fs') ∧ IMap.get? fs' (work ++ c!"/.art") = some .dir ∧
      IMap.get? fs' (work ++ c!"/.art/settings.toml") = some (.file (.text initSettings)) ∧
      ∀ q, q ≠ work ++ c!"/.art" → q ≠ work ++ c!"/.art/settings.toml" → IMap.get? fs' q = IMap.get? fs q := by
  obtain ⟨h', _⟩ | ⟨_, f, e, h1, h2, h3⟩ := runInit w hd hf
  · exact absurd h' h
  · refine ⟨f, ?_, h1, h2, h3⟩
    unfold initRun
    rw [if_pos (initStarts_iff.2 ⟨hd, hf⟩), e]
    rfl

/-- An `art init` that has begun, finished or not, is never completed by a second one: that one refuses. -/
theorem C56_never_resumed (hs : IMap.get? fs work = some .dir) (k : Nat) :
    initRun (initKilled fs work (k + 1)) work = (1, initKilled fs work (k + 1)) := by
  apply C56_refused
  refine Or.inr fun hn => ?_
  by_cases hf : initStarts fs work = true
  · unfold initKilled at hn
    rw [if_pos hf] at hn
    unfold initSteps at hn
    rw [List.take_succ_cons, runSteps_cons] at hn
    obtain ⟨⟨x, hx⟩, _⟩ | ⟨_, f1, a1, a2⟩ := makeDir_spec (fs := fs) (p := artDir work) (by rw [parent_art]; exact hs)
    · have := (initStarts_iff.1 hf).2
      unfold artDir at hx
      rw [this] at hx
      cases hx
    · have b1 : InitStep.apply fs (.mkdir (artDir work)) = some f1 := a1
      rw [b1] at hn
      dsimp only at hn
      have := runSteps_keep (P := fun g => (IMap.get? g (artDir work)).isSome = true)
        (l := (writeSteps (settingsFile work) initSettings ++ .mkdir (designDir work) :: writeSteps (purposeFile work) initPurpose).take k)
        (fun a ha _ _ h e => initStep_keeps (work := work) (List.mem_cons_of_mem _ (List.mem_of_mem_take ha)) e h)
        (fs := f1) (by rw [a2, if_pos rfl]; rfl)
      unfold artDir at this
      rw [hn] at this
      cases this
  · unfold initKilled at hn
    rw [if_neg hf] at hn
    exact hf (initStarts_iff.2 ⟨hs, hn⟩)

/-! ## the new project -/

/-- Of two paths above a third one, one is above the other. -/
theorem under_chain {a b p : FilePath} (ha : Under a p) (hb : Under b p) : Under a b ∨ Under b a := by
  have pre : ∀ {a : FilePath}, Under a p → a ++ ['/'] <+: p ++ ['/'] := by
    rintro a (rfl | ⟨r, rfl⟩)
    · exact List.prefix_refl _
    · exact ⟨r ++ ['/'], by simp⟩
  have back : ∀ {a b : FilePath}, a ++ ['/'] <+: b ++ ['/'] → Under a b := by
    rintro a b ⟨r, hr⟩
    rcases List.eq_nil_or_concat r with rfl | ⟨r, c, rfl⟩
    · rw [List.append_nil] at hr
      exact Or.inl (List.append_cancel_right hr).symm
    · rw [List.concat_eq_append, ← List.append_assoc] at hr
      have := (List.append_inj' hr rfl).1
      exact Or.inr ⟨r, by rw [← this]; simp⟩
  rcases List.prefix_or_prefix_of_prefix (pre ha) (pre hb) with h | h
  · exact Or.inl (back h)
  · exact Or.inr (back h)

/-- From the directory, and from every directory below it that has no `.art` nearer, the new project is found. -/
theorem C56_found (h : Started fs work fs') {l : List Str} (hl : ∀ c ∈ l, PlainName c) (hu : Under work (Path l))
    (hn : ∀ d, Under work d → d ≠ work → Under d (Path l) → IMap.get? fs (d ++ c!"/.art") = none) : findRepo fs' (Path l) = some work := by
  rw [C45_nearest fs' hl]
  refine ⟨hu, (hasArt_iff fs' work).1 (by rw [h.art]; rfl), fun d hd ha => ?_⟩
  rcases under_chain hd hu with h1 | h1
  · exact h1
  · by_cases e : d = work
    · exact Or.inl e.symm
    · have hg := hn d h1 e hd
      rw [← h.rest] at hg
      · have := (hasArt_iff fs' d).2 ha
        rw [hg] at this
        cases this
      · unfold projectPaths
        simp only [List.mem_cons, List.not_mem_nil, or_false, not_or]
        have last : ∀ x : Str, x.getLast? ≠ some 't' → x ≠ [] → d ++ c!"/.art" ≠ work ++ x := by
          intro x hx hne e
          have := congrArg List.getLast? e
          rw [List.getLast?_append_of_ne_nil _ (by decide), List.getLast?_append_of_ne_nil _ hne] at this
          exact hx this.symm
        refine ⟨fun e' => e ?_, last _ (by decide) (by decide), last _ (by decide) (by decide), last _ (by decide) (by decide)⟩
        exact List.append_cancel_right e'

theorem purpose_loads : loadFile L [] (work ++ c!"/design/purpose.md") (.text initPurpose) = .ok ([purposeArt work], []) := by
  have e : ArtFileType.fromPath (work ++ c!"/design/purpose.md") = some .md := by
    have := (extension_child (work ++ c!"/design") (f := c!"purpose.md") (x := c!"md") (by decide)).2 ⟨c!"purpose", by decide, rfl, by decide⟩
    rw [List.append_assoc] at this
    unfold ArtFileType.fromPath
    have e : work ++ c!"/design/purpose.md" = work ++ (c!"/design" ++ '/' :: c!"purpose.md") := rfl
    rw [e, this]
    rfl
  unfold loadFile
  rw [e]
  rfl

/-- The loaded artifacts of a new project, in the form they are in before they are put together. -/
def purposeLoaded (work : FilePath) : ArtifactsLoaded :=
  { ims := [(Name.lit c!"REQ-purpose", purposeArt work)],
    graphs := ⟨[(1, Name.lit c!"REQ-purpose")], [(Name.lit c!"REQ-purpose", 1)], ⟨[1], []⟩⟩,
    partofs := [(Name.lit c!"REQ-purpose", [])], parts := [(Name.lit c!"REQ-purpose", [])], subnames := [(Name.lit c!"REQ-purpose", [])] }

theorem purpose_determine : determineArtifacts hash (some [1]) (purposeLoaded work) [] [(Name.lit c!"REQ-purpose", work ++ c!"/design/purpose.md")] =
    .ok (startProject hash work).artifacts := by
  unfold determineArtifacts
  have e1 : determineImpls (purposeLoaded work).ims [] = [(Name.lit c!"REQ-purpose", .notImpl)] := rfl
  have e2 : determineCompleted (some [1]) (purposeLoaded work).graphs [(Name.lit c!"REQ-purpose", .notImpl)] (purposeLoaded work).subnames =
      .ok [(Name.lit c!"REQ-purpose", ⟨0, 0⟩)] := by
    show determineCompleted (some [1]) ⟨[(1, Name.lit c!"REQ-purpose")], [(Name.lit c!"REQ-purpose", 1)], ⟨[1], []⟩⟩
      [(Name.lit c!"REQ-purpose", .notImpl)] [(Name.lit c!"REQ-purpose", [])] = .ok [(Name.lit c!"REQ-purpose", ⟨0, 0⟩)]
    decide +kernel
  rw [e1]
  dsimp only
  rw [e2]
  rfl

theorem purpose_arts {arts : IMap Name Artifact} : Loads hash [(Name.lit c!"REQ-purpose", purposeArt work)] []
    [(Name.lit c!"REQ-purpose", work ++ c!"/design/purpose.md")] arts ↔ arts = (startProject hash work).artifacts := by
  have e1 : finalizeLoadArtifact [(Name.lit c!"REQ-purpose", purposeArt work)] = .ok (purposeLoaded work) := rfl
  constructor
  · rintro ⟨l, topo, h1, h2, h3⟩
    rw [e1] at h1
    cases h1
    cases topo with
    | none =>
      obtain ⟨a, ha⟩ := h2
      have : ∀ a b, Relation.TransGen (fun x y : Nat => (x, y) ∈ ([] : List (Nat × Nat))) a b → False := by
        intro a b h
        induction h with
        | single h => cases h
        | tail _ _ ih => exact ih
      exact (this a a ha).elim
    | some o =>
      obtain ⟨h2, _⟩ := h2
      have : o = [1] := List.perm_singleton.1 h2
      subst this
      rw [purpose_determine] at h3
      exact (Res.ok.inj h3).symm
  · rintro rfl
    exact ⟨_, some [1], e1, ⟨List.Perm.refl _, fun _ _ h => by cases h⟩, purpose_determine⟩

theorem purpose_finish : finishRead L ⟨[], []⟩ (startProject hash work) = .ok (⟨[], []⟩, startProject hash work) := rfl

/-- There is no artifact file in `design` but the one that `art init` writes. -/
def Spec.NoOtherArtifacts (fs : FS) (work : FilePath) : Prop :=
  ∀ p, IsFile fs p → Under (work ++ c!"/design") p → Supported p → p = work ++ c!"/design/purpose.md"

theorem start_walk (w0 : FS.WF fs) (w : FS.WF fs') (h : Started fs work fs') (hn : NoOtherArtifacts fs work) :
    walkArtifacts fs' (startSettings work) = [work ++ c!"/design/purpose.md"] := by
  apply List.perm_singleton.1
  rw [List.perm_ext_iff_of_nodup _ (by simp)]
  · intro p
    rw [C29_mem w, List.mem_singleton]
    have hdes : ¬ IsFile fs' (work ++ c!"/design") := by
      rw [w.isFile_iff]
      rintro ⟨c, hc⟩
      rw [h.design] at hc
      cases hc
    constructor
    · rintro ⟨r, hr, hf, hu⟩
      cases List.mem_singleton.1 hr
      rcases hu with rfl | ⟨hu, hs, _⟩
      · exact absurd hf hdes
      · by_cases hp : p ∈ projectPaths work
        · unfold projectPaths at hp
          simp only [List.mem_cons, List.not_mem_nil, or_false] at hp
          rcases hp with rfl | rfl | rfl | hp
          · rcases hu with e | ⟨r, e⟩
            · simp at e
            · simp at e
          · rcases hu with e | ⟨r, e⟩
            · simp at e
            · simp at e
          · exact absurd hf hdes
          · exact hp
        · refine hn p ?_ hu hs
          rw [w0.isFile_iff, ← h.rest p hp, ← w.isFile_iff]
          exact hf
    · rintro rfl
      refine ⟨_, List.mem_singleton.2 rfl, (w.isFile_iff).2 ⟨_, h.purpose⟩, Or.inr ⟨Or.inr ⟨c!"purpose.md", by simp⟩, ?_, by simp [startSettings]⟩⟩
      exact ⟨work ++ c!"/design", c!"purpose", c!"md", by simp, by decide, by decide, by decide⟩
  · exact C29_once w _ (by simp [startSettings]) (by
      intro a ha b hb _
      rw [List.mem_singleton.1 ha, List.mem_singleton.1 hb])

theorem start_settings {l : List Str} (hl : ∀ c ∈ l, PlainName c) (hd : IMap.get? fs (Path l) = some .dir) (h : Started fs (Path l) fs')
    (ht : readToml initSettings = some newSettings) : SettingsOf readToml fs' (Path l) (startSettings (Path l)) := by
  have hr := fun c hc => (⟨(hl c hc).1, (hl c hc).2.1⟩ : c ≠ [] ∧ '/' ∉ c)
  refine ⟨Path l ++ c!"/.art/settings.toml", newSettings, ?_, ?_⟩
  · unfold loadSettingsRaw
    rw [h.rest (Path l) (by simp [projectPaths]), hd]
    simp only [h.settings, ht]
    rfl
  · have e : resolveRawPath (Path l) c!"design" = .ok (Path l ++ c!"/design") := by
      have := (C51_spellings hr (c := c!"design") (cs := []) (by
        intro x hx
        cases List.mem_singleton.1 hx
        refine ⟨by decide, by decide, by decide, by decide⟩)).1 (by decide)
      rw [path_snoc] at this
      exact this
    have e2 : resolveRawPaths (Path l) [c!"design"] = .ok [Path l ++ c!"/design"] := by
      unfold resolveRawPaths
      unfold Res.mapM'
      rw [e]
      rfl
    have e3 : resolveRawPaths (Path l) [] = .ok [] := rfl
    unfold resolveSettings
    show (resolveRawPaths (Path l) [] >>= fun a => resolveRawPaths (Path l) [] >>= fun b => resolveRawPaths (Path l) [c!"design"] >>= fun c =>
      resolveRawPaths (Path l) [] >>= fun d => _) = _
    rw [e2, e3]
    rfl

/-- What is read from a new project: exactly the one requirement, without any message. -/
theorem C56_project (w0 : FS.WF fs) (w : FS.WF fs') {l : List Str} (hl : ∀ c ∈ l, PlainName c) (hd : IMap.get? fs (Path l) = some .dir) (h : Started fs (Path l) fs')
    (hn : NoOtherArtifacts fs (Path l)) (ht : readToml initSettings = some newSettings) (hc : 0 < ncpu) (out : Res Categorized (Categorized × Project)) :
    ReadsProject L readToml hash ncpu fs' (Path l) out ↔ out = .ok (⟨[], []⟩, startProject hash (Path l)) := by
  obtain ⟨path, raw, h1, h2⟩ := start_settings hl hd h ht
  unfold ReadsProject
  simp only [h1, h2]
  have ew := start_walk w0 w h hn
  have ec : walkCode fs' (startSettings (Path l)) = [] := rfl
  have es : artSent L (startSettings (Path l)).pre fs' (Path l ++ c!"/design/purpose.md") = ⟨[purposeArt (Path l)], [], false⟩ := by
    unfold artSent
    have : (startSettings (Path l)).pre = [] := rfl
    rw [h.purpose, this]
    show (match loadFile L [] (Path l ++ c!"/design/purpose.md") (.text initPurpose) with
      | .ok (ims, lints) => (⟨ims, lints, false⟩ : Sent ArtifactIm)
      | _ => ⟨[], [], true⟩) = _
    rw [purpose_loads]
  have el : walkLints L fs' (artFilter []) [Path l ++ c!"/design"] = [] := by
    unfold walkLints walkPath
    rw [List.filterMap_cons, h.design]
    rfl
  have esl : sentLints L fs' (startSettings (Path l)) [] [purposeArt (Path l)] = [] := by
    unfold sentLints
    rw [ew, ec, List.flatMap_singleton, es]
    show _ ++ walkLints L fs' (artFilter []) [Path l ++ c!"/design"] ++ _ ++ _ ++ _ = []
    rw [el]
    rfl
  unfold ReadsWith
  constructor
  · rintro ⟨⟨locs, arts, lints⟩, ha, hg⟩
    have i1 := ha.locs
    have i2 := ha.arts
    rw [ec] at i1
    rw [ew, List.flatMap_singleton, es] at i2
    cases List.perm_nil.1 i1
    cases List.perm_singleton.1 i2
    have i3 := ha.lints
    simp only at i3
    rw [esl] at i3
    cases List.perm_nil.1 i3
    rcases hg with ⟨hne, _⟩ | ⟨_, arts, h3, h4⟩
    · exact absurd rfl hne
    · have h3 := purpose_arts.1 h3
      subst h3
      exact h4.trans purpose_finish
  · rintro rfl
    refine ⟨⟨[], [purposeArt (Path l)], []⟩, ⟨?_, ?_, ?_, ?_, ?_⟩, Or.inr ⟨rfl, _, purpose_arts.2 rfl, purpose_finish.symm⟩⟩
    · rw [ec]; exact Nat.zero_lt_succ 3
    · rw [ew, List.countP_singleton, es]; simpa using hc
    · rw [ec]; exact List.Perm.refl _
    · rw [ew, List.flatMap_singleton, es]
    · show List.Perm [] (sentLints L fs' (startSettings (Path l)) [] [purposeArt (Path l)])
      rw [esl]

/-- A new project has no problems. -/
theorem C56_check (w : FS.WF fs) {l : List Str} (hl : ∀ c ∈ l, PlainName c) (h : Startable fs (Path l)) (hn : NoOtherArtifacts fs (Path l))
    (ht : readToml initSettings = some newSettings) (hc : 0 < ncpu) (status : Nat) :
    Checks L readToml hash ncpu (initRun fs (Path l)).2 (Path l) status ↔ status = 0 := by
  obtain ⟨fs', e, hs, w'⟩ := C56_makes w h
  rw [e]
  have hf : findRepo fs' (Path l) = some (Path l) := C56_found hs hl (Or.inl rfl) (by
    intro d h1 h2 h3
    exfalso
    rcases h1 with h1 | ⟨r, rfl⟩
    · exact h2 h1
    · rcases h3 with h3 | ⟨r', h3⟩
      · have := congrArg List.length h3; simp at this
      · have := congrArg List.length h3; simp at this)
  unfold Checks
  simp only [hf]
  constructor
  · rintro ⟨out, h1, rfl⟩
    rw [(C56_project w w' hl h.dir hs hn ht hc out).1 h1]
    rfl
  · rintro rfl
    exact ⟨_, (C56_project w w' hl h.dir hs hn ht hc _).2 rfl, rfl⟩

end

/-! ## examples, and what the command gets wrong -/

/-- A directory with some code. -/
def exNew : FS := [([], .dir), (c!"/p", .dir), (c!"/p/src", .dir), (c!"/p/src/a.rs", .file (.text c!"fn main() {}"))]

/-- A directory that already has a text with the name `design/purpose.md`. -/
def exMine : FS := [([], .dir), (c!"/p", .dir), (c!"/p/design", .dir), (c!"/p/design/purpose.md", .file (.text c!"# REQ-mine\nmy words\n"))]

/-- A directory with a file that is called `design`. -/
def exFileDesign : FS := [([], .dir), (c!"/p", .dir), (c!"/p/design", .file (.text c!"a picture"))]

theorem exNew_wf : FS.WF exNew where
  nodup := by unfold IMap.Nodup; decide
  root := by decide
  parent := by
    intro e he hne
    simp only [exNew, List.mem_cons, List.not_mem_nil, or_false] at he
    rcases he with rfl | rfl | rfl | rfl
    · exact absurd rfl hne
    · exact ⟨c!"", c!"p", rfl, by decide, by decide, by decide⟩
    · exact ⟨c!"/p", c!"src", rfl, by decide, by decide, by decide⟩
    · exact ⟨c!"/p/src", c!"a.rs", rfl, by decide, by decide, by decide⟩

theorem exMine_wf : FS.WF exMine where
  nodup := by unfold IMap.Nodup; decide
  root := by decide
  parent := by
    intro e he hne
    simp only [exMine, List.mem_cons, List.not_mem_nil, or_false] at he
    rcases he with rfl | rfl | rfl | rfl
    · exact absurd rfl hne
    · exact ⟨c!"", c!"p", rfl, by decide, by decide, by decide⟩
    · exact ⟨c!"/p", c!"design", rfl, by decide, by decide, by decide⟩
    · exact ⟨c!"/p/design", c!"purpose.md", rfl, by decide, by decide, by decide⟩

theorem exFileDesign_wf : FS.WF exFileDesign where
  nodup := by unfold IMap.Nodup; decide
  root := by decide
  parent := by
    intro e he hne
    simp only [exFileDesign, List.mem_cons, List.not_mem_nil, or_false] at he
    rcases he with rfl | rfl | rfl
    · exact absurd rfl hne
    · exact ⟨c!"", c!"p", rfl, by decide, by decide, by decide⟩
    · exact ⟨c!"/p", c!"design", rfl, by decide, by decide, by decide⟩

theorem exNew_startable : Startable exNew c!"/p" := ⟨by decide, by decide, (fun x h => by
  have e : IMap.get? exNew (c!"/p" ++ c!"/design") = none := by decide
  rw [e] at h; exact nomatch h), by decide⟩

/-- A project is started in a directory with code, and the directory of the code then belongs to it. -/
example (L : Libs) (hash : ArtifactIm → HashIm) (readToml : Str → Option SettingsRaw) (ht : readToml initSettings = some newSettings) :
    Checks L readToml hash 1 (initRun exNew c!"/p").2 c!"/p" 0 ∧ findRepo (initRun exNew c!"/p").2 c!"/p/src" = some c!"/p" := by
  obtain ⟨fs', e, hs, w'⟩ := C56_makes exNew_wf exNew_startable
  refine ⟨(C56_check exNew_wf (l := [c!"p"]) ?_ exNew_startable ?_ ht (by decide) 0).2 rfl, ?_⟩
  · intro c hc
    cases List.mem_singleton.1 hc
    exact ⟨by decide, by decide, by decide, by decide⟩
  · intro p hp hu
    obtain ⟨c, hc⟩ := hp
    simp [exNew] at hc
    rcases hc with ⟨rfl, _⟩
    rcases hu with e | ⟨r, e⟩ <;> simp [Path] at e
  · rw [e]
    refine C56_found (l := [c!"p", c!"src"]) hs ?_ (Or.inr ⟨c!"src", rfl⟩) ?_
    · intro c hc
      simp only [List.mem_cons, List.not_mem_nil, or_false] at hc
      rcases hc with rfl | rfl <;> exact ⟨by decide, by decide, by decide, by decide⟩
    · rintro d (rfl | ⟨r, rfl⟩) hne hu
      · exact absurd rfl hne
      · rcases hu with e | ⟨r', e⟩
        · rw [← e]; decide
        · have e : c!"src" = r ++ '/' :: r' := by simpa [Path] using e
          have : '/' ∈ c!"src" := by rw [e]; simp
          exact absurd this (by decide)

/-- `art init` can destroy a text: it succeeds where there is no `.art`, even if `design/purpose.md` exists, and replaces that file; no copy is kept. -/
theorem C56_overwrites : ∃ (fs : FS) (work p : FilePath) (x : Content), FS.WF fs ∧ IMap.get? fs p = some (.file x) ∧ (initRun fs work).1 = 0 ∧
    ∀ q, IMap.get? (initRun fs work).2 q ≠ some (.file x) := by
  refine ⟨exMine, c!"/p", c!"/p/design/purpose.md", .text c!"# REQ-mine\nmy words\n", exMine_wf, by decide, ?_⟩
  have st : Startable exMine c!"/p" := ⟨by decide, by decide, (fun x h => by
    have e : IMap.get? exMine (c!"/p" ++ c!"/design") = some .dir := by decide
    rw [e] at h; exact nomatch h), by decide⟩
  refine ⟨(C56_started exMine_wf).2 st, fun q hq => ?_⟩
  obtain ⟨fs', e, hs, _⟩ := C56_makes exMine_wf st
  rw [e] at hq
  simp only at hq
  by_cases hp : q ∈ projectPaths c!"/p"
  · unfold projectPaths at hp
    simp only [List.mem_cons, List.not_mem_nil, or_false] at hp
    rcases hp with rfl | rfl | rfl | rfl
    · rw [hs.art] at hq; cases hq
    · rw [hs.settings] at hq
      have := Content.text.inj (Node.file.inj (Option.some.inj hq))
      exact absurd this (by decide)
    · rw [hs.design] at hq; cases hq
    · rw [hs.purpose] at hq
      have := Content.text.inj (Node.file.inj (Option.some.inj hq))
      exact absurd this (by decide)
  · rw [hs.rest q hp] at hq
    have := exMine_wf.mem_iff.2 hq
    simp only [exMine, List.mem_cons, List.not_mem_nil, or_false, Prod.mk.injEq] at this
    rcases this with ⟨_, h⟩ | ⟨_, h⟩ | ⟨_, h⟩ | ⟨rfl, _⟩
    · cases h
    · cases h
    · cases h
    · exact hp (by decide)

/-- A failed `art init` can leave a directory in which `art init` fails for good, even when the cause is gone. -/
theorem C56_stuck : ∃ (fs : FS) (work : FilePath), FS.WF fs ∧ (initRun fs work).1 = 1 ∧ IMap.get? fs (work ++ c!"/.art") = none ∧
    ∀ fs2 : FS, IMap.get? fs2 (work ++ c!"/.art") = IMap.get? (initRun fs work).2 (work ++ c!"/.art") → initRun fs2 work = (1, fs2) := by
  obtain ⟨fs', e, h1, _, _⟩ := C56_half_made exFileDesign_wf (work := c!"/p") (by decide) (by decide) (fun h => h.design (.text c!"a picture") (by decide))
  refine ⟨exFileDesign, c!"/p", exFileDesign_wf, by rw [e], by decide, fun fs2 h => ?_⟩
  apply C56_refused
  rw [h, e]
  right
  simp only
  rw [h1]
  simp

end Art
