import Verif.Spec.Init
import Verif.Lemmas.Save

/-!
# Lemmas about the actions of `art init`
-/

namespace Art
open Spec

theorem runSteps_append (fs : FS) (l r : List InitStep) : runSteps fs (l ++ r) =
    if (runSteps fs l).1 then runSteps (runSteps fs l).2 r else runSteps fs l := by
  induction l generalizing fs with
  | nil => rfl
  | cons a l ih =>
    rw [List.cons_append, runSteps, runSteps]
    cases h : a.apply fs with
    | none => rfl
    | some fs' => exact ih fs'

theorem runSteps_cons (fs : FS) (a : InitStep) (l : List InitStep) : runSteps fs (a :: l) =
    match a.apply fs with | none => (false, fs) | some fs' => runSteps fs' l := rfl

/-- What every action keeps is kept. -/
theorem runSteps_keep {P : FS → Prop} {l : List InitStep} (h : ∀ a ∈ l, ∀ fs fs', P fs → a.apply fs = some fs' → P fs') :
    ∀ {fs : FS}, P fs → P (runSteps fs l).2 := by
  induction l with
  | nil => exact fun hp => hp
  | cons a l ih =>
    intro fs hp
    rw [runSteps]
    cases e : a.apply fs with
    | none => exact hp
    | some fs' => exact ih (fun b hb => h b (List.mem_cons_of_mem _ hb)) (h a (by simp) _ _ hp e)

theorem runSteps_text (p : FilePath) (s : Str) : ∀ {fs : FS} {t : Str}, IMap.get? fs p = some (.file (.text t)) →
    ∃ fs', runSteps fs (s.map (fun c => .act (.append p c))) = (true, fs') ∧
      ∀ q, IMap.get? fs' q = if p = q then some (.file (.text (t ++ s))) else IMap.get? fs q := by
  induction s with
  | nil =>
    intro fs t h
    refine ⟨fs, rfl, fun q => ?_⟩
    split
    · subst p; rw [h, List.append_nil]
    · rfl
  | cons c s ih =>
    intro fs t h
    rw [List.map_cons, runSteps_cons]
    have e : InitStep.apply fs (.act (.append p c)) = some (IMap.insert fs p (.file (.text (t ++ [c])))) := by
      unfold InitStep.apply Act.apply
      simp only [h]
    rw [e]
    obtain ⟨fs', h1, h2⟩ := ih (fs := IMap.insert fs p (.file (.text (t ++ [c])))) (t := t ++ [c]) (by rw [get?_put, if_pos rfl])
    refine ⟨fs', h1, fun q => ?_⟩
    rw [h2 q, get?_put]
    split
    · rw [List.append_assoc]; rfl
    · rfl

/-- Making and writing a file. -/
theorem runSteps_write {fs : FS} {p : FilePath} (s : Str) (hd : IMap.get? fs (parentDir p) = some .dir) :
    (IMap.get? fs p = some .dir ∧ runSteps fs (writeSteps p s) = (false, fs)) ∨
    (IMap.get? fs p ≠ some .dir ∧ ∃ fs', runSteps fs (writeSteps p s) = (true, fs') ∧
      ∀ q, IMap.get? fs' q = if p = q then some (.file (.text s)) else IMap.get? fs q) := by
  unfold writeSteps
  rw [runSteps_cons]
  have step : ∀ {g : FS} {x}, IMap.get? g p = some (.file x) → ∃ fs', runSteps g (.act (.truncate p) :: s.map (fun c => .act (.append p c))) = (true, fs') ∧
      ∀ q, IMap.get? fs' q = if p = q then some (.file (.text s)) else IMap.get? g q := by
    intro g x hg
    rw [runSteps_cons]
    have e : InitStep.apply g (.act (.truncate p)) = some (IMap.insert g p (.file (.text []))) := by
      unfold InitStep.apply Act.apply
      simp only [hg]
    rw [e]
    obtain ⟨fs', h1, h2⟩ := runSteps_text p s (fs := IMap.insert g p (.file (.text []))) (t := []) (by rw [get?_put, if_pos rfl])
    refine ⟨fs', h1, fun q => ?_⟩
    rw [h2 q, get?_put]
    split <;> rfl
  cases hg : IMap.get? fs p with
  | none =>
    have e : InitStep.apply fs (.act (.create p)) = some (IMap.insert fs p (.file (.text []))) := by
      unfold InitStep.apply Act.apply
      simp only [hg, hd, if_true]
    rw [e]
    obtain ⟨fs', h1, h2⟩ := step (g := IMap.insert fs p (.file (.text []))) (x := .text []) (by rw [get?_put, if_pos rfl])
    refine Or.inr ⟨by simp, fs', h1, fun q => ?_⟩
    rw [h2 q, get?_put]
    split <;> rfl
  | some n =>
    cases n with
    | dir =>
      refine Or.inl ⟨rfl, ?_⟩
      have e : InitStep.apply fs (.act (.create p)) = none := by
        unfold InitStep.apply Act.apply
        simp only [hg]
      rw [e]
    | file x =>
      have e : InitStep.apply fs (.act (.create p)) = some fs := by
        unfold InitStep.apply Act.apply
        simp only [hg]
      rw [e]
      exact Or.inr ⟨by simp, step hg⟩

/-- Making a directory. -/
theorem makeDir_spec {fs : FS} {p : FilePath} (hd : IMap.get? fs (parentDir p) = some .dir) :
    ((∃ x, IMap.get? fs p = some (.file x)) ∧ makeDir fs p = none) ∨
    ((∀ x, IMap.get? fs p ≠ some (.file x)) ∧ ∃ fs', makeDir fs p = some fs' ∧
      ∀ q, IMap.get? fs' q = if p = q then some .dir else IMap.get? fs q) := by
  unfold makeDir
  cases hg : IMap.get? fs p with
  | none =>
    refine Or.inr ⟨by simp, IMap.insert fs p .dir, by simp only [hd, if_true], fun q => by rw [get?_put]⟩
  | some n =>
    cases n with
    | dir =>
      refine Or.inr ⟨by simp, fs, rfl, fun q => ?_⟩
      split
      · subst p; exact hg
      · rfl
    | file x => exact Or.inl ⟨⟨x, rfl⟩, rfl⟩

theorem wf_put_dir {fs : FS} (w : FS.WF fs) {p : FilePath} (hp : FilePathOk p) (hd : IMap.get? fs (parentDir p) = some .dir) :
    FS.WF (IMap.insert fs p .dir) := by
  have hnd : IMap.Nodup (IMap.insert fs p Node.dir) := IMap.nodup_insert w.nodup _ _
  have keep : ∀ q, IMap.get? fs q = some .dir → IMap.get? (IMap.insert fs p Node.dir) q = some .dir := by
    intro q hq
    rw [get?_put]
    split
    · rfl
    · exact hq
  obtain ⟨d, n, rfl, h1, h2⟩ := hp
  rw [parentDir_ok h2] at hd
  refine ⟨hnd, keep _ w.root, ?_⟩
  intro e he hne
  have hg := IMap.get?_of_mem hnd (a := e.1) (b := e.2) he
  rw [get?_put] at hg
  split at hg
  · rename_i hk
    exact ⟨d, n, hk.symm, h1, h2, keep _ hd⟩
  · obtain ⟨q, m, e1, e2, e3, e4⟩ := w.parent (e.1, e.2) (w.mem_iff.2 hg) hne
    exact ⟨q, m, e1, e2, e3, keep _ e4⟩

theorem makeDir_wf {fs fs' : FS} (w : FS.WF fs) {p : FilePath} (hp : FilePathOk p) (h : makeDir fs p = some fs') : FS.WF fs' := by
  unfold makeDir at h
  split at h
  · cases h; exact w
  · cases h
  · split at h
    · cases h; exact wf_put_dir w hp ‹_›
    · cases h

/-! ## the actions -/

theorem initSteps_path {work : FilePath} {a : InitStep} (h : a ∈ initSteps work) :
    (∃ p, (p = artDir work ∨ p = designDir work) ∧ a = .mkdir p) ∨
    ∃ p, (p = settingsFile work ∨ p = purposeFile work) ∧ (a = .act (.create p) ∨ a = .act (.truncate p) ∨ ∃ c, a = .act (.append p c)) := by
  unfold initSteps writeSteps at h
  simp only [List.mem_cons, List.mem_append, List.mem_map] at h
  rcases h with rfl | (rfl | rfl | ⟨c, _, rfl⟩) | rfl | rfl | rfl | ⟨c, _, rfl⟩
  · exact Or.inl ⟨_, Or.inl rfl, rfl⟩
  · exact Or.inr ⟨_, Or.inl rfl, Or.inl rfl⟩
  · exact Or.inr ⟨_, Or.inl rfl, Or.inr (Or.inl rfl)⟩
  · exact Or.inr ⟨_, Or.inl rfl, Or.inr (Or.inr ⟨c, rfl⟩)⟩
  · exact Or.inl ⟨_, Or.inr rfl, rfl⟩
  · exact Or.inr ⟨_, Or.inr rfl, Or.inl rfl⟩
  · exact Or.inr ⟨_, Or.inr rfl, Or.inr (Or.inl rfl)⟩
  · exact Or.inr ⟨_, Or.inr rfl, Or.inr (Or.inr ⟨c, rfl⟩)⟩

theorem artDir_ok (work : FilePath) : FilePathOk (artDir work) := ⟨work, c!".art", rfl, by decide, by decide⟩
theorem designDir_ok (work : FilePath) : FilePathOk (designDir work) := ⟨work, c!"design", rfl, by decide, by decide⟩
theorem settingsFile_eq (work : FilePath) : settingsFile work = artDir work ++ '/' :: c!"settings.toml" := by simp [settingsFile, artDir]
theorem purposeFile_eq (work : FilePath) : purposeFile work = designDir work ++ '/' :: c!"purpose.md" := by simp [purposeFile, designDir]
theorem settingsFile_ok (work : FilePath) : FilePathOk (settingsFile work) := ⟨_, _, settingsFile_eq work, by decide, by decide⟩
theorem purposeFile_ok (work : FilePath) : FilePathOk (purposeFile work) := ⟨_, _, purposeFile_eq work, by decide, by decide⟩

theorem parent_art (work : FilePath) : parentDir (artDir work) = work := parentDir_ok (by decide)
theorem parent_design (work : FilePath) : parentDir (designDir work) = work := parentDir_ok (by decide)
theorem parent_settings (work : FilePath) : parentDir (settingsFile work) = artDir work := by rw [settingsFile_eq]; exact parentDir_ok (by decide)
theorem parent_purpose (work : FilePath) : parentDir (purposeFile work) = designDir work := by rw [purposeFile_eq]; exact parentDir_ok (by decide)

theorem initStep_wf {work : FilePath} {a : InitStep} (h : a ∈ initSteps work) {fs fs' : FS} (w : FS.WF fs) (e : a.apply fs = some fs') : FS.WF fs' := by
  have hw : ∀ p, p = settingsFile work ∨ p = purposeFile work → FilePathOk p := by
    rintro p (rfl | rfl)
    · exact settingsFile_ok work
    · exact purposeFile_ok work
  rcases initSteps_path h with ⟨p, hp, rfl⟩ | ⟨p, hp, rfl | rfl | ⟨c, rfl⟩⟩
  · refine makeDir_wf w ?_ e
    rcases hp with rfl | rfl
    · exact artDir_ok work
    · exact designDir_ok work
  · exact apply_wf w (a := .create p) e (Or.inr (hw p hp)) (by intro q hq; cases hq)
  · exact apply_wf w (a := .truncate p) e (Or.inr (hw p hp)) (by intro q hq; cases hq)
  · exact apply_wf w (a := .append p c) e (Or.inr (hw p hp)) (by intro q hq; cases hq)

theorem initStep_other {work : FilePath} {a : InitStep} (h : a ∈ initSteps work) {fs fs' : FS} (e : a.apply fs = some fs') {q : FilePath}
    (hq : q ∉ projectPaths work) : IMap.get? fs' q = IMap.get? fs q := by
  have hp' : ∀ p, (p = artDir work ∨ p = designDir work ∨ p = settingsFile work ∨ p = purposeFile work) → ¬ p = q := by
    rintro p h rfl
    apply hq
    unfold projectPaths
    simp only [List.mem_cons, List.not_mem_nil, or_false]
    rcases h with rfl | rfl | rfl | rfl
    · exact Or.inl rfl
    · exact Or.inr (Or.inr (Or.inl rfl))
    · exact Or.inr (Or.inl rfl)
    · exact Or.inr (Or.inr (Or.inr rfl))
  rcases initSteps_path h with ⟨p, hp, rfl⟩ | ⟨p, hp, hc⟩
  · have := hp' p (by tauto)
    unfold InitStep.apply makeDir at e
    dsimp only at e
    split at e
    · cases e; rfl
    · cases e
    · split at e
      · cases e; rw [get?_put, if_neg this]
      · cases e
  · have := hp' p (by tauto)
    rcases hc with rfl | rfl | ⟨c, rfl⟩
    · unfold InitStep.apply Act.apply at e
      dsimp only at e
      split at e
      · cases e; rfl
      · cases e
      · split at e
        · cases e; rw [get?_put, if_neg this]
        · cases e
    · unfold InitStep.apply Act.apply at e
      dsimp only at e
      split at e
      · cases e; rw [get?_put, if_neg this]
      · cases e
    · unfold InitStep.apply Act.apply at e
      dsimp only at e
      split at e
      · cases e; rw [get?_put, if_neg this]
      · cases e

/-- No action removes anything. -/
theorem initStep_keeps {work : FilePath} {a : InitStep} (h : a ∈ initSteps work) {fs fs' : FS} (e : a.apply fs = some fs') {q : FilePath}
    (hq : (IMap.get? fs q).isSome = true) : (IMap.get? fs' q).isSome = true := by
  have put : ∀ (p : FilePath) (n : Node), (IMap.get? (IMap.insert fs p n) q).isSome = true := by
    intro p n
    rw [get?_put]
    split
    · rfl
    · exact hq
  rcases initSteps_path h with ⟨p, hp, rfl⟩ | ⟨p, hp, hc⟩
  · unfold InitStep.apply makeDir at e
    dsimp only at e
    split at e
    · cases e; exact hq
    · cases e
    · split at e
      · cases e; exact put _ _
      · cases e
  · rcases hc with rfl | rfl | ⟨c, rfl⟩
    · unfold InitStep.apply Act.apply at e
      dsimp only at e
      split at e
      · cases e; exact hq
      · cases e
      · split at e
        · cases e; exact put _ _
        · cases e
    · unfold InitStep.apply Act.apply at e
      dsimp only at e
      split at e
      · cases e; exact put _ _
      · cases e
    · unfold InitStep.apply Act.apply at e
      dsimp only at e
      split at e
      · cases e; exact put _ _
      · cases e

end Art
