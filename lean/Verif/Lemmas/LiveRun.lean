import Verif.Model.Live
import Verif.Lemmas.SaveInv

/-!
# A schedule for the threads, to exhibit runs
-/

namespace Art

/-- Which thread takes the next step. -/
inductive Pick where
  | root
  | entry (e : FilePath)
  | close
  | act (i : Nat)
  | next

/-- What is looked for in a phase. -/
def walkKind (s : Settings) : Phase → Option ((FilePath → Bool → Bool) × (FilePath → Act))
  | .backup => some (artFilter s.excludeArtifactPaths, backupAct)
  | .remove => some (backupFilter s.excludeArtifactPaths, .remove)
  | _ => none

/-- The thread that walks takes a step. -/
def walkPick (L : Libs) (f : FilePath → Bool → Bool) (mk : FilePath → Act) (c : LiveCfg) : Pick → Option LiveCfg
  | .root =>
    match c.stack, c.roots with
    | [], r :: rs =>
      match IMap.get? c.fs r with
      | none => some { c with roots := rs, lints := c.lints ++ [Lint.loadError r (L.errMsg .io)] }
      | some (.file _) => some { c with roots := rs, jobs := c.jobs ++ [[mk r]] }
      | some .dir => some { c with roots := rs, stack := enterDir c.fs f r }
    | _, _ => none
  | .entry e =>
    match c.stack with
    | h :: st =>
      if isChild h.dir e = true ∧ e ∉ h.seen then
        match IMap.get? c.fs e with
        | none => none
        | some (.file _) => some { c with stack := h.see e :: st, jobs := c.jobs ++ sendFile f mk e }
        | some .dir => some { c with stack := enterDir c.fs f e ++ h.see e :: st }
      else none
    | [] => none
  | .close =>
    match c.stack with
    | h :: st => if ∀ e ∈ h.listed, e ∈ h.seen ∨ IMap.get? c.fs e = none then some { c with stack := st } else none
    | [] => none
  | _ => none

theorem walkPick_sound {L : Libs} {f : FilePath → Bool → Bool} {mk : FilePath → Act} {c d : LiveCfg} {k : Pick} (h : walkPick L f mk c k = some d) :
    WalkStep L f mk c d := by
  unfold walkPick at h
  split at h
  · split at h
    · rename_i r rs h1 h2
      split at h
      · rename_i h3; cases h; exact .missing r rs h1 h2 h3
      · rename_i x h3; cases h; exact .fileRoot r rs x h1 h2 h3
      · rename_i h3; cases h; exact .dirRoot r rs h1 h2 h3
    · cases h
  · split at h
    · rename_i hd st h1
      split at h
      · rename_i h2
        split at h
        · cases h
        · rename_i x h3; cases h; exact .file hd st _ x h1 h2.1 h2.2 h3
        · rename_i h3; cases h; exact .dir hd st _ h1 h2.1 h2.2 h3
      · cases h
    · cases h
  · split at h
    · rename_i hd st h1
      split at h
      · rename_i h2; cases h; exact .close hd st h1 h2
      · cases h
    · cases h
  · cases h

/-- The threads of the phase have ended. -/
def LiveCfg.isIdle (c : LiveCfg) : Bool := c.roots.isEmpty && c.stack.isEmpty && c.jobs.all (fun j => j.isEmpty)

theorem idle_of {c : LiveCfg} (h : c.isIdle = true) : c.idle := by
  simp only [LiveCfg.isIdle, Bool.and_eq_true, List.isEmpty_iff, List.all_eq_true] at h
  exact ⟨h.1.1, h.1.2, h.2⟩

/-- A step of any thread. -/
def livePick (L : Libs) (s : Settings) (files : List (FilePath × Str)) (c : LiveCfg) : Pick → Option LiveCfg
  | .act i =>
    match c.jobs[i]? with
    | some (a :: rest) => (a.apply c.fs).map (fun fs' => { c with fs := fs', jobs := c.jobs.set i rest })
    | _ => none
  | .next =>
    if c.isIdle then
      match c.phase with
      | .backup => if hasError c.lints then some { c with phase := .failed .createBackups } else some { c with phase := .save, jobs := files.map saveJob }
      | .save => if hasError c.lints then some { c with phase := .failed .saveProject } else some { c with phase := .remove, roots := s.artifactPaths, jobs := [] }
      | .remove => some { c with phase := .done }
      | _ => none
    else none
  | k => (walkKind s c.phase).bind (fun x => walkPick L x.1 x.2 c k)

theorem set_split {α : Type} {l : List α} {i : Nat} {a b : α} (h : l[i]? = some a) : ∃ u v, l = u ++ a :: v ∧ l.set i b = u ++ b :: v := by
  induction l generalizing i with
  | nil => cases h
  | cons x l ih =>
    cases i with
    | zero =>
      simp only [List.getElem?_cons_zero, Option.some.injEq] at h
      subst h
      exact ⟨[], l, rfl, rfl⟩
    | succ i =>
      simp only [List.getElem?_cons_succ] at h
      obtain ⟨u, v, h1, h2⟩ := ih h
      exact ⟨x :: u, v, by rw [h1]; rfl, by rw [List.set_cons_succ, h2]; rfl⟩

theorem livePick_sound {L : Libs} {s : Settings} {files : List (FilePath × Str)} {c d : LiveCfg} {k : Pick} (h : livePick L s files c k = some d) :
    LiveStep L s files c d := by
  have hw : ∀ {k}, (walkKind s c.phase).bind (fun x => walkPick L x.1 x.2 c k) = some d → LiveStep L s files c d := by
    intro k h
    obtain ⟨⟨f, mk⟩, h1, h2⟩ := Option.bind_eq_some_iff.1 h
    have h3 := walkPick_sound h2
    unfold walkKind at h1
    split at h1
    · rename_i hp; cases h1; exact .findArtifacts d hp h3
    · rename_i hp; cases h1; exact .findBackups d hp h3
    · cases h1
  unfold livePick at h
  split at h
  · split at h
    · rename_i a rest hj
      obtain ⟨fs', h1, rfl⟩ := Option.map_eq_some_iff.1 h
      obtain ⟨u, v, h2, h3⟩ := set_split (b := rest) hj
      rw [h3]
      exact .act u v a rest fs' h2 h1
    · cases h
  · split at h
    · rename_i hi
      have hi := idle_of hi
      split at h
      · rename_i hp
        split at h
        · rename_i he; cases h; exact .backupErr hp hi he
        · rename_i he; cases h; exact .backupOk hp hi (by simpa using he)
      · rename_i hp
        split at h
        · rename_i he; cases h; exact .saveErr hp hi he
        · rename_i he; cases h; exact .saveOk hp hi (by simpa using he)
      · rename_i hp; cases h; exact .removeOk hp hi
      · cases h
    · cases h
  · exact hw h

/-- A run. -/
def liveRun (L : Libs) (s : Settings) (files : List (FilePath × Str)) (ks : List Pick) (c : LiveCfg) : Option LiveCfg := ks.foldlM (livePick L s files) c

theorem liveRun_sound {L : Libs} {s : Settings} {files : List (FilePath × Str)} {ks : List Pick} {c d : LiveCfg} (h : liveRun L s files ks c = some d) :
    LiveReaches L s files c d := by
  induction ks generalizing c with
  | nil => cases h; exact .refl
  | cons k ks ih =>
    unfold liveRun at h
    rw [List.foldlM_cons] at h
    obtain ⟨c', h1, h2⟩ := Option.bind_eq_some_iff.1 h
    exact .head (livePick_sound h1) (ih h2)

end Art
