import Verif.Lemmas.Modify
import Verif.Spec.Save

/-!
# Lemmas about writing a project
-/

namespace Art
open Spec

/-! ## single actions -/

theorem get?_erase (fs : FS) (p q : FilePath) : IMap.get? (FS.erase fs p) q = if q = p then none else IMap.get? fs q := by
  unfold FS.erase
  by_cases h : q = p
  · subst h
    rw [if_pos rfl, get?_none_iff]
    intro n hn
    have := (List.mem_filter.1 hn).2
    simp at this
  · rw [if_neg h]
    induction fs with
    | nil => rfl
    | cons e fs ih =>
      by_cases he : e.1 = p
      · rw [List.filter_cons_of_neg (by simpa using he), ih]
        rw [IMap.get?_eq_find?, IMap.get?_eq_find?, List.find?_cons_of_neg]
        have : ¬ e.1 = q := fun h' => h (h'.symm.trans he)
        simpa [key, HasKey.key] using this
      · rw [List.filter_cons_of_pos (by simpa using he)]
        rw [IMap.get?_eq_find?, IMap.get?_eq_find?] at ih ⊢
        rw [List.find?_cons, List.find?_cons]
        split
        · rfl
        · exact ih

theorem get?_put (fs : FS) (p q : FilePath) (n : Node) : IMap.get? (IMap.insert fs p n) q = if p = q then some n else IMap.get? fs q :=
  IMap.get?_insert fs p n q

/-- The second path of a renaming. -/
def Act.target : Act → Option FilePath
  | .rename _ q => some q
  | _ => none

/-- An action changes nothing but its paths. -/
theorem apply_frame {fs fs' : FS} {a : Act} (h : a.apply fs = some fs') {q : FilePath} (h1 : q ≠ a.path) (h2 : a.target ≠ some q) :
    IMap.get? fs' q = IMap.get? fs q := by
  have h1' : ¬ a.path = q := fun e => h1 e.symm
  cases a with
  | rename p r =>
    simp only [Act.target, ne_eq, Option.some.injEq] at h2
    simp only [Act.path] at h1
    unfold Act.apply at h; dsimp only at h
    cases hg : IMap.get? fs p with
    | none => rw [hg] at h; cases h
    | some n =>
      cases n with
      | dir => rw [hg] at h; cases h
      | file c =>
        rw [hg] at h
        simp only at h
        split at h
        · cases h; rfl
        · split at h
          · cases h
          · cases h
            rw [get?_put, if_neg h2, get?_erase, if_neg h1]
  | create p =>
    simp only [Act.path] at h1'
    unfold Act.apply at h; dsimp only at h
    split at h
    · cases h; rfl
    · cases h
    · split at h
      · cases h; rw [get?_put, if_neg h1']
      · cases h
  | truncate p =>
    simp only [Act.path] at h1'
    unfold Act.apply at h; dsimp only at h
    split at h
    · cases h; rw [get?_put, if_neg h1']
    · cases h
  | append p c =>
    simp only [Act.path] at h1'
    unfold Act.apply at h; dsimp only at h
    split at h
    · cases h; rw [get?_put, if_neg h1']
    · cases h
  | remove p =>
    simp only [Act.path] at h1
    unfold Act.apply at h; dsimp only at h
    split at h
    · cases h; rw [get?_erase, if_neg h1]
    · cases h

/-- Directories stay and none appears. -/
theorem apply_dir {fs fs' : FS} {a : Act} (h : a.apply fs = some fs') (q : FilePath) :
    IMap.get? fs' q = some .dir ↔ IMap.get? fs q = some .dir := by
  cases a with
  | rename p r =>
    unfold Act.apply at h; dsimp only at h
    cases hg : IMap.get? fs p with
    | none => rw [hg] at h; cases h
    | some n =>
      cases n with
      | dir => rw [hg] at h; cases h
      | file c =>
        rw [hg] at h
        simp only at h
        split at h
        · cases h; rfl
        · split at h
          · cases h
          · rename_i hn
            cases h
            rw [get?_put]
            split
            · rename_i e
              subst e
              rw [not_or] at hn
              exact iff_of_false (by simp) hn.1
            · rw [get?_erase]
              split
              · rename_i e
                subst e
                rw [hg]; simp
              · rfl
  | create p =>
    unfold Act.apply at h; dsimp only at h
    split at h
    · cases h; rfl
    · cases h
    · rename_i hg
      split at h
      · cases h
        rw [get?_put]
        split
        · rename_i e
          subst e
          rw [hg]; simp
        · rfl
      · cases h
  | truncate p =>
    unfold Act.apply at h; dsimp only at h
    split at h
    · rename_i hg
      cases h
      rw [get?_put]
      split
      · rename_i e
        subst e
        rw [hg]; simp
      · rfl
    · cases h
  | append p c =>
    unfold Act.apply at h; dsimp only at h
    split at h
    · rename_i hg
      cases h
      rw [get?_put]
      split
      · rename_i e
        subst e
        rw [hg]; simp
      · rfl
    · cases h
  | remove p =>
    unfold Act.apply at h; dsimp only at h
    split at h
    · rename_i hg
      cases h
      rw [get?_erase]
      split
      · rename_i e
        subst e
        rw [hg]; simp
      · rfl
    · cases h

theorem apply_rename {fs fs' : FS} {p q : FilePath} (h : (Act.rename p q).apply fs = some fs') (hne : p ≠ q) :
    ∃ c, IMap.get? fs p = some (.file c) ∧ IMap.get? fs' p = none ∧ IMap.get? fs' q = some (.file c) := by
  unfold Act.apply at h; dsimp only at h
  cases hg : IMap.get? fs p with
  | none => rw [hg] at h; cases h
  | some n =>
    cases n with
    | dir => rw [hg] at h; cases h
    | file c =>
      rw [hg] at h
      simp only [if_neg hne] at h
      split at h
      · cases h
      · cases h
        refine ⟨c, rfl, ?_, ?_⟩
        · rw [get?_put, if_neg (Ne.symm hne), get?_erase, if_pos rfl]
        · rw [get?_put, if_pos rfl]

/-! ## the disk stays a tree -/

theorem parentDir_ok {d n : FilePath} (hn : '/' ∉ n) : parentDir (d ++ '/' :: n) = d := by
  unfold parentDir
  rw [List.reverse_append, List.reverse_cons]
  have : ∀ x ∈ n.reverse, decide (x ≠ '/') = true := by
    intro x hx
    have hx' := List.mem_reverse.1 hx
    simp only [ne_eq, decide_not, Bool.not_eq_true', decide_eq_false_iff_not]
    rintro rfl
    exact hn hx'
  rw [List.append_assoc, List.dropWhile_append_of_pos this]
  simp

theorem wf_put_file {fs : FS} (w : FS.WF fs) {p : FilePath} (hp : FilePathOk p) (hd : IMap.get? fs (parentDir p) = some .dir)
    (hn : IMap.get? fs p ≠ some .dir) (c : Content) : FS.WF (IMap.insert fs p (.file c)) := by
  have hnd : IMap.Nodup (IMap.insert fs p (Node.file c)) := IMap.nodup_insert w.nodup _ _
  have keep : ∀ q, IMap.get? fs q = some .dir → IMap.get? (IMap.insert fs p (Node.file c)) q = some .dir := by
    intro q hq
    rw [get?_put, if_neg]
    · exact hq
    · rintro rfl; exact hn hq
  obtain ⟨d, n, rfl, h1, h2⟩ := hp
  rw [parentDir_ok h2] at hd
  refine ⟨hnd, keep _ w.root, ?_⟩
  intro e he hne
  have hg := IMap.get?_of_mem hnd (a := e.1) (b := e.2) he
  rw [get?_put] at hg
  split at hg
  · rename_i hk
    exact ⟨d, n, hk.symm, h1, h2, keep _ hd⟩
  · obtain ⟨q, m, e1, e2, e3, e4⟩ := w.parent (e.1, e.2) (w.mem_iff.2 hg) hne
    exact ⟨q, m, e1, e2, e3, keep _ e4⟩

theorem nodup_erase {fs : FS} (h : IMap.Nodup fs) (p : FilePath) : IMap.Nodup (FS.erase fs p) := by
  unfold IMap.Nodup FS.erase at *
  exact (List.filter_sublist.map _).nodup h

theorem wf_erase_file {fs : FS} (w : FS.WF fs) {p : FilePath} {c : Content} (hp : IMap.get? fs p = some (.file c)) : FS.WF (FS.erase fs p) := by
  have keep : ∀ q, IMap.get? fs q = some .dir → IMap.get? (FS.erase fs p) q = some .dir := by
    intro q hq
    rw [get?_erase, if_neg]
    · exact hq
    · rintro rfl; rw [hp] at hq; cases hq
  refine ⟨nodup_erase w.nodup p, keep _ w.root, ?_⟩
  intro e he hne
  obtain ⟨q, m, e1, e2, e3, e4⟩ := w.parent e (List.mem_filter.1 he).1 hne
  exact ⟨q, m, e1, e2, e3, keep _ e4⟩

theorem FS.WF.fileOk {fs : FS} (w : FS.WF fs) {p : FilePath} {c : Content} (h : IMap.get? fs p = some (.file c)) :
    FilePathOk p ∧ IMap.get? fs (parentDir p) = some .dir := by
  have hne : p ≠ [] := by rintro rfl; rw [w.root] at h; cases h
  obtain ⟨q, m, e1, e2, e3, e4⟩ := w.parent _ (w.mem_iff.2 h) hne
  simp only at e1
  exact ⟨⟨q, m, e1, e2, e3⟩, by rw [e1, parentDir_ok e3]; exact e4⟩

/-- An action on paths of files leaves a tree. -/
theorem apply_wf {fs fs' : FS} (w : FS.WF fs) {a : Act} (h : a.apply fs = some fs') (h1 : (∃ p, a = .remove p) ∨ FilePathOk a.path)
    (h2 : ∀ q, a.target = some q → FilePathOk q) : FS.WF fs' := by
  cases a with
  | rename p r =>
    unfold Act.apply at h; dsimp only at h
    cases hg : IMap.get? fs p with
    | none => rw [hg] at h; cases h
    | some n =>
      cases n with
      | dir => rw [hg] at h; cases h
      | file c =>
        rw [hg] at h
        simp only at h
        split at h
        · cases h; exact w
        · rename_i hne
          split at h
          · cases h
          · rename_i hn
            rw [not_or, not_not] at hn
            cases h
            have hdp : parentDir r ≠ p := by
              intro e
              rw [e, hg] at hn
              cases hn.2
            refine wf_put_file (wf_erase_file w hg) (h2 r rfl) ?_ ?_ c
            · rw [get?_erase, if_neg hdp]; exact hn.2
            · rw [get?_erase]
              split
              · simp
              · exact hn.1
  | create p =>
    unfold Act.apply at h; dsimp only at h
    split at h
    · cases h; exact w
    · cases h
    · rename_i hg
      split at h
      · rename_i hd
        cases h
        exact wf_put_file w (h1.resolve_left (by rintro ⟨_, h⟩; cases h)) hd (by simp only [Act.path]; rw [hg]; simp) _
      · cases h
  | truncate p =>
    unfold Act.apply at h; dsimp only at h
    split at h
    · rename_i hg
      cases h
      exact wf_put_file w (h1.resolve_left (by rintro ⟨_, h⟩; cases h)) (w.fileOk hg).2 (by simp only [Act.path]; rw [hg]; simp) _
    · cases h
  | append p c =>
    unfold Act.apply at h; dsimp only at h
    split at h
    · rename_i hg
      cases h
      exact wf_put_file w (h1.resolve_left (by rintro ⟨_, h⟩; cases h)) (w.fileOk hg).2 (by simp only [Act.path]; rw [hg]; simp) _
    · cases h
  | remove p =>
    unfold Act.apply at h; dsimp only at h
    split at h
    · rename_i hg
      cases h
      exact wf_erase_file w hg
    · cases h

/-! ## backup names -/

theorem backupPath_of_ext {d n x : FilePath} (hn : n ≠ []) (h1 : '/' ∉ n) (h2 : '/' ∉ x) (h3 : '.' ∉ x) :
    backupPath (d ++ '/' :: (n ++ '.' :: x)) = d ++ '/' :: (n ++ c!".artbk") := by
  have hs : '/' ∉ n ++ '.' :: x := by
    simp only [List.mem_append, List.mem_cons, not_or]
    exact ⟨h1, by decide, h2⟩
  have he : extension (d ++ '/' :: (n ++ '.' :: x)) = some x := (extension_child d hs).2 ⟨n, hn, rfl, h3⟩
  unfold backupPath
  rw [he]
  simp only
  have hl : (d ++ '/' :: (n ++ '.' :: x)).length - (x.length + 1) = (d ++ '/' :: n).length := by
    simp only [List.length_append, List.length_cons]; omega
  have hsplit : d ++ '/' :: (n ++ '.' :: x) = (d ++ '/' :: n) ++ '.' :: x := by simp
  rw [hl, hsplit, List.take_left]
  simp

theorem supported_shape {p : FilePath} (h : Supported p) : ∃ d n x, p = d ++ '/' :: (n ++ '.' :: x) ∧ n ≠ [] ∧ '/' ∉ n ∧ '/' ∉ x ∧ '.' ∉ x ∧
    (x = c!"toml" ∨ x = c!"md" ∨ x = c!"json") := by
  obtain ⟨d, n, x, rfl, h1, h2, h3⟩ := h
  refine ⟨d, n, x, rfl, h1, h2, ?_, ?_, h3⟩
  · rcases h3 with rfl | rfl | rfl <;> decide
  · rcases h3 with rfl | rfl | rfl <;> decide

theorem supported_backup {p : FilePath} (h : Supported p) : BackupOf p (backupPath p) ∧ extension (backupPath p) = some c!"artbk" ∧
    FilePathOk (backupPath p) := by
  obtain ⟨d, n, x, rfl, h1, h2, h3, h4, _⟩ := supported_shape h
  rw [backupPath_of_ext h1 h2 h3 h4]
  have hs : '/' ∉ n ++ c!".artbk" := by
    simp only [List.mem_append, not_or]
    exact ⟨h2, by decide⟩
  exact ⟨⟨d, n, x, rfl, h1, h2, h3, h4, rfl⟩, (extension_child d hs).2 ⟨n, h1, rfl, by decide⟩,
    ⟨d, _, rfl, by simp, hs⟩⟩

theorem supported_ext {p : FilePath} (h : Supported p) : extension p ≠ some c!"artbk" ∧ FilePathOk p := by
  obtain ⟨d, n, x, rfl, h1, h2, h3, h4, h5⟩ := supported_shape h
  have hs : '/' ∉ n ++ '.' :: x := by
    simp only [List.mem_append, List.mem_cons, not_or]
    exact ⟨h2, by decide, h3⟩
  have he : extension (d ++ '/' :: (n ++ '.' :: x)) = some x := (extension_child d hs).2 ⟨n, h1, rfl, h4⟩
  rw [he]
  refine ⟨?_, ⟨d, _, rfl, by simp, hs⟩⟩
  rcases h5 with rfl | rfl | rfl <;> decide

theorem sameStem_of_backup {p q : FilePath} (hp : Supported p) (hq : Supported q) (h : backupPath p = backupPath q) : SameStem p q := by
  obtain ⟨d, n, x, rfl, h1, h2, h3, h4, _⟩ := supported_shape hp
  obtain ⟨d', n', x', rfl, h1', h2', h3', h4', _⟩ := supported_shape hq
  rw [backupPath_of_ext h1 h2 h3 h4, backupPath_of_ext h1' h2' h3' h4'] at h
  have hs : '/' ∉ n ++ c!".artbk" := by
    simp only [List.mem_append, not_or]
    exact ⟨h2, by decide⟩
  have hs' : '/' ∉ n' ++ c!".artbk" := by
    simp only [List.mem_append, not_or]
    exact ⟨h2', by decide⟩
  have e1 := congrArg parentDir h
  rw [parentDir_ok hs, parentDir_ok hs'] at e1
  subst e1
  have e2 := List.append_cancel_left h
  have e3 := List.append_cancel_right (List.cons.inj e2).2
  subst e3
  exact ⟨d, n, x, x', rfl, rfl, h2, h3, h3', h4, h4'⟩

theorem backup_eq {p b : FilePath} (h : BackupOf p b) : backupPath p = b := by
  obtain ⟨d, n, x, rfl, h1, h2, h3, h4, rfl⟩ := h
  exact backupPath_of_ext h1 h2 h3 h4

/-! ## walks -/

/-- What a walk sends was accepted by the filter. -/
theorem walk_sound (fs : FS) (f : FilePath → Bool → Bool) : ∀ (k : Nat) (p : FilePath) (n : Node) (q : FilePath),
    q ∈ walk fs f k p n → Under p q ∧ f q false = true
  | 0, p, n, q, h => by cases h
  | k + 1, p, .file c, q, h => by
    simp only [walk] at h
    split at h
    · rename_i hf
      rw [List.mem_singleton] at h
      subst h
      exact ⟨Under.refl _, hf⟩
    · cases h
  | k + 1, p, .dir, q, h => by
    simp only [walk] at h
    split at h
    · obtain ⟨e, he, hq⟩ := List.mem_flatMap.1 h
      obtain ⟨h1, h2⟩ := walk_sound fs f k e.1 e.2 q hq
      refine ⟨Under.trans ?_ h1, h2⟩
      obtain ⟨n, hn, _⟩ := isChild_iff.1 (mem_children.1 he).2
      exact Or.inr ⟨n, hn⟩
    · cases h

theorem walkPaths_sound {fs : FS} {f : FilePath → Bool → Bool} {roots : ISet FilePath} {q : FilePath} (h : q ∈ walkPaths fs f roots) :
    ∃ r ∈ roots, (q = r ∧ ∃ c, IMap.get? fs r = some (.file c)) ∨ (Under r q ∧ f q false = true) := by
  obtain ⟨r, hr, hq⟩ := List.mem_flatMap.1 h
  refine ⟨r, hr, ?_⟩
  unfold walkPath at hq
  split at hq
  · cases hq
  · rename_i c hc
    simp only [Option.getD_some, List.mem_singleton] at hq
    exact Or.inl ⟨hq, c, hc⟩
  · exact Or.inr (walk_sound _ _ _ _ _ _ hq)

theorem walkPaths_file {fs : FS} {f : FilePath → Bool → Bool} {roots : ISet FilePath} {r : FilePath} (hr : r ∈ roots) {c : Content}
    (h : IMap.get? fs r = some (.file c)) : r ∈ walkPaths fs f roots := by
  refine List.mem_flatMap.2 ⟨r, hr, ?_⟩
  unfold walkPath
  rw [h]
  simp

theorem backupFilter_file (excl : ISet FilePath) (p : FilePath) : backupFilter excl p false = true ↔ extension p = some c!"artbk" ∧ p ∉ excl := by
  unfold backupFilter
  by_cases h : extension p = some c!"artbk"
  · simp [h, ← contains_path]
  · simp [h]

theorem backupFilter_dir (excl : ISet FilePath) (p : FilePath) : backupFilter excl p true = true ↔ p ∉ excl := by
  simp [backupFilter, ← contains_path]

theorem mem_artifactFile {fs : FS} (w : FS.WF fs) (s : Settings) (p : FilePath) : p ∈ walkArtifacts fs s ↔ ArtifactFile fs s p := C29_mem w s p

end Art
