import Verif.Props.App
import Verif.Props.Read
import Verif.Lemmas.Written

/-!
# Property C33: the exit status of `art check`
-/

namespace Art.Spec

/-- The status that belongs to what was read. -/
inductive Verdict : Res Categorized (Categorized × Project) → Nat → Prop
  | unread (e) : Verdict (.err e) 1
  | crashed : Verdict .panic 101
  | error (c p l) : l ∈ c.error ++ c.other → l.level = .error → Verdict (.ok (c, p)) 1
  | warned (c p l) : l ∈ c.error ++ c.other → (∀ d ∈ c.error ++ c.other, d.level ≠ .error) → Verdict (.ok (c, p)) 2
  | clean (c p) : c.error ++ c.other = [] → Verdict (.ok (c, p)) 0

/-- Nothing in the project dangles: links, references in texts and references in code have a target, links go from tests to specifications
to requirements, artifacts marked as done define nothing to implement, and no text can be mistaken for the start or end of an artifact. -/
structure Tidy (L : Libs) (p : Project) : Prop where
  links : ∀ a ∈ artsOf p.artifacts, ∀ q ∈ a.partof, (∃ b ∈ artsOf p.artifacts, key b.name = key q) ∧ tyRank a.name.ty ≤ tyRank q.ty
  text : ∀ a ∈ artsOf p.artifacts, ∀ (n : Name) (sub : Option SubName), WritesRef a.text n.raw sub →
    ∃ b ∈ artsOf p.artifacts, key b.name = key n ∧ ∀ s, sub = some s → DefinesSub b.text s
  code : ∀ (n : Name) (sub : Option SubName) (loc : CodeLoc), Recorded p.codeImpls n sub loc →
    ∃ b ∈ artsOf p.artifacts, key b.name = key n ∧ b.impl.isDone = false ∧ ∀ s, sub = some s → DefinesSub b.text s
  done : ∀ a ∈ artsOf p.artifacts, a.impl.isDone = true → ∀ sub, ¬ DefinesSub a.text sub
  lines : ∀ a ∈ artsOf p.artifacts, ∀ line ∈ lines a.text, ¬ NameLine L.fold p.settings.pre line ∧ ¬ EndLine line

end Art.Spec

namespace Art
open Spec

section
variable {L : Libs} {readToml : Str → Option SettingsRaw} {hash : ArtifactIm → HashIm} {ncpu ncpu' : Nat} {fs fs' : FS} {base dir : FilePath}
  {s : Settings}

/-- The lints of a project that was read are in the list of their level. -/
theorem reads_levels {c : Categorized} {p : Project} (h : ReadsProject L readToml hash ncpu fs base (.ok (c, p))) :
    (∀ l ∈ c.error, l.level = .error) ∧ ∀ l ∈ c.other, l.level ≠ .error := by
  obtain ⟨_, _, s, r, arts, ls, _, _, _, _, _, _, _, rfl⟩ := reads_parts h
  have hcat : ∀ x y, (Categorized.categorize ⟨[], []⟩ x).categorize y = Categorized.categorize ⟨[], []⟩ (x ++ y) := by
    intro x y; unfold Categorized.categorize; rw [List.foldl_append]
  obtain ⟨e, o, _, _⟩ := C32_exact (r.lints ++ ls)
  unfold Run.categorized
  rw [hcat]
  exact ⟨fun l hl => ((e l).1 hl).2, fun l hl => ((o l).1 hl).2⟩

/-- C33. The possible exit statuses of `art check`: 1 without a project, and otherwise what belongs to a possible result of reading it. -/
theorem C33_status (status : Nat) : Checks L readToml hash ncpu fs dir status ↔
    (findRepo fs dir = none ∧ status = 1) ∨
    ∃ repo out, findRepo fs dir = some repo ∧ ReadsProject L readToml hash ncpu fs repo out ∧ Verdict out status := by
  have key : ∀ {repo out}, ReadsProject L readToml hash ncpu fs repo out → (status = exitStatus (checkResult out) ↔ Verdict out status) := by
    intro repo out h
    rcases out with ⟨c, p⟩ | e | _
    · obtain ⟨h1, h2⟩ := reads_levels h
      obtain ⟨ce, co⟩ := c
      cases ce with
      | cons l ce =>
        show status = 1 ↔ _
        constructor
        · rintro rfl; exact .error _ _ l (by simp) (h1 l (by simp))
        · intro h
          cases h with
          | error => rfl
          | warned _ _ _ _ h => exact absurd (h1 l (by simp)) (h l (by simp))
          | clean _ _ h => simp at h
      | nil =>
        cases co with
        | cons l co =>
          show status = 2 ↔ _
          constructor
          · rintro rfl; exact .warned _ _ l (by simp) (fun d hd => h2 d (by simpa using hd))
          · intro h
            cases h with
            | error _ _ d hd h => exact absurd h (h2 d (by simpa using hd))
            | warned _ _ _ _ h => rfl
            | clean _ _ h => simp at h
        | nil =>
          show status = 0 ↔ _
          constructor
          · rintro rfl; exact .clean _ _ rfl
          · intro h
            cases h with
            | error _ _ d hd h => simp at hd
            | warned _ _ d hd h => simp at hd
            | clean _ _ h => rfl
    · show status = 1 ↔ _
      exact ⟨by rintro rfl; exact .unread _, fun h => by cases h; rfl⟩
    · show status = 101 ↔ _
      exact ⟨by rintro rfl; exact .crashed, fun h => by cases h; rfl⟩
  unfold Checks
  cases hf : findRepo fs dir with
  | none => simp
  | some repo =>
    simp only [Option.some.injEq]
    constructor
    · rintro ⟨out, h1, h2⟩
      exact Or.inr ⟨repo, out, rfl, h1, (key h1).1 h2⟩
    · rintro (⟨h, _⟩ | ⟨_, out, rfl, h1, h2⟩)
      · cases h
      · exact ⟨out, h1, (key h1).2 h2⟩

/-! ### status 0 -/

/-- Whatever holds for a reference in the code before sorting holds after it. -/
theorem recorded_sort {code : IMap Name ImplCode} {n : Name} {sub : Option SubName} {loc : CodeLoc}
    (h : Recorded ((sortOn (fun x : Name × ImplCode => x.1.keyStr) code).map (fun x => (x.1, x.2.sort))) n sub loc) : Recorded code n sub loc := by
  obtain ⟨c, hc, h⟩ := h
  obtain ⟨x, hx, e⟩ := List.mem_map.1 hc
  cases e
  refine ⟨x.2, (mem_sortOn _).1 hx, ?_⟩
  cases sub with
  | none => exact h
  | some s => exact (sortOn_perm _ _).mem_iff.1 h

/-- C33. Status 0 means that the project is in order. -/
theorem C33_clean (h : Checks L readToml hash ncpu fs dir 0) :
    ∃ repo p, findRepo fs dir = some repo ∧ ReadsProject L readToml hash ncpu fs repo (.ok (⟨[], []⟩, p)) ∧ Tidy L p := by
  rw [C33_status] at h
  rcases h with ⟨_, h⟩ | ⟨repo, out, hf, hr, hv⟩
  · cases h
  cases hv with
  | clean c p he =>
    obtain ⟨ce, co⟩ := c
    simp only [List.append_eq_nil_iff] at he
    obtain ⟨rfl, rfl⟩ := he
    refine ⟨repo, p, hf, hr, ?_⟩
    obtain ⟨_, _, s, r, arts, ls, _, _, ha, _, hl, hlint, rfl, hc⟩ := reads_parts hr
    have hnil : r.lints ++ ls = [] := by
      rw [← C32_isEmpty]
      have hcat : (Categorized.categorize ⟨[], []⟩ r.lints).categorize ls = Categorized.categorize ⟨[], []⟩ (r.lints ++ ls) := by
        unfold Categorized.categorize; rw [List.foldl_append]
      rw [← hcat]
      unfold Run.categorized at hc
      rw [← hc]; rfl
    obtain ⟨_, rfl⟩ := List.append_eq_nil_iff.1 hnil
    have inp := joinArtifacts_input r.arts
    have rep : Reported L ⟨s, (joinLocations r.locs).1, arts⟩ [] := Or.inl hlint
    obtain ⟨_, _, _, hnd, hex, hs, _, _⟩ := hl.spec inp
    have up : ∀ {b}, b ∈ artsOf arts → b.sort ∈ artsOf (Project.sort ⟨s, (joinLocations r.locs).1, arts⟩).artifacts := by
      intro b hb
      obtain ⟨x, hx, rfl⟩ := List.mem_map.1 hb
      exact List.mem_map.2 ⟨(x.1, x.2.sort), List.mem_map.2 ⟨x, (mem_sortOn _).2 hx, rfl⟩, rfl⟩
    have down : ∀ {a}, a ∈ artsOf (Project.sort ⟨s, (joinLocations r.locs).1, arts⟩).artifacts → ∃ b ∈ artsOf arts, a = b.sort := by
      intro a ha
      obtain ⟨x, hx, rfl⟩ := List.mem_map.1 ha
      obtain ⟨y, hy, rfl⟩ := List.mem_map.1 hx
      exact ⟨y.2, List.mem_map.2 ⟨y, (mem_sortOn _).1 hy, rfl⟩, rfl⟩
    have idone : ∀ {a im}, ArtSpec hash (joinArtifacts r.arts).arts (joinLocations r.locs).1 (arts.map Prod.snd) a im → (a.impl.isDone = true ↔ im.done ≠ none) := by
      intro a im hi
      rw [hi.impl]
      unfold implOf
      cases im.done with
      | some d => simp [Impl.isDone]
      | none => cases IMap.get? (joinLocations r.locs).1 a.name <;> simp [Impl.isDone]
    have sdone : ∀ a : Artifact, a.sort.impl.isDone = a.impl.isDone := by
      intro a
      show a.impl.sort.isDone = _
      cases a.impl <;> rfl
    have tgt : ∀ {n : Name} {sub}, ¬ NoTarget (artsOf arts) n sub → ∃ b ∈ artsOf arts, key b.name = key n ∧ ∀ s, sub = some s → DefinesSub b.text s := by
      intro n sub h
      unfold NoTarget at h
      push Not at h
      obtain ⟨⟨b, hb, hk⟩, h2⟩ := h
      exact ⟨b, hb, hk, fun s hs => h2 b hb hk s hs⟩
    refine ⟨fun a haa q hq => ?_, fun a haa n sub hw => ?_, fun n sub loc hrec => ?_, fun a haa hd sub hsub => ?_, fun a haa line hline => ?_⟩
    · obtain ⟨b, hb, rfl⟩ := down haa
      have hq : q ∈ b.partof := (sortNames_perm _).mem_iff.1 hq
      obtain ⟨t, ht, hk⟩ := C13_resolvable inp hl rep (by simp) b hb q hq
      refine ⟨⟨t.sort, up ht, hk⟩, ?_⟩
      by_contra hlt
      obtain ⟨l, hm, _⟩ := (C14_reported_each inp hl rep b.file b.name q).2 ⟨b, hb, rfl, rfl, hq, by
        have : tyRank b.sort.name.ty = tyRank b.name.ty := rfl
        omega⟩
      simp at hm
    · obtain ⟨b, hb, rfl⟩ := down haa
      obtain ⟨t, ht, hk, h2⟩ := tgt (n := n) (sub := sub) (fun hno => by
        have := (C40_warned inp hl hlint _).2 ⟨b, hb, n, sub, hw, hno, rfl⟩
        simp at this)
      exact ⟨t.sort, up ht, hk, h2⟩
    · have hrec := recorded_sort hrec
      have hno : ∀ msg, ¬ WrongRef (joinArtifacts r.arts).arts n sub msg := fun msg hw => by
        have := (C41_warned inp hl hlint _).2 ⟨n, sub, loc, msg, hrec, hw, rfl⟩
        simp at this
      have hx : ∃ x ∈ (joinArtifacts r.arts).arts, key x.1 = key n := by
        by_contra hh
        push Not at hh
        exact hno _ (.missing sub hh)
      obtain ⟨b, hb, hk⟩ := (hex n).2 (IMap.contains_iff.2 hx)
      obtain ⟨im, sp⟩ := hs b hb
      obtain ⟨n', hk', hm⟩ := IMap.mem_of_get? sp.mem
      have hk' : key n' = key n := hk'.trans hk
      have hd : im.done = none := by
        by_contra hh
        exact hno _ (.done sub _ hm hk' hh)
      refine ⟨b.sort, up hb, hk, ?_, fun t ht => ?_⟩
      · rw [sdone]
        have := idone sp
        cases hi : b.impl.isDone with
        | false => rfl
        | true => exact absurd hd (this.1 hi)
      · subst ht
        by_contra hh
        refine hno _ (.noSub t _ hm hk' hd ?_)
        show ¬ DefinesSub im.text t
        rw [← sp.text]
        exact hh
    · obtain ⟨b, hb, rfl⟩ := down haa
      rw [sdone] at hd
      obtain ⟨im, sp⟩ := hs b hb
      obtain ⟨l, hm, _⟩ := (C44_reported inp hl rep b.file b.name).2 ⟨b, hb, rfl, rfl, im, sp.mem, (idone sp).1 hd, sub, by
        rw [← sp.text]; exact hsub⟩
      simp at hm
    · obtain ⟨b, hb, rfl⟩ := down haa
      by_contra hh
      obtain ⟨l, hm, _⟩ := (C42_reported inp hl rep b.file b.name).2 ⟨b, hb, rfl, rfl, line, hline, by
        by_contra h3
        push Not at h3
        exact hh h3⟩
      simp at hm

/-! ### one status -/

theorem codeLintAll_nil (n n' : Name) (c : ImplCode) (m m' : Str) : codeLintAll n c m = [] ↔ codeLintAll n' c m' = [] := by
  unfold codeLintAll
  cases c.primary <;> simp

theorem codeLintStep_nil {p p' : Project} {n n' : Name} (hk : key n = key n') (hg : IMap.get? p.artifacts n = IMap.get? p'.artifacts n) (c : ImplCode) :
    codeLintStep p (n, c) = [] ↔ codeLintStep p' (n', c) = [] := by
  unfold codeLintStep
  rw [← IMap.get?_congr p'.artifacts hk, ← hg]
  cases IMap.get? p.artifacts n with
  | none => exact codeLintAll_nil _ _ _ _ _
  | some a =>
    dsimp only
    cases a.impl with
    | done d => exact codeLintAll_nil _ _ _ _ _
    | notImpl => exact Iff.rfl
    | code _ =>
      simp only [List.filterMap_eq_nil_iff]
      refine forall_congr' fun y => forall_congr' fun _ => ?_
      split <;> simp

theorem codeLints_nil {p p' : Project} (h : Same p p') (h2 : Same p' p) : lintCodeImpls p = [] → lintCodeImpls p' = [] := by
  intro he
  have bn : ∀ q : Project, IMap.Nodup q.artifacts → IMap.Nodup q.bare.artifacts := fun q hq =>
    IMap.nodup_of_fst hq (by show List.map _ (List.map _ _) = _; rw [List.map_map]; rfl)
  have ma : ∀ {q q' : Project}, Same q q' → ∀ y, y ∈ q.bare.artifacts → y ∈ q'.bare.artifacts := by
    intro q q' hq y hy
    obtain ⟨x, hx, rfl⟩ := List.mem_map.1 hy
    obtain ⟨x', hx', e1, e2, _⟩ := hq.arts x hx
    exact List.mem_map.2 ⟨x', hx', by simp only [e1, e2]⟩
  have pa := perm_of_mem_iff (IMap.nodup_list (bn p h.nodup)) (IMap.nodup_list (bn p' h.nodup')) fun y => ⟨ma h y, ma h2 y⟩
  have hb : lintCodeImpls p.bare = [] := List.perm_nil.1 (by rw [← he]; exact lintCodeImpls_bare p)
  have hb' : lintCodeImpls p'.bare = [] := by
    unfold lintCodeImpls at hb ⊢
    rw [List.flatMap_eq_nil_iff] at hb ⊢
    intro y hy
    obtain ⟨x, hx, rfl⟩ := List.mem_map.1 hy
    have hg := IMap.get?_of_mem h.cnodup' (a := x.1) (b := x.2) hx
    have hcode := h.code x.1
    rw [hg] at hcode
    cases hg' : IMap.get? p.codeImpls x.1 with
    | none => rw [hg'] at hcode; cases hcode
    | some c =>
      rw [hg'] at hcode
      simp only [Option.map_some, Option.some.injEq] at hcode
      obtain ⟨n', hk, hm⟩ := IMap.mem_of_get? hg'
      rw [← codeLintStep_nil (p := p.bare) (n := n') hk (IMap.get?_perm pa (bn p h.nodup) _), ← hcode]
      exact hb _ (List.mem_map.2 ⟨_, hm, rfl⟩)
  exact List.perm_nil.1 (by rw [← hb']; exact (lintCodeImpls_bare p').symm)

theorem lintCodeImpls_warn (p : Project) : ∀ l ∈ lintCodeImpls p, l.level = .warn := by
  have all : ∀ {n c m l}, l ∈ codeLintAll n c m → l.level = .warn := by
    intro n c m l hl
    unfold codeLintAll at hl
    rcases List.mem_append.1 hl with hl | hl
    · split at hl
      · rw [List.mem_singleton.1 hl]; rfl
      · simp at hl
    · obtain ⟨_, _, rfl⟩ := List.mem_map.1 hl; rfl
  intro l hl
  obtain ⟨x, _, hl⟩ := List.mem_flatMap.1 hl
  unfold codeLintStep at hl
  split at hl
  · split at hl
    · exact all hl
    · obtain ⟨y, _, hy⟩ := List.mem_filterMap.1 hl
      split at hy
      · cases hy
      · cases hy; rfl
    · simp at hl
  · exact all hl

/-- Apart from the code references the lints of the two projects are the same. -/
theorem lints_levels {p p' : Project} (h : Same p p') (h2 : Same p' p) {ls ls' : List Lint} (hl : p.lint L = .ok ls) (hl' : p'.lint L = .ok ls') :
    ((∃ l ∈ ls, l.level = .error) → ∃ l ∈ ls', l.level = .error) ∧ (ls = [] → ls' = []) := by
  have S0 : ∀ {q q' : Project}, Same q q' → Same { q with codeImpls := [] } { q' with codeImpls := [] } := fun hq =>
    ⟨hq.settings, hq.nodup, hq.nodup', List.nodup_nil, List.nodup_nil, hq.arts, hq.pnodup, fun _ => rfl⟩
  obtain ⟨refs, hr, rfl⟩ := lint_ok.1 hl
  obtain ⟨refs', hr', rfl⟩ := lint_ok.1 hl'
  have e : ({ p with codeImpls := [] } : Project).lint L = .ok (p.lintErrors L ++ (refs ++ [] ++ lintSettings L p)) := lint_ok.2 ⟨refs, hr, rfl⟩
  have e' : ({ p' with codeImpls := [] } : Project).lint L = .ok (p'.lintErrors L ++ (refs' ++ [] ++ lintSettings L p')) := lint_ok.2 ⟨refs', hr', rfl⟩
  have hp : (p.lintErrors L ++ (refs ++ [] ++ lintSettings L p)).Perm (p'.lintErrors L ++ (refs' ++ [] ++ lintSettings L p')) := by
    rcases lints_of_reads (L := L) (S0 h) (S0 h2) (by simp) with ⟨l1, l2, f1, f2, hpm⟩ | ⟨f, _⟩
    · rw [e] at f1; rw [e'] at f2
      cases f1; cases f2
      exact hpm
    · rw [e] at f; cases f
  constructor
  · rintro ⟨l, hm, he⟩
    have : l ∈ p.lintErrors L ++ (refs ++ [] ++ lintSettings L p) := by
      simp only [List.mem_append, List.append_nil] at hm ⊢
      rcases hm with hm | (hm | hm) | hm
      · exact Or.inl hm
      · exact Or.inr (Or.inl hm)
      · rw [lintCodeImpls_warn p l hm] at he; cases he
      · exact Or.inr (Or.inr hm)
    refine ⟨l, ?_, he⟩
    have := hp.mem_iff.1 this
    simp only [List.mem_append, List.append_nil] at this ⊢
    rcases this with hm | hm | hm
    · exact Or.inl hm
    · exact Or.inr (Or.inl (Or.inl hm))
    · exact Or.inr (Or.inr hm)
  · intro hn
    simp only [List.append_eq_nil_iff] at hn
    obtain ⟨n1, ⟨n2, n3⟩, n4⟩ := hn
    rw [n1, n2, n4] at hp
    have := List.nil_perm.1 hp
    simp only [List.append_eq_nil_iff] at this ⊢
    exact ⟨this.1, ⟨this.2.1.1, codeLints_nil h h2 n3⟩, this.2.2⟩

theorem verdict_same {out out' : Res Categorized (Categorized × Project)} (hp : fs.Perm fs') (w : FS.WF fs)
    (h : ReadsWith L hash ncpu fs s out) (h' : ReadsWith L hash ncpu' fs' s out') :
    exitStatus (checkResult out) = exitStatus (checkResult out') := by
  obtain ⟨r, hr, g⟩ := h
  obtain ⟨r', hr', g'⟩ := h'
  have hne := noError_same hp w hr hr'
  rcases g with ⟨he, rfl⟩ | ⟨he, arts, hl, rfl⟩
  · rcases g' with ⟨_, rfl⟩ | ⟨he', _⟩
    · rfl
    · exact absurd (hne.2 he') he
  · rcases g' with ⟨he', _⟩ | ⟨he', arts', hl', rfl⟩
    · exact absurd (hne.1 he) he'
    · have S := same_of_reads hp w hr hr' he hl hl'
      have S' := same_of_reads hp.symm (wf_perm hp w) hr' hr he' hl' hl
      have hf : ∀ d, d ∈ r.lints ↔ d ∈ r'.lints := by
        intro d
        obtain ⟨_, j1, j2⟩ := (noError_parts hr).1 he
        obtain ⟨_, j1', j2'⟩ := (noError_parts hr').1 he'
        rw [mem_lints hr, mem_lints hr', fileLints_perm hp w, j1, j2, j1', j2']
      unfold finishRead
      cases e : Project.lint L ⟨s, (joinLocations r.locs).1, arts⟩ with
      | panic => rw [panic_of_reads S e]
      | err x => rcases lint_ne_err L ⟨s, (joinLocations r.locs).1, arts⟩ with ⟨_, h⟩ | h <;> rw [h] at e <;> cases e
      | ok ls =>
        cases e' : Project.lint L ⟨s, (joinLocations r'.locs).1, arts'⟩ with
        | panic => rw [panic_of_reads S' e'] at e; cases e
        | err x => rcases lint_ne_err L ⟨s, (joinLocations r'.locs).1, arts'⟩ with ⟨_, h⟩ | h <;> rw [h] at e' <;> cases e'
        | ok ls' =>
          obtain ⟨k1, k2⟩ := lints_levels S S' e e'
          obtain ⟨k1', k2'⟩ := lints_levels S' S e' e
          have hcat : ∀ x y, (Categorized.categorize ⟨[], []⟩ x).categorize y = Categorized.categorize ⟨[], []⟩ (x ++ y) := by
            intro x y; unfold Categorized.categorize; rw [List.foldl_append]
          have E : ∀ l : List Lint, ((Categorized.categorize ⟨[], []⟩ l).sort).error.isEmpty = true ↔ ¬ ∃ d ∈ l, d.level = .error := by
            intro l
            obtain ⟨e, _⟩ := C32_exact l
            rw [List.isEmpty_iff, List.eq_nil_iff_forall_not_mem]
            constructor
            · rintro h ⟨d, hd, hl⟩; exact h d ((e d).2 ⟨hd, hl⟩)
            · intro h d hd; exact h ⟨d, (e d).1 hd⟩
          have x1 : (∃ d ∈ r.lints ++ ls, d.level = .error) ↔ ∃ d ∈ r'.lints ++ ls', d.level = .error := by
            simp only [List.mem_append, or_and_right, exists_or, hf]
            exact or_congr Iff.rfl ⟨k1, k1'⟩
          have x2 : r.lints ++ ls = [] ↔ r'.lints ++ ls' = [] := by
            simp only [List.append_eq_nil_iff]
            refine and_congr ?_ ⟨k2, k2'⟩
            simp only [List.eq_nil_iff_forall_not_mem, hf]
          simp only [checkResult, Run.categorized, hcat]
          have y1 : ((Categorized.categorize ⟨[], []⟩ (r.lints ++ ls)).sort).error.isEmpty =
              ((Categorized.categorize ⟨[], []⟩ (r'.lints ++ ls')).sort).error.isEmpty := by
            rw [Bool.eq_iff_iff, E, E, x1]
          have y2 : ((Categorized.categorize ⟨[], []⟩ (r.lints ++ ls)).sort).isEmpty =
              ((Categorized.categorize ⟨[], []⟩ (r'.lints ++ ls')).sort).isEmpty := by
            rw [Bool.eq_iff_iff, C32_isEmpty, C32_isEmpty, x2]
          rw [y1, y2]
          split
          · rfl
          · split <;> rfl

theorem findRepoLoop_perm (hp : fs.Perm fs') (w : FS.WF fs) (l : List Str) : findRepoLoop fs l = findRepoLoop fs' l := by
  induction l using List.reverseRecOn with
  | nil => rw [findRepoLoop_nil, findRepoLoop_nil, IMap.get?_perm hp w.nodup]
  | append_singleton l c ih => rw [findRepoLoop_snoc, findRepoLoop_snoc, IMap.get?_perm hp w.nodup, ih]

/-- C33. The status does not depend on the schedule, the number of processors or the order of directory listings, also when the names are
spelled in different ways. -/
theorem C33_one_status (hp : fs.Perm fs') (w : FS.WF fs) {st st' : Nat}
    (h : Checks L readToml hash ncpu fs dir st) (h' : Checks L readToml hash ncpu' fs' dir st') : st = st' := by
  unfold Checks at h h'
  have e : findRepo fs dir = findRepo fs' dir := findRepoLoop_perm hp w _
  rw [← e] at h'
  cases hf : findRepo fs dir with
  | none => rw [hf] at h h'; exact h.trans h'.symm
  | some repo =>
    rw [hf] at h h'
    obtain ⟨out, ho, rfl⟩ := h
    obtain ⟨out', ho', rfl⟩ := h'
    unfold ReadsProject at ho ho'
    rw [← loadSettingsRaw_perm readToml hp w] at ho'
    cases e : loadSettingsRaw readToml fs repo with
    | none => simp only [e] at ho ho'; rw [ho, ho']
    | some x =>
      obtain ⟨path, raw⟩ := x
      simp only [e] at ho ho'
      cases e2 : resolveSettings repo path raw with
      | ok s => simp only [e2] at ho ho'; exact verdict_same hp w ho ho'
      | err x => simp only [e2] at ho ho'; rw [ho, ho']
      | panic => simp only [e2] at ho ho'; rw [ho, ho']

end

/-! ### cases -/

theorem exFs_repo (a b x y : Str) : findRepo (exFs a b x y) c!"/p/src/deep" = some c!"/p" := by
  have e : pathComps c!"/p/src/deep" = [] ++ [c!"p"] ++ [c!"src"] ++ [c!"deep"] := by decide
  unfold findRepo
  rw [e, findRepoLoop_snoc, findRepoLoop_snoc, findRepoLoop_snoc]
  rfl

theorem exFs_checks (a b x y : Str)
    (hc : (walkCode (exFs a b x y) exS).countP (fun f => (codeSent exLibs (exFs a b x y) f).dead) < 4)
    (ha : (walkArtifacts (exFs a b x y) exS).countP (fun f => (artSent exLibs exS.pre (exFs a b x y) f).dead) < 4) :
    Checks exLibs (fun _ => some exRaw) exHash 4 (exFs a b x y) c!"/p/src/deep"
      (exitStatus (checkResult ((exRun (exFs a b x y) false).now exLibs exHash exS))) := by
  unfold Checks
  rw [exFs_repo]
  exact ⟨_, exRun_reads a b x y false hc ha, rfl⟩

/-- Status 0: a project with three artifacts and code. `C33_clean` and `C33_one_status` apply. -/
example : Checks exLibs (fun _ => some exRaw) exHash 4 exGood c!"/p/src/deep" 0 ∧ FS.WF exGood := by
  refine ⟨?_, exFs_wf _ _ _ _⟩
  have h := exFs_checks c!"# REQ-a\nwhat\n# SPC-a\nhow [[.x]]\n" c!"# SPC-b\nmore\n" c!"// #SPC-a\n// #SPC-a.x" c!"// #SPC-b" (by decide +kernel) (by decide +kernel)
  have e : exitStatus (checkResult ((exRun exGood false).now exLibs exHash exS)) = 0 := by decide +kernel
  rw [← e]; exact h

/-- Status 2: a reference to a subname that does not exist. -/
example : Checks exLibs (fun _ => some exRaw) exHash 4 (exFs c!"# SPC-a\n[[.x]]\n" c!"" c!"// #SPC-a.y" c!"") c!"/p/src/deep" 2 := by
  have h := exFs_checks c!"# SPC-a\n[[.x]]\n" c!"" c!"// #SPC-a.y" c!"" (by decide +kernel) (by decide +kernel)
  have e : exitStatus (checkResult ((exRun (exFs c!"# SPC-a\n[[.x]]\n" c!"" c!"// #SPC-a.y" c!"") false).now exLibs exHash exS)) = 2 := by decide +kernel
  rw [← e]; exact h

/-- Status 1: the same artifact in two files. -/
example : Checks exLibs (fun _ => some exRaw) exHash 4 (exFs c!"# SPC-a\n" c!"# SPC-a\n" c!"" c!"") c!"/p/src/deep" 1 := by
  have h := exFs_checks c!"# SPC-a\n" c!"# SPC-a\n" c!"" c!"" (by decide +kernel) (by decide +kernel)
  have e : exitStatus (checkResult ((exRun (exFs c!"# SPC-a\n" c!"# SPC-a\n" c!"" c!"") false).now exLibs exHash exS)) = 1 := by decide +kernel
  rw [← e]; exact h

end Art
