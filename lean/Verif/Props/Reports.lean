import Verif.Spec.Reports
import Verif.Props.Split
import Verif.Props.Depends
import Verif.Props.Export

/-!
# C83: everything that a project is told
-/

namespace Art.Reports
open Spec
open Spec.Export (arts)

variable {L : Libs} {readToml : Str → Option SettingsRaw} {hash : ArtifactIm → HashIm} {dbg : ArtifactIm → Str} {n n' n2 : Nat} {fs fs' : FS} {base base' : FilePath}
  {c c' : Categorized} {p p' : Project} {l : Lint}

section load
variable {ims : IMap Name ArtifactIm} {defined : IMap Name FilePath} {code : IMap Name ImplCode} {as : IMap Name Artifact} {st : Settings}

theorem done_iff {a : Artifact} : a.impl.isDone = true ↔ Done a := by
  unfold Done
  cases a.impl <;> simp [Impl.isDone]

theorem spec_done {bs : List Artifact} {a : Artifact} {im : ArtifactIm} (hi : ArtSpec hash ims code bs a im) : Done a ↔ im.done ≠ none := by
  rw [← done_iff, hi.impl]
  unfold implOf
  cases im.done with
  | some d => simp [Impl.isDone]
  | none => cases IMap.get? code a.name <;> simp [Impl.isDone]

theorem wrong_iff (inp : LoadInput ims defined) (h : Loads hash ims code defined as) {m : Name} {sub : Option SubName} {msg : Str} :
    WrongRef ims m sub msg ↔ ∃ w, Wrong (artsOf as) m sub w ∧ msg = w.text m := by
  obtain ⟨_, _, _, hnd, hex, hs, _, _⟩ := h.spec inp
  have find : ∀ {x}, x ∈ ims → key x.1 = key m → ∃ b ∈ artsOf as, key b.name = key m ∧ ArtSpec hash ims code (as.map Prod.snd) b x.2 := by
    intro x hx hk
    obtain ⟨b, hb, hkb⟩ := (hex m).2 (IMap.contains_iff.2 ⟨x, hx, hk⟩)
    obtain ⟨im, hi⟩ := hs b hb
    have e := IMap.get?_of_mem inp.nodup (a := x.1) (b := x.2) hx
    have e2 := hi.mem
    rw [IMap.get?_congr ims (hkb.trans hk.symm), e] at e2
    cases e2
    exact ⟨b, hb, hkb, hi⟩
  have back : ∀ {b}, b ∈ artsOf as → key b.name = key m → ∃ x ∈ ims, key x.1 = key m ∧ ArtSpec hash ims code (as.map Prod.snd) b x.2 := by
    intro b hb hk
    obtain ⟨im, hi⟩ := hs b hb
    obtain ⟨y, hy, hm⟩ := IMap.mem_of_get? hi.mem
    exact ⟨(y, im), hm, hy.trans hk, hi⟩
  constructor
  · intro hw
    cases hw with
    | missing _ hno =>
      refine ⟨.missing, fun b hb hk => ?_, rfl⟩
      obtain ⟨x, hx, hkx, _⟩ := back hb hk
      exact hno x hx hkx
    | done _ x hx hk hd =>
      obtain ⟨b, hb, hkb, hi⟩ := find hx hk
      exact ⟨.done, ⟨b, hb, hkb, (spec_done hi).2 hd⟩, rfl⟩
    | noSub s x hx hk hd hno =>
      obtain ⟨b, hb, hkb, hi⟩ := find hx hk
      exact ⟨.noSub s, ⟨b, hb, hkb, fun h => (spec_done hi).1 h hd, rfl, by rw [hi.text]; exact hno⟩, rfl⟩
  · rintro ⟨w, hw, rfl⟩
    cases w with
    | missing =>
      refine .missing sub fun x hx hk => ?_
      obtain ⟨b, hb, hkb, _⟩ := find hx hk
      exact hw b hb hkb
    | done =>
      obtain ⟨b, hb, hk, hd⟩ := hw
      obtain ⟨x, hx, hkx, hi⟩ := back hb hk
      exact .done sub x hx hkx ((spec_done hi).1 hd)
    | noSub s =>
      obtain ⟨b, hb, hk, hd, rfl, hno⟩ := hw
      obtain ⟨x, hx, hkx, hi⟩ := back hb hk
      exact .noSub s x hx hkx (not_not.1 fun h => hd ((spec_done hi).2 h)) (by rw [← hi.text]; exact hno)

theorem mem_settings {P : Project} : l ∈ lintSettings L P ↔ ∃ fmt e, P.settings.codeUrl = some fmt ∧ L.urlErr fmt = some e ∧ l = ⟨.error, some P.settings.settingsPath, none, .settings, e⟩ := by
  unfold lintSettings
  split
  · rename_i h; simp [h]
  · rename_i fmt h
    split
    · rename_i h2
      simp only [List.not_mem_nil, false_iff]
      rintro ⟨_, _, e1, e2, _⟩
      rw [h] at e1
      cases e1
      rw [h2] at e2
      cases e2
    · rename_i e h2
      simp only [List.mem_singleton]
      constructor
      · rintro rfl; exact ⟨fmt, e, h, h2, rfl⟩
      · rintro ⟨_, _, e1, e2, rfl⟩
        rw [h] at e1
        cases e1
        rw [h2] at e2
        cases e2
        rfl

theorem ranks (a b : Ty) : invalidTypes a b = true ↔ tyRank b < tyRank a := by cases a <;> cases b <;> decide

/-- Every lint of a project that was loaded is a complaint, and the other way round. -/
theorem lint_complaint (inp : LoadInput ims defined) (h : Loads hash ims code defined as) {ls : List Lint} (hl : Project.lint L ⟨st, code, as⟩ = .ok ls) :
    l ∈ ls ↔ Complaint L ⟨st, code, as⟩ l := by
  obtain ⟨_, hnm, _, hnd, hex, hs, _, _⟩ := h.spec inp
  have c40 := C40_warned inp h hl l
  have c41 := C41_warned inp h hl l
  obtain ⟨refs, hr, rfl⟩ := lint_ok.1 hl
  have mem : ∀ {x}, x ∈ as → x.2 ∈ arts (⟨st, code, as⟩ : Project) ∧ x.2.name = x.1 := fun hx => arts_mem inp h hx
  have no : ∀ q : Name, IMap.contains as q = false ↔ ∀ b ∈ arts (⟨st, code, as⟩ : Project), key b.name ≠ key q := by
    intro q
    have := arts_contains inp h q
    rw [← Bool.not_eq_true, this]
    push Not
    rfl
  constructor
  · intro hm
    have hm' := hm
    simp only [List.mem_append, Project.lintErrors] at hm
    rcases hm with (((hm | hm) | hm) | hm) | (hm | hm) | hm
    · obtain ⟨x, hx, q, hq, hc, rfl⟩ := mem_dne.1 hm
      have := Complaint.dangling (L := L) (mem hx).1 hq ((no q).1 hc)
      simpa [errorLint, artLint, (mem hx).2] using this
    · obtain ⟨x, hx, q, hq, hc, rfl⟩ := mem_types.1 hm
      have := Complaint.types (L := L) (mem hx).1 hq ((mem hx).2 ▸ (ranks _ _).1 hc)
      simpa [errorLint, artLint, (mem hx).2] using this
    · obtain ⟨x, hx, line, hline, ⟨h1, rfl⟩ | ⟨h1, h2, rfl⟩⟩ := mem_text.1 hm
      · have := Complaint.nameLine (L := L) (mem hx).1 hline h1
        simpa [errorLint, artLint, (mem hx).2] using this
      · have := Complaint.endLine (L := L) (mem hx).1 hline h1 h2
        simpa [errorLint, artLint, (mem hx).2] using this
    · obtain ⟨x, hx, hd, hsub, rfl⟩ := mem_doneSub.1 hm
      obtain ⟨im, hi⟩ := hs _ (mem hx).1
      obtain ⟨sub, hsub⟩ := (subs_ne_nil hi.subs).1 hsub
      have := Complaint.doneSubs (L := L) (mem hx).1 (done_iff.1 hd) (hi.text.symm ▸ hsub)
      simpa [errorLint, artLint, (mem hx).2] using this
    · obtain ⟨x, _, m, _, k, hk, hlk⟩ := (lintTextRefs_mem hr l).1 hm
      obtain ⟨h1, h2⟩ := refLintOf_shape hk l hlk
      obtain ⟨a, ha, m, sub, hw, hno, rfl⟩ := c40.1 ⟨hm', h1, h2⟩
      exact .soft ha hw hno
    · obtain ⟨x, _, hx⟩ := List.mem_flatMap.1 hm
      obtain ⟨m, sub, loc, msg, h1, h2, rfl⟩ := c41.1 ⟨hm', (codeLintStep_shape l hx).2⟩
      obtain ⟨w, hw, rfl⟩ := (wrong_iff inp h).1 h2
      exact .place h1 hw
    · obtain ⟨fmt, e, h1, h2, rfl⟩ := mem_settings.1 hm
      exact .url h1 h2
  · intro hc
    cases hc with
    | dangling ha hq hno =>
      obtain ⟨x, hx, rfl⟩ := List.mem_map.1 ha
      simp only [List.mem_append, Project.lintErrors]
      exact .inl (.inl (.inl (.inl (mem_dne.2 ⟨x, hx, _, hq, (no _).2 hno, by simp [errorLint, artLint, (mem hx).2]⟩))))
    | types ha hq hno =>
      obtain ⟨x, hx, rfl⟩ := List.mem_map.1 ha
      simp only [List.mem_append, Project.lintErrors]
      exact .inl (.inl (.inl (.inr (mem_types.2 ⟨x, hx, _, hq, (ranks _ _).2 ((mem hx).2 ▸ hno), by simp [errorLint, artLint, (mem hx).2]⟩))))
    | nameLine ha hline h1 =>
      obtain ⟨x, hx, rfl⟩ := List.mem_map.1 ha
      simp only [List.mem_append, Project.lintErrors]
      exact .inl (.inl (.inr (mem_text.2 ⟨x, hx, _, hline, .inl ⟨h1, by simp [errorLint, artLint, (mem hx).2]⟩⟩)))
    | endLine ha hline h1 h2 =>
      obtain ⟨x, hx, rfl⟩ := List.mem_map.1 ha
      simp only [List.mem_append, Project.lintErrors]
      exact .inl (.inl (.inr (mem_text.2 ⟨x, hx, _, hline, .inr ⟨h1, h2, by simp [errorLint, artLint, (mem hx).2]⟩⟩)))
    | doneSubs ha hd hsub =>
      obtain ⟨x, hx, rfl⟩ := List.mem_map.1 ha
      obtain ⟨im, hi⟩ := hs _ (mem hx).1
      simp only [List.mem_append, Project.lintErrors]
      exact .inl (.inr (mem_doneSub.2 ⟨x, hx, done_iff.2 hd, (subs_ne_nil hi.subs).2 ⟨_, hi.text ▸ hsub⟩, by simp [errorLint, artLint, (mem hx).2]⟩))
    | url h1 h2 => exact List.mem_append_right _ (List.mem_append_right _ (mem_settings.2 ⟨_, _, h1, h2, rfl⟩))
    | soft ha hw hno => exact (c40.2 ⟨_, ha, _, _, hw, hno, rfl⟩).1
    | place h1 h2 => exact (c41.2 ⟨_, _, _, _, h1, (wrong_iff inp h).2 ⟨_, h2, rfl⟩, rfl⟩).1

end load

theorem done_sort (a : Artifact) : Done a.sort ↔ Done a := by
  rw [← done_iff, ← done_iff, show a.sort.impl.isDone = a.impl.isDone from isDone_sort _]

theorem arts_sort {P : Project} {a : Artifact} : a ∈ arts P.sort ↔ ∃ b ∈ arts P, b.sort = a := by
  show a ∈ P.sort.artifacts.map Prod.snd ↔ _
  rw [(Depends.sort_arts P).mem_iff, List.mem_map]
  rfl

theorem recorded_iff {P : Project} {m : Name} {sub : Option SubName} {loc : CodeLoc} : Recorded P.sort.codeImpls m sub loc ↔ Recorded P.codeImpls m sub loc := by
  refine ⟨recorded_sort, fun ⟨x, hx, h⟩ => ⟨x.sort, List.mem_map.2 ⟨(m, x), (mem_sortOn _).2 hx, rfl⟩, ?_⟩⟩
  cases sub with
  | none => exact h
  | some s => exact (sortOn_perm _ _).mem_iff.2 h

theorem noTarget_sort {P : Project} {m : Name} {sub : Option SubName} : NoTarget (arts P.sort) m sub ↔ NoTarget (arts P) m sub := by
  unfold NoTarget
  constructor
  · rintro (h | ⟨b, hb, hk, s, hs, hd⟩)
    · exact .inl fun b hb => h b.sort (arts_sort.2 ⟨b, hb, rfl⟩)
    · obtain ⟨b, hb', rfl⟩ := arts_sort.1 hb
      exact .inr ⟨b, hb', hk, s, hs, hd⟩
  · rintro (h | ⟨b, hb, hk, s, hs, hd⟩)
    · refine .inl fun b hb => ?_
      obtain ⟨b, hb', rfl⟩ := arts_sort.1 hb
      exact h b hb'
    · exact .inr ⟨b.sort, arts_sort.2 ⟨b, hb, rfl⟩, hk, s, hs, hd⟩

theorem wrong_sort {P : Project} {m : Name} {sub : Option SubName} {w : Why} : Wrong (arts P.sort) m sub w ↔ Wrong (arts P) m sub w := by
  cases w with
  | missing =>
    constructor
    · exact fun h b hb => h b.sort (arts_sort.2 ⟨b, hb, rfl⟩)
    · intro h b hb
      obtain ⟨b, hb', rfl⟩ := arts_sort.1 hb
      exact h b hb'
  | done =>
    constructor
    · rintro ⟨b, hb, hk, hd⟩
      obtain ⟨b, hb', rfl⟩ := arts_sort.1 hb
      exact ⟨b, hb', hk, (done_sort b).1 hd⟩
    · rintro ⟨b, hb, hk, hd⟩
      exact ⟨b.sort, arts_sort.2 ⟨b, hb, rfl⟩, hk, (done_sort b).2 hd⟩
  | noSub s =>
    constructor
    · rintro ⟨b, hb, hk, hd, h⟩
      obtain ⟨b, hb', rfl⟩ := arts_sort.1 hb
      exact ⟨b, hb', hk, fun h => hd ((done_sort b).2 h), h⟩
    · rintro ⟨b, hb, hk, hd, h⟩
      exact ⟨b.sort, arts_sort.2 ⟨b, hb, rfl⟩, hk, fun h => hd ((done_sort b).1 h), h⟩

theorem mem_partof_sort {a : Artifact} {q : Name} : q ∈ a.sort.partof ↔ q ∈ a.partof := (sortNames_perm _).mem_iff

theorem complaint_sort {P : Project} : Complaint L P.sort l ↔ Complaint L P l := by
  constructor
  · intro h
    cases h with
    | dangling ha hq hno =>
      obtain ⟨b, hb, rfl⟩ := arts_sort.1 ha
      exact .dangling (a := b) hb (mem_partof_sort.1 hq) fun x hx => hno x.sort (arts_sort.2 ⟨x, hx, rfl⟩)
    | types ha hq h =>
      obtain ⟨b, hb, rfl⟩ := arts_sort.1 ha
      exact .types (a := b) hb (mem_partof_sort.1 hq) h
    | nameLine ha h1 h2 =>
      obtain ⟨b, hb, rfl⟩ := arts_sort.1 ha
      exact .nameLine (a := b) hb h1 h2
    | endLine ha h1 h2 h3 =>
      obtain ⟨b, hb, rfl⟩ := arts_sort.1 ha
      exact .endLine (a := b) hb h1 h2 h3
    | doneSubs ha h1 h2 =>
      obtain ⟨b, hb, rfl⟩ := arts_sort.1 ha
      exact .doneSubs (a := b) hb ((done_sort b).1 h1) h2
    | url h1 h2 => exact .url (p := P) h1 h2
    | soft ha h1 h2 =>
      obtain ⟨b, hb, rfl⟩ := arts_sort.1 ha
      exact .soft (a := b) hb h1 (noTarget_sort.1 h2)
    | place h1 h2 => exact .place (recorded_iff.1 h1) (wrong_sort.1 h2)
  · intro h
    cases h with
    | @dangling a q ha hq hno =>
      refine .dangling (a := a.sort) (arts_sort.2 ⟨_, ha, rfl⟩) (mem_partof_sort.2 hq) fun x hx => ?_
      obtain ⟨b, hb, rfl⟩ := arts_sort.1 hx
      exact hno b hb
    | @types a q ha hq h => exact .types (a := a.sort) (arts_sort.2 ⟨_, ha, rfl⟩) (mem_partof_sort.2 hq) h
    | @nameLine a q ha h1 h2 => exact .nameLine (p := P.sort) (a := a.sort) (arts_sort.2 ⟨_, ha, rfl⟩) h1 h2
    | @endLine a q ha h1 h2 h3 => exact .endLine (p := P.sort) (a := a.sort) (arts_sort.2 ⟨_, ha, rfl⟩) h1 h2 h3
    | @doneSubs a q ha h1 h2 => exact .doneSubs (a := a.sort) (arts_sort.2 ⟨_, ha, rfl⟩) ((done_sort a).2 h1) h2
    | url h1 h2 => exact .url (p := P.sort) h1 h2
    | @soft a q sub ha h1 h2 => exact .soft (a := a.sort) (arts_sort.2 ⟨_, ha, rfl⟩) h1 (noTarget_sort.2 h2)
    | place h1 h2 => exact .place (recorded_iff.2 h1) (wrong_sort.2 h2)

/-- C83: what a project that could be read is told is exactly what is wrong with it, errors and warnings apart, each once and in their order. -/
theorem C83_complete (h : ReadsProject L readToml hash n fs base (.ok (c, p))) :
    (∀ l, l ∈ c.error ↔ Complaint L p l ∧ l.level = .error) ∧ (∀ l, l ∈ c.other ↔ Complaint L p l ∧ l.level = .warn) ∧
    c.error.Pairwise (fun a b => a.ord < b.ord) ∧ c.other.Pairwise (fun a b => a.ord < b.ord) := by
  obtain ⟨_, _, s, r, as, ls, _, _, ha, he, hl, hlint, rfl, hc⟩ := reads_parts h
  have z : r.categorized = ⟨[], []⟩ := by unfold Run.categorized; rw [read_no_lints ha he]; rfl
  obtain ⟨e1, e2, e3, e4⟩ := C32_exact ls
  rw [z] at hc
  subst hc
  have hm : ∀ l, l ∈ ls ↔ Complaint L (Project.sort ⟨s, (joinLocations r.locs).1, as⟩) l := fun l => by
    rw [complaint_sort, lint_complaint (joinArtifacts_input _) hl hlint]
  refine ⟨fun l => by rw [e1, hm], fun l => ?_, e3, e4⟩
  rw [e2, hm]
  refine and_congr_right fun _ => ?_
  cases l.level <;> simp

/-! ## two projects -/

open Art.Split Art.Undo Art.Cli

variable {E : Env} {s : Settings} {ops : List ArtifactOp} {q p1 p2 : Project} {c1 c2 : Categorized} {n1 : Nat}


theorem mem_imap_collect {α β κ : Type} [HasKey α κ] [DecidableEq κ] {l : List (α × β)} {x : α × β} (h : x ∈ IMap.collect l) : (∃ y ∈ l, y.2 = x.2) := by
  unfold IMap.collect at h
  have key : ∀ (l : List (α × β)) (m : IMap α β) (x : α × β), x ∈ l.foldl (fun m p => IMap.insert m p.1 p.2) m → (∃ y ∈ m, y.2 = x.2) ∨ ∃ y ∈ l, y.2 = x.2 := by
    intro l
    induction l with
    | nil => exact fun m x h => .inl ⟨x, h, rfl⟩
    | cons a l ih =>
      intro m x h
      rcases ih _ _ h with ⟨y, hy, e⟩ | ⟨y, hy, e⟩
      · rcases mem_insert hy with h | h
        · exact .inl ⟨y, h, e⟩
        · exact .inr ⟨a, by simp, by rw [← e, h]⟩
      · exact .inr ⟨y, by simp [hy], e⟩
  rcases key l [] x h with ⟨y, hy, _⟩ | h
  · cases hy
  · exact h

theorem read_text (h : ReadsProject L readToml hash n fs base (.ok (c, p))) {a : Artifact} (ha : a ∈ arts p) : a.toIm.text = a.text := by
  obtain ⟨_, _, s, r, as, ls, _, _, _, he, hl, hlint, rfl, hc⟩ := reads_parts h
  obtain ⟨b, hb, rfl⟩ := arts_sort.1 ha
  obtain ⟨im, hi⟩ := (hl.spec (joinArtifacts_input _)).2.2.2.2.2.1 b hb
  obtain ⟨y, _, hm⟩ := IMap.mem_of_get? hi.mem
  show cleanText b.text = b.text
  rw [hi.text]
  have := (joinArtifacts_files r.arts).2
  rw [this] at hm
  obtain ⟨x, hx, e⟩ := mem_imap_collect hm
  obtain ⟨x, -, rfl⟩ := List.mem_map.1 hx
  have e : x.clean = im := e
  rw [← e]
  exact C07_idem _

theorem read_once (h : ReadsProject L readToml hash n fs base (.ok (c, p))) {a b : Artifact} (ha : a ∈ arts p) (hb : b ∈ arts p) (hk : key a.name = key b.name) : a = b := by
  obtain ⟨_, _, s, r, as, ls, _, _, _, he, hl, hlint, rfl, hc⟩ := reads_parts h
  obtain ⟨a, ha', rfl⟩ := arts_sort.1 ha
  obtain ⟨b, hb', rfl⟩ := arts_sort.1 hb
  rw [List.inj_on_of_nodup_map (hl.spec (joinArtifacts_input _)).2.2.2.1 ha' hb' hk]

theorem done_im {a : Artifact} : Done a ↔ a.toIm.done ≠ none := by
  show _ ↔ a.impl.doneStr ≠ none
  unfold Done Impl.doneStr
  cases a.impl <;> simp

theorem editable_mem {a : Artifact} (h : a ∈ arts p) : a.toIm ∈ editable p := by
  obtain ⟨x, hx, rfl⟩ := List.mem_map.1 h
  exact List.mem_map.2 ⟨x, hx, rfl⟩

theorem mem_editable {a : ArtifactIm} (h : a ∈ editable p) : ∃ b ∈ arts p, b.toIm = a := by
  obtain ⟨x, hx, rfl⟩ := List.mem_map.1 h
  exact ⟨x.2, List.mem_map.2 ⟨x, hx, rfl⟩, rfl⟩

/-- Both projects know the same places in the code. -/
def SameCode (p p' : Project) : Prop := ∀ m, (IMap.get? p'.codeImpls m).map ImplCode.sort = (IMap.get? p.codeImpls m).map ImplCode.sort

theorem recorded_same (hs' : ProjectSets p') (hc : SameCode p p') {m : Name} {sub : Option SubName} {loc : CodeLoc} (h : Recorded p'.codeImpls m sub loc) :
    ∃ m', key m' = key m ∧ Recorded p.codeImpls m' sub loc := by
  obtain ⟨x, hx, h⟩ := h
  have e := hc m
  rw [IMap.get?_of_mem hs'.code hx] at e
  cases hg : IMap.get? p.codeImpls m with
  | none => rw [hg] at e; cases e
  | some y =>
    rw [hg] at e
    obtain ⟨m', hk, hm⟩ := IMap.mem_of_get? hg
    refine ⟨m', hk, y, hm, ?_⟩
    have e : x.sort = y.sort := Option.some.inj e
    cases sub with
    | none => exact (congrArg ImplCode.primary e).symm.trans h
    | some t =>
      have h2 : (t, loc) ∈ x.sort.secondary := (sortOn_perm _ _).mem_iff.2 h
      rw [e] at h2
      exact (sortOn_perm _ _).mem_iff.1 h2

theorem wrong_key {as : List Artifact} {m m' : Name} {sub : Option SubName} {w : Why} (hk : key m' = key m) (h : Wrong as m sub w) : Wrong as m' sub w := by
  cases w with
  | missing => exact fun b hb => hk ▸ h b hb
  | done => obtain ⟨b, h1, h2, h3⟩ := h; exact ⟨b, h1, h2.trans hk.symm, h3⟩
  | noSub s => obtain ⟨b, h1, h2, h3⟩ := h; exact ⟨b, h1, h2.trans hk.symm, h3⟩

/-- C83: two projects with the same code. Every warning about the second that is not one about the first has its reason in an artifact that only one of the two has. -/
theorem C83_between (h : ReadsProject L readToml hash n fs base (.ok (c, p))) (h' : ReadsProject L readToml hash n' fs' base' (.ok (c', p'))) (hc : SameCode p p') :
    ∀ l ∈ c'.other, (∃ l' ∈ c.other, SameLint l' l) ∨ Explained (editable p) (editable p') c.other l := by
  intro l hl
  obtain ⟨-, e2, -, -⟩ := C83_complete h
  obtain ⟨hl, hlev⟩ := ((C83_complete h').2.1 l).1 hl
  have stay : ∀ {b}, b ∈ arts p → b.toIm ∈ editable p' → ∃ b' ∈ arts p', b'.toIm = b.toIm ∧ b'.name = b.name ∧ b'.text = b.text ∧ (Done b' ↔ Done b) := by
    intro b hb hin
    obtain ⟨b', hb', e⟩ := mem_editable hin
    refine ⟨b', hb', e, congrArg ArtifactIm.name e, ?_, ?_⟩
    · rw [← read_text h hb, ← read_text h' hb', e]
    · rw [done_im, done_im, e]
  cases hl with
  | dangling => cases hlev
  | types => cases hlev
  | nameLine => cases hlev
  | endLine => cases hlev
  | doneSubs => cases hlev
  | url => cases hlev
  | @soft a m sub ha hw hno =>
    by_cases hin : a.toIm ∈ editable p
    · obtain ⟨b, hb, e⟩ := mem_editable hin
      have et : b.text = a.text := by rw [← read_text h hb, ← read_text h' ha, e]
      have en : b.name = a.name := congrArg ArtifactIm.name e
      have ef : b.file = a.file := congrArg ArtifactIm.file e
      by_cases hno' : NoTarget (arts p) m sub
      · left
        refine ⟨_, (e2 _).2 ⟨.soft hb (et ▸ hw) hno', rfl⟩, .inl ?_⟩
        rw [en, ef]
      · right
        unfold NoTarget at hno'
        push Not at hno'
        obtain ⟨⟨t, ht, hk⟩, hsub⟩ := hno'
        by_cases hin' : t.toIm ∈ editable p'
        · exfalso
          obtain ⟨t', ht', _, en', et', _⟩ := stay ht hin'
          rcases hno with hno | ⟨b2, hb2, hk2, s, hs, hd⟩
          · exact hno t' ht' (by rw [en']; exact hk)
          · have : b2 = t' := read_once h' hb2 ht' (by rw [hk2, en', hk])
            subst this
            exact hd (et' ▸ hsub t ht hk s hs)
        · exact .target (editable_mem ht) hin' ⟨a.name, a.file, m, sub, hk.symm, rfl⟩
    · exact .inr (.holder (editable_mem ha) hin ⟨a.file, m, sub, rfl⟩)
  | @place m sub loc w hr hw =>
    obtain ⟨m', hk', hr'⟩ := recorded_same (C25_read_sets h') hc hr
    by_cases hex : ∃ b ∈ arts p, key b.name = key m
    · obtain ⟨b, hb, hk⟩ := hex
      by_cases hin : b.toIm ∈ editable p'
      · left
        obtain ⟨b', hb', _, en, et, ed⟩ := stay hb hin
        have one : ∀ x ∈ arts p', key x.name = key m → x = b' := fun x hx hkx => read_once h' hx hb' (by rw [hkx, en, hk])
        have hw' : Wrong (arts p) m sub w := by
          cases w with
          | missing => exact absurd (by rw [en]; exact hk) (hw b' hb')
          | done =>
            obtain ⟨x, hx, hkx, hd⟩ := hw
            cases one x hx hkx
            exact ⟨b, hb, hk, ed.1 hd⟩
          | noSub s =>
            obtain ⟨x, hx, hkx, hd, hs, hn⟩ := hw
            cases one x hx hkx
            exact ⟨b, hb, hk, fun h => hd (ed.2 h), hs, et ▸ hn⟩
        exact ⟨_, (e2 _).2 ⟨.place hr' (wrong_key hk' hw'), rfl⟩, .inr ⟨m', m, sub, loc, w, hk', rfl, rfl⟩⟩
      · exact .inr (.place (editable_mem hb) hin ⟨m, sub, loc, w, hk.symm, rfl⟩)
    · push Not at hex
      have miss : placeLint m' sub loc .missing ∈ c.other := (e2 _).2 ⟨.place hr' (show Wrong _ _ _ .missing from fun b hb => hk' ▸ hex b hb), rfl⟩
      have new : ∀ x ∈ arts p', key x.name = key m → x.toIm ∉ editable p := by
        intro x hx hkx hin
        obtain ⟨b, hb, e⟩ := mem_editable hin
        have en : b.name = x.name := congrArg ArtifactIm.name e
        exact hex b hb (by rw [en]; exact hkx)
      cases w with
      | missing => exact .inl ⟨_, miss, .inr ⟨m', m, sub, loc, .missing, hk', rfl, rfl⟩⟩
      | done =>
        obtain ⟨x, hx, hkx, hd⟩ := hw
        exact .inr (.replaced (editable_mem hx) (new x hx hkx) hkx.symm (hk'.trans hkx.symm) rfl miss)
      | noSub s =>
        obtain ⟨x, hx, hkx, hd⟩ := hw
        exact .inr (.replaced (editable_mem hx) (new x hx hkx) hkx.symm (hk'.trans hkx.symm) rfl miss)

/-- C83: after a batch that was saved, a project has a warning that it did not have before, or has lost one that it had, only for a reason that lies in an artifact that was changed. No error is
there before or after, whoever reads the project and in whichever order the threads run. -/
theorem C83_modify (H : Holds E base s fs p) (ap : Apart s) (hl : LinkSets ops) (once : ∀ op ∈ ops, ∀ a, Brings op a → ReadOnce s a.file)
    (h : Modifies E.L E.readToml E.hash E.dbg n fs base ops (some (.ok (c, q))) fs') (hq : Storable E.L s q)
    (r1 : ReadsProject E.L E.readToml E.hash n1 fs base (.ok (c1, p1))) (r2 : ReadsProject E.L E.readToml E.hash n2 fs' base (.ok (c2, p2))) :
    c1.error = [] ∧ c2.error = [] ∧
      (∀ l ∈ c2.other, (∃ l' ∈ c1.other, SameLint l' l) ∨ Explained (editable p1) (editable p2) c1.other l) ∧
      (∀ l ∈ c1.other, (∃ l' ∈ c2.other, SameLint l' l) ∨ Explained (editable p2) (editable p1) c2.other l) ∧
      (∀ a ∈ editable p2, a ∉ editable p1 → ∃ op ∈ ops, Brings op.clean a) ∧
      (NoCollision E.hash p (ops.map ArtifactOp.clean) → ∀ a ∈ editable p1, a ∉ editable p2 → TakenOut E.hash (ops.map ArtifactOp.clean) (E.hash a)) := by
  obtain ⟨c0, p0, c0', p0', files, cfg, a1, a2, a3, a4, a5, e0, e⟩ := modifies_done h
  have e : q = p0'.sort := e
  subst e0
  have hp := editable_sort (plans_nodup a2)
  rw [← e] at hp
  obtain ⟨z2, -, k2, k3⟩ := read_clean H.tree H.settings H.safe ap hl a1 a2 a3 a4 a5 once (fun a ha => survives_perm (inFile_perm hp _) (hq.survives a (hp.mem_iff.2 ha))) r2
  have z1 := read_errors H.tree a1 r1 (plans_ok a2).1
  obtain ⟨_, _, o0, f0⟩ := H.reads _ _ a1
  cases o0
  obtain ⟨_, _, o1, f1⟩ := H.reads _ _ r1
  cases o1
  have hed : editable p0 = editable p1 := editable_foldCase (f0.trans f1.symm)
  have hco : SameCode p1 p2 := fun m => by rw [k3 m, get_keyed (congrArg (fun x => x.2.1) (f0.trans f1.symm)) m]
  obtain ⟨-, -, A, B, -⟩ := C25_ids (C25_read_sets a1) hl a2
  refine ⟨z1, z2, C83_between r1 r2 hco, C83_between r2 r1 (fun m => (hco m).symm), fun a ha hn => ?_, fun hcol a ha hn => ?_⟩
  · rcases B a (k2.mem_iff.1 ha) with h | h
    · exact absurd (hed ▸ h) hn
    · exact h
  · by_contra ht
    have hcol' : NoCollision E.hash p0 (ops.map ArtifactOp.clean) := by
      unfold NoCollision at hcol ⊢
      rw [editable_foldCase f0]
      exact hcol
    exact hn (k2.mem_iff.2 ((C25_batch (C25_read_sets a1) hl hcol' a2 a).2 (.inl ⟨hed ▸ ha, ht⟩)))

/-- C83: a batch that only creates artifacts. Every warning that is there afterwards was there before, or is about the text of a created artifact, or is about a place in the code of which it was said
before that the artifact is missing. -/
theorem C83_create (H : Holds E base s fs p) (ap : Apart s) (hl : LinkSets ops) (once : ∀ op ∈ ops, ∀ a, Brings op a → ReadOnce s a.file)
    (hcol : NoCollision E.hash p (ops.map ArtifactOp.clean)) (hnew : ∀ op ∈ ops, ∃ a, op = .create a)
    (h : Modifies E.L E.readToml E.hash E.dbg n fs base ops (some (.ok (c, q))) fs') (hq : Storable E.L s q)
    (r1 : ReadsProject E.L E.readToml E.hash n1 fs base (.ok (c1, p1))) (r2 : ReadsProject E.L E.readToml E.hash n2 fs' base (.ok (c2, p2))) :
    ∀ l ∈ c2.other, (∃ l' ∈ c1.other, SameLint l' l) ∨ (∃ a, .create a ∈ ops ∧ Holder a.name l) ∨
      ∃ a m m' sub loc w, .create a ∈ ops ∧ key m = key a.name ∧ key m' = key a.name ∧ l = placeLint m sub loc w ∧ placeLint m' sub loc .missing ∈ c1.other := by
  obtain ⟨-, -, k1, -, k3, k4⟩ := C83_modify H ap hl once h hq r1 r2
  have stay : ∀ a ∈ editable p1, a ∈ editable p2 := by
    intro a ha
    by_contra hn
    obtain ⟨op, ho, -, ht⟩ := k4 hcol a ha hn
    obtain ⟨op, ho', rfl⟩ := List.mem_map.1 ho
    obtain ⟨b, rfl⟩ := hnew op ho'
    rcases ht with ⟨_, h⟩ | ⟨_, h⟩ <;> cases h
  have brought : ∀ a ∈ editable p2, a ∉ editable p1 → ∃ b, .create b ∈ ops ∧ a.name = b.name := by
    intro a ha hn
    obtain ⟨op, ho, hb⟩ := k3 a ha hn
    obtain ⟨b, rfl⟩ := hnew op ho
    rcases hb with h | ⟨_, h⟩
    · cases h
      exact ⟨b, ho, rfl⟩
    · cases h
  intro l hl
  rcases k1 l hl with h | h
  · exact .inl h
  cases h with
  | holder h1 h2 h3 =>
    obtain ⟨b, hb, e⟩ := brought _ h1 h2
    exact .inr (.inl ⟨b, hb, e ▸ h3⟩)
  | replaced h1 h2 h3 h4 h5 h6 =>
    obtain ⟨b, hb, e⟩ := brought _ h1 h2
    exact .inr (.inr ⟨b, _, _, _, _, _, hb, e ▸ h3, e ▸ h4, h5, h6⟩)
  | target h1 h2 => exact absurd (stay _ h1) h2
  | place h1 h2 => exact absurd (stay _ h1) h2

end Art.Reports
