import Verif.Spec.Origin
import Verif.Props.Fault
import Verif.Lemmas.Written

/-!
# Property C97: from the lines of the files to the artifacts shown

The grammar of markdown files (C91), the mistakes (C94) and the reading of projects (C20) put together.
-/

namespace Art.Origin
open Spec Grammar Fault

variable {L : Libs} {readToml : Str → Option SettingsRaw} {hash : ArtifactIm → HashIm} {ncpu : Nat} {fs : FS} {base f : FilePath} {s : Str}
  {c : Categorized} {p : Project}

theorem expandNames_nodup {s : Str} {l : ISet Name} (h : expandNames s = .ok l) : ISet.Nodup l := by
  unfold expandNames at h
  simp only [Res.bind_eq_ok] at h
  obtain ⟨x, _, ns, _, h⟩ := h
  cases h
  exact ISet.nodup_collect _

theorem namesSeqDe_nodup : ∀ {d : List Str} {o l : ISet Name}, ISet.Nodup o → namesSeqDe d o = .ok l → ISet.Nodup l
  | [], _, _, ho, h => by cases h; exact ho
  | s :: d, o, l, ho, h => by
    unfold namesSeqDe at h
    simp only [Res.bind_eq_ok] at h
    obtain ⟨e, _, h⟩ := h
    exact namesSeqDe_nodup (ISet.nodup_extend ho _) h

theorem namesRawDe_nodup {d : NamesDoc} {l : ISet Name} (h : namesRawDe d = .ok l) : ISet.Nodup l := by
  cases d with
  | str s => exact expandNames_nodup h
  | seq d => exact namesSeqDe_nodup (by simp [ISet.Nodup]) h

theorem says_nodup {body : List Mark} {r : ArtifactRaw} (h : Says L body r) : ∀ l, r.partof = some l → ISet.Nodup l := by
  obtain ⟨a, t, _, ha, _⟩ := h
  intro l e
  unfold Attributes at ha
  split at ha
  · rw [ha.2] at e; cases e
  · rcases ha with ha | ⟨q, l', _, h2, h3⟩
    · rw [ha.2] at e; cases e
    · rw [h3] at e; cases e; exact namesRawDe_nodup h2

theorem says_text {body : List Mark} {r : ArtifactRaw} (h : Says L body r) : cleanText (r.text.getD []) = r.text.getD [] := by
  obtain ⟨a, t, _, _, ⟨_, e⟩ | ⟨_, e⟩⟩ := h
  · rw [e]; rfl
  · rw [e]; exact cleanText_idem _

theorem comes_of {f : FilePath} {x : Name × ArtifactRaw} (hn : ∀ l, x.2.partof = some l → ISet.Nodup l)
    (ht : cleanText (x.2.text.getD []) = x.2.text.getD []) : Comes f x (fromRaw x.1 f x.2).clean := by
  have hnd : ISet.Nodup (fromRaw x.1 f x.2).partof := by
    show ISet.Nodup (match x.2.partof with | some p => sortNames (ISet.collect (stripAuto x.1 p)) | none => [])
    split
    · exact nodup_sortNames (ISet.nodup_collect _)
    · exact List.nodup_nil
  have hl : ∀ q, q ∈ (fromRaw x.1 f x.2).clean.partof ↔ (∃ l, x.2.partof = some l ∧ q ∈ l) ∧ ¬ AutoLink x.1 q := by
    intro q
    show q ∈ sortNames (stripAuto x.1 (fromRaw x.1 f x.2).partof) ↔ _
    rw [(sortNames_perm _).mem_iff, mem_stripAuto hnd, isAuto_iff]
    refine and_congr_left fun hq => ?_
    show q ∈ (match x.2.partof with | some p => sortNames (ISet.collect (stripAuto x.1 p)) | none => []) ↔ _
    split
    · rename_i l e
      rw [(sortNames_perm _).mem_iff, ISet.collect_of_nodup (nodup_stripAuto (hn l e)), mem_stripAuto (hn l e), isAuto_iff]
      simp [hq, e]
    · rename_i e
      simp [e]
  refine ⟨rfl, rfl, rfl, ht, hl, ⟨?_, ?_, fun q hq => ((hl q).1 hq).2, ⟨_, rfl⟩⟩⟩
  · exact nodup_sortNames (nodup_stripAuto hnd)
  · exact sortOn_sorted _ _

/-- **What people write is what is shown.** In a project that could be read, the artifacts shown for a markdown file are those for which its lines stand, no more and
no less; or the thread that read the file ended abnormally, and then nothing of the file is shown. As everywhere with `ReadsProject`, one thread of each kind survives;
what happens otherwise is in C65. -/
theorem C97_shown (h : ReadsProject L readToml hash ncpu fs base (.ok (c, p))) (hf : f ∈ walkArtifacts fs p.settings)
    (ht : ArtFileType.fromPath f = some .md) (hs : IMap.get? fs f = some (.file (.text s))) :
    (∃ out, Stands L p.settings.pre s out ∧ (∀ x ∈ out, ∃ a ∈ editable p, Comes f x a) ∧ ∀ a ∈ editable p, a.file = f → ∃ x ∈ out, Comes f x a) ∨
    (Breaks L p.settings.pre s ∧ ∀ a ∈ editable p, a.file ≠ f) := by
  obtain ⟨r, ha, he, hp⟩ := reads_editable h
  have hmem : ∀ a, a ∈ editable p ↔ ∃ im, (∃ g ∈ walkArtifacts fs p.settings, im ∈ (artSent L p.settings.pre fs g).items) ∧ im.clean = a := by
    intro a
    rw [hp.mem_iff, List.mem_map]
    simp only [ha.arts.mem_iff, List.mem_flatMap]
  have hload : artSent L p.settings.pre fs f = match fromMarkdown L p.settings.pre s with
      | .ok m => ⟨m.map (fun x => fromRaw x.1 f x.2), [], false⟩
      | .err e => ⟨[], [Lint.loadError f (L.errMsg e)], false⟩
      | .panic => ⟨[], [], true⟩ := by
    unfold artSent loadFile
    rw [hs, ht]
    simp only [parseFile]
    cases fromMarkdown L p.settings.pre s <;> rfl
  have hof : ∀ a ∈ editable p, a.file = f → ∃ im ∈ (artSent L p.settings.pre fs f).items, im.clean = a := by
    intro a h1 h2
    obtain ⟨im, ⟨g, _, hg2⟩, rfl⟩ := (hmem a).1 h1
    have : g = f := (artSent_file hg2).1.symm.trans h2
    exact ⟨im, this ▸ hg2, rfl⟩
  cases e : fromMarkdown L p.settings.pre s with
  | ok out =>
    rw [e] at hload
    have hm := (C91_reads L p.settings.pre s out).1 e
    have hc : ∀ x ∈ out, Comes f x (fromRaw x.1 f x.2).clean := by
      intro x hx
      obtain ⟨ps, _, above, ss, _, _, _, hfa, _⟩ := hm
      obtain ⟨y, _, _, hy⟩ := forall₂_mem_right hfa hx
      exact comes_of (says_nodup hy) (says_text hy)
    refine .inl ⟨out, hm, fun x hx => ⟨_, (hmem _).2 ⟨_, ⟨f, hf, ?_⟩, rfl⟩, hc x hx⟩, fun a h1 h2 => ?_⟩
    · rw [hload]; exact List.mem_map.2 ⟨x, hx, rfl⟩
    · obtain ⟨im, h3, rfl⟩ := hof a h1 h2
      rw [hload] at h3
      obtain ⟨x, hx, rfl⟩ := List.mem_map.1 h3
      exact ⟨x, hx, hc x hx⟩
  | err er =>
    rw [e] at hload
    exfalso
    refine ((noError_parts ha).1 he).1 (Lint.loadError f (L.errMsg er)) ?_ rfl
    exact List.mem_append_right _ (List.mem_flatMap.2 ⟨f, hf, by rw [hload]; exact List.mem_singleton.2 rfl⟩)
  | panic =>
    rw [e] at hload
    refine .inr ⟨(C94_reported L p.settings.pre s none).1 e, fun a h1 h2 => ?_⟩
    obtain ⟨im, h3, _⟩ := hof a h1 h2
    rw [hload] at h3
    cases h3

/-- **Nothing else is shown**: every artifact comes from a file that was found, and one that is shown for a markdown file stands there. -/
theorem C97_only (h : ReadsProject L readToml hash ncpu fs base (.ok (c, p))) {a : ArtifactIm} (ha : a ∈ editable p) :
    a.file ∈ walkArtifacts fs p.settings ∧ (ArtFileType.fromPath a.file = some .md →
      ∃ s out, IMap.get? fs a.file = some (.file (.text s)) ∧ Stands L p.settings.pre s out ∧ ∃ x ∈ out, Comes a.file x a) := by
  obtain ⟨r, har, he, hp⟩ := reads_editable h
  obtain ⟨im, him, hcl⟩ := List.mem_map.1 (hp.mem_iff.1 ha)
  obtain ⟨g, hg, hm⟩ := List.mem_flatMap.1 (har.arts.mem_iff.1 him)
  have hfile : a.file = g := by rw [← hcl]; exact (artSent_file hm).1
  subst hfile
  refine ⟨hg, fun hmd => ?_⟩
  have : ∃ s, IMap.get? fs a.file = some (.file (.text s)) := by
    unfold artSent at hm
    split at hm
    · rename_i ct hct
      cases ct with
      | text s => exact ⟨s, hct⟩
      | binary g i =>
        unfold loadFile at hm
        rw [hmd] at hm
        cases hm
    · cases hm
  obtain ⟨s, hs⟩ := this
  rcases C97_shown h hg hmd hs with ⟨out, h1, _, h3⟩ | ⟨_, h2⟩
  · exact ⟨s, out, hs, h1, h3 a ha rfl⟩
  · exact absurd rfl (h2 a ha)

end Art.Origin
