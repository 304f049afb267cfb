import Verif.Lemmas.Text

/-!
# Properties C05 and C07: automatic links on load and save, text cleaning
-/

namespace Art.Spec

/-- `w` consists of white space only. -/
def Blank (w : Str) : Prop := ∀ c ∈ w, isWS c = true

/-- `q` is, ignoring case, the family parent or the automatic link (`SPC-x → REQ-x`, `TST-x → SPC-x`) of `n`. -/
def AutoLink (n q : Name) : Prop :=
  ∃ p, (n.parent = .ok (some p) ∨ n.autoPartof = .ok (some p)) ∧ key p = key q

/-- The editable form of an artifact as it exists in a loaded project: links are distinct, sorted, none is automatic,
and the text is clean. -/
structure CleanIm (a : ArtifactIm) : Prop where
  distinct : (a.partof.map key).Nodup
  sorted : a.partof.Pairwise (fun x y => x.keyStr ≤ y.keyStr)
  noAuto : ∀ q ∈ a.partof, ¬ AutoLink a.name q
  text : ∃ raw, a.text = cleanText raw

end Art.Spec

namespace Art
open Spec

theorem isAuto_iff {n q : Name} : IsAuto n q ↔ AutoLink n q := by
  unfold IsAuto AutoLink
  rw [parent?_eq, auto?_eq]
  simp only [Res.ok.injEq]
  constructor
  · rintro (⟨p, h, k⟩ | ⟨p, h, k⟩)
    · exact ⟨p, Or.inl h, k⟩
    · exact ⟨p, Or.inr h, k⟩
  · rintro ⟨p, h | h, k⟩
    · exact Or.inl ⟨p, h, k⟩
    · exact Or.inr ⟨p, h, k⟩

/-! ## C07 -/

/-- Cleaning is idempotent. -/
theorem C07_idem (s : Str) : cleanText (cleanText s) = cleanText s := cleanText_idem s

/-- Cleaning changes only trailing white space: the text and the result share everything up to
trailing white space, the shared part does not end in white space, and what follows in the result is nothing, or one newline exactly when
the shared part has several lines. -/
theorem C07_only_trailing (s : Str) : ∃ t w, Blank w ∧ s = t ++ w ∧ (∀ u c, t = u ++ [c] → isWS c = false) ∧
    cleanText s = t ++ (if '\n' ∈ t then ['\n'] else []) := by
  obtain ⟨w, hw, e⟩ := trimEnd_split s
  refine ⟨trimEnd s, w, hw, e, ?_, ?_⟩
  · intro u c hc
    obtain ⟨u', c', h, hws⟩ := trimEnd_last s (by rw [hc]; simp)
    rw [h] at hc
    have := (List.append_inj' hc rfl).2
    simp at this
    rw [← this]; exact hws
  · unfold cleanText
    by_cases h : '\n' ∈ trimEnd s <;> simp [h]

/-- Two texts clean to the same result exactly when they differ only in trailing white space. -/
theorem C07_canonical (s t : Str) :
    cleanText s = cleanText t ↔ ∃ u w w', Blank w ∧ Blank w' ∧ s = u ++ w ∧ t = u ++ w' := by
  constructor
  · intro h
    obtain ⟨w, hw, e⟩ := trimEnd_split s
    obtain ⟨w', hw', e'⟩ := trimEnd_split t
    have : trimEnd s = trimEnd t := by rw [← trimEnd_cleanText s, h, trimEnd_cleanText]
    exact ⟨trimEnd s, w, w', hw, hw', e, by rw [this]; exact e'⟩
  · rintro ⟨u, w, w', hw, hw', rfl, rfl⟩
    exact cleanText_congr (by rw [trimEnd_append_ws _ _ hw, trimEnd_append_ws _ _ hw'])

/-- Text written to and read from a structured file (toml, json) is the cleaned text. -/
theorem C07_serde (s : Str) : textRawDe (textRawSer s) = cleanText s := by
  unfold textRawDe textRawSer
  rw [cleanText_idem]; exact cleanText_congr (trimEnd_idem s)

example : cleanText c!"one line \n \t\n" = c!"one line" := by decide
example : cleanText c!"two\nlines \n\n" = c!"two\nlines\n" := by decide
example : cleanText c!" \n " = [] := by decide
example : ∃ u w w', Blank w ∧ Blank w' ∧ c!"ab \n" = u ++ w ∧ c!"ab" = u ++ w' :=
  ⟨c!"ab", c!" \n", [], by unfold Blank; decide, by unfold Blank; decide, rfl, rfl⟩

/-! ## C05 -/

/-- On load the shown links are computed without panic, for every artifact in order, and are exactly the
user-written links together with the automatic links whose target is an artifact of the project. -/
theorem C05_partof_shown (ims : IMap Name ArtifactIm) (h : IMap.Nodup ims) :
    ∃ m, determinePartofs ims = .ok m ∧ m.map Prod.fst = ims.map Prod.fst ∧
      ∀ n art, (n, art) ∈ ims → ∃ P, IMap.get? m n = some P ∧ ISet.Nodup P ∧
        ∀ q : Name, (∃ x ∈ P, key x = key q) ↔
          (∃ x ∈ art.partof, key x = key q) ∨ (AutoLink n q ∧ ∃ x ∈ ims, key x.1 = key q) := by
  let f : Name × ArtifactIm → Name × ISet Name := fun p => (p.1, ISet.extend (autoPartofOf ims p.1) p.2.partof)
  have hm : determinePartofs ims = .ok (ims.map f) := by
    unfold determinePartofs
    rw [autoPartofs_eq h, Res.mapM'_eq_ok, List.forall₂_map_left_iff, List.forall₂_map_right_iff, List.forall₂_same]
    rintro ⟨n, art⟩ hx
    simp only
    rw [IMap.get?_of_mem h hx]
  have hnd : IMap.Nodup (ims.map f) := by
    unfold IMap.Nodup at *
    simpa [f, Function.comp_def] using h
  refine ⟨_, hm, by simp [f, Function.comp_def], ?_⟩
  intro n art hx
  refine ⟨_, IMap.get?_of_mem hnd (List.mem_map.2 ⟨_, hx, rfl⟩), ISet.nodup_extend (nodup_autoPartofOf _ _) _, ?_⟩
  intro q
  have h1 := ISet.contains_extend (autoPartofOf ims n) art.partof q
  rw [contains_autoPartofOf, isAuto_iff, IMap.contains_iff, ISet.contains_iff] at h1
  simp only at h1 ⊢
  rw [h1]
  exact or_comm

theorem determinePartofs_eq {ims : IMap Name ArtifactIm} (h : IMap.Nodup ims) :
    determinePartofs ims = .ok (ims.map (fun p => (p.1, ISet.extend (autoPartofOf ims p.1) p.2.partof))) := by
  unfold determinePartofs
  rw [autoPartofs_eq h, Res.mapM'_eq_ok, List.forall₂_map_left_iff, List.forall₂_map_right_iff, List.forall₂_same]
  rintro ⟨n, art⟩ hx
  simp only
  rw [IMap.get?_of_mem h hx]

theorem autoLink_congr {n n' q : Name} (h : key n = key n') (ha : AutoLink n q) : AutoLink n' q := by
  obtain ⟨p, hp, hk⟩ := ha
  obtain ⟨c1, c2⟩ := C04_congr n n' h
  rcases hp with hp | hp
  · obtain ⟨m', h1, h2⟩ := c1 p hp
    exact ⟨m', Or.inl h1, by rw [← h2, hk]⟩
  · obtain ⟨m', h1, h2⟩ := c2 p hp
    exact ⟨m', Or.inr h1, by rw [← h2, hk]⟩

theorem stripAuto_extend {β : Type} (names : IMap Name β) (n : Name) (n' : Name) (hk : key n' = key n)
    (l : ISet Name) (hl : ISet.Nodup l) (hs : l.Pairwise (fun x y => x.keyStr ≤ y.keyStr))
    (hna : ∀ q ∈ l, ¬ AutoLink n' q) (P : ISet Name)
    (hP : P.Perm (ISet.extend (autoPartofOf names n) l)) : sortNames (stripAuto n' P) = l := by
  have hauto : ∀ q ∈ autoPartofOf names n, AutoLink n' q := by
    intro q hq
    have := (contains_autoPartofOf names n q).1 (ISet.contains_iff.2 ⟨q, hq, rfl⟩)
    exact autoLink_congr hk.symm (isAuto_iff.1 this.1)
  have hnd : ISet.Nodup (autoPartofOf names n ++ l) := by
    unfold ISet.Nodup
    rw [List.map_append, List.nodup_append]
    refine ⟨nodup_autoPartofOf names n, hl, ?_⟩
    intro x hx y hy e
    obtain ⟨a, ha, rfl⟩ := List.mem_map.1 hx
    obtain ⟨b, hb, rfl⟩ := List.mem_map.1 hy
    obtain ⟨p, hp, hpk⟩ := hauto a ha
    exact hna b hb ⟨p, hp, by rw [hpk, e]⟩
  rw [ISet.extend_append _ _ hnd] at hP
  have hPn : ISet.Nodup P := (ISet.nodup_perm hP).2 hnd
  have hperm : (stripAuto n' P).Perm l := by
    refine (List.perm_ext_iff_of_nodup (ISet.nodup_toList (nodup_stripAuto hPn)) (ISet.nodup_toList hl)).2 ?_
    intro q
    rw [mem_stripAuto hPn, isAuto_iff, hP.mem_iff, List.mem_append]
    constructor
    · rintro ⟨h | h, hno⟩
      · exact absurd (hauto q h) hno
      · exact h
    · intro h
      exact ⟨Or.inr h, hna q h⟩
  rw [sortNames_eq_of_perm hperm (nodup_stripAuto hPn)]
  exact sortOn_eq_self _ hs

/-- Going back: from the links shown for an artifact (in any order, e.g. after sorting) the editable form
is exactly the original one: the links the user wrote, with the case in which the user wrote them. -/
theorem C05_roundtrip (ims : IMap Name ArtifactIm) (h : IMap.Nodup ims) (m : IMap Name (ISet Name))
    (hm : determinePartofs ims = .ok m) (n : Name) (art : ArtifactIm) (hx : (n, art) ∈ ims) (hn : key art.name = key n)
    (hc : CleanIm art) (P : ISet Name) (hP : IMap.get? m n = some P)
    (a : Artifact) (ha : a.name = art.name) (hf : a.file = art.file) (ht : a.text = art.text)
    (hd : ∀ d, a.impl = .done d ↔ art.done = some d) (hp : a.partof.Perm P) :
    a.toIm = art := by
  rw [determinePartofs_eq h] at hm
  have hm' := Res.ok.inj hm
  have hnd : IMap.Nodup m := by
    rw [← hm']
    unfold IMap.Nodup at *
    simpa [Function.comp_def] using h
  have hP' : P = ISet.extend (autoPartofOf ims n) art.partof := by
    have := IMap.get?_of_mem hnd (a := n) (b := ISet.extend (autoPartofOf ims n) art.partof)
      (by rw [← hm']; exact List.mem_map.2 ⟨_, hx, rfl⟩)
    rw [hP] at this
    exact Option.some.inj this
  obtain ⟨raw, hraw⟩ := hc.text
  have e1 : sortNames (stripAuto a.name a.partof) = art.partof := by
    rw [ha]
    exact stripAuto_extend ims n art.name hn art.partof hc.distinct hc.sorted hc.noAuto _ (hP' ▸ hp)
  have e2 : cleanText a.text = art.text := by rw [ht, hraw, cleanText_idem]
  have e3 : a.impl.doneStr = art.done := by
    cases hi : a.impl with
    | done d => exact ((hd d).1 hi).symm
    | code c =>
      cases hdn : art.done with
      | none => rfl
      | some d => have := (hd d).2 hdn; rw [hi] at this; cases this
    | notImpl =>
      cases hdn : art.done with
      | none => rfl
      | some d => have := (hd d).2 hdn; rw [hi] at this; cases this
  unfold Artifact.toIm ArtifactIm.clean
  simp only
  rw [e1, e2, e3, ha, hf]

/-- Cleaning produces the clean form assumed by `C05_roundtrip`, keeps exactly the non-automatic links, and
is idempotent. -/
theorem C05_clean (a : ArtifactIm) (h : ISet.Nodup a.partof) :
    CleanIm a.clean ∧ (∀ q, q ∈ a.clean.partof ↔ q ∈ a.partof ∧ ¬ AutoLink a.name q) ∧ a.clean.clean = a.clean := by
  have hmem : ∀ q, q ∈ a.clean.partof ↔ q ∈ a.partof ∧ ¬ AutoLink a.name q := by
    intro q
    rw [← isAuto_iff, ← mem_stripAuto h]
    exact mem_sortOn _
  have hnd : ISet.Nodup a.clean.partof := nodup_sortNames (nodup_stripAuto h)
  refine ⟨⟨hnd, sortOn_sorted _ _, fun q hq => ((hmem q).1 hq).2, ⟨_, rfl⟩⟩, hmem, ?_⟩
  have e1 : sortNames (stripAuto a.name a.clean.partof) = a.clean.partof := by
    have hperm : (stripAuto a.name a.clean.partof).Perm a.clean.partof := by
      refine (List.perm_ext_iff_of_nodup (ISet.nodup_toList (nodup_stripAuto hnd)) (ISet.nodup_toList hnd)).2 ?_
      intro q
      rw [mem_stripAuto hnd, isAuto_iff]
      constructor
      · exact fun h => h.1
      · exact fun h => ⟨h, ((hmem q).1 h).2⟩
    rw [sortNames_eq_of_perm hperm (nodup_stripAuto hnd)]
    exact sortOn_eq_self _ (sortOn_sorted _ _)
  have e2 : cleanText a.clean.text = a.clean.text := cleanText_idem a.text
  show ({ a.clean with partof := sortNames (stripAuto a.name a.clean.partof), text := cleanText a.clean.text } : ArtifactIm) = a.clean
  rw [e1, e2]

/-! A concrete project: `SPC-a` is written as part of `REQ-b`; `REQ-a` exists so the automatic link is added. -/

def exIms : IMap Name ArtifactIm :=
  [(Name.lit c!"REQ-a", ⟨Name.lit c!"REQ-a", c!"/a.md", [], none, []⟩),
   (Name.lit c!"SPC-A", ⟨Name.lit c!"SPC-A", c!"/a.md", [Name.lit c!"REQ-b"], none, c!"x"⟩),
   (Name.lit c!"REQ-b", ⟨Name.lit c!"REQ-b", c!"/a.md", [], some c!"yes", []⟩)]

example : IMap.Nodup exIms := by unfold IMap.Nodup; decide
example : (determinePartofs exIms).toOption.map (fun m => m.map (fun p => (p.1.raw, p.2.map Name.raw))) =
    some [(c!"REQ-a", []), (c!"SPC-A", [c!"REQ-A", c!"REQ-b"]), (c!"REQ-b", [])] := by decide
example : (Artifact.toIm ⟨⟨Vector.replicate 16 0⟩, Name.lit c!"SPC-A", c!"/a.md", [Name.lit c!"REQ-A", Name.lit c!"REQ-b"], [], ⟨0, 0⟩,
    c!"x", .notImpl, []⟩) = ⟨Name.lit c!"SPC-A", c!"/a.md", [Name.lit c!"REQ-b"], none, c!"x"⟩ := by decide

/-- The user's own links are *not* all preserved: a link that the user wrote to the (undefined) parent of the artifact
is removed on load, and since the parent does not exist it is not added back either, so it is neither shown
nor reported as dangling. -/
theorem C05_written_link_lost : ∃ a : ArtifactIm, ∃ q ∈ a.partof,
    determinePartofs [(a.name, a.clean)] = .ok [(a.name, [])] ∧ key q ≠ key a.name := by
  refine ⟨⟨Name.lit c!"SPC-a-b", c!"/a.md", [Name.lit c!"SPC-a"], none, []⟩, Name.lit c!"SPC-a", by simp, by decide, by decide⟩

end Art
