import Verif.Props.Export
import Verif.Spec.Links

/-!
# C78: the links within an exported document
Links in texts, in the metadata and in the table of contents are written in capitals, links in graphs in small letters: no rule for the marks of headings makes both work.
-/

namespace Art.Links
open Spec Spec.Export

variable {L : Libs} {F : ExportLibs} {readToml : Str → Option SettingsRaw} {hash : ArtifactIm → HashIm} {ncpu : Nat} {fs : FS} {base : FilePath} {c : Categorized} {p : Project}

theorem upperC_lowerC (c : Char) : upperC (lowerC c) = upperC c := by
  rw [char_eq, upperC_toNat, upperC_toNat, lowerC_toNat]
  split_ifs <;> omega

theorem upper_lower (s : Str) : upper (lower s) = upper s := by
  simp [lower, upper, upperC_lowerC]

/-- No name is spelled the same in capitals and in small letters. -/
theorem upper_ne_lower (a b : Name) : upper a.raw ≠ lower b.raw := by
  intro h
  obtain ⟨q, segs, ha⟩ := a.shape
  obtain ⟨q', segs', hb⟩ := b.shape
  have h1 := tyOf_iff.1 ha.ty
  have h2 := tyOf_iff.1 hb.ty
  have e : lower q' = lower (upper q') := (lower_upper _).symm
  have hl : lower b.raw = lower q' ++ lower (dashed segs') := by rw [hb.eq]; simp [lower]
  rw [hl, ha.eq, upper_append, e, h1, h2] at h
  obtain ⟨e1, _⟩ := List.append_inj h (by cases a.ty <;> cases b.ty <;> decide)
  revert e1
  cases a.ty <;> cases b.ty <;> decide

theorem same_name (h : ReadsProject L readToml hash ncpu fs base (.ok (c, p))) {a b : Artifact} (ha : a ∈ arts p) (hb : b ∈ arts p) (e : upper a.name.raw = upper b.name.raw) : b = a := by
  obtain ⟨x, hx, rfl⟩ := List.mem_map.1 ha
  obtain ⟨y, hy, rfl⟩ := List.mem_map.1 hb
  rw [← Name.keyStr_eq, ← Name.keyStr_eq] at e
  rw [same_art (read_linked h) hx hy e]

/-- What leads to one section if headings are marked in capitals leads to none if they are marked in small letters. -/
theorem leads_upper (h : ReadsProject L readToml hash ncpu fs base (.ok (c, p))) {a : Artifact} (ha : a ∈ arts p) :
    LeadsOnly p upper (upper a.name.raw) a ∧ LeadsNowhere p lower (upper a.name.raw) :=
  ⟨⟨rfl, fun _ hb e => same_name h ha hb (Eq.symm e)⟩, fun b _ e => upper_ne_lower a.name b.name (Eq.symm e)⟩

theorem leads_lower (h : ReadsProject L readToml hash ncpu fs base (.ok (c, p))) {a : Artifact} (ha : a ∈ arts p) :
    LeadsOnly p lower (lower a.name.raw) a ∧ LeadsNowhere p upper (lower a.name.raw) :=
  ⟨⟨rfl, fun b hb e => same_name h ha hb (by rw [← upper_lower a.name.raw, ← upper_lower b.name.raw]; exact congrArg upper (Eq.symm e))⟩,
    fun b _ e => upper_ne_lower b.name a.name e⟩

theorem name_upper {n : Str} {name : Name} {a : Artifact} (hn : Name.fromStr n = .ok name) (e : key a.name = key name) : upper a.name.raw = upper n := by
  rw [← Name.keyStr_eq, Name.key_eq_iff.1 e, Name.keyStr_eq, Name.raw_of_fromStr hn]

theorem section_in {md : SerMd} {header : Option Str} {toc : Bool} {text : Str} (hd : DocShown F md header toc text) {a : Artifact} (ha : a ∈ arts md.project)
    {ps : List Piece} (hc : Cut true a.text ps) {x : Piece} (hx : x ∈ ps) : ∃ o, o <:+: text ∧ PieceShown F md a.name.raw x o := by
  obtain ⟨contents, sections, _, hs, rfl⟩ := hd
  obtain ⟨s, hsm, family, file, impl, ps', os, _, _, _, hc', hf, rfl⟩ := forall₂_mem hs ha
  obtain rfl := cut_unique hc hc'
  obtain ⟨o, ho, hp⟩ := forall₂_mem hf hx
  refine ⟨o, ?_, hp⟩
  refine ((List.infix_of_mem_flatten ho).trans ?_).trans ((List.infix_of_mem_flatten hsm).trans (List.suffix_append _ _).isInfix)
  exact ⟨_, c!"\n\n", rfl⟩

theorem graph_in {md : SerMd} {parent head body out : Str} (hg : GraphShown md parent head body out) {qs : List Piece} (hc : Cut true body qs) {x : Piece} (hx : x ∈ qs) :
    ∃ o, o <:+: out ∧ NodeShown md.project parent x o := by
  obtain ⟨qs', os, hc', hf, rfl⟩ := hg
  obtain rfl := cut_unique hc hc'
  obtain ⟨o, ho, hp⟩ := forall₂_mem hf hx
  refine ⟨o, (List.infix_of_mem_flatten ho).trans ?_, hp⟩
  cases md.dot with
  | ignore => exact ⟨head ++ c!"\n", c!"\n```", by simp⟩
  | removeBraces => exact ⟨c!"\n", c!"\n", by simp⟩
  | replaceBraces pre post => exact ⟨pre ++ c!"\n", c!"\n" ++ post, by simp⟩

/-- C78. A reference in a text, outside of graphs, becomes a link that leads to the section about its artifact, and to no other, if headings are marked in capitals, and
nowhere if they are marked in small letters. -/
theorem C78_text (h : ReadsProject L readToml hash ncpu fs base (.ok (c, p))) (ex : ExportSettings) (hu : ∀ loc, Addressed p loc → ¬ NoAddress F (exporter ex p) loc)
    {n : Str} {sub : Option Str} {a : Artifact} (hr : Written p n sub a) :
    ∃ t, LinkIn (written (exportParts F ex p)) t ∧ LeadsOnly p upper t a ∧ LeadsNowhere p lower t := by
  obtain ⟨b, hb, ps, name, hc, hx, hn, ht, ha, e⟩ := hr
  obtain ⟨o, ho, name', hn', h1, _⟩ := section_in ((C55_document h ex).2 hu) hb hc hx
  obtain rfl := Res.ok.inj (hn.symm.trans hn')
  refine ⟨_, ⟨o, ho, (h1 ht).1⟩, ?_⟩
  rw [← name_upper hn e]
  exact leads_upper h ha

/-- C78. The table of contents has such a link for every artifact. -/
theorem C78_contents (h : ReadsProject L readToml hash ncpu fs base (.ok (c, p))) (ex : ExportSettings) (hu : ∀ loc, Addressed p loc → ¬ NoAddress F (exporter ex p) loc)
    (htoc : ex.toc = true) {a : Artifact} (ha : a ∈ arts p) :
    ∃ t, LinkIn (written (exportParts F ex p)) t ∧ LeadsOnly p upper t a ∧ LeadsNowhere p lower t := by
  obtain ⟨contents, sections, hc, _, e⟩ := (C55_document h ex).2 hu
  rw [if_pos htoc] at hc
  obtain ⟨os, hf, rfl⟩ := hc
  obtain ⟨o, ho, _, ht⟩ := forall₂_mem hf ha
  refine ⟨_, ⟨o, ?_, ht⟩, leads_upper h ha⟩
  rw [e]
  have i1 : o <:+: (c!"- " ++ o ++ c!"\n") := ⟨c!"- ", c!"\n", rfl⟩
  have i2 : (c!"- " ++ o ++ c!"\n") <:+: os.flatMap (fun o => c!"- " ++ o ++ c!"\n") := List.infix_of_mem_flatten (List.mem_map_of_mem ho)
  exact (i1.trans i2).trans ⟨(ex.header.map (· ++ c!"\n")).getD [] ++ ((exporter ex p).namePrefix ++ c!"# Table Of Contents\n"), c!"\n\n" ++ sections.flatten, by simp⟩

/-- C78. A reference in a graph becomes a node whose link leads to the section about its artifact, and to no other, if headings are marked in small letters, and nowhere
if they are marked in capitals. -/
theorem C78_graph (h : ReadsProject L readToml hash ncpu fs base (.ok (c, p))) (ex : ExportSettings) (hu : ∀ loc, Addressed p loc → ¬ NoAddress F (exporter ex p) loc)
    {n : Str} {sub : Option Str} {a : Artifact} (hr : Drawn p n sub a) :
    ∃ t, NodeIn (written (exportParts F ex p)) t ∧ LeadsOnly p lower t a ∧ LeadsNowhere p upper t := by
  obtain ⟨b, hb, ps, head, body, qs, name, hc, hx, hq, hy, hn, ht, ha, e⟩ := hr
  obtain ⟨o, ho, hg⟩ := section_in ((C55_document h ex).2 hu) hb hc hx
  obtain ⟨o', ho', name', hn', h1, _⟩ := graph_in hg hq hy
  obtain rfl := Res.ok.inj (hn.symm.trans hn')
  obtain ⟨_, _, _, col, _, hi⟩ := h1 ht
  refine ⟨lower n, ⟨o', ho'.trans ho, by rw [hi]; simp⟩, ?_⟩
  rw [← lower_upper, ← name_upper hn e, lower_upper]
  exact leads_lower h ha

/-- C78. An artifact to which there is a link in a text or in the table of contents, and a link in a graph: whatever rule the marks of headings are made
by, one of the two does not lead to its section. -/
theorem C78_no_rule (h : ReadsProject L readToml hash ncpu fs base (.ok (c, p))) (ex : ExportSettings) (hu : ∀ loc, Addressed p loc → ¬ NoAddress F (exporter ex p) loc)
    {n : Str} {sub : Option Str} {a : Artifact} (hr : Drawn p n sub a) (hw : ex.toc = true ∨ ∃ m s, Written p m s a) :
    ∃ t t', LinkIn (written (exportParts F ex p)) t ∧ NodeIn (written (exportParts F ex p)) t' ∧ upper t = upper a.name.raw ∧ upper t' = upper a.name.raw ∧
      ∀ slug, ¬ (Leads slug t a ∧ Leads slug t' a) := by
  have ha : a ∈ arts p := by
    obtain ⟨_, _, _, _, _, _, _, _, _, _, _, _, _, ha, _⟩ := hr
    exact ha
  obtain ⟨t', h1, h2, _⟩ := C78_graph h ex hu hr
  have : ∃ t, LinkIn (written (exportParts F ex p)) t ∧ LeadsOnly p upper t a ∧ LeadsNowhere p lower t := by
    rcases hw with hw | ⟨m, s, hw⟩
    · exact C78_contents h ex hu hw ha
    · exact C78_text h ex hu hw
  obtain ⟨t, h3, h4, _⟩ := this
  have e1 : t = upper a.name.raw := h4.1.symm
  have e2 : t' = lower a.name.raw := h2.1.symm
  refine ⟨t, t', h3, h1, by rw [e1, upper_idem], by rw [e2, upper_lower], fun slug hs => upper_ne_lower a.name a.name ?_⟩
  rw [← e1, ← e2]
  exact hs.1.symm.trans hs.2

end Art.Links
