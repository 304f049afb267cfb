import Verif.Spec.Layout
import Verif.Props.Reports
import Verif.Props.Bytes

/-!
# C85: the same artifacts in other files
-/

namespace Art.Layout
open Spec Reports Depends Cli Undo Split
open Spec.Export (arts)

variable {L L' : Libs} {readToml readToml' : Str → Option SettingsRaw} {hash hash' : ArtifactIm → HashIm} {n n' : Nat} {fs fs' : FS} {base base' : FilePath}
  {c c' : Categorized} {p p' : Project}

/-- What is shown of an artifact, in terms of what was written and of the code. -/
structure Facts (p : Project) (a : Artifact) : Prop where
  impl : a.impl = (match a.toIm.done with
    | some d => .done d
    | none => match (IMap.get? p.codeImpls a.name).map ImplCode.sort with
      | some c => .code c
      | none => .notImpl)
  subs : ∃ l, parseSubnames a.text = .ok l ∧ a.subnames = sortOn SubName.keyStr l
  partOf : ∀ q : Name, PartOf a q ↔ (∃ x ∈ a.toIm.partof, key x = key q) ∨ (AutoLink a.name q ∧ ∃ b ∈ arts p, key b.name = key q)
  parts : ∀ q : Name, (∃ x ∈ a.parts, key x = key q) ↔ ∃ b ∈ arts p, key b.name = key q ∧ PartOf b a.name

theorem auto_key {x y q : Name} (hk : key x = key y) (h : AutoLink q x) : AutoLink q y := by
  obtain ⟨m, hm, e⟩ := h
  exact ⟨m, hm, e.trans hk⟩

theorem read_facts (h : ReadsProject L readToml hash n fs base (.ok (c, p))) {a : Artifact} (ha : a ∈ arts p) : Facts p a := by
  obtain ⟨_, _, s, r, as, ls, _, _, hr, he, hl, hlint, rfl, hc⟩ := reads_parts h
  obtain ⟨b, hb, rfl⟩ := arts_sort.1 ha
  obtain ⟨_, _, _, hnd, hex, hs, _, _⟩ := hl.spec (joinArtifacts_input _)
  obtain ⟨im, hi⟩ := hs b hb
  obtain ⟨y, hy, hm⟩ := IMap.mem_of_get? hi.mem
  have hclean : ∃ x : ArtifactIm, ISet.Nodup x.partof ∧ key x.name = key b.name ∧ x.clean = im := by
    rw [(C11_present _ ((noError_parts hr).1 he).2.2).2] at hm
    obtain ⟨x, hx, e⟩ := List.mem_map.1 hm
    have e1 : x.name = y := congrArg Prod.fst e
    exact ⟨x, (arrives_art hr hx).2.2, e1 ▸ hy, congrArg Prod.snd e⟩
  have exists_iff : ∀ q : Name, (∃ x ∈ (joinArtifacts r.arts).arts, key x.1 = key q) ↔ ∃ d ∈ arts (Project.sort ⟨s, (joinLocations r.locs).1, as⟩), key d.name = key q := by
    intro q
    rw [← IMap.contains_iff, ← hex q]
    constructor
    · rintro ⟨d, hd, hk⟩
      exact ⟨d.sort, arts_sort.2 ⟨d, hd, rfl⟩, hk⟩
    · rintro ⟨d, hd, hk⟩
      obtain ⟨d, hd', rfl⟩ := arts_sort.1 hd
      exact ⟨d, hd', hk⟩
  have partof_sort : ∀ (d : Artifact) (q : Name), PartOf d.sort q ↔ PartOf d q := by
    intro d q
    unfold PartOf
    simp only [mem_partof_sort]
  refine ⟨?_, ⟨b.subnames, ?_, rfl⟩, ?_, ?_⟩
  · have hd : b.sort.toIm.done = b.impl.doneStr := by
      show b.impl.sort.doneStr = _
      cases b.impl <;> rfl
    have hg : (IMap.get? (Project.sort ⟨s, (joinLocations r.locs).1, as⟩).codeImpls b.name).map ImplCode.sort = (IMap.get? (joinLocations r.locs).1 b.name).map ImplCode.sort :=
      get_sorted (joinLocations_get r.locs).1 _
    show b.impl.sort = _
    rw [hd]
    show _ = match b.impl.doneStr with
      | some d => Impl.done d
      | none => match (IMap.get? (Project.sort ⟨s, (joinLocations r.locs).1, as⟩).codeImpls b.name).map ImplCode.sort with
        | some c => .code c
        | none => .notImpl
    rw [hg, hi.impl]
    unfold implOf
    cases im.done with
    | some d => rfl
    | none => cases e : IMap.get? (joinLocations r.locs).1 b.name <;> simp [Impl.sort, Impl.doneStr]
  · show parseSubnames b.text = _
    rw [hi.text]
    exact hi.subs
  · intro q
    rw [partof_sort, ← exists_iff]
    have hp : ISet.Nodup b.sort.partof := nodup_sortNames hi.pnodup
    have mem : ∀ x, x ∈ b.sort.toIm.partof ↔ x ∈ b.sort.partof ∧ ¬ AutoLink b.name x := fun x => (C05_clean ⟨b.sort.name, b.sort.file, b.sort.partof, b.sort.impl.doneStr, b.sort.text⟩ hp).2.1 x
    constructor
    · rintro ⟨x, hx, hk⟩
      by_cases hau : AutoLink b.name x
      · rcases (hi.partOf x).1 ⟨x, hx, rfl⟩ with ⟨z, hz, hkz⟩ | ⟨_, z⟩
        · exfalso
          obtain ⟨w, hw, hkw, rfl⟩ := hclean
          exact ((C05_clean w hw).1.noAuto z hz) (auto_key hkz.symm (autoLink_congr hkw.symm hau))
        · obtain ⟨z, hz, hkz⟩ := z
          exact .inr ⟨auto_key hk hau, z, hz, hkz.trans hk⟩
      · exact .inl ⟨x, (mem x).2 ⟨mem_partof_sort.2 hx, hau⟩, hk⟩
    · rintro (⟨x, hx, hk⟩ | h)
      · exact ⟨x, mem_partof_sort.1 ((mem x).1 hx).1, hk⟩
      · exact (hi.partOf q).2 (.inr h)
  · intro q
    have : ∀ x, x ∈ b.sort.parts ↔ x ∈ b.parts := fun x => (sortNames_perm _).mem_iff
    simp only [this]
    rw [hi.parts q]
    constructor
    · rintro ⟨d, hd, hk, hp⟩
      exact ⟨d.sort, arts_sort.2 ⟨d, hd, rfl⟩, hk, (partof_sort d _).2 hp⟩
    · rintro ⟨d, hd, hk, hp⟩
      obtain ⟨d, hd', rfl⟩ := arts_sort.1 hd
      exact ⟨d, hd', hk, (partof_sort d _).1 hp⟩

/-- C85: two projects with the same artifacts, in whatever files, formats and spellings, show the same about every artifact, if the same places of the code are known. -/
theorem C85_layout (h : ReadsProject L readToml hash n fs base (.ok (c, p))) (h' : ReadsProject L' readToml' hash' n' fs' base' (.ok (c', p')))
    (hs : SameArtifacts (editable p) (editable p')) (hc : SameCode p p') : (∀ a ∈ arts p, ∃ a' ∈ arts p', ShownSame a a') ∧ ∀ a' ∈ arts p', ∃ a ∈ arts p, ShownSame a a' := by
  have ex : ∀ q : Name, (∃ b ∈ arts p, key b.name = key q) ↔ ∃ b ∈ arts p', key b.name = key q := by
    intro q
    constructor
    · rintro ⟨b, hb, hk⟩
      obtain ⟨i, hi, hsame⟩ := hs.1 _ (editable_mem hb)
      obtain ⟨b', hb', rfl⟩ := mem_editable hi
      exact ⟨b', hb', (show key b.name = key b'.name from hsame.name).symm.trans hk⟩
    · rintro ⟨b, hb, hk⟩
      obtain ⟨i, hi, hsame⟩ := hs.2 _ (editable_mem hb)
      obtain ⟨b', hb', rfl⟩ := mem_editable hi
      exact ⟨b', hb', (show key b'.name = key b.name from hsame.name).trans hk⟩
  have own : ∀ a ∈ arts p, ∀ a' ∈ arts p', SameArtifact a.toIm a'.toIm → (∀ q, PartOf a q ↔ PartOf a' q) ∧ a.impl = a'.impl ∧ a.subnames = a'.subnames ∧ a.text = a'.text := by
    intro a ha a' ha' hsame
    have f := read_facts h ha
    have f' := read_facts h' ha'
    have hk : key a.name = key a'.name := hsame.name
    have ht : a.text = a'.text := by rw [← read_text h ha, ← read_text h' ha', hsame.text]
    refine ⟨fun q => ?_, ?_, ?_, ht⟩
    · rw [f.partOf, f'.partOf, hsame.partof q, ex q]
      have : AutoLink a.name q ↔ AutoLink a'.name q := ⟨autoLink_congr hk, autoLink_congr hk.symm⟩
      rw [this]
    · rw [f.impl, f'.impl, hsame.done, hc a'.name, IMap.get?_congr p.codeImpls hk]
    · obtain ⟨l, h1, h2⟩ := f.subs
      obtain ⟨l', h1', h2'⟩ := f'.subs
      rw [ht, h1'] at h1
      cases h1
      rw [h2, h2']
  have sameOwn : ∀ {a a' : Artifact}, a.impl = a'.impl → a.subnames = a'.subnames → SameOwn a a' := by
    intro a a' h1 h2
    unfold SameOwn
    rw [h1, h2]
    cases a'.impl with
    | done d => exact .inl ⟨d, d, rfl, rfl⟩
    | code c => exact .inr (.inl ⟨c, c, rfl, rfl, rfl, .refl _⟩)
    | notImpl => exact .inr (.inr ⟨rfl, rfl, rfl⟩)
  have both : ∀ b ∈ arts p, InBoth (arts p') b := by
    intro b hb
    obtain ⟨i, hi, hsame⟩ := hs.1 _ (editable_mem hb)
    obtain ⟨b', hb', rfl⟩ := mem_editable hi
    obtain ⟨h1, h2, h3, -⟩ := own b hb b' hb' hsame
    exact ⟨b', hb', (show key b.name = key b'.name from hsame.name).symm, sameOwn h2 h3, h1⟩
  have both' : ∀ b ∈ arts p', InBoth (arts p) b := by
    intro b hb
    obtain ⟨i, hi, hsame⟩ := hs.2 _ (editable_mem hb)
    obtain ⟨b', hb', rfl⟩ := mem_editable hi
    obtain ⟨h1, h2, h3, -⟩ := own b' hb' b hb hsame
    exact ⟨b', hb', hsame.name, sameOwn h2.symm h3.symm, fun q => (h1 q).symm⟩
  have shown : ∀ a ∈ arts p, ∀ a' ∈ arts p', SameArtifact a.toIm a'.toIm → ShownSame a a' := by
    intro a ha a' ha' hsame
    have hk : key a.name = key a'.name := hsame.name
    obtain ⟨h1, h2, h3, h4⟩ := own a ha a' ha' hsame
    refine ⟨hk, h1, fun q => ?_, C79_moved h h' both both' ha ha' hk, h2, h3, h4⟩
    rw [(read_facts h ha).parts, (read_facts h' ha').parts]
    constructor
    · rintro ⟨b, hb, hkb, hp⟩
      obtain ⟨b', hb', hk', -, hp'⟩ := both b hb
      obtain ⟨x, hx, e⟩ := (hp' a.name).1 hp
      exact ⟨b', hb', hk'.trans hkb, x, hx, e.trans hk⟩
    · rintro ⟨b, hb, hkb, hp⟩
      obtain ⟨b', hb', hk', -, hp'⟩ := both' b hb
      obtain ⟨x, hx, e⟩ := (hp' a'.name).1 hp
      exact ⟨b', hb', hk'.trans hkb, x, hx, e.trans hk.symm⟩
  refine ⟨fun a ha => ?_, fun a' ha' => ?_⟩
  · obtain ⟨i, hi, hsame⟩ := hs.1 _ (editable_mem ha)
    obtain ⟨b', hb', rfl⟩ := mem_editable hi
    exact ⟨b', hb', shown a ha b' hb' hsame⟩
  · obtain ⟨i, hi, hsame⟩ := hs.2 _ (editable_mem ha')
    obtain ⟨b', hb', rfl⟩ := mem_editable hi
    exact ⟨b', hb', shown b' hb' a' ha' hsame⟩

theorem upper_append (a b : Str) : upper (a ++ b) = upper a ++ upper b := List.map_append ..

theorem upper_raw {a b : Name} (h : key a = key b) : upper a.raw = upper b.raw := by
  rwa [Name.key_eq_iff, Name.keyStr_eq, Name.keyStr_eq] at h

theorem upper_full {a b : Name} (h : key a = key b) (sub : Option SubName) : upper (a.full sub) = upper (b.full sub) := by
  unfold Name.full
  cases sub <;> simp only [upper_append, upper_raw h]

theorem sameArtifacts_symm {l l' : List ArtifactIm} (h : SameArtifacts l l') : SameArtifacts l' l := by
  have flip : ∀ {a b : ArtifactIm}, SameArtifact a b → SameArtifact b a := fun s => ⟨s.name.symm, fun q => (s.partof q).symm, s.done.symm, s.text.symm⟩
  refine ⟨fun a ha => ?_, fun a ha => ?_⟩
  · obtain ⟨b, hb, s⟩ := h.2 a ha
    exact ⟨b, hb, flip s⟩
  · obtain ⟨b, hb, s⟩ := h.1 a ha
    exact ⟨b, hb, flip s⟩

/-- What one project complains about, the other does too. -/
theorem complaint_same (h : ReadsProject L readToml hash n fs base (.ok (c, p))) (h' : ReadsProject L readToml' hash' n' fs' base' (.ok (c', p')))
    (hs : SameArtifacts (editable p) (editable p')) (hc : SameCode p p') (hpre : p.settings.pre = p'.settings.pre) (hurl : p.settings.codeUrl = p'.settings.codeUrl)
    {l : Lint} (hl : Complaint L p l) : ∃ l', Complaint L p' l' ∧ SameReport l l' := by
  obtain ⟨fwd, back⟩ := C85_layout h h' hs hc
  have none_key : ∀ {q q' : Name}, key q = key q' → (∀ b ∈ arts p, key b.name ≠ key q) → ∀ b ∈ arts p', key b.name ≠ key q' := by
    intro q q' hk hno b hb e
    obtain ⟨b', hb', hsame⟩ := back b hb
    exact hno b' hb' ((hsame.name.trans e).trans hk.symm)
  have doneSame : ∀ {a a' : Artifact}, ShownSame a a' → (Done a ↔ Done a') := by
    intro a a' hsame
    unfold Done
    rw [hsame.impl]
  cases hl with
  | @dangling a q ha hq hno =>
    obtain ⟨a', ha', hsame⟩ := fwd a ha
    obtain ⟨q', hq', hk⟩ := (hsame.partof q).1 ⟨q, hq, rfl⟩
    refine ⟨_, .dangling ha' hq' (none_key hk.symm hno), rfl, rfl, rfl, ?_, (fun e => by cases e)⟩
    simp only [errorLint, upper_append, upper_raw hsame.name, upper_raw hk]
  | @types a q ha hq hty =>
    obtain ⟨a', ha', hsame⟩ := fwd a ha
    obtain ⟨q', hq', hk⟩ := (hsame.partof q).1 ⟨q, hq, rfl⟩
    have t1 : q'.ty = q.ty := congrArg Prod.fst hk
    have t2 : a.name.ty = a'.name.ty := congrArg Prod.fst hsame.name
    refine ⟨_, .types ha' hq' (by rw [t1, ← t2]; exact hty), rfl, rfl, rfl, ?_, (fun e => by cases e)⟩
    simp only [errorLint, upper_append, upper_raw hsame.name, upper_raw hk]
  | @nameLine a line ha hli hna =>
    obtain ⟨a', ha', hsame⟩ := fwd a ha
    refine ⟨_, .nameLine ha' (hsame.text ▸ hli) (hpre ▸ hna), rfl, rfl, rfl, ?_, (fun e => by cases e)⟩
    simp only [errorLint, upper_append, upper_raw hsame.name]
  | @endLine a line ha hli hna hen =>
    obtain ⟨a', ha', hsame⟩ := fwd a ha
    refine ⟨_, .endLine ha' (hsame.text ▸ hli) (hpre ▸ hna) hen, rfl, rfl, rfl, ?_, (fun e => by cases e)⟩
    simp only [errorLint, upper_append, upper_raw hsame.name]
  | @doneSubs a sub ha hd hsub =>
    obtain ⟨a', ha', hsame⟩ := fwd a ha
    refine ⟨_, .doneSubs ha' ((doneSame hsame).1 hd) (hsame.text ▸ hsub), rfl, rfl, rfl, ?_, (fun e => by cases e)⟩
    simp only [errorLint, upper_append, upper_raw hsame.name]
  | url h1 h2 => exact ⟨_, .url (hurl ▸ h1) h2, rfl, rfl, rfl, rfl, (fun e => by cases e)⟩
  | @soft a m sub ha hw hno =>
    obtain ⟨a', ha', hsame⟩ := fwd a ha
    refine ⟨_, .soft ha' (hsame.text ▸ hw) ?_, rfl, rfl, rfl, ?_, (fun e => by cases e)⟩
    · rcases hno with hno | ⟨b, hb, hk, s, hs, hd⟩
      · exact .inl (none_key rfl hno)
      · obtain ⟨b', hb', hb2⟩ := fwd b hb
        exact .inr ⟨b', hb', hb2.name.symm.trans hk, s, hs, hb2.text ▸ hd⟩
    · simp only [softLint, upper_append, upper_raw hsame.name]
  | @place m sub loc w hr hw =>
    obtain ⟨m', hk, hr'⟩ := recorded_same (C25_read_sets h) (fun m => (hc m).symm) hr
    refine ⟨_, .place (w := w) hr' ?_, rfl, rfl, rfl, ?_, fun _ => rfl⟩
    · cases w with
      | missing => exact none_key hk.symm hw
      | done =>
        obtain ⟨b, hb, e, hd⟩ := hw
        obtain ⟨b', hb', hb2⟩ := fwd b hb
        exact ⟨b', hb', (hb2.name.symm.trans e).trans hk.symm, (doneSame hb2).1 hd⟩
      | noSub s =>
        obtain ⟨b, hb, e, hd, hsub, hdef⟩ := hw
        obtain ⟨b', hb', hb2⟩ := fwd b hb
        exact ⟨b', hb', (hb2.name.symm.trans e).trans hk.symm, fun x => hd ((doneSame hb2).2 x), hsub, hb2.text ▸ hdef⟩
    · simp only [placeLint, upper_append, upper_full hk.symm]
      cases w <;> simp only [Why.text, upper_append, upper_raw hk]

theorem sameReport_symm {l l' : Lint} (h : SameReport l l') : SameReport l' l :=
  ⟨h.level.symm, h.category.symm, h.line.symm, h.msg.symm, fun e => (h.path (h.category.trans e)).symm⟩

/-- C85: two projects with the same artifacts are told the same, errors and warnings, if the same places of the code are known, and the prefix in markdown files and the address for code are the same. -/
theorem C85_reports (h : ReadsProject L readToml hash n fs base (.ok (c, p))) (h' : ReadsProject L readToml' hash' n' fs' base' (.ok (c', p')))
    (hs : SameArtifacts (editable p) (editable p')) (hc : SameCode p p') (hpre : p.settings.pre = p'.settings.pre) (hurl : p.settings.codeUrl = p'.settings.codeUrl) :
    SameReports c.error c'.error ∧ SameReports c.other c'.other := by
  have A := C83_complete h
  have B := C83_complete h'
  have f : ∀ {l : Lint}, Complaint L p l → ∃ l', Complaint L p' l' ∧ SameReport l l' := complaint_same h h' hs hc hpre hurl
  have g : ∀ {l : Lint}, Complaint L p' l → ∃ l', Complaint L p l' ∧ SameReport l l' :=
    complaint_same h' h (sameArtifacts_symm hs) (fun m => (hc m).symm) hpre.symm hurl.symm
  refine ⟨⟨fun a ha => ?_, fun a ha => ?_⟩, fun a ha => ?_, fun a ha => ?_⟩
  · obtain ⟨h1, h2⟩ := (A.1 a).1 ha
    obtain ⟨b, hb, hr⟩ := f h1
    exact ⟨b, (B.1 b).2 ⟨hb, hr.level.symm.trans h2⟩, hr⟩
  · obtain ⟨h1, h2⟩ := (B.1 a).1 ha
    obtain ⟨b, hb, hr⟩ := g h1
    exact ⟨b, (A.1 b).2 ⟨hb, hr.level.symm.trans h2⟩, sameReport_symm hr⟩
  · obtain ⟨h1, h2⟩ := (A.2.1 a).1 ha
    obtain ⟨b, hb, hr⟩ := f h1
    exact ⟨b, (B.2.1 b).2 ⟨hb, hr.level.symm.trans h2⟩, hr⟩
  · obtain ⟨h1, h2⟩ := (B.2.1 a).1 ha
    obtain ⟨b, hb, hr⟩ := g h1
    exact ⟨b, (A.2.1 b).2 ⟨hb, hr.level.symm.trans h2⟩, sameReport_symm hr⟩

variable {E : Env} {s : Settings} {q p1 p2 : Project} {ops : List ArtifactOp} {n1 n2 : Nat} {c1 c2 : Categorized}

/-- C85: a saved batch that only takes artifacts to other files, or spells names in other ways, changes nothing else that is shown or told. -/
theorem C85_move (H : Holds E base s fs p) (ap : Apart s) (hl : LinkSets ops) (once : ∀ op ∈ ops, ∀ a, Brings op a → ReadOnce s a.file)
    (hcol : NoCollision E.hash p (ops.map ArtifactOp.clean)) (hmove : MovesOnly E.hash p (ops.map ArtifactOp.clean))
    (h : Modifies E.L E.readToml E.hash E.dbg n fs base ops (some (.ok (c, q))) fs') (hq : Storable E.L s q)
    (r1 : ReadsProject E.L E.readToml E.hash n1 fs base (.ok (c1, p1))) (r2 : ReadsProject E.L E.readToml E.hash n2 fs' base (.ok (c2, p2))) :
    SameArtifacts (editable p1) (editable p2) ∧ (∀ a ∈ arts p1, ∃ a' ∈ arts p2, ShownSame a a') ∧ (∀ a' ∈ arts p2, ∃ a ∈ arts p1, ShownSame a a') ∧
      c1.error = [] ∧ c2.error = [] ∧ SameReports c1.other c2.other := by
  obtain ⟨z1, z2, -⟩ := C83_modify H ap hl once h hq r1 r2
  have S1 := C25_read_sets r1
  obtain ⟨c0, p0, c0', p0', files, cfg, a1, a2, a3, a4, a5, e0, e⟩ := modifies_done h
  have e : q = p0'.sort := e
  subst e0
  have hp := editable_sort (plans_nodup a2)
  rw [← e] at hp
  obtain ⟨-, k1, k2, k3⟩ := read_clean H.tree H.settings H.safe ap hl a1 a2 a3 a4 a5 once (fun a ha => survives_perm (inFile_perm hp _) (hq.survives a (hp.mem_iff.2 ha))) r2
  obtain ⟨_, _, o0, f0⟩ := H.reads _ _ a1
  cases o0
  obtain ⟨_, _, o1, f1⟩ := H.reads _ _ r1
  cases o1
  have hed : editable p0 = editable p1 := editable_foldCase (f0.trans f1.symm)
  have hed' : editable p = editable p1 := (editable_foldCase f1).symm
  have hco : SameCode p1 p2 := fun m => by rw [k3 m, get_keyed (congrArg (fun x => x.2.1) (f0.trans f1.symm)) m]
  have hcol' : NoCollision E.hash p0 (ops.map ArtifactOp.clean) := by
    unfold NoCollision at hcol ⊢
    rw [editable_foldCase f0]
    exact hcol
  have mem : ∀ a, a ∈ editable p2 ↔ _ := fun a => (k2.mem_iff (a := a)).trans (C25_batch (C25_read_sets a1) hl hcol' a2 a)
  have hs : SameArtifacts (editable p1) (editable p2) := by
    refine ⟨fun a ha => ?_, fun a ha => ?_⟩
    · by_cases ht : TakenOut E.hash (ops.map ArtifactOp.clean) (E.hash a)
      · obtain ⟨op, ho, hidle, hpr⟩ := ht
        obtain ⟨a0, ha0, b, rfl, hsame⟩ := hmove op ho
        have : a0 = a := by
          refine hcol a0 a (.inl ha0) (.inl (hed' ▸ ha)) ?_
          rcases hpr with ⟨_, h⟩ | ⟨_, h⟩
          · injection h
          · cases h
        subst this
        exact ⟨b, (mem b).2 (.inr ⟨_, ho, hidle, .inr ⟨_, rfl⟩⟩), hsame⟩
      · exact ⟨a, (mem a).2 (.inl ⟨hed ▸ ha, ht⟩), rfl, fun _ => Iff.rfl, rfl, rfl⟩
    · rcases (mem a).1 ha with ⟨h1, -⟩ | ⟨op, ho, -, hb⟩
      · exact ⟨a, hed ▸ h1, rfl, fun _ => Iff.rfl, rfl, rfl⟩
      · obtain ⟨a0, ha0, b, rfl, hsame⟩ := hmove op ho
        rcases hb with h | ⟨_, h⟩ <;> cases h
        exact ⟨a0, hed' ▸ ha0, hsame⟩
  obtain ⟨x1, x2⟩ := C85_layout r1 r2 hs hco
  have hset : p1.settings = p2.settings := (congrArg (fun x => x.1) (f1.trans f0.symm)).trans k1.symm
  exact ⟨hs, x1, x2, z1, z2, (C85_reports r1 r2 hs hco (by rw [hset]) (by rw [hset])).2⟩

end Art.Layout
