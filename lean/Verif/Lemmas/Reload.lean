import Verif.Props.Save
import Verif.Spec.Fmt

/-!
# Lemmas about reading back what was written
-/

namespace Art
open Spec

/-! ## documents -/

theorem artDocSer_doc {a : ArtifactIm} (hn : ISet.Nodup a.partof) (hc : a.clean = a) :
    artDocSer (intoRaw a).2.2 = .ok (docOf a).2 ∧ artDocDe (docOf a).2 = .ok (intoRaw a).2.2 := by
  have hp : sortNames a.partof = a.partof := by
    have e : sortNames (stripAuto a.name a.partof) = a.partof := congrArg ArtifactIm.partof hc
    conv_lhs => rw [← e]
    unfold sortNames
    rw [sortOn_idem]
    exact e
  have ht : cleanText a.text = a.text := congrArg ArtifactIm.text hc
  have hser : textRawSer a.text = a.text := by
    unfold textRawSer
    rw [cleanText_congr (trimEnd_idem a.text)]
    exact ht
  have hde : textRawDe a.text = a.text := ht
  obtain ⟨name, file, partof, done, text⟩ := a
  simp only at hp hser hde hn
  have e1 : ∀ t : Option Str, (if text.isEmpty then none else some text).map textRawSer = if text = [] then none else some text := by
    intro t; cases text with
    | nil => rfl
    | cons x xs => simp [hser]
  have e2 : (if text = [] then none else some text).map textRawDe = if text.isEmpty then none else some text := by
    cases text with
    | nil => rfl
    | cons x xs => simp [hde]
  constructor
  · unfold artDocSer intoRaw docOf
    cases partof with
    | nil => simp only [List.isEmpty_nil, if_true, e1 none]
    | cons n l =>
      cases l with
      | nil => simp only [List.isEmpty_cons, namesRawSer, e1 none, partofDoc]; rfl
      | cons m l =>
        have : namesRawSer (n :: m :: l) = .ok (.seq ((n :: m :: l).map Name.raw)) := by
          unfold namesRawSer
          simp only
          rw [hp]
        simp only [List.isEmpty_cons, e1 none]
        simp only [Bool.false_eq_true, if_false, this]
        rfl
  · unfold artDocDe intoRaw docOf
    cases partof with
    | nil => simp only [List.isEmpty_nil, if_true, e2]
    | cons n l => simp only [List.isEmpty_cons, reduceCtorEq, if_false, namesRawDe_doc hn, e2]

theorem mapSer_doc {ims : List ArtifactIm} (h : ∀ a ∈ ims, ISet.Nodup a.partof ∧ a.clean = a) : mapSer (ims.map entry) = .ok (ims.map docOf) := by
  unfold mapSer
  refine Res.mapM'_eq_ok.2 ?_
  induction ims with
  | nil => exact .nil
  | cons a l ih =>
    refine .cons ?_ (ih fun b hb => h b (List.mem_cons_of_mem _ hb))
    obtain ⟨h1, h2⟩ := h a List.mem_cons_self
    have := (artDocSer_doc h1 h2).1
    show (do let d ← artDocSer (intoRaw a).2.2; pure (a.name.raw, d)) = Res.ok (docOf a)
    rw [this]
    rfl

theorem mapDe_doc {ims : List ArtifactIm} (h : ∀ a ∈ ims, ISet.Nodup a.partof ∧ a.clean = a) (out : IMap Name ArtifactRaw)
    (hd : IMap.Nodup (out ++ ims.map entry)) : mapDe (ims.map docOf) out = .ok (out ++ ims.map entry) := by
  induction ims generalizing out with
  | nil => simp [mapDe]
  | cons a l ih =>
    obtain ⟨h1, h2⟩ := h a List.mem_cons_self
    have e := (artDocSer_doc h1 h2).2
    rw [List.map_cons]
    show mapDe ((a.name.raw, (docOf a).2) :: l.map docOf) out = _
    unfold mapDe
    rw [Name.fromStr_raw_self]
    simp only
    rw [e]
    show mapDe (l.map docOf) (IMap.insert out a.name (intoRaw a).2.2) = _
    have hni : IMap.contains out a.name = false := by
      rw [← Bool.not_eq_true, IMap.contains_iff]
      rintro ⟨x, hx, hk⟩
      unfold IMap.Nodup at hd
      rw [List.map_append, List.nodup_append] at hd
      exact hd.2.2 (key x.1) (List.mem_map.2 ⟨x, hx, rfl⟩) (key a.name) (by simp [entry, intoRaw]) hk
    rw [IMap.insert_of_not_contains hni, ih (fun b hb => h b (List.mem_cons_of_mem _ hb))]
    · simp [entry, intoRaw]
    · simpa [entry, intoRaw] using hd

theorem nodup_entries {ims : List ArtifactIm} (h : ims.Pairwise (fun x y => key x.name ≠ key y.name)) : IMap.Nodup (ims.map entry) := by
  unfold IMap.Nodup
  rw [List.map_map, List.Nodup, List.pairwise_map]
  exact h

/-- Reading one written file. -/
theorem survives_load {L : Libs} {s : Settings} {f : FilePath} {ims : List ArtifactIm} {t : Str} (hn : ims.Pairwise (fun x y => key x.name ≠ key y.name))
    (h : ∀ a ∈ ims, (ISet.Nodup a.partof ∧ a.clean = a) ∧ a.file = f) (hs : Survives L s f ims) (ht : fileText L s f (ims.map entry) = .ok t) :
    loadFile L s.pre f (.text t) = .ok (inOrder ims, []) := by
  have hp : (inOrder ims).Perm ims := sortOn_perm _ _
  have hn' : (inOrder ims).Pairwise (fun x y => key x.name ≠ key y.name) := (hp.pairwise_iff (fun h h' => h h'.symm)).2 hn
  have h' : ∀ a ∈ inOrder ims, (ISet.Nodup a.partof ∧ a.clean = a) ∧ a.file = f := fun a ha => h a (hp.mem_iff.1 ha)
  have hback : (inOrder ims).map ((fun x : Name × ArtifactRaw => fromRaw x.1 f x.2) ∘ entry) = inOrder ims := by
    conv_rhs => rw [← List.map_id (inOrder ims)]
    refine List.map_congr_left fun a ha => ?_
    obtain ⟨⟨h1, h2⟩, h3⟩ := h' a ha
    have := C43_roundtrip a h1 h2
    subst h3
    exact this
  rw [fileText_entries] at ht
  unfold Survives at hs
  cases hf : ArtFileType.fromPath f with
  | none => rw [hf] at hs; exact hs.elim
  | some ty =>
    rw [hf] at hs ht
    cases ty with
    | md =>
      obtain ⟨t', e1, e2⟩ := C21_save_load L s.pre s.mdAttrs f (inOrder ims) hs.1 hf hn' (fun a ha =>
        ⟨⟨(h' a ha).1.1, (h' a ha).1.2, (hs.2 a (hp.mem_iff.1 ha)).1, (hs.2 a (hp.mem_iff.1 ha)).2⟩, (h' a ha).2⟩)
      have e1 : toMarkdown L s.pre s.mdAttrs ((inOrder ims).map entry) = .ok t' := e1
      simp only at ht
      rw [e1] at ht
      cases ht
      exact e2
    | toml =>
      simp only at ht
      rw [mapSer_doc (fun a ha => (h' a ha).1)] at ht
      cases ht
      unfold loadFile
      rw [hf]
      simp only [parseFile, hs _ hp, mapDe_doc (fun a ha => (h' a ha).1) [] (by simpa using nodup_entries hn'), List.nil_append, List.map_map, hback]
    | json =>
      simp only at ht
      rw [mapSer_doc (fun a ha => (h' a ha).1)] at ht
      cases ht
      unfold loadFile
      rw [hf]
      simp only [parseFile, hs _ hp, mapDe_doc (fun a ha => (h' a ha).1) [] (by simpa using nodup_entries hn'), List.nil_append, List.map_map, hback]

theorem survives_perm {L : Libs} {s : Settings} {f : FilePath} {ims ims' : List ArtifactIm} (hp : ims.Perm ims') (h : Survives L s f ims) :
    Survives L s f ims' := by
  unfold Survives at h ⊢
  cases hf : ArtFileType.fromPath f with
  | none => rw [hf] at h; exact h
  | some ty =>
    rw [hf] at h
    cases ty with
    | md => exact ⟨h.1, fun a ha => h.2 a (hp.mem_iff.2 ha)⟩
    | toml => exact fun l hl => h l (hl.trans hp.symm)
    | json => exact fun l hl => h l (hl.trans hp.symm)

theorem inFile_perm {ims ims' : List ArtifactIm} (hp : ims.Perm ims') (f : FilePath) : (inFile ims f).Perm (inFile ims' f) := hp.filter _

/-! ## the files of a project make up the project -/

theorem files_cover {l : List FilePath} (hn : l.Nodup) {ims : List ArtifactIm} (h : ∀ a ∈ ims, a.file ∈ l) :
    (l.flatMap (inFile ims)).Perm ims := by
  induction l generalizing ims with
  | nil =>
    have : ims = [] := List.eq_nil_iff_forall_not_mem.2 fun a ha => by simpa using h a ha
    subst this
    exact .nil
  | cons f t ih =>
    obtain ⟨h1, h2⟩ := List.nodup_cons.1 hn
    have e : t.flatMap (inFile ims) = t.flatMap (inFile (ims.filter (fun a => !decide (a.file = f)))) := by
      refine List.flatMap_congr fun g hg => ?_
      unfold inFile
      rw [List.filter_filter]
      refine List.filter_congr fun a _ => ?_
      by_cases hb : a.file = g
      · have : a.file ≠ f := by rintro rfl; exact h1 (hb ▸ hg)
        simp [hb, hb ▸ this]
      · simp [hb]
    rw [List.flatMap_cons, e]
    refine (List.Perm.append_left _ (ih h2 fun a ha => ?_)).trans (List.filter_append_perm _ _)
    simp only [List.mem_filter, Bool.not_eq_true', decide_eq_false_iff_not] at ha
    exact (List.mem_cons.1 (h a ha.1)).resolve_left ha.2

theorem editable_sort {p : Project} (h : ∀ x ∈ p.artifacts, ISet.Nodup x.2.partof) : (editable p.sort).Perm (editable p) := by
  show (List.map _ (List.map _ (sortOn _ p.artifacts))).Perm _
  rw [List.map_map]
  have : (sortOn (fun x : Name × Artifact => x.1.keyStr) p.artifacts).map ((fun x : Name × Artifact => x.2.toIm) ∘ fun x => (x.1, x.2.sort)) =
      (sortOn (fun x : Name × Artifact => x.1.keyStr) p.artifacts).map (fun x => x.2.toIm) := by
    refine List.map_congr_left ?_
    intro x hx
    exact toIm_sort (h x ((mem_sortOn _).1 hx))
  rw [this]
  exact (sortOn_perm _ _).map _

/-! ## projects from the same artifacts and the same code -/

section
variable {hash : ArtifactIm → HashIm}

theorem same_of_clean {ims ims' : List ArtifactIm} (hp : (ims.map ArtifactIm.clean).Perm (ims'.map ArtifactIm.clean)) {s : Settings}
    {code code' : IMap Name ImplCode} (cn : IMap.Nodup code) (cn' : IMap.Nodup code')
    (hc : ∀ n, (IMap.get? code n).map ImplCode.sort = (IMap.get? code' n).map ImplCode.sort)
    (hj : (joinArtifacts ims).lints = []) {arts arts' : IMap Name Artifact}
    (hl : Loads hash (joinArtifacts ims).arts code (joinArtifacts ims).files arts)
    (hl' : Loads hash (joinArtifacts ims').arts code' (joinArtifacts ims').files arts') : Same ⟨s, code, arts⟩ ⟨s, code', arts'⟩ := by
  have e1 : ∀ l : List ArtifactIm, l.map (fun a => (a.name, a.clean)) = (l.map ArtifactIm.clean).map (fun a => (a.name, a)) := fun l => by
    rw [List.map_map]; rfl
  have e2 : ∀ l : List ArtifactIm, l.map (fun a => (a.name, a.file)) = (l.map ArtifactIm.clean).map (fun a => (a.name, a.file)) := fun l => by
    rw [List.map_map]; rfl
  have hj' : (joinArtifacts ims').lints = [] := by
    rw [C11_reported] at hj ⊢
    have h1 : (ims.map ArtifactIm.clean).Pairwise (fun a b => key a.name ≠ key b.name) := List.pairwise_map.2 hj
    have h2 : (ims'.map ArtifactIm.clean).Pairwise (fun a b => key a.name ≠ key b.name) := h1.perm hp fun h => Ne.symm h
    rw [List.pairwise_map] at h2
    exact h2
  obtain ⟨f1, f2⟩ := C11_present _ hj
  obtain ⟨f1', f2'⟩ := C11_present _ hj'
  have inp := joinArtifacts_input ims
  have inp' := joinArtifacts_input ims'
  have hf : (joinArtifacts ims).files.map Prod.fst = (joinArtifacts ims).arts.map Prod.fst := by
    rw [f1, f2, List.map_map, List.map_map]; rfl
  have hf' : (joinArtifacts ims').files.map Prod.fst = (joinArtifacts ims').arts.map Prod.fst := by
    rw [f1', f2', List.map_map, List.map_map]; rfl
  have pi : (joinArtifacts ims).arts.Perm (joinArtifacts ims').arts := by rw [f2, f2', e1 ims, e1 ims']; exact hp.map _
  have pd : (joinArtifacts ims).files.Perm (joinArtifacts ims').files := by rw [f1, f1', e2 ims, e2 ims']; exact hp.map _
  refine ⟨rfl, IMap.nodup_of_fst inp.dnodup (hl.spec inp).1, IMap.nodup_of_fst inp'.dnodup (hl'.spec inp').1, cn, cn',
    Loads.same inp hf hl inp' hf' hl' pi pd hc, ?_, hc⟩
  intro x hx
  obtain ⟨im, sp⟩ := (hl.spec inp).2.2.2.2.2.1 x.2 (List.mem_map.2 ⟨x, hx, rfl⟩)
  exact sp.partsNodup

theorem implCode_sort_idem (c : ImplCode) : c.sort.sort = c.sort := by
  unfold ImplCode.sort sortSecondary
  simp only [sortOn_idem]

theorem get_sorted {code : IMap Name ImplCode} (cn : IMap.Nodup code) (n : Name) :
    (IMap.get? ((sortOn (fun x => x.1.keyStr) code).map (fun x : Name × ImplCode => (x.1, x.2.sort))) n).map ImplCode.sort =
      (IMap.get? code n).map ImplCode.sort := by
  rw [IMap.get?_perm (sortOn_perm (fun x : Name × ImplCode => x.1.keyStr) code).symm cn]
  generalize sortOn (fun x : Name × ImplCode => x.1.keyStr) code = m
  induction m with
  | nil => rfl
  | cons x m ih =>
    obtain ⟨a, b⟩ := x
    simp only [List.map_cons, IMap.get?]
    split
    · simp [implCode_sort_idem]
    · exact ih

end
end Art
