import Verif.Model.Raw
import Verif.Props.Text
import Verif.Lemmas.LoadSpec
import Mathlib.Data.List.Induction

/-!
# Properties C11 and C43: joining of artifacts, raw conversion
-/

namespace Art
open Spec

/-! ## C11 -/

theorem joinArtifacts_snoc (l : List ArtifactIm) (a : ArtifactIm) :
    joinArtifacts (l ++ [a]) = joinArtStep (joinArtifacts l) a := by
  unfold joinArtifacts; rw [List.foldl_append]; rfl

theorem joinArtifacts_files (l : List ArtifactIm) :
    (joinArtifacts l).files = IMap.collect (l.map (fun a => (a.name, a.file))) ∧
    (joinArtifacts l).arts = IMap.collect (l.map (fun a => (a.name, a.clean))) := by
  induction l using List.reverseRecOn with
  | nil => exact ⟨rfl, rfl⟩
  | append_singleton l a ih =>
    rw [joinArtifacts_snoc]
    unfold joinArtStep
    simp only
    rw [ih.1, ih.2]
    unfold IMap.collect
    simp [List.foldl_append]

theorem joinArtifacts_get (l : List ArtifactIm) (n : Name) :
    IMap.get? (joinArtifacts l).files n = ((l.reverse.find? (fun a => key a.name = key n)).map (fun a => a.file)) := by
  induction l using List.reverseRecOn with
  | nil => rfl
  | append_singleton l a ih =>
    rw [joinArtifacts_snoc]
    show IMap.get? (IMap.insert _ a.name a.file) n = _
    rw [IMap.get?_insert, ih, List.reverse_append, List.reverse_singleton, List.singleton_append, List.find?_cons]
    by_cases h : key a.name = key n <;> simp [h]

/-- Both results of joining are maps with the same names, whatever was joined. -/
theorem joinArtifacts_input (l : List ArtifactIm) : LoadInput (joinArtifacts l).arts (joinArtifacts l).files := by
  obtain ⟨h1, h2⟩ := joinArtifacts_files l
  rw [h1, h2]
  refine ⟨IMap.nodup_collect _, IMap.nodup_collect _, fun n => ?_⟩
  rw [IMap.contains_collect, IMap.contains_collect]
  simp

/-- An error is reported exactly when two definitions have the same name (ignoring case). -/
theorem C11_reported (l : List ArtifactIm) :
    (joinArtifacts l).lints = [] ↔ l.Pairwise (fun a b => key a.name ≠ key b.name) := by
  induction l using List.reverseRecOn with
  | nil => simp [joinArtifacts]
  | append_singleton l a ih =>
    rw [joinArtifacts_snoc]
    show (joinArtifacts l).lints ++ _ = [] ↔ _
    rw [List.append_eq_nil_iff, ih, List.pairwise_append, joinArtifacts_get]
    refine and_congr_right fun _ => ?_
    simp only [List.pairwise_cons, List.not_mem_nil, false_imp_iff, implies_true, List.Pairwise.nil, and_true, true_and,
      List.mem_singleton, forall_eq]
    constructor
    · intro h x hx hk
      cases hf : l.reverse.find? (fun b => key b.name = key a.name) with
      | none =>
        rw [List.find?_eq_none] at hf
        exact hf x (List.mem_reverse.2 hx) (by simpa using hk)
      | some y => rw [hf] at h; simp at h
    · intro h
      have hf : l.reverse.find? (fun b => key b.name = key a.name) = none := by
        rw [List.find?_eq_none]
        intro x hx
        simpa using h x (List.mem_reverse.1 hx)
      rw [hf]; rfl

/-- All reports are errors, and every definition of a name that is defined several times is named in a report. -/
theorem C11_all_named (l : List ArtifactIm) : (∀ x ∈ (joinArtifacts l).lints, x.level = .error) ∧
    ∀ pre a post, l = pre ++ a :: post → (∃ b ∈ pre ++ post, key b.name = key a.name) →
      ∃ x ∈ (joinArtifacts l).lints, x.path = some a.file ∧ ∃ n : Name, key n = key a.name ∧
        x.msg = c!"duplicate name detected: " ++ n.raw ++ c!" in " ++ a.file := by
  induction l using List.reverseRecOn with
  | nil => exact ⟨by simp [joinArtifacts], fun pre a post h => by simp at h⟩
  | append_singleton l w ih =>
    obtain ⟨ih1, ih2⟩ := ih
    rw [joinArtifacts_snoc]
    have hl : (joinArtStep (joinArtifacts l) w).lints = (joinArtifacts l).lints ++
        (match IMap.get? (joinArtifacts l).files w.name with
          | some f => [dupArtLint w.name f, dupArtLint w.name w.file]
          | none => []) := rfl
    rw [hl]
    have hdup : ∀ x, key x.name = key w.name → x ∈ l → ∃ y ∈ l, key y.name = key w.name ∧
        IMap.get? (joinArtifacts l).files w.name = some y.file ∧ l.reverse.find? (fun b => key b.name = key w.name) = some y := by
      intro x hk hx
      rw [joinArtifacts_get]
      cases hf : l.reverse.find? (fun b => key b.name = key w.name) with
      | none =>
        rw [List.find?_eq_none] at hf
        exact absurd (by simpa using hk) (hf x (List.mem_reverse.2 hx))
      | some y =>
        exact ⟨y, List.mem_reverse.1 (List.mem_of_find?_eq_some hf), by simpa using List.find?_some hf, rfl, rfl⟩
    constructor
    · intro x hx
      rcases List.mem_append.1 hx with hx | hx
      · exact ih1 x hx
      · split at hx
        · simp only [List.mem_cons, List.not_mem_nil, or_false] at hx
          rcases hx with rfl | rfl <;> rfl
        · simp at hx
    · intro pre a post e hb
      rcases List.eq_nil_or_concat post with rfl | ⟨post', w', rfl⟩
      · -- the last definition
        have e' : l = pre ∧ w = a := by
          have := List.append_inj' e rfl
          exact ⟨this.1, by simpa using this.2⟩
        obtain ⟨rfl, rfl⟩ := e'
        obtain ⟨b, hb, hk⟩ := hb
        obtain ⟨y, _, _, hg, _⟩ := hdup b hk (by simpa using hb)
        rw [hg]
        exact ⟨dupArtLint w.name w.file, by simp, rfl, w.name, rfl, rfl⟩
      · rw [List.concat_eq_append] at e hb
        have e' : l = pre ++ a :: post' ∧ w = w' := by
          have : l ++ [w] = (pre ++ a :: post') ++ [w'] := by rw [e]; simp
          have := List.append_inj' this rfl
          exact ⟨this.1, by simpa using this.2⟩
        obtain ⟨el, rfl⟩ := e'
        by_cases hin : ∃ b ∈ pre ++ post', key b.name = key a.name
        · obtain ⟨x, hx, h1, h2⟩ := ih2 pre a post' el hin
          exact ⟨x, List.mem_append_left _ hx, h1, h2⟩
        · -- the new definition is the only other one: the last one known was `a`
          obtain ⟨b, hb, hk⟩ := hb
          have hbw : key w.name = key a.name := by
            rw [← List.append_assoc] at hb
            rcases List.mem_append.1 hb with hb | hb
            · exact absurd ⟨b, hb, hk⟩ hin
            · simp at hb; subst hb; exact hk
          obtain ⟨y, hy, hyk, hg, _⟩ := hdup a hbw.symm (by rw [el]; simp)
          have hya : y = a := by
            rw [el, List.mem_append, List.mem_cons] at hy
            rcases hy with hy | hy | hy
            · exact absurd ⟨y, List.mem_append_left _ hy, hyk.trans hbw⟩ hin
            · exact hy
            · exact absurd ⟨y, List.mem_append_right _ hy, hyk.trans hbw⟩ hin
          subst hya
          rw [hg]
          exact ⟨dupArtLint w.name y.file, by simp, rfl, w.name, hbw, rfl⟩

/-- The errors are exactly: for every definition and the next definition of the same name, one lint at each of the two
files. -/
theorem C11_lints (l : List ArtifactIm) (d : Lint) : d ∈ (joinArtifacts l).lints ↔
    ∃ a x b y c, l = a ++ x :: (b ++ y :: c) ∧ key x.name = key y.name ∧ (∀ z ∈ b, key z.name ≠ key y.name) ∧
      (d = dupArtLint y.name x.file ∨ d = dupArtLint y.name y.file) := by
  induction l using List.reverseRecOn with
  | nil => simp [joinArtifacts]
  | append_singleton l w ih =>
    rw [joinArtifacts_snoc]
    have hl : (joinArtStep (joinArtifacts l) w).lints = (joinArtifacts l).lints ++
        (match IMap.get? (joinArtifacts l).files w.name with
          | some f => [dupArtLint w.name f, dupArtLint w.name w.file]
          | none => []) := rfl
    rw [hl, List.mem_append, joinArtifacts_get]
    refine (or_congr_left ih).trans ?_
    have hfind : ∀ x, l.reverse.find? (fun a => key a.name = key w.name) = some x ↔
        ∃ a b, l = a ++ x :: b ∧ key x.name = key w.name ∧ ∀ z ∈ b, key z.name ≠ key w.name := by
      intro x
      rw [List.find?_eq_some_iff_append]
      constructor
      · rintro ⟨h1, as, bs, e, h2⟩
        refine ⟨bs.reverse, as.reverse, ?_, by simpa using h1, fun z hz => ?_⟩
        · have := congrArg List.reverse e
          simpa using this
        · simpa using h2 z (by simpa using hz)
      · rintro ⟨a, b, rfl, h1, h2⟩
        refine ⟨by simpa using h1, b.reverse, a.reverse, by simp, fun z hz => ?_⟩
        simpa using h2 z (by simpa using hz)
    constructor
    · rintro (⟨a, x, b, y, c, rfl, h1, h2, h3⟩ | h)
      · exact ⟨a, x, b, y, c ++ [w], by simp, h1, h2, h3⟩
      · cases hf : l.reverse.find? (fun a => key a.name = key w.name) with
        | none => rw [hf] at h; simp at h
        | some x =>
          rw [hf] at h
          obtain ⟨a, b, rfl, h1, h2⟩ := (hfind x).1 hf
          exact ⟨a, x, b, w, [], by simp, h1, h2, by simpa using h⟩
    · rintro ⟨a, x, b, y, c, e, h1, h2, h3⟩
      rcases List.eq_nil_or_concat c with rfl | ⟨c', v, rfl⟩
      · have e' : l ++ [w] = (a ++ x :: b) ++ [y] := by rw [e]; simp
        obtain ⟨rfl, e2⟩ := List.append_inj' e' rfl
        simp at e2; subst e2
        right
        rw [(hfind x).2 ⟨a, b, rfl, h1, h2⟩]
        simpa using h3
      · have e' : l ++ [w] = (a ++ x :: (b ++ y :: c')) ++ [v] := by rw [e]; simp
        obtain ⟨rfl, _⟩ := List.append_inj' e' rfl
        exact Or.inl ⟨a, x, b, y, c', rfl, h1, h2, h3⟩

/-- If nothing is reported, every definition is present (cleaned) under its own name with its own file, and nothing else is. -/
theorem C11_present (l : List ArtifactIm) (h : (joinArtifacts l).lints = []) :
    (joinArtifacts l).files = l.map (fun a => (a.name, a.file)) ∧
    (joinArtifacts l).arts = l.map (fun a => (a.name, a.clean)) := by
  rw [C11_reported] at h
  have hn : (l.map (fun a => key a.name)).Nodup := by
    rw [List.Nodup, List.pairwise_map]; exact h
  obtain ⟨h1, h2⟩ := joinArtifacts_files l
  rw [h1, h2]
  constructor <;> apply IMap.collect_of_nodup <;> unfold IMap.Nodup <;> rw [List.map_map] <;> exact hn

/-! Three definitions of one name, in different case, and another artifact. -/
def exDups : List ArtifactIm :=
  [⟨Name.lit c!"SPC-a", c!"/a.md", [], none, []⟩, ⟨Name.lit c!"SPC-b", c!"/a.md", [], none, []⟩,
   ⟨Name.lit c!"SPC-A", c!"/b.md", [], none, []⟩, ⟨Name.lit c!"spc-a", c!"/c.md", [], none, []⟩]

example : (joinArtifacts exDups).lints.map (fun x => (x.path, x.msg)) =
    [(some c!"/a.md", c!"duplicate name detected: SPC-A in /a.md"), (some c!"/b.md", c!"duplicate name detected: SPC-A in /b.md"),
     (some c!"/b.md", c!"duplicate name detected: spc-a in /b.md"), (some c!"/c.md", c!"duplicate name detected: spc-a in /c.md")] := by
  decide
example : (joinArtifacts (exDups.take 2)).lints = [] ∧ (exDups.take 2).length = 2 := by decide

/-- The check covers different files only for TOML and JSON: two definitions in one such file whose names differ in case are read as one
artifact, the first definition is lost and nothing is reported. -/
theorem C11_one_file_lost (L : Libs) (t : Str)
    (h : L.tomlRead t = some [(c!"SPC-a", ⟨some c!"one", none, none⟩), (c!"SPC-A", ⟨some c!"two", none, none⟩)]) :
    loadFile L [] c!"/a.toml" (.text t) = .ok ([⟨Name.lit c!"SPC-a", c!"/a.toml", [], some c!"two", []⟩], []) := by
  have e : ArtFileType.fromPath c!"/a.toml" = some .toml := by decide
  unfold loadFile
  rw [e]
  simp only [parseFile, h]
  have e2 : mapDe [(c!"SPC-a", ⟨some c!"one", none, none⟩), (c!"SPC-A", ⟨some c!"two", none, none⟩)] [] =
      .ok [(Name.lit c!"SPC-a", ⟨some c!"two", none, none⟩)] := by decide
  rw [e2]
  rfl

/-! ## C43 -/

/-- A clean artifact survives the conversion to the raw form and back. -/
theorem C43_roundtrip (a : ArtifactIm) (hn : ISet.Nodup a.partof) (hc : a.clean = a) :
    fromRaw (intoRaw a).2.1 (intoRaw a).1 (intoRaw a).2.2 = a := by
  have hp : sortNames (stripAuto a.name a.partof) = a.partof := congrArg ArtifactIm.partof hc
  unfold fromRaw intoRaw
  simp only
  cases a with
  | mk name file partof done text =>
    simp only at *
    congr 1
    · cases partof with
      | nil => rfl
      | cons x l =>
        simp only [List.isEmpty_cons, Bool.false_eq_true, if_false]
        rw [ISet.collect_of_nodup (nodup_stripAuto hn)]
        exact hp
    · cases text <;> rfl

/-- Converting a raw artifact and back only cleans it: automatic links are dropped, links sorted, nothing stays as an empty list. -/
theorem C43_raw_normal (n : Name) (file : FilePath) (r : ArtifactRaw) (hr : ∀ p, r.partof = some p → ISet.Nodup p) :
    let r' := (intoRaw (fromRaw n file r)).2.2
    r'.done = r.done ∧ r'.text.getD [] = r.text.getD [] ∧
    (∀ q : Name, (∃ p, r'.partof = some p ∧ q ∈ p) ↔ (∃ p, r.partof = some p ∧ q ∈ p ∧ ¬ AutoLink n q)) ∧
    r'.partof ≠ some [] ∧ r'.text ≠ some [] := by
  intro r'
  have hpart : r'.partof = if (fromRaw n file r).partof.isEmpty then none else some (fromRaw n file r).partof := rfl
  have htext : r'.text = if (fromRaw n file r).text.isEmpty then none else some (fromRaw n file r).text := rfl
  refine ⟨rfl, ?_, fun q => ?_, ?_, ?_⟩
  · rw [htext]
    show (if (r.text.getD []).isEmpty then none else some (r.text.getD [])).getD [] = _
    cases r.text.getD [] <;> rfl
  · have key1 : (∃ p, r'.partof = some p ∧ q ∈ p) ↔ q ∈ (fromRaw n file r).partof := by
      rw [hpart]
      cases (fromRaw n file r).partof <;> simp
    rw [key1]
    unfold fromRaw
    simp only
    cases hp : r.partof with
    | none => simp
    | some p =>
      simp only [Option.some.injEq, exists_eq_left']
      have hnp := hr p hp
      rw [ISet.collect_of_nodup (nodup_stripAuto hnp), (sortNames_perm _).mem_iff, mem_stripAuto hnp, isAuto_iff]
  · rw [hpart]; cases (fromRaw n file r).partof <;> simp
  · rw [htext]; cases (fromRaw n file r).text <;> simp

theorem namesRawSer_ok {l : ISet Name} (h : l ≠ []) : ∃ d, namesRawSer l = .ok d := by
  match l, h with
  | [n], _ => exact ⟨_, rfl⟩
  | a :: b :: l, _ => exact ⟨_, rfl⟩

theorem partofText_ok {l : ISet Name} (h : l ≠ []) : ∃ d, partofText l = .ok d := by
  match l, h with
  | [n], _ => exact ⟨_, rfl⟩
  | a :: b :: l, _ => exact ⟨_, rfl⟩

/-- What is saved never makes a serialiser panic: neither the document form nor markdown, for any artifacts. -/
theorem C43_no_panic (L : Libs) (pre : Str) (ma : MdAttrs) (ims : List ArtifactIm) :
    (∃ d, mapSer (ims.map (fun a => ((intoRaw a).2.1, (intoRaw a).2.2))) = .ok d) ∧
    (∃ s, toMarkdown L pre ma (ims.map (fun a => ((intoRaw a).2.1, (intoRaw a).2.2))) = .ok s) := by
  have hne : ∀ a : ArtifactIm, (intoRaw a).2.2.partof = none ∨ ∃ l, (intoRaw a).2.2.partof = some l ∧ l ≠ [] := by
    intro a
    show (if a.partof.isEmpty then none else some a.partof) = none ∨ ∃ l, (if a.partof.isEmpty then none else some a.partof) = some l ∧ l ≠ []
    cases a.partof <;> simp
  constructor
  · refine Res.mapM'_ok_of ?_
    intro x hx
    obtain ⟨a, _, rfl⟩ := List.mem_map.1 hx
    have : ∃ d, artDocSer (intoRaw a).2.2 = .ok d := by
      unfold artDocSer
      rcases hne a with h | ⟨l, h, hl⟩
      · rw [h]; exact ⟨_, rfl⟩
      · obtain ⟨d, hd⟩ := namesRawSer_ok hl
        rw [h]; simp only [hd]; exact ⟨_, rfl⟩
    obtain ⟨d, hd⟩ := this
    exact ⟨((intoRaw a).2.1.raw, d), by simp only [hd]; rfl⟩
  · have hattrs : ∀ out a, ∃ s, pushAttrs L ma out (intoRaw a).2.2 = .ok s := by
      intro out a
      unfold pushAttrs
      rcases hne a with h | ⟨l, h, hl⟩
      · rw [h]; exact ⟨_, rfl⟩
      · obtain ⟨d, hd⟩ := partofText_ok hl
        rw [h]; simp only [hd]; exact ⟨_, rfl⟩
    have hart : ∀ out a, ∃ s, pushArtifact L pre ma out (intoRaw a).2.1 (intoRaw a).2.2 = .ok s := by
      intro out a
      unfold pushArtifact
      simp only
      split
      · obtain ⟨s, hs⟩ := hattrs (out ++ pre ++ c!"# " ++ (intoRaw a).2.1.raw ++ ['\n']) a
        rw [hs]; exact ⟨_, rfl⟩
      · exact ⟨_, rfl⟩
    have hall : ∀ out, ∃ s, pushAll L pre ma out (ims.map (fun a => ((intoRaw a).2.1, (intoRaw a).2.2))) = .ok s := by
      induction ims with
      | nil => intro out; exact ⟨_, rfl⟩
      | cons a ims ih =>
        intro out
        obtain ⟨s, hs⟩ := hart out a
        obtain ⟨t, ht⟩ := ih s
        refine ⟨t, ?_⟩
        simp only [List.map_cons, pushAll, hs]
        exact ht
    obtain ⟨s, hs⟩ := hall []
    exact ⟨trimEnd s, by unfold toMarkdown; rw [hs]; rfl⟩

/-- The panic that is avoided is real. -/
theorem C43_empty_panics : namesRawSer [] = .panic ∧ partofText [] = .panic := ⟨rfl, rfl⟩

example : ∃ a : ArtifactIm, ISet.Nodup a.partof ∧ a.clean = a ∧ a.partof.length = 2 ∧ a.text = c!"x\ny\n" := by
  refine ⟨⟨Name.lit c!"SPC-A", c!"/a.md", [Name.lit c!"REQ-b", Name.lit c!"SPC-c"], none, c!"x\ny\n"⟩, ?_, ?_, ?_, ?_⟩
  · unfold ISet.Nodup; decide
  · decide
  · decide
  · rfl

end Art
