import Verif.Lemmas.Topo
import Verif.Lemmas.Avg

/-! # Loaded projects -/

namespace Art
open Spec

/-- `arts` is a possible outcome of loading the artifacts `ims` with the code references `code`: whatever topological order the library
picks. Composition of artifact-data/src/artifact.rs L37-56 and L61-117 as in artifact-data/src/project.rs L43-182. -/
def Loads (hash : ArtifactIm → HashIm) (ims : IMap Name ArtifactIm) (code : IMap Name ImplCode)
    (defined : IMap Name FilePath) (arts : IMap Name Artifact) : Prop :=
  ∃ l topo, finalizeLoadArtifact ims = .ok l ∧ DiGraph.TopoContract l.graphs.full topo ∧
    determineArtifacts hash topo l code defined = .ok arts

/-- What `join_artifacts_raw` guarantees about its two results: both are maps (no name twice), with the
same names. -/
structure LoadInput (ims : IMap Name ArtifactIm) (defined : IMap Name FilePath) : Prop where
  nodup : IMap.Nodup ims
  dnodup : IMap.Nodup defined
  keys : ∀ n, IMap.contains defined n = true ↔ IMap.contains ims n = true

section
variable {hash : ArtifactIm → HashIm} {ims : IMap Name ArtifactIm} {code : IMap Name ImplCode}
  {defined : IMap Name FilePath} {arts : IMap Name Artifact}

/-- Everything known about a loaded artifact. -/
structure ArtSpec (hash : ArtifactIm → HashIm) (ims : IMap Name ArtifactIm) (code : IMap Name ImplCode) (as : List Artifact)
    (a : Artifact) (im : ArtifactIm) : Prop where
  mem : IMap.get? ims a.name = some im
  id : a.id = hash im
  text : a.text = im.text
  impl : a.impl = implOf code (a.name, im)
  subs : parseSubnames im.text = .ok a.subnames
  pnodup : ISet.Nodup a.partof
  partOf : ∀ q : Name, PartOf a q ↔
    (∃ x ∈ im.partof, key x = key q) ∨ (AutoLink a.name q ∧ ∃ x ∈ ims, key x.1 = key q)
  partsNodup : ISet.Nodup a.parts
  parts : ∀ q : Name, (∃ x ∈ a.parts, key x = key q) ↔ ∃ b ∈ as, key b.name = key q ∧ PartOf b a.name

theorem Loads.spec (inp : LoadInput ims defined) (h : Loads hash ims code defined arts) :
    arts.map Prod.fst = defined.map Prod.fst ∧ (∀ x ∈ arts, x.2.name = x.1) ∧
    (arts.map Prod.snd).map (fun a => a.file) = defined.map Prod.snd ∧
    ((arts.map Prod.snd).map (fun a => key a.name)).Nodup ∧
    (∀ n, (∃ a ∈ arts.map Prod.snd, key a.name = key n) ↔ IMap.contains ims n = true) ∧
    (∀ a ∈ arts.map Prod.snd, ∃ im, ArtSpec hash ims code (arts.map Prod.snd) a im) ∧
    (Cyclic (arts.map Prod.snd) → ∀ a ∈ arts.map Prod.snd, a.completed = ⟨0, 0⟩) ∧
    (¬ Cyclic (arts.map Prod.snd) → ∃ spc tst, CompletionRule (arts.map Prod.snd) spc tst ∧
      ∀ a ∈ arts.map Prod.snd, a.completed = ⟨roundRatio (spc (key a.name)), roundRatio (tst (key a.name))⟩) := by
  obtain ⟨l, topo, hl, ht, ha⟩ := h
  obtain ⟨b1, b2, b3, b4⟩ := determineArtifacts_built inp.nodup hl inp.dnodup ha
  obtain ⟨hg, hag⟩ := agrees_of_load inp.nodup hl inp.dnodup inp.keys ha
  obtain ⟨cm, hcm, hcc⟩ := completed_of_load inp.nodup hl inp.dnodup ha
  obtain ⟨l', hl', e1, e2, e3, e4, e5, e6, e7⟩ := finalizeLoad_ok inp.nodup
  rw [hl] at hl'
  cases Res.ok.inj hl'
  have hfst : (arts.map Prod.snd).map (fun a => a.name) = defined.map Prod.fst := by
    rw [List.map_map, ← b1]
    exact List.map_congr_left (fun x hx => b2 x hx)
  have hkeys : ∀ n, (∃ a ∈ arts.map Prod.snd, key a.name = key n) ↔ IMap.contains ims n = true := by
    intro n
    rw [← inp.keys, IMap.contains_iff]
    have h1 : (∃ a ∈ arts.map Prod.snd, key a.name = key n) ↔
        ∃ x ∈ (arts.map Prod.snd).map (fun a => a.name), key x = key n := by
      generalize arts.map Prod.snd = L
      simp
    have h2 : (∃ p ∈ defined, key p.1 = key n) ↔ ∃ x ∈ defined.map Prod.fst, key x = key n := by simp
    rw [h1, h2, hfst]
  refine ⟨b1, b2, b3, hag.nodup, hkeys, ?_, ?_, ?_⟩
  · intro a haa
    obtain ⟨x, hx, rfl⟩ := List.mem_map.1 haa
    obtain ⟨im, hb⟩ := b4 x hx
    obtain ⟨m, hm1, hm2, hm3⟩ := C05_partof_shown ims inp.nodup
    rw [e2] at hm1
    have hml := Res.ok.inj hm1
    obtain ⟨n, hk, hmem⟩ := IMap.mem_of_get? hb.mem
    obtain ⟨P, hP, hPn, hPq⟩ := hm3 n im hmem
    have hPe : P = x.2.partof := by
      rw [← hml, IMap.get?_congr _ hk, hb.partof] at hP
      exact (Option.some.inj hP).symm
    subst hPe
    obtain ⟨S, hS⟩ : ∃ S, IMap.get? l.subnames x.2.name = some S := ⟨_, hb.subs⟩
    obtain ⟨im', him', hps⟩ := e7 _ _ hb.subs
    rw [hb.mem] at him'
    cases him'
    obtain ⟨parts, hp, hp1, hp2, hp3⟩ := determineParts_ok e4
    rw [e5] at hp
    have hpe := Res.ok.inj hp
    have hpar := hb.parts
    rw [hpe] at hpar
    obtain ⟨hq1, hq2⟩ := hp3 _ _ hpar
    refine ⟨im, hb.mem, hb.id, hb.text, hb.impl, hps, hPn, ?_, hq1, ?_⟩
    · intro q
      unfold PartOf
      rw [hPq q]
      refine or_congr_right (and_congr_left fun _ => ?_)
      exact ⟨fun hh => autoLink_congr hk hh, fun hh => autoLink_congr hk.symm hh⟩
    · intro q
      rw [← ISet.contains_iff, hq2]
      constructor
      · rintro ⟨p, hp, hk, hc⟩
        obtain ⟨b, hb, hkb⟩ := hag.only p.1 (Or.inl (IMap.contains_iff.2 ⟨p, hp, rfl⟩))
        refine ⟨b, hb, hkb.trans hk, ?_⟩
        obtain ⟨P, hP, hPq⟩ := hag.partof b hb
        rw [IMap.get?_congr _ hkb, IMap.get?_of_mem hag.pnodup hp] at hP
        cases hP
        rw [← contains_partOf, ← hPq]; exact hc
      · rintro ⟨b, hb, hk, hpo⟩
        obtain ⟨P, hP, hPq⟩ := hag.partof b hb
        obtain ⟨n', hk', hm'⟩ := IMap.mem_of_get? hP
        exact ⟨_, hm', hk'.trans hk, by rw [hPq, contains_partOf]; exact hpo⟩
  · intro hc a haa
    have htn := (cyclic_iff_topo hg hag ht).2 hc
    subst htn
    obtain ⟨x, hx, rfl⟩ := List.mem_map.1 haa
    have h1 := hcc x hx
    have h2 := Res.ok.inj hcm
    rw [← h2] at h1
    rw [IMap.collect_of_nodup (IMap.nodup_of_fst hag.inodup (by rw [List.map_map]; rfl)),
      IMap.get?_map_val _ (fun _ => ({ spc := 0, tst := 0 } : Completed)) (fun _ _ _ _ => rfl)] at h1
    obtain ⟨v, hv⟩ : ∃ v, IMap.get? (determineImpls ims code) x.2.name = some v := ⟨_, hag.impl _ haa⟩
    rw [hv] at h1
    exact (Option.some.inj h1).symm
  · intro hc
    cases topo with
    | none => exact absurd ((cyclic_iff_topo hg hag ht).1 rfl) hc
    | some order =>
      obtain ⟨cm', spc, tst, h1, h2, _, _, h5⟩ := determineCompleted_ok hg hag ht
      rw [hcm] at h1
      cases Res.ok.inj h1
      refine ⟨spc, tst, h2, fun a haa => ?_⟩
      obtain ⟨x, hx, rfl⟩ := List.mem_map.1 haa
      have := h5 _ haa
      rw [hcc x hx] at this
      exact Option.some.inj this

theorem Loads.exists (inp : LoadInput ims defined) : ∃ l, finalizeLoadArtifact ims = .ok l ∧
    ∀ topo, DiGraph.TopoContract l.graphs.full topo → ∃ arts, determineArtifacts hash topo l code defined = .ok arts := by
  obtain ⟨l, hl, _⟩ := finalizeLoad_ok inp.nodup
  exact ⟨l, hl, fun topo ht => determineArtifacts_total inp.nodup hl inp.dnodup inp.keys ht⟩

end

/-! ## consequences of the completion rule -/

section Rule
variable {arts arts' : List Artifact} {S T S' T' : Ty × Str → ℚ}

theorem unit_ownSlots (i : Impl) (subs : List SubName) : ∀ x ∈ ownSlots i subs, Unit01 x := by
  intro x hx
  unfold ownSlots at hx
  unfold Unit01
  split at hx
  · simp only [List.mem_singleton] at hx; subst hx; norm_num
  · rw [List.mem_cons, List.mem_map] at hx
    rcases hx with rfl | ⟨s, _, rfl⟩
    · split <;> norm_num
    · unfold subDone; split <;> norm_num
  · split at hx
    · simp at hx
    · rw [List.mem_replicate] at hx; rw [hx.2]; norm_num

theorem unit_ownTests (i : Impl) (subs : List SubName) : ∀ x ∈ ownTests i subs, Unit01 x := by
  intro x hx
  unfold ownTests at hx
  unfold Unit01
  split at hx
  · simp only [List.mem_singleton] at hx; subst hx; norm_num
  · rw [List.mem_map] at hx
    obtain ⟨s, _, rfl⟩ := hx
    unfold subDone; split <;> norm_num
  · simp at hx

theorem directPart_of_mem {a b : Artifact} (ha : a ∈ arts) (hb : b ∈ partsIn arts a.name) : DirectPart arts b a := by
  unfold partsIn at hb
  rw [List.mem_filter, decide_eq_true_eq] at hb
  exact ⟨hb.1, ha, hb.2⟩

theorem rule_bounds (h : CompletionRule arts S T) (hc : ¬ Cyclic arts) :
    ∀ a ∈ arts, Unit01 (S (key a.name)) ∧ Unit01 (T (key a.name)) := by
  intro a
  induction a using (directPart_wf hc).induction with
  | _ a ih =>
    intro ha
    have hp : ∀ b ∈ partsIn arts a.name, Unit01 (S (key b.name)) ∧ Unit01 (T (key b.name)) :=
      fun b hb => ih b (directPart_of_mem ha hb) (directPart_of_mem ha hb).1
    by_cases ht : a.name.ty = .TST
    · have hS : Unit01 (S (key a.name)) := by
        rw [h.test a ha ht]
        refine avg_bounds fun x hx => ?_
        rcases List.mem_append.1 hx with hx | hx
        · exact unit_ownSlots _ _ x hx
        · obtain ⟨b, hb, rfl⟩ := List.mem_map.1 hx
          exact (hp b hb).1
      exact ⟨hS, by rw [h.test_tst a ha ht]; exact hS⟩
    · constructor
      · rw [h.other a ha ht]
        refine avg_bounds fun x hx => ?_
        rcases List.mem_append.1 hx with hx | hx
        · exact unit_ownSlots _ _ x hx
        · obtain ⟨b, hb, rfl⟩ := List.mem_map.1 hx
          exact (hp b (List.mem_filter.1 hb).1).1
      · rw [h.other_tst a ha ht]
        refine avg_bounds fun x hx => ?_
        rcases List.mem_append.1 hx with hx | hx
        · exact unit_ownTests _ _ x hx
        · obtain ⟨b, hb, rfl⟩ := List.mem_map.1 hx
          exact (hp b hb).2

theorem partOf_congr (b : Artifact) {n n' : Name} (h : key n = key n') : PartOf b n ↔ PartOf b n' := by
  unfold PartOf; rw [h]

/-- Matching artifacts (of the kinds selected by `q`) have the same parts of these kinds. -/
theorem parts_perm (q : Ty → Bool) (hn : (arts.map (fun a => key a.name)).Nodup)
    (hn' : (arts'.map (fun a => key a.name)).Nodup)
    (H : ∀ a ∈ arts, q a.name.ty = true → ∃ a' ∈ arts', key a'.name = key a.name ∧ ∀ n, PartOf a n ↔ PartOf a' n)
    (H' : ∀ a ∈ arts', q a.name.ty = true → ∃ a' ∈ arts, key a'.name = key a.name ∧ ∀ n, PartOf a n ↔ PartOf a' n)
    {n n' : Name} (hk : key n = key n') :
    (((partsIn arts n).filter (fun b => q b.name.ty)).map (fun b => key b.name)).Perm
      (((partsIn arts' n').filter (fun b => q b.name.ty)).map (fun b => key b.name)) := by
  have nd : ∀ {l : List Artifact}, (l.map (fun a => key a.name)).Nodup → ∀ m,
      (((partsIn l m).filter (fun b => q b.name.ty)).map (fun b => key b.name)).Nodup := by
    intro l hl m
    exact hl.sublist (((List.filter_sublist).trans List.filter_sublist).map _)
  have half : ∀ {l l' : List Artifact} {m m' : Name}, key m = key m' →
      (∀ a ∈ l, q a.name.ty = true → ∃ a' ∈ l', key a'.name = key a.name ∧ ∀ n, PartOf a n ↔ PartOf a' n) →
      ∀ k, k ∈ ((partsIn l m).filter (fun b => q b.name.ty)).map (fun b => key b.name) →
        k ∈ ((partsIn l' m').filter (fun b => q b.name.ty)).map (fun b => key b.name) := by
    intro l l' m m' hk H k hkm
    obtain ⟨b, hb, rfl⟩ := List.mem_map.1 hkm
    unfold partsIn at hb
    rw [List.mem_filter, List.mem_filter, decide_eq_true_eq] at hb
    obtain ⟨b', hb', hkb, hpo⟩ := H b hb.1.1 hb.2
    refine List.mem_map.2 ⟨b', ?_, hkb⟩
    unfold partsIn
    rw [List.mem_filter, List.mem_filter, decide_eq_true_eq]
    have hty : b'.name.ty = b.name.ty := congrArg Prod.fst hkb
    exact ⟨⟨hb', (hpo m').1 ((partOf_congr b hk).1 hb.1.2)⟩, by rw [hty]; exact hb.2⟩
  refine (List.perm_ext_iff_of_nodup (nd hn n) (nd hn' n')).2 fun k => ⟨half hk H k, half hk.symm H' k⟩

theorem map_parts_perm {l l' : List Artifact} (h : (l.map (fun b => key b.name)).Perm (l'.map (fun b => key b.name)))
    (f : Ty × Str → ℚ) : (l.map (fun b => f (key b.name))).Perm (l'.map (fun b => f (key b.name))) := by
  have := h.map f
  rw [List.map_map, List.map_map] at this
  exact this

end Rule

end Art
