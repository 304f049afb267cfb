import Verif.Lemmas.Completion
import Verif.Props.Text
import Verif.Props.Scan

/-! # Helper lemmas about building the artifacts of a project -/

namespace Art
open Spec

section MapKeys
variable {α β γ κ : Type} [HasKey α κ] [DecidableEq κ]

omit [DecidableEq κ] in
theorem IMap.nodup_of_fst {m : IMap α β} {m' : IMap α γ} (h : IMap.Nodup m) (e : m'.map Prod.fst = m.map Prod.fst) :
    IMap.Nodup m' := by
  unfold IMap.Nodup at *
  have h1 : m.map (fun p => key p.1) = (m.map Prod.fst).map key := by rw [List.map_map]; rfl
  have h2 : m'.map (fun p => key p.1) = (m'.map Prod.fst).map key := by rw [List.map_map]; rfl
  rw [h2, e, ← h1]; exact h

theorem IMap.get?_map_val (m : IMap α β) (f : α × β → γ) (hf : ∀ a a' b, key a = key a' → f (a, b) = f (a', b)) (a : α) :
    IMap.get? (m.map (fun p => (p.1, f p))) a = (IMap.get? m a).map (fun b => f (a, b)) := by
  induction m with
  | nil => rfl
  | cons p m ih =>
    obtain ⟨a', b⟩ := p
    simp only [List.map_cons, IMap.get?]
    split
    · rename_i h; simp [hf _ _ b h]
    · exact ih

theorem IMap.contains_of_fst {m : IMap α β} {m' : IMap α γ} (e : m'.map Prod.fst = m.map Prod.fst) (a : α) :
    IMap.contains m' a = true ↔ IMap.contains m a = true := by
  rw [IMap.contains_iff, IMap.contains_iff]
  have h1 : (∃ p ∈ m', key p.1 = key a) ↔ ∃ x ∈ m'.map Prod.fst, key x = key a := by simp
  have h2 : (∃ p ∈ m, key p.1 = key a) ↔ ∃ x ∈ m.map Prod.fst, key x = key a := by simp
  rw [h1, h2, e]

end MapKeys

theorem implOf_congr (code : IMap Name ImplCode) (a a' : Name) (im : ArtifactIm) (h : key a = key a') :
    implOf code (a, im) = implOf code (a', im) := by
  unfold implOf
  simp only
  rw [IMap.get?_congr code h]

theorem determineImpls_eq {ims : IMap Name ArtifactIm} (h : IMap.Nodup ims) (code : IMap Name ImplCode) :
    determineImpls ims code = ims.map (fun p => (p.1, implOf code p)) := by
  unfold determineImpls
  apply IMap.collect_of_nodup
  exact IMap.nodup_of_fst h (by rw [List.map_map]; rfl)

theorem determineSubnames_ok {ims : IMap Name ArtifactIm} (h : IMap.Nodup ims) :
    ∃ subs, determineSubnames ims = .ok subs ∧ subs.map Prod.fst = ims.map Prod.fst ∧
      ∀ n S, IMap.get? subs n = some S → ∃ im, IMap.get? ims n = some im ∧ parseSubnames im.text = .ok S := by
  obtain ⟨l, hl⟩ := Res.mapM'_ok_of (f := subnamesOf) (l := ims) (by
    intro p _
    obtain ⟨S, hS, _⟩ := C08_subnames p.2.text
    exact ⟨(p.1, S), by unfold subnamesOf; rw [hS]; rfl⟩)
  have hf := Res.mapM'_eq_ok.1 hl
  have hsub : ∀ x : Name × ArtifactIm, ∀ y, subnamesOf x = .ok y → y.1 = x.1 ∧ parseSubnames x.2.text = .ok y.2 := by
    intro x y hxy
    unfold subnamesOf at hxy
    obtain ⟨S, hS, e⟩ := Res.bind_eq_ok.1 hxy
    cases e
    exact ⟨rfl, hS⟩
  have hfst : l.map Prod.fst = ims.map Prod.fst := forall₂_map_eq hf (fun x _ y hxy => (hsub x y hxy).1)
  have hnd := IMap.nodup_of_fst h hfst
  refine ⟨l, ?_, hfst, ?_⟩
  · unfold determineSubnames
    rw [hl]
    simp only [Res.bind_ok, Res.pure_def]
    rw [IMap.collect_of_nodup hnd]
  · intro n S hS
    obtain ⟨m, hk, hm⟩ := IMap.mem_of_get? hS
    obtain ⟨x, hx, hxy⟩ := forall₂_mem_right hf hm
    obtain ⟨e1, e2⟩ := hsub _ _ hxy
    refine ⟨x.2, ?_, e2⟩
    simp only at e1
    rw [← IMap.get?_congr ims hk, e1]
    exact IMap.get?_of_mem h hx

/-- The result of `finalize_load_artifact`. -/
theorem finalizeLoad_ok {ims : IMap Name ArtifactIm} (h : IMap.Nodup ims) :
    ∃ l, finalizeLoadArtifact ims = .ok l ∧ l.ims = ims ∧ determinePartofs ims = .ok l.partofs ∧
      l.partofs.map Prod.fst = ims.map Prod.fst ∧ GraphsFor l.partofs l.graphs ∧
      determineParts l.graphs = .ok l.parts ∧ l.subnames.map Prod.fst = ims.map Prod.fst ∧
      ∀ n S, IMap.get? l.subnames n = some S → ∃ im, IMap.get? ims n = some im ∧ parseSubnames im.text = .ok S := by
  obtain ⟨subs, h1, h2, h3⟩ := determineSubnames_ok h
  obtain ⟨m, h4, h5, _⟩ := C05_partof_shown ims h
  obtain ⟨g, h6, h7⟩ := determineGraphs_ok m
  obtain ⟨parts, h8, _⟩ := determineParts_ok h7
  refine ⟨⟨ims, g, m, parts, subs⟩, ?_, rfl, h4, h5, h7, h8, h2, h3⟩
  unfold finalizeLoadArtifact
  rw [h1, h4]
  simp only [Res.bind_ok]
  rw [h6]
  simp only [Res.bind_ok]
  rw [h8]
  rfl

/-- What is known about an artifact built from the editable forms `ims` and the code references `code`. -/
structure BuiltFrom (hash : ArtifactIm → HashIm) (ims : IMap Name ArtifactIm) (code : IMap Name ImplCode) (l : ArtifactsLoaded)
    (a : Artifact) (im : ArtifactIm) : Prop where
  mem : IMap.get? ims a.name = some im
  id : a.id = hash im
  text : a.text = im.text
  impl : a.impl = implOf code (a.name, im)
  partof : IMap.get? l.partofs a.name = some a.partof
  parts : IMap.get? l.parts a.name = some a.parts
  subs : IMap.get? l.subnames a.name = some a.subnames

theorem buildArtifact_eq_ok {l : ArtifactsLoaded} {impls completed ids} {p : Name × FilePath} {y : Name × Artifact} :
    buildArtifact l impls completed ids p = .ok y ↔ y.1 = p.1 ∧ y.2.name = p.1 ∧ y.2.file = p.2 ∧
      IMap.get? ids p.1 = some y.2.id ∧ IMap.get? l.partofs p.1 = some y.2.partof ∧
      IMap.get? l.parts p.1 = some y.2.parts ∧ IMap.get? completed p.1 = some y.2.completed ∧
      (∃ im, IMap.get? l.ims p.1 = some im ∧ y.2.text = im.text) ∧ IMap.get? impls p.1 = some y.2.impl ∧
      IMap.get? l.subnames p.1 = some y.2.subnames := by
  unfold buildArtifact
  simp only [Res.bind_eq_ok, index_eq_ok, Res.pure_def]
  constructor
  · rintro ⟨id, h1, pa, h2, ps, h3, c, h4, im, h5, i, h6, s, h7, e⟩
    cases Res.ok.inj e
    exact ⟨rfl, rfl, rfl, h1, h2, h3, h4, ⟨im, h5, rfl⟩, h6, h7⟩
  · rintro ⟨e1, e2, e3, h1, h2, h3, h4, ⟨im, h5, e5⟩, h6, h7⟩
    refine ⟨_, h1, _, h2, _, h3, _, h4, _, h5, _, h6, _, h7, ?_⟩
    obtain ⟨n, a⟩ := y
    obtain ⟨_, _, _, _, _, _, _, _, _⟩ := a
    simp only at e1 e2 e3 e5 ⊢
    subst e1 e2 e3 e5
    rfl

section Run
variable {hash : ArtifactIm → HashIm} {ims : IMap Name ArtifactIm} {code : IMap Name ImplCode}
  {defined : IMap Name FilePath} {l : ArtifactsLoaded} {topo : Option (List Nat)}

theorem ids_nodup (h : IMap.Nodup ims) : IMap.collect (ims.map (fun p => (p.1, hash p.2))) =
    ims.map (fun p => (p.1, hash p.2)) :=
  IMap.collect_of_nodup (IMap.nodup_of_fst h (by rw [List.map_map]; rfl))

/-- Artifacts that are built agree with the maps they were built from. -/
theorem agrees_of_built (h : IMap.Nodup ims) (hd : IMap.Nodup defined)
    (hkeys : ∀ n, IMap.contains defined n = true ↔ IMap.contains ims n = true)
    (hl : determinePartofs ims = .ok l.partofs ∧ l.partofs.map Prod.fst = ims.map Prod.fst ∧
      l.subnames.map Prod.fst = ims.map Prod.fst) (as : List Artifact)
    (hfst : as.map (fun a => a.name) = defined.map Prod.fst)
    (hb : ∀ a ∈ as, ∃ im, IMap.get? ims a.name = some im ∧ a.impl = implOf code (a.name, im) ∧
      IMap.get? l.partofs a.name = some a.partof ∧ IMap.get? l.subnames a.name = some a.subnames) :
    Agrees as l.partofs (determineImpls ims code) l.subnames := by
  have himp := determineImpls_eq h code
  refine ⟨?_, IMap.nodup_of_fst h hl.2.1, ?_, ?_, ?_, ?_, ?_⟩
  · have h1 : as.map (fun a => key a.name) = (as.map (fun a => a.name)).map key := by rw [List.map_map]; rfl
    rw [h1, hfst, List.map_map]
    exact hd
  · rw [himp]; exact IMap.nodup_of_fst h (by rw [List.map_map]; rfl)
  · intro a ha
    obtain ⟨im, _, _, h3, _⟩ := hb a ha
    exact ⟨_, h3, fun _ => rfl⟩
  · intro a ha
    obtain ⟨im, h1, h2, _⟩ := hb a ha
    rw [himp, IMap.get?_map_val _ _ (fun a a' b e => implOf_congr code a a' b e), h1, h2]
    rfl
  · intro a ha
    obtain ⟨im, _, _, _, h4⟩ := hb a ha
    exact ⟨_, h4, rfl⟩
  · intro n hn
    have : IMap.contains ims n = true := by
      rcases hn with hn | hn | hn
      · exact (IMap.contains_of_fst hl.2.1 n).1 hn
      · rw [himp] at hn
        exact (IMap.contains_of_fst (by rw [List.map_map]; rfl) n).1 hn
      · exact (IMap.contains_of_fst hl.2.2 n).1 hn
    rw [← hkeys, IMap.contains_iff] at this
    obtain ⟨p, hp, hk⟩ := this
    have : p.1 ∈ as.map (fun a => a.name) := by rw [hfst]; exact List.mem_map.2 ⟨p, hp, rfl⟩
    obtain ⟨a, ha, e⟩ := List.mem_map.1 this
    exact ⟨a, ha, by rw [e]; exact hk⟩

/-- The result of `determine_artifacts` (first half: what is built). -/
theorem determineArtifacts_built (h : IMap.Nodup ims) (hl : finalizeLoadArtifact ims = .ok l)
    {arts : IMap Name Artifact} (hd : IMap.Nodup defined) (ha : determineArtifacts hash topo l code defined = .ok arts) :
    arts.map Prod.fst = defined.map Prod.fst ∧ (∀ x ∈ arts, x.2.name = x.1) ∧
      (arts.map Prod.snd).map (fun a => a.file) = defined.map Prod.snd ∧
      ∀ x ∈ arts, ∃ im, BuiltFrom hash ims code l x.2 im := by
  obtain ⟨l', hl', e1, e2, e3, e4, e5, e6, e7⟩ := finalizeLoad_ok h
  rw [hl] at hl'
  cases Res.ok.inj hl'
  unfold determineArtifacts at ha
  simp only at ha
  obtain ⟨cm, hcm, ha⟩ := Res.bind_eq_ok.1 ha
  obtain ⟨out, hout, ha⟩ := Res.bind_eq_ok.1 ha
  rw [e1, ids_nodup h] at hout
  have hf := Res.mapM'_eq_ok.1 hout
  have hfst : out.map Prod.fst = defined.map Prod.fst :=
    forall₂_map_eq hf (fun x _ y hxy => (buildArtifact_eq_ok.1 hxy).1)
  have hnd := IMap.nodup_of_fst hd hfst
  have hc : arts = out := by
    have := Res.ok.inj ha
    rw [IMap.collect_of_nodup hnd] at this
    exact this.symm
  subst hc
  have hmem : ∀ y ∈ arts, ∃ x ∈ defined, buildArtifact l (determineImpls ims code) cm
      (ims.map (fun p => (p.1, hash p.2))) x = .ok y := fun y hy => forall₂_mem_right hf hy
  refine ⟨hfst, ?_, ?_, ?_⟩
  · intro y hy
    obtain ⟨x, _, hxy⟩ := hmem y hy
    obtain ⟨h1, h2, _⟩ := buildArtifact_eq_ok.1 hxy
    rw [h1, h2]
  · rw [List.map_map]
    exact forall₂_map_eq hf (fun x _ y hxy => (buildArtifact_eq_ok.1 hxy).2.2.1)
  · intro y hy
    obtain ⟨x, _, hxy⟩ := hmem y hy
    obtain ⟨h1, h2, h3, h4, h5, h6, h7, ⟨im, h8, h9⟩, h10, h11⟩ := buildArtifact_eq_ok.1 hxy
    rw [e1] at h8
    refine ⟨im, ?_⟩
    rw [IMap.get?_map_val ims (fun p => hash p.2) (fun _ _ _ _ => rfl), h8] at h4
    rw [determineImpls_eq h, IMap.get?_map_val ims _ (fun a a' b e => implOf_congr code a a' b e), h8] at h10
    refine ⟨by rw [h2, h8], (Option.some.inj h4).symm, h9, ?_, by rw [h2, h5], by rw [h2, h6], by rw [h2, h11]⟩
    rw [h2]; exact (Option.some.inj h10).symm

theorem agrees_of_load (h : IMap.Nodup ims) (hl : finalizeLoadArtifact ims = .ok l)
    {arts : IMap Name Artifact} (hd : IMap.Nodup defined)
    (hkeys : ∀ n, IMap.contains defined n = true ↔ IMap.contains ims n = true)
    (ha : determineArtifacts hash topo l code defined = .ok arts) :
    GraphsFor l.partofs l.graphs ∧ Agrees (arts.map Prod.snd) l.partofs (determineImpls ims code) l.subnames := by
  obtain ⟨l', hl', e1, e2, e3, e4, e5, e6, e7⟩ := finalizeLoad_ok h
  rw [hl] at hl'
  cases Res.ok.inj hl'
  obtain ⟨b1, b2, b3, b4⟩ := determineArtifacts_built h hl hd ha
  refine ⟨e4, agrees_of_built h hd hkeys ⟨e2, e3, e6⟩ _ ?_ ?_⟩
  · rw [List.map_map, ← b1]
    exact List.map_congr_left (fun x hx => b2 x hx)
  · intro a haa
    obtain ⟨x, hx, rfl⟩ := List.mem_map.1 haa
    obtain ⟨im, hb⟩ := b4 x hx
    exact ⟨im, hb.mem, hb.impl, hb.partof, hb.subs⟩

/-- The completion of the artifacts that are built is the result of `determine_completed`. -/
theorem completed_of_load (h : IMap.Nodup ims) (hl : finalizeLoadArtifact ims = .ok l) (hd : IMap.Nodup defined)
    {arts : IMap Name Artifact} (ha : determineArtifacts hash topo l code defined = .ok arts) :
    ∃ cm, determineCompleted topo l.graphs (determineImpls ims code) l.subnames = .ok cm ∧
      ∀ x ∈ arts, IMap.get? cm x.2.name = some x.2.completed := by
  obtain ⟨l', hl', e1, e2, e3, e4, e5, e6, e7⟩ := finalizeLoad_ok h
  rw [hl] at hl'
  cases Res.ok.inj hl'
  unfold determineArtifacts at ha
  simp only at ha
  obtain ⟨cm, hcm, ha⟩ := Res.bind_eq_ok.1 ha
  obtain ⟨out, hout, ha⟩ := Res.bind_eq_ok.1 ha
  have hf := Res.mapM'_eq_ok.1 hout
  have hfst : out.map Prod.fst = defined.map Prod.fst :=
    forall₂_map_eq hf (fun x _ y hxy => (buildArtifact_eq_ok.1 hxy).1)
  have hnd := IMap.nodup_of_fst hd hfst
  have hc : arts = out := by
    have := Res.ok.inj ha
    rw [IMap.collect_of_nodup hnd] at this
    exact this.symm
  subst hc
  rw [e1] at hcm
  refine ⟨cm, hcm, fun y hy => ?_⟩
  obtain ⟨x, _, hxy⟩ := forall₂_mem_right hf hy
  obtain ⟨h1, h2, h3, h4, h5, h6, h7, _⟩ := buildArtifact_eq_ok.1 hxy
  rw [h2, h7]

/-- Nothing panics. -/
theorem determineArtifacts_total (h : IMap.Nodup ims) (hl : finalizeLoadArtifact ims = .ok l) (hd : IMap.Nodup defined)
    (hkeys : ∀ n, IMap.contains defined n = true ↔ IMap.contains ims n = true)
    (ht : DiGraph.TopoContract l.graphs.full topo) :
    ∃ arts, determineArtifacts hash topo l code defined = .ok arts := by
  obtain ⟨l', hl', e1, e2, e3, e4, e5, e6, e7⟩ := finalizeLoad_ok h
  rw [hl] at hl'
  cases Res.ok.inj hl'
  obtain ⟨parts, hp, hp1, hp2, hp3⟩ := determineParts_ok e4
  rw [e5] at hp
  have hpe := Res.ok.inj hp
  -- preliminary artifacts
  have himp := determineImpls_eq h code
  have hget : ∀ p ∈ defined, ∃ im P Q S, IMap.get? ims p.1 = some im ∧ IMap.get? l.partofs p.1 = some P ∧
      IMap.get? l.parts p.1 = some Q ∧ IMap.get? l.subnames p.1 = some S := by
    intro p hp
    have hc : IMap.contains ims p.1 = true := (hkeys p.1).1 (IMap.contains_iff.2 ⟨p, hp, rfl⟩)
    obtain ⟨im, him⟩ := Option.isSome_iff_exists.1 hc
    obtain ⟨P, hP⟩ := Option.isSome_iff_exists.1 ((IMap.contains_of_fst e3 p.1).2 hc)
    obtain ⟨S, hS⟩ := Option.isSome_iff_exists.1 ((IMap.contains_of_fst e6 p.1).2 hc)
    have : IMap.contains l.parts p.1 = true := by
      rw [hpe, hp2]
      obtain ⟨n, hk, hm⟩ := IMap.mem_of_get? hP
      exact ⟨_, hm, Or.inl hk⟩
    obtain ⟨Q, hQ⟩ := Option.isSome_iff_exists.1 this
    exact ⟨im, P, Q, S, him, hP, hQ, hS⟩
  let pre : Name × FilePath → Artifact := fun p =>
    { id := ⟨Vector.replicate 16 0⟩, name := p.1, file := p.2, partof := (IMap.get? l.partofs p.1).getD [],
      parts := [], completed := ⟨0, 0⟩, text := [], impl := (IMap.get? (determineImpls ims code) p.1).getD .notImpl,
      subnames := (IMap.get? l.subnames p.1).getD [] }
  have hagree : Agrees (defined.map pre) l.partofs (determineImpls ims code) l.subnames := by
    refine agrees_of_built h hd hkeys ⟨e2, e3, e6⟩ _ (by rw [List.map_map]; rfl) ?_
    intro a haa
    obtain ⟨p, hp, rfl⟩ := List.mem_map.1 haa
    obtain ⟨im, P, Q, S, h1, h2, h3, h4⟩ := hget p hp
    refine ⟨im, h1, ?_, ?_, ?_⟩
    · simp only [pre]
      rw [himp, IMap.get?_map_val ims _ (fun a a' b e => implOf_congr code a a' b e), h1]; rfl
    · simp only [pre]; rw [h2]; rfl
    · simp only [pre]; rw [h4]; rfl
  have hcm : ∃ cm, determineCompleted topo l.graphs (determineImpls ims code) l.subnames = .ok cm ∧
      ∀ p ∈ defined, ∃ c, IMap.get? cm p.1 = some c := by
    cases topo with
    | some order =>
      obtain ⟨cm, spc, tst, hc, _, _, _, hcc⟩ := determineCompleted_ok e4 hagree ht
      refine ⟨cm, hc, fun p hp => ⟨_, hcc (pre p) (List.mem_map.2 ⟨p, hp, rfl⟩)⟩⟩
    | none =>
      refine ⟨_, rfl, fun p hp => ?_⟩
      rw [himp, List.map_map]
      obtain ⟨im, P, Q, S, h1, _⟩ := hget p hp
      have : IMap.contains (IMap.collect (ims.map ((fun p => (p.1, ({ spc := 0, tst := 0 } : Completed))) ∘
          fun p => (p.1, implOf code p)))) p.1 = true := by
        rw [IMap.contains_collect]
        obtain ⟨n, hk, hm⟩ := IMap.mem_of_get? h1
        exact ⟨_, List.mem_map.2 ⟨_, hm, rfl⟩, hk⟩
      exact Option.isSome_iff_exists.1 this
  obtain ⟨cm, hcm, hcc⟩ := hcm
  obtain ⟨out, hout⟩ := Res.mapM'_ok_of
    (f := buildArtifact l (determineImpls ims code) cm (ims.map (fun p => (p.1, hash p.2)))) (l := defined) (by
      intro p hp
      obtain ⟨im, P, Q, S, h1, h2, h3, h4⟩ := hget p hp
      obtain ⟨c, hc⟩ := hcc p hp
      refine ⟨(p.1, ⟨hash im, p.1, p.2, P, Q, c, im.text, implOf code (p.1, im), S⟩),
        buildArtifact_eq_ok.2 ⟨rfl, rfl, rfl, ?_, h2, h3, hc, ⟨im, by rw [e1]; exact h1, rfl⟩, ?_, h4⟩⟩
      · rw [IMap.get?_map_val ims (fun p => hash p.2) (fun _ _ _ _ => rfl), h1]; rfl
      · rw [himp, IMap.get?_map_val ims _ (fun a a' b e => implOf_congr code a a' b e), h1]; rfl)
  refine ⟨IMap.collect out, ?_⟩
  unfold determineArtifacts
  simp only
  rw [e1, hcm]
  simp only [Res.bind_ok]
  rw [ids_nodup h, hout]
  rfl

end Run

end Art
