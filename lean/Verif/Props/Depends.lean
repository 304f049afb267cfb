import Verif.Props.Completion
import Verif.Lemmas.Dot
import Verif.Spec.Depends

/-!
# C79: what the completion of an artifact depends on
The type of the artifact, what it has of its own, and the same for everything below it; nothing else.
-/

namespace Art.Depends
open Spec

variable {L : Libs} {readToml : Str → Option SettingsRaw} {hash : ArtifactIm → HashIm} {ncpu : Nat} {fs : FS} {base : FilePath} {c : Categorized} {p : Project}
  {L' : Libs} {readToml' : Str → Option SettingsRaw} {hash' : ArtifactIm → HashIm} {ncpu' : Nat} {fs' : FS} {base' : FilePath} {c' : Categorized} {p' : Project}

theorem sameOwn_slots {a a' : Artifact} (h : SameOwn a a') : (ownSlots a.impl a.subnames).Perm (ownSlots a'.impl a'.subnames) ∧
    (ownTests a.impl a.subnames).Perm (ownTests a'.impl a'.subnames) := by
  rcases h with ⟨d, d', e, e'⟩ | ⟨c, c', e, e', hp, hm⟩ | ⟨e, e', hl⟩
  · rw [e, e']; exact ⟨.refl _, .refl _⟩
  · rw [e, e']
    have f1 : ∀ (c : ImplCode) (subs : List SubName), subs.map (subDone c) = (marks c subs).map fun x => if x.2 then 1 else 0 := by
      intro c subs
      rw [marks, List.map_map]
      refine List.map_congr_left fun s _ => ?_
      by_cases hx : ∃ x ∈ c.secondary, key x.1 = key s <;> simp only [subDone, hx, Function.comp, decide_true, decide_false, if_true, if_false, Bool.false_eq_true]
    have f2 : ∀ (c : ImplCode) (subs : List SubName), (subs.filter (fun s => TestSub s)).map (subDone c) = ((marks c subs).filter (·.1)).map fun x => if x.2 then 1 else 0 := by
      intro c subs
      rw [marks, List.filter_map, List.map_map]
      refine List.map_congr_left fun s _ => ?_
      by_cases hx : ∃ x ∈ c.secondary, key x.1 = key s <;> simp only [subDone, hx, Function.comp, decide_true, decide_false, if_true, if_false, Bool.false_eq_true]
    refine ⟨?_, ?_⟩
    · simp only [ownSlots, hp, f1]
      exact (hm.map _).cons _
    · simp only [ownTests, f2]
      exact (hm.filter _).map _
  · rw [e, e']
    have : a.subnames = [] ↔ a'.subnames = [] := by rw [← List.length_eq_zero_iff, hl, List.length_eq_zero_iff]
    refine ⟨?_, .refl _⟩
    simp only [ownSlots, this, hl]
    exact .refl _

theorem sort_partOf (a : Artifact) (n : Name) : PartOf a.sort n ↔ PartOf a n := by
  show (∃ q ∈ sortNames a.partof, key q = key n) ↔ _
  simp only [sortNames, mem_sortOn]
  exact Iff.rfl

theorem sort_own (a : Artifact) : SameOwn a a.sort := by
  have hp : (sortOn SubName.keyStr a.subnames).Perm a.subnames := sortOn_perm _ _
  cases hi : a.impl with
  | done d => exact .inl ⟨d, d, hi, by simp [Artifact.sort, hi, Impl.sort]⟩
  | code c =>
    refine .inr (.inl ⟨c, c.sort, hi, by simp [Artifact.sort, hi, Impl.sort], rfl, ?_⟩)
    have e : marks c.sort a.sort.subnames = marks c (sortOn SubName.keyStr a.subnames) := by
      refine List.map_congr_left fun s _ => ?_
      simp only [ImplCode.sort, sortSecondary, mem_sortOn]
    rw [e]
    exact (hp.map _).symm
  | notImpl => exact .inr (.inr ⟨hi, by simp [Artifact.sort, hi, Impl.sort], hp.length_eq.symm⟩)

/-- The artifacts of a project after it was sorted. -/
theorem sort_arts (p : Project) : (p.sort.artifacts.map Prod.snd).Perm ((p.artifacts.map Prod.snd).map Artifact.sort) := by
  show (((sortOn (fun x : Name × Artifact => x.1.keyStr) p.artifacts).map (fun x => (x.1, x.2.sort))).map Prod.snd).Perm _
  rw [List.map_map, List.map_map]
  exact (sortOn_perm _ _).map _

theorem sort_parts {as as' : List Artifact} (h : as'.Perm (as.map Artifact.sort)) (n : Name) : (partsIn as' n).Perm ((partsIn as n).map Artifact.sort) := by
  have := h.filter (fun b => decide (PartOf b n))
  rw [List.filter_map] at this
  refine this.trans (.of_eq ?_)
  unfold partsIn
  congr 1
  exact List.filter_congr fun b _ => by simp [sort_partOf]

theorem sort_rule {as as' : List Artifact} (h : as'.Perm (as.map Artifact.sort)) {S T : Ty × Str → ℚ} (hr : CompletionRule as S T) : CompletionRule as' S T := by
  have pre : ∀ {a'}, a' ∈ as' → ∃ a ∈ as, a' = a.sort := fun {a'} ha => by
    obtain ⟨a, ha, e⟩ := List.mem_map.1 (h.mem_iff.1 ha)
    exact ⟨a, ha, e.symm⟩
  have hm : ∀ (n : Name) (f : Ty × Str → ℚ), ((partsIn as n).map (fun b => f (key b.name))).Perm ((partsIn as' n).map (fun b => f (key b.name))) := by
    intro n f
    have := (sort_parts h n).map (fun b => f (key b.name))
    rw [List.map_map] at this
    exact this.symm
  have hf : ∀ (n : Name) (f : Ty × Str → ℚ), (((partsIn as n).filter (fun b => b.name.ty ≠ .TST)).map (fun b => f (key b.name))).Perm
      (((partsIn as' n).filter (fun b => b.name.ty ≠ .TST)).map (fun b => f (key b.name))) := by
    intro n f
    have := ((sort_parts h n).filter (fun b => decide (b.name.ty ≠ .TST))).map (fun b => f (key b.name))
    rw [List.filter_map, List.map_map] at this
    exact this.symm
  constructor <;> intro a' ha' ht <;> obtain ⟨a, ha, rfl⟩ := pre ha'
  · rw [show a.sort.name = a.name from rfl, hr.test a ha ht]
    exact avg_perm ((sameOwn_slots (sort_own a)).1.append (hm _ _))
  · exact hr.test_tst a ha ht
  · rw [show a.sort.name = a.name from rfl, hr.other a ha ht]
    exact avg_perm ((sameOwn_slots (sort_own a)).1.append (hf _ _))
  · rw [show a.sort.name = a.name from rfl, hr.other_tst a ha ht]
    exact avg_perm ((sameOwn_slots (sort_own a)).2.append (hm _ _))

theorem sort_directPart {as as' : List Artifact} (h : as'.Perm (as.map Artifact.sort)) {a b : Artifact} (hd : DirectPart as b a) : DirectPart as' b.sort a.sort :=
  ⟨h.mem_iff.2 (List.mem_map_of_mem hd.1), h.mem_iff.2 (List.mem_map_of_mem hd.2.1), (sort_partOf _ _).2 hd.2.2⟩

theorem sort_cyclic {as as' : List Artifact} (h : as'.Perm (as.map Artifact.sort)) (hc : Cyclic as) : Cyclic as' := by
  obtain ⟨a, ha⟩ := hc
  exact ⟨a.sort, ha.lift Artifact.sort fun _ _ hd => sort_directPart h hd⟩

/-- C79. The completion that is shown for the artifacts of a project is what the documented rule says for the very artifacts that are shown, if there is no cycle. -/
theorem C79_rule (h : ReadsProject L readToml hash ncpu fs base (.ok (c, p))) (hc : ¬ Cyclic (artsOf p.artifacts)) :
    ∃ spc tst, CompletionRule (artsOf p.artifacts) spc tst ∧ ∀ a ∈ artsOf p.artifacts, a.completed = ⟨roundRatio (spc (key a.name)), roundRatio (tst (key a.name))⟩ := by
  obtain ⟨raw, path, s, r, arts, ls, _, _, ha, he, hl, _, rfl, _⟩ := reads_parts h
  have hp := sort_arts ⟨s, (joinLocations r.locs).1, arts⟩
  obtain ⟨S, T, hr, hcomp⟩ := C16_rule (joinArtifacts_input _) hl (fun hx => hc (sort_cyclic hp hx))
  refine ⟨S, T, sort_rule hp hr, fun a ha => ?_⟩
  obtain ⟨b, hb, rfl⟩ := List.mem_map.1 (hp.mem_iff.1 ha)
  exact hcomp b hb

theorem forall₂_filter {R : Artifact → Artifact → Prop} {f : Artifact → Bool} (hR : ∀ a b, R a b → f a = f b) {l m : List Artifact} (h : List.Forall₂ R l m) :
    List.Forall₂ R (l.filter f) (m.filter f) := by
  induction h with
  | nil => exact .nil
  | @cons a b l m hab _ ih =>
    by_cases hf : f a = true
    · rw [List.filter_cons_of_pos hf, List.filter_cons_of_pos (by rw [← hR a b hab]; exact hf)]
      exact .cons hab ih
    · rw [List.filter_cons_of_neg hf, List.filter_cons_of_neg (by rw [← hR a b hab]; exact hf)]
      exact ih

theorem forall₂_values {R : Artifact → Artifact → Prop} {f g : Artifact → ℚ} {l m : List Artifact} (h : List.Forall₂ R l m) (he : ∀ a ∈ l, ∀ b, R a b → f a = g b) :
    l.map f = m.map g := by
  induction h with
  | nil => rfl
  | @cons a b l m hab _ ih =>
    rw [List.map_cons, List.map_cons, he a (by simp) b hab, ih fun x hx => he x (by simp [hx])]

/-- Paired artifacts have the same ratios. -/
theorem pairs_ratios {as as' : List Artifact} {R : Artifact → Artifact → Prop} (hR : Pairs as as' R) (hc : ¬ Cyclic as) {S T S' T' : Ty × Str → ℚ}
    (hr : CompletionRule as S T) (hr' : CompletionRule as' S' T') : ∀ a a', R a a' → S (key a.name) = S' (key a'.name) ∧ T (key a.name) = T' (key a'.name) := by
  intro a
  induction a using (directPart_wf hc).induction with
  | _ a ih =>
    intro a' hab
    obtain ⟨ha, ha', hty, hown, l, hl, hf⟩ := hR a a' hab
    have ih' : ∀ b ∈ partsIn as a.name, ∀ b', R b b' → S (key b.name) = S' (key b'.name) ∧ T (key b.name) = T' (key b'.name) := fun b hb b' hbb => ih b (directPart_of_mem ha hb) b' hbb
    have e1 : ((partsIn as a.name).map fun b => S (key b.name)).Perm ((partsIn as' a'.name).map fun b => S' (key b.name)) := by
      rw [forall₂_values (g := fun b => S' (key b.name)) hf fun b hb b' hbb => (ih' b hb b' hbb).1]
      exact (hl.map _).symm
    have e2 : ((partsIn as a.name).map fun b => T (key b.name)).Perm ((partsIn as' a'.name).map fun b => T' (key b.name)) := by
      rw [forall₂_values (g := fun b => T' (key b.name)) hf fun b hb b' hbb => (ih' b hb b' hbb).2]
      exact (hl.map _).symm
    have e3 : (((partsIn as a.name).filter fun b => b.name.ty ≠ .TST).map fun b => S (key b.name)).Perm
        (((partsIn as' a'.name).filter fun b => b.name.ty ≠ .TST).map fun b => S' (key b.name)) := by
      have hff := forall₂_filter (f := fun b => decide (b.name.ty ≠ .TST)) (fun x y hxy => by simp only [(hR x y hxy).2.2.1]) hf
      rw [forall₂_values (g := fun b => S' (key b.name)) hff fun b hb b' hbb => (ih' b (List.mem_filter.1 hb).1 b' hbb).1]
      exact ((hl.filter _).map _).symm
    obtain ⟨o1, o2⟩ := sameOwn_slots hown
    by_cases ht : a.name.ty = .TST
    · have ht' : a'.name.ty = .TST := hty ▸ ht
      have hS : S (key a.name) = S' (key a'.name) := by
        rw [hr.test a ha ht, hr'.test a' ha' ht']
        exact avg_perm (o1.append e1)
      exact ⟨hS, by rw [hr.test_tst a ha ht, hr'.test_tst a' ha' ht', hS]⟩
    · have ht' : a'.name.ty ≠ .TST := hty ▸ ht
      refine ⟨?_, ?_⟩
      · rw [hr.other a ha ht, hr'.other a' ha' ht']
        exact avg_perm (o1.append e3)
      · rw [hr.other_tst a ha ht, hr'.other_tst a' ha' ht']
        exact avg_perm (o2.append e2)

/-- C79. Artifacts of two projects, read from any two disks, that can be paired with everything below them have the same completion: only types, what is done or implemented, and the shape of
what is below them count, but not names, texts, files, ids, places in the code or anything else in the project. -/
theorem C79_pairs (h : ReadsProject L readToml hash ncpu fs base (.ok (c, p))) (h' : ReadsProject L' readToml' hash' ncpu' fs' base' (.ok (c', p')))
    (hc : ¬ Cyclic (artsOf p.artifacts)) (hc' : ¬ Cyclic (artsOf p'.artifacts)) {R : Artifact → Artifact → Prop} (hR : Pairs (artsOf p.artifacts) (artsOf p'.artifacts) R)
    {a a' : Artifact} (ha : R a a') : a.completed = a'.completed := by
  obtain ⟨S, T, hr, e⟩ := C79_rule h hc
  obtain ⟨S', T', hr', e'⟩ := C79_rule h' hc'
  obtain ⟨h1, h2, _⟩ := hR a a' ha
  obtain ⟨e1, e2⟩ := pairs_ratios hR hc hr hr' a a' ha
  rw [e a h1, e' a' h2, e1, e2]

theorem one_of_key (h : ReadsProject L readToml hash ncpu fs base (.ok (c, p))) {a b : Artifact} (ha : a ∈ artsOf p.artifacts) (hb : b ∈ artsOf p.artifacts)
    (e : key a.name = key b.name) : a = b := by
  have hl := read_linked h
  obtain ⟨x, hx, rfl⟩ := List.mem_map.1 ha
  obtain ⟨y, hy, rfl⟩ := List.mem_map.1 hb
  rw [hl.names x hx, hl.names y hy] at e
  rw [List.inj_on_of_nodup_map hl.nodup hx hy e]

/-- C79. A change somewhere in a project, whatever it is, does not touch the completion of an artifact if before and after it nothing else is below it than artifacts that both projects have in
common. -/
theorem C79_local (h : ReadsProject L readToml hash ncpu fs base (.ok (c, p))) (h' : ReadsProject L' readToml' hash' ncpu' fs' base' (.ok (c', p')))
    (hc : ¬ Cyclic (artsOf p.artifacts)) (hc' : ¬ Cyclic (artsOf p'.artifacts)) {a a' : Artifact} (ha : a ∈ artsOf p.artifacts) (ha' : a' ∈ artsOf p'.artifacts)
    (e : key a.name = key a'.name) (hb : ∀ b, Below (artsOf p.artifacts) b a → InBoth (artsOf p'.artifacts) b)
    (hb' : ∀ b', Below (artsOf p'.artifacts) b' a' → InBoth (artsOf p.artifacts) b') : a.completed = a'.completed := by
  have R_own : ∀ {b b'}, b ∈ artsOf p.artifacts → b' ∈ artsOf p'.artifacts → key b.name = key b'.name → Below (artsOf p.artifacts) b a →
      SameOwn b b' ∧ ∀ n, PartOf b n ↔ PartOf b' n := by
    intro b b' hbm hbm' ek hbel
    obtain ⟨b2, h1, h2, h3, h4⟩ := hb b hbel
    obtain rfl := one_of_key h' h1 hbm' (h2.trans ek)
    exact ⟨h3, h4⟩
  refine C79_pairs h h' hc hc' (R := fun b b' => b ∈ artsOf p.artifacts ∧ b' ∈ artsOf p'.artifacts ∧ key b.name = key b'.name ∧ Below (artsOf p.artifacts) b a ∧
    Below (artsOf p'.artifacts) b' a') ?_ ⟨ha, ha', e, .refl, .refl⟩
  rintro b b' ⟨hbm, hbm', ek, hbel, hbel'⟩
  refine ⟨hbm, hbm', (Prod.mk.inj ek).1, (R_own hbm hbm' ek hbel).1, ?_⟩
  have part_key : ∀ {d : Artifact}, PartOf d b.name ↔ PartOf d b'.name := by
    intro d
    unfold PartOf
    rw [ek]
  have fwd : ∀ d, ∃ d', d ∈ partsIn (artsOf p.artifacts) b.name → d' ∈ partsIn (artsOf p'.artifacts) b'.name ∧ key d.name = key d'.name ∧ Below (artsOf p.artifacts) d a ∧
      Below (artsOf p'.artifacts) d' a' := by
    intro d
    by_cases hd : d ∈ partsIn (artsOf p.artifacts) b.name
    · have hdp := directPart_of_mem hbm hd
      have hdb : Below (artsOf p.artifacts) d a := .head hdp hbel
      obtain ⟨d', h1, h2, h3, h4⟩ := hb d hdb
      have hd' : DirectPart (artsOf p'.artifacts) d' b' := ⟨h1, hbm', part_key.1 ((h4 _).1 hdp.2.2)⟩
      exact ⟨d', fun _ => ⟨List.mem_filter.2 ⟨h1, by simpa using hd'.2.2⟩, h2.symm, hdb, .head hd' hbel'⟩⟩
    · exact ⟨d, fun hx => absurd hx hd⟩
  choose f hf using fwd
  have nd : ∀ {L : Libs} {readToml : Str → Option SettingsRaw} {hash : ArtifactIm → HashIm} {ncpu : Nat} {fs : FS} {base : FilePath} {c : Categorized} {p : Project},
      ReadsProject L readToml hash ncpu fs base (.ok (c, p)) → ∀ n, (partsIn (artsOf p.artifacts) n).Nodup := by
    intro L readToml hash ncpu fs base c p h n
    refine List.Nodup.filter _ (List.Nodup.of_map (fun a => key a.name) ?_)
    have hl := read_linked h
    rw [artsOf, List.map_map]
    have : p.artifacts.map ((fun a : Artifact => key a.name) ∘ Prod.snd) = p.artifacts.map (fun x => key x.1) :=
      List.map_congr_left fun x hx => by simp only [Function.comp, hl.names x hx]
    rw [this]
    exact hl.nodup
  refine ⟨(partsIn (artsOf p.artifacts) b.name).map f, ?_, ?_⟩
  · refine (List.perm_ext_iff_of_nodup (nd h' _) ?_).2 fun d' => ?_
    · refine List.Nodup.map_on ?_ (nd h _)
      intro x hx y hy exy
      refine one_of_key h (directPart_of_mem hbm hx).1 (directPart_of_mem hbm hy).1 ?_
      rw [(hf x hx).2.1, (hf y hy).2.1, exy]
    · rw [List.mem_map]
      constructor
      · intro hd'
        have hdp := directPart_of_mem hbm' hd'
        obtain ⟨d, h1, h2, _, h4⟩ := hb' d' (.head hdp hbel')
        have hd : d ∈ partsIn (artsOf p.artifacts) b.name := List.mem_filter.2 ⟨h1, by simpa using part_key.2 ((h4 _).1 hdp.2.2)⟩
        refine ⟨d, hd, one_of_key h' (directPart_of_mem hbm' (hf d hd).1).1 hdp.1 ?_⟩
        rw [← (hf d hd).2.1, h2]
      · rintro ⟨d, hd, rfl⟩
        exact (hf d hd).1
  · rw [List.forall₂_map_right_iff]
    refine List.forall₂_same.2 fun d hd => ⟨(directPart_of_mem hbm hd).1, (directPart_of_mem hbm' (hf d hd).1).1, (hf d hd).2⟩

/-- C79. When one artifact is changed, added or removed, and the others are left alone, the completion of no artifact changes that it is not below. -/
theorem C79_one (h : ReadsProject L readToml hash ncpu fs base (.ok (c, p))) (h' : ReadsProject L' readToml' hash' ncpu' fs' base' (.ok (c', p')))
    (hc : ¬ Cyclic (artsOf p.artifacts)) (hc' : ¬ Cyclic (artsOf p'.artifacts)) (x : Name)
    (hb : ∀ b ∈ artsOf p.artifacts, key b.name ≠ key x → InBoth (artsOf p'.artifacts) b) (hb' : ∀ b' ∈ artsOf p'.artifacts, key b'.name ≠ key x → InBoth (artsOf p.artifacts) b')
    {a a' : Artifact} (ha : a ∈ artsOf p.artifacts) (ha' : a' ∈ artsOf p'.artifacts) (e : key a.name = key a'.name)
    (hx : ∀ b, Below (artsOf p.artifacts) b a → key b.name ≠ key x) (hx' : ∀ b', Below (artsOf p'.artifacts) b' a' → key b'.name ≠ key x) : a.completed = a'.completed := by
  have mem : ∀ {as : List Artifact} {b a : Artifact}, a ∈ as → Below as b a → b ∈ as := by
    intro as b a ha hba
    rcases Relation.ReflTransGen.cases_head hba with rfl | ⟨d, hd, _⟩
    · exact ha
    · exact hd.1
  exact C79_local h h' hc hc' ha ha' e (fun b hbel => hb b (mem ha hbel) (hx b hbel)) (fun b hbel => hb' b (mem ha' hbel) (hx' b hbel))

theorem sort_cyclic_back {as as' : List Artifact} (h : as'.Perm (as.map Artifact.sort)) (hc : Cyclic as') : Cyclic as := by
  have back : ∀ {b a'}, DirectPart as' b a' → ∃ b0 ∈ as, b = b0.sort ∧ ∀ a0 ∈ as, a' = a0.sort → DirectPart as b0 a0 := by
    intro b a' hd
    obtain ⟨b0, hb0, rfl⟩ := List.mem_map.1 (h.mem_iff.1 hd.1)
    refine ⟨b0, hb0, rfl, fun a0 ha0 e => ⟨hb0, ha0, ?_⟩⟩
    subst e
    exact (sort_partOf _ _).1 hd.2.2
  by_contra hn
  have wf := directPart_wf hn
  have key : ∀ a0 ∈ as, Acc (DirectPart as') a0.sort := by
    intro a0
    induction a0 using wf.induction with
    | _ a0 ih =>
      intro ha0
      refine ⟨_, fun b hb => ?_⟩
      obtain ⟨b0, hb0, rfl, hd⟩ := back hb
      exact ih b0 (hd a0 ha0 rfl) hb0
  obtain ⟨a, ha⟩ := hc
  have ham : a ∈ as' := by
    obtain ⟨b, hb, _⟩ := Relation.TransGen.head'_iff.1 ha
    exact hb.1
  obtain ⟨a0, ha0, rfl⟩ := List.mem_map.1 (h.mem_iff.1 ham)
  have irr : ∀ y, Acc (Relation.TransGen (DirectPart as')) y → ¬ Relation.TransGen (DirectPart as') y y := by
    intro y acc
    induction acc with
    | intro y _ ih => exact fun hx => ih y hx hx
  exact irr _ (key a0 ha0).transGen ha

/-- C79. With a cycle anywhere, everything is shown as not done at all. -/
theorem C79_cycle (h : ReadsProject L readToml hash ncpu fs base (.ok (c, p))) (hc : Cyclic (artsOf p.artifacts)) : ∀ a ∈ artsOf p.artifacts, a.completed = ⟨0, 0⟩ := by
  obtain ⟨raw, path, s, r, arts, ls, _, _, ha, he, hl, _, rfl, _⟩ := reads_parts h
  have hp := sort_arts ⟨s, (joinLocations r.locs).1, arts⟩
  intro a ha
  obtain ⟨b, hb, rfl⟩ := List.mem_map.1 (hp.mem_iff.1 ha)
  exact (hl.spec (joinArtifacts_input _)).2.2.2.2.2.2.1 (sort_cyclic_back hp hc) b hb

theorem cyclic_of_both {as as' : List Artifact} (hb : ∀ b ∈ as, InBoth as' b) (hc : Cyclic as) : Cyclic as' := by
  have : ∀ b, ∃ b', b ∈ as → b' ∈ as' ∧ key b'.name = key b.name ∧ ∀ n, PartOf b n ↔ PartOf b' n := by
    intro b
    by_cases hbm : b ∈ as
    · obtain ⟨b', h1, h2, _, h4⟩ := hb b hbm
      exact ⟨b', fun _ => ⟨h1, h2, h4⟩⟩
    · exact ⟨b, fun hx => absurd hx hbm⟩
  choose f hf using this
  obtain ⟨a, ha⟩ := hc
  refine ⟨f a, ha.lift f fun x y hxy => ⟨(hf x hxy.1).1, (hf y hxy.2.1).1, ?_⟩⟩
  have := ((hf x hxy.1).2.2 y.name).1 hxy.2.2
  unfold PartOf at this ⊢
  rw [(hf y hxy.2.1).2.1]
  exact this

/-- C79. Moving artifacts to other files, rewriting their texts and moving their implementations changes no completion at all, as long as every artifact has the same number of subnames of each
kind and is part of the same artifacts. -/
theorem C79_moved (h : ReadsProject L readToml hash ncpu fs base (.ok (c, p))) (h' : ReadsProject L' readToml' hash' ncpu' fs' base' (.ok (c', p')))
    (hb : ∀ b ∈ artsOf p.artifacts, InBoth (artsOf p'.artifacts) b) (hb' : ∀ b' ∈ artsOf p'.artifacts, InBoth (artsOf p.artifacts) b') {a a' : Artifact}
    (ha : a ∈ artsOf p.artifacts) (ha' : a' ∈ artsOf p'.artifacts) (e : key a.name = key a'.name) : a.completed = a'.completed := by
  have mem : ∀ {as : List Artifact} {b a : Artifact}, a ∈ as → Below as b a → b ∈ as := by
    intro as b a ha hba
    rcases Relation.ReflTransGen.cases_head hba with rfl | ⟨d, hd, _⟩
    · exact ha
    · exact hd.1
  by_cases hc : Cyclic (artsOf p.artifacts)
  · rw [C79_cycle h hc a ha, C79_cycle h' (cyclic_of_both hb hc) a' ha']
  · have hc' : ¬ Cyclic (artsOf p'.artifacts) := fun hx => hc (cyclic_of_both hb' hx)
    exact C79_local h h' hc hc' ha ha' e (fun b hbel => hb b (mem ha hbel)) (fun b hbel => hb' b (mem ha' hbel))

end Art.Depends
