import Verif.Spec.Grow
import Verif.Props.Better
import Verif.Props.Tested

/-! # C96: what new artifacts do to the percentages of the old ones -/

namespace Art.Grow
open Spec Depends Tested Better Share

variable {L : Libs} {readToml : Str → Option SettingsRaw} {hash : ArtifactIm → HashIm} {ncpu : Nat} {fs : FS} {base : FilePath} {c : Categorized} {p : Project}
  {L' : Libs} {readToml' : Str → Option SettingsRaw} {hash' : ArtifactIm → HashIm} {ncpu' : Nat} {fs' : FS} {base' : FilePath} {c' : Categorized} {p' : Project}
  {as as' : List Artifact} {S T S' T' : Ty × Str → ℚ}

theorem still_cyclic (hb : StillThere as as') (hc : Cyclic as) : Cyclic as' := by
  have : ∀ b, ∃ b', b ∈ as → b' ∈ as' ∧ key b'.name = key b.name ∧ ∀ n, Old as n → (PartOf b n ↔ PartOf b' n) := by
    intro b
    by_cases hbm : b ∈ as
    · obtain ⟨b', h⟩ := hb b hbm
      exact ⟨b', fun _ => h⟩
    · exact ⟨b, fun hx => absurd hx hbm⟩
  choose f hf using this
  obtain ⟨a, ha⟩ := hc
  refine ⟨f a, ha.lift f fun x y hxy => ⟨(hf x hxy.1).1, (hf y hxy.2.1).1, ?_⟩⟩
  have := ((hf x hxy.1).2.2 y.name ⟨y, hxy.2.1, rfl⟩).1 hxy.2.2
  unfold PartOf at this ⊢
  rw [(hf y hxy.2.1).2.1]
  exact this

open Classical in
/-- The parts of an old artifact are those it had and new ones. -/
theorem parts_split (q : Ty → Bool) (hn : (as.map fun a => key a.name).Nodup) (hn' : (as'.map fun a => key a.name).Nodup) (H : StillThere as as') {n n' : Name}
    (ho : Old as n) (hk : key n' = key n) :
    (((partsIn as' n').filter fun b => q b.name.ty).map fun b => key b.name).Perm
      ((((partsIn as' n').filter fun b => q b.name.ty).filter fun b => ¬ Old as b.name).map (fun b => key b.name) ++
        ((partsIn as n).filter fun b => q b.name.ty).map fun b => key b.name) := by
  have one : ∀ {b b' : Artifact}, b ∈ as' → b' ∈ as' → key b.name = key b'.name → b = b' := fun h1 h2 e => List.inj_on_of_nodup_map hn' h1 h2 e
  have nd : (((partsIn as n).filter fun b => q b.name.ty).map fun b => key b.name).Nodup := hn.sublist (((List.filter_sublist).trans List.filter_sublist).map _)
  have nd' : ((((partsIn as' n').filter fun b => q b.name.ty).filter fun b => Old as b.name).map fun b => key b.name).Nodup :=
    hn'.sublist (((List.filter_sublist).trans ((List.filter_sublist).trans List.filter_sublist)).map _)
  have hold : ((((partsIn as' n').filter fun b => q b.name.ty).filter fun b => Old as b.name).map fun b => key b.name).Perm
      (((partsIn as n).filter fun b => q b.name.ty).map fun b => key b.name) := by
    refine (List.perm_ext_iff_of_nodup nd' nd).2 fun k => ?_
    unfold partsIn
    simp only [List.mem_map, List.mem_filter, decide_eq_true_eq]
    constructor
    · rintro ⟨b', ⟨⟨⟨h1, h2⟩, h3⟩, b, h4, h5⟩, rfl⟩
      obtain ⟨b2, h6, h7, h8⟩ := H b h4
      obtain rfl := one h6 h1 (h7.trans h5)
      have hty : b.name.ty = b2.name.ty := congrArg Prod.fst h5
      exact ⟨b, ⟨⟨h4, (h8 n ho).2 ((partOf_congr _ hk).1 h2)⟩, by rw [hty]; exact h3⟩, h5⟩
    · rintro ⟨b, ⟨⟨h1, h2⟩, h3⟩, rfl⟩
      obtain ⟨b2, h6, h7, h8⟩ := H b h1
      have hty : b2.name.ty = b.name.ty := congrArg Prod.fst h7
      exact ⟨b2, ⟨⟨⟨h6, (partOf_congr _ hk).2 ((h8 n ho).1 h2)⟩, by rw [hty]; exact h3⟩, b, h1, h7.symm⟩, h7⟩
  have hs := (List.filter_append_perm (fun b : Artifact => decide (Old as b.name)) ((partsIn as' n').filter fun b => q b.name.ty)).map fun b => key b.name
  rw [List.map_append] at hs
  refine hs.symm.trans (List.perm_append_comm.trans ?_)
  have e : (((partsIn as' n').filter fun b => q b.name.ty).filter fun b => !decide (Old as b.name)) =
      (((partsIn as' n').filter fun b => q b.name.ty).filter fun b => decide (¬ Old as b.name)) := List.filter_congr fun b _ => by simp
  rw [e]
  exact (List.Perm.refl _).append hold

theorem avg_zeros_le {l : List ℚ} (h : ∀ x ∈ l, Unit01 x) {m : List ℚ} (hm : ∀ x ∈ m, x = 0) : avg (m ++ l) ≤ avg l := by
  have hs : m.sum = 0 := by
    have : m = List.replicate m.length 0 := List.eq_replicate_iff.2 ⟨rfl, hm⟩
    rw [this, List.sum_replicate]; simp
  obtain ⟨h1, h2⟩ := sum_bounds h
  rw [avg_div, avg_div, List.sum_append, hs, zero_add, List.length_append]
  push_cast
  rcases Nat.eq_zero_or_pos l.length with e | hpos
  · have : l = [] := List.length_eq_zero_iff.1 e
    subst this; simp
  · have : (0 : ℚ) < l.length := by exact_mod_cast hpos
    exact div_le_div_of_nonneg_left h1 this (by linarith [(Nat.cast_nonneg m.length : (0 : ℚ) ≤ _)])

theorem avg_const {v : ℚ} {l : List ℚ} (h : ∀ x ∈ l, x = v) (hne : v = 0 ∨ l ≠ []) : avg l = v := by
  have e : l = List.replicate l.length v := List.eq_replicate_iff.2 ⟨rfl, h⟩
  rw [avg_div]
  by_cases hl : l = []
  · rcases hne with rfl | hne
    · subst hl; simp
    · exact absurd hl hne
  · have : (l.length : ℚ) ≠ 0 := by exact_mod_cast fun e => hl (List.length_eq_zero_iff.1 e)
    rw [e, List.sum_replicate, List.length_replicate, nsmul_eq_mul]
    field_simp

theorem allAt_value {v : ℚ} (hr : CompletionRule as S T) {a : Artifact} (h : AllAt v as a) : S (key a.name) = v := by
  induction h with
  | @mk a ha h1 h2 _ ih =>
    rw [spcSlots_eq hr ha]
    refine avg_const (fun x hx => ?_) ?_
    · rcases List.mem_append.1 hx with hx | hx
      · exact h1 x hx
      · obtain ⟨b, hb, rfl⟩ := List.mem_map.1 hx
        exact ih b hb
    · rcases h2 with h2 | h2 | h2
      · exact .inl h2
      · exact .inr (by unfold spcSlots; simp [h2])
      · refine .inr fun e => h2 ?_
        have := (List.append_eq_nil_iff.1 e).2
        exact List.map_eq_nil_iff.1 this

theorem testsAt_value {v : ℚ} (hr : CompletionRule as S T) {a : Artifact} (h : TestsAt v as a) : T (key a.name) = v := by
  induction h with
  | test ht h => obtain ⟨ha, _, _, _⟩ := id h; rw [hr.test_tst _ ha ht]; exact allAt_value hr h
  | @other a ha ht h1 h2 _ ih =>
    rw [hr.other_tst a ha ht]
    refine avg_const (fun x hx => ?_) ?_
    · rcases List.mem_append.1 hx with hx | hx
      · exact h1 x hx
      · obtain ⟨b, hb, rfl⟩ := List.mem_map.1 hx
        exact ih b hb
    · rcases h2 with h2 | h2 | h2
      · exact .inl h2
      · exact .inr (by simp [h2])
      · exact .inr (by simp [h2])

open Classical in
/-- The values of the parts that count for an old artifact: new ones, which are all `v`, and the old ones. -/
theorem spc_slots (hnd : (as.map fun a => key a.name).Nodup) (hnd' : (as'.map fun a => key a.name).Nodup) (H : StillThere as as') {v : ℚ} (hr' : CompletionRule as' S' T')
    (hN : NewParts as as' (AllAt v as')) {a a' : Artifact} (ha : a ∈ as) (ha' : a' ∈ as') (hka : key a'.name = key a.name) :
    ∃ m : List ℚ, (∀ x ∈ m, x = v) ∧ (spcSlots as' S' a').Perm (m ++ (ownSlots a'.impl a'.subnames ++ (Counts as a).map fun b => S' (key b.name))) := by
  have hty : a'.name.ty = a.name.ty := congrArg Prod.fst hka
  have hp := (parts_split (fun t => a.name.ty = .TST ∨ t ≠ .TST) hnd hnd' H (n := a.name) ⟨a, ha, rfl⟩ hka).map S'
  rw [List.map_append, List.map_map, List.map_map, List.map_map] at hp
  refine ⟨?m, ?_, ?_⟩
  · exact (((partsIn as' a'.name).filter fun b => decide (a.name.ty = .TST ∨ b.name.ty ≠ .TST)).filter fun b => decide (¬ Old as b.name)).map (S' ∘ fun b => key b.name)
  · intro x hx
    obtain ⟨b, hb, rfl⟩ := List.mem_map.1 hx
    obtain ⟨h1, h2⟩ := List.mem_filter.1 hb
    refine allAt_value hr' (hN a' ha' ⟨a, ha, hka.symm⟩ b ?_ (by simpa using h2))
    unfold Counts
    rw [hty]
    exact h1
  · unfold spcSlots
    rw [hty]
    refine ((List.Perm.refl _).append hp).trans ?_
    rw [← List.append_assoc, ← List.append_assoc]
    exact List.perm_append_comm.append_right _

open Classical in
theorem tst_slots (hnd : (as.map fun a => key a.name).Nodup) (hnd' : (as'.map fun a => key a.name).Nodup) (H : StillThere as as') {v : ℚ} (hr' : CompletionRule as' S' T')
    (hN : AnyNewParts as as' (TestsAt v as')) {a a' : Artifact} (ha : a ∈ as) (ha' : a' ∈ as') (hka : key a'.name = key a.name) :
    ∃ m : List ℚ, (∀ x ∈ m, x = v) ∧ (ownTests a'.impl a'.subnames ++ (partsIn as' a'.name).map fun b => T' (key b.name)).Perm
      (m ++ (ownTests a'.impl a'.subnames ++ (partsIn as a.name).map fun b => T' (key b.name))) := by
  have hp := (parts_split (fun _ => true) hnd hnd' H (n := a.name) ⟨a, ha, rfl⟩ hka).map T'
  simp only [List.filter_true] at hp
  rw [List.map_append, List.map_map, List.map_map, List.map_map] at hp
  refine ⟨?m, ?_, ?_⟩
  · exact ((partsIn as' a'.name).filter fun b => decide (¬ Old as b.name)).map (T' ∘ fun b => key b.name)
  · intro x hx
    obtain ⟨b, hb, rfl⟩ := List.mem_map.1 hx
    obtain ⟨h1, h2⟩ := List.mem_filter.1 hb
    exact testsAt_value hr' (hN a' ha' ⟨a, ha, hka.symm⟩ b h1 (by simpa using h2))
  · refine ((List.Perm.refl _).append hp).trans ?_
    rw [← List.append_assoc, ← List.append_assoc]
    exact List.perm_append_comm.append_right _

theorem ratios_spc_up (hnd : (as.map fun a => key a.name).Nodup) (hnd' : (as'.map fun a => key a.name).Nodup) (H : StillThere as as')
    (hE : Each as as' fun a a' => NoWorse (ownSlots a.impl a.subnames) (ownSlots a'.impl a'.subnames)) (hN : NewParts as as' (AllAt 1 as')) (hc' : ¬ Cyclic as')
    (hr : CompletionRule as S T) (hr' : CompletionRule as' S' T') : ∀ a ∈ as, S (key a.name) ≤ S' (key a.name) := by
  have hb' := rule_bounds hr' hc'
  intro a
  induction a using (directPart_wf fun h => hc' (still_cyclic H h)).induction with
  | _ a ih =>
    intro ha
    obtain ⟨a', ha', hka, _⟩ := H a ha
    obtain ⟨m, hm, hp⟩ := spc_slots hnd hnd' H hr' hN ha ha' hka
    rw [spcSlots_eq hr ha, ← hka, spcSlots_eq hr' ha', avg_perm hp]
    have hu : ∀ x ∈ (Counts as a).map (fun b => S' (key b.name)), Unit01 x := by
      intro x hx
      obtain ⟨b, hb1, rfl⟩ := List.mem_map.1 hx
      obtain ⟨b', hb2, hkb, _⟩ := H b (partsIn_mem (List.mem_filter.1 hb1).1)
      rw [← hkb]
      exact (hb' b' hb2).1
    refine (slots_mono (own_bits _ _).1 (own_bits _ _).1 (hE a ha a' ha' hka) ?_ hu).trans (avg_le_ones ?_ hm)
    · rw [List.forall₂_map_left_iff, List.forall₂_map_right_iff]
      refine List.forall₂_same.2 fun b hb1 => ?_
      have hd := directPart_of_mem ha (List.mem_filter.1 hb1).1
      exact ih b hd hd.1
    · intro x hx
      rcases List.mem_append.1 hx with hx | hx
      · exact unit_ownSlots _ _ x hx
      · exact hu x hx

theorem ratios_spc_down (hnd : (as.map fun a => key a.name).Nodup) (hnd' : (as'.map fun a => key a.name).Nodup) (H : StillThere as as')
    (hE : Each as as' fun a a' => NoWorse (ownSlots a'.impl a'.subnames) (ownSlots a.impl a.subnames)) (hN : NewParts as as' (AllAt 0 as')) (hc' : ¬ Cyclic as')
    (hr : CompletionRule as S T) (hr' : CompletionRule as' S' T') : ∀ a ∈ as, S' (key a.name) ≤ S (key a.name) := by
  have hc : ¬ Cyclic as := fun h => hc' (still_cyclic H h)
  have hb := rule_bounds hr hc
  have hb' := rule_bounds hr' hc'
  intro a
  induction a using (directPart_wf hc).induction with
  | _ a ih =>
    intro ha
    obtain ⟨a', ha', hka, _⟩ := H a ha
    obtain ⟨m, hm, hp⟩ := spc_slots hnd hnd' H hr' hN ha ha' hka
    rw [spcSlots_eq hr ha, ← hka, spcSlots_eq hr' ha', avg_perm hp]
    have hu : ∀ x ∈ (Counts as a).map (fun b => S' (key b.name)), Unit01 x := by
      intro x hx
      obtain ⟨b, hb1, rfl⟩ := List.mem_map.1 hx
      obtain ⟨b', hb2, hkb, _⟩ := H b (partsIn_mem (List.mem_filter.1 hb1).1)
      rw [← hkb]
      exact (hb' b' hb2).1
    refine (avg_zeros_le ?_ hm).trans (slots_mono (own_bits _ _).1 (own_bits _ _).1 (hE a ha a' ha' hka) ?_ ?_)
    · intro x hx
      rcases List.mem_append.1 hx with hx | hx
      · exact unit_ownSlots _ _ x hx
      · exact hu x hx
    · rw [List.forall₂_map_left_iff, List.forall₂_map_right_iff]
      refine List.forall₂_same.2 fun b hb1 => ?_
      have hd := directPart_of_mem ha (List.mem_filter.1 hb1).1
      exact ih b hd hd.1
    · intro x hx
      obtain ⟨b, hb1, rfl⟩ := List.mem_map.1 hx
      exact (hb b (partsIn_mem (List.mem_filter.1 hb1).1)).1

theorem tests_of {P : Artifact → Artifact → Prop} (hT : Each as as' fun a a' => P a a') {a a' : Artifact} (ha : a ∈ as) (ha' : a' ∈ as') (hk : key a'.name = key a.name) : P a a' :=
  hT a ha a' ha' hk

theorem ratios_tst_up (hnd : (as.map fun a => key a.name).Nodup) (hnd' : (as'.map fun a => key a.name).Nodup) (H : StillThere as as')
    (hE : Each as as' fun a a' => NoWorse (ownSlots a.impl a.subnames) (ownSlots a'.impl a'.subnames)) (hT : Each as as' fun a a' => NoWorse (testSlots a) (testSlots a'))
    (hN : NewParts as as' (AllAt 1 as')) (hM : AnyNewParts as as' (TestsAt 1 as')) (hc' : ¬ Cyclic as')
    (hr : CompletionRule as S T) (hr' : CompletionRule as' S' T') : ∀ a ∈ as, T (key a.name) ≤ T' (key a.name) := by
  have hb' := rule_bounds hr' hc'
  have hS := ratios_spc_up hnd hnd' H hE hN hc' hr hr'
  intro a
  induction a using (directPart_wf fun h => hc' (still_cyclic H h)).induction with
  | _ a ih =>
    intro ha
    obtain ⟨a', ha', hka, _⟩ := H a ha
    have hty : a'.name.ty = a.name.ty := congrArg Prod.fst hka
    by_cases ht : a.name.ty = .TST
    · have e := hr'.test_tst a' ha' (hty.trans ht)
      rw [hka] at e
      rw [hr.test_tst a ha ht, e]
      exact hS a ha
    · obtain ⟨m, hm, hp⟩ := tst_slots hnd hnd' H hr' hM ha ha' hka
      rw [hr.other_tst a ha ht, ← hka, hr'.other_tst a' ha' (hty ▸ ht), avg_perm hp]
      have hn : NoWorse (testSlots a) (testSlots a') := tests_of hT ha ha' hka
      unfold testSlots at hn
      rw [if_neg ht, if_neg (hty ▸ ht)] at hn
      have hu : ∀ x ∈ (partsIn as a.name).map (fun b => T' (key b.name)), Unit01 x := by
        intro x hx
        obtain ⟨b, hb1, rfl⟩ := List.mem_map.1 hx
        obtain ⟨b', hb2, hkb, _⟩ := H b (partsIn_mem hb1)
        rw [← hkb]
        exact (hb' b' hb2).2
      refine (slots_mono (own_bits _ _).2 (own_bits _ _).2 hn ?_ hu).trans (avg_le_ones ?_ hm)
      · rw [List.forall₂_map_left_iff, List.forall₂_map_right_iff]
        refine List.forall₂_same.2 fun b hb1 => ?_
        have hd := directPart_of_mem ha hb1
        exact ih b hd hd.1
      · intro x hx
        rcases List.mem_append.1 hx with hx | hx
        · exact unit_ownTests _ _ x hx
        · exact hu x hx

theorem ratios_tst_down (hnd : (as.map fun a => key a.name).Nodup) (hnd' : (as'.map fun a => key a.name).Nodup) (H : StillThere as as')
    (hE : Each as as' fun a a' => NoWorse (ownSlots a'.impl a'.subnames) (ownSlots a.impl a.subnames)) (hT : Each as as' fun a a' => NoWorse (testSlots a') (testSlots a))
    (hN : NewParts as as' (AllAt 0 as')) (hM : AnyNewParts as as' (TestsAt 0 as')) (hc' : ¬ Cyclic as')
    (hr : CompletionRule as S T) (hr' : CompletionRule as' S' T') : ∀ a ∈ as, T' (key a.name) ≤ T (key a.name) := by
  have hc : ¬ Cyclic as := fun h => hc' (still_cyclic H h)
  have hb := rule_bounds hr hc
  have hb' := rule_bounds hr' hc'
  have hS := ratios_spc_down hnd hnd' H hE hN hc' hr hr'
  intro a
  induction a using (directPart_wf hc).induction with
  | _ a ih =>
    intro ha
    obtain ⟨a', ha', hka, _⟩ := H a ha
    have hty : a'.name.ty = a.name.ty := congrArg Prod.fst hka
    by_cases ht : a.name.ty = .TST
    · have e := hr'.test_tst a' ha' (hty.trans ht)
      rw [hka] at e
      rw [hr.test_tst a ha ht, e]
      exact hS a ha
    · obtain ⟨m, hm, hp⟩ := tst_slots hnd hnd' H hr' hM ha ha' hka
      rw [hr.other_tst a ha ht, ← hka, hr'.other_tst a' ha' (hty ▸ ht), avg_perm hp]
      have hn : NoWorse (testSlots a') (testSlots a) := tests_of hT ha ha' hka
      unfold testSlots at hn
      rw [if_neg ht, if_neg (hty ▸ ht)] at hn
      have hu : ∀ x ∈ (partsIn as a.name).map (fun b => T' (key b.name)), Unit01 x := by
        intro x hx
        obtain ⟨b, hb1, rfl⟩ := List.mem_map.1 hx
        obtain ⟨b', hb2, hkb, _⟩ := H b (partsIn_mem hb1)
        rw [← hkb]
        exact (hb' b' hb2).2
      refine (avg_zeros_le ?_ hm).trans (slots_mono (own_bits _ _).2 (own_bits _ _).2 hn ?_ ?_)
      · intro x hx
        rcases List.mem_append.1 hx with hx | hx
        · exact unit_ownTests _ _ x hx
        · exact hu x hx
      · rw [List.forall₂_map_left_iff, List.forall₂_map_right_iff]
        refine List.forall₂_same.2 fun b hb1 => ?_
        have hd := directPart_of_mem ha hb1
        exact ih b hd hd.1
      · intro x hx
        obtain ⟨b, hb1, rfl⟩ := List.mem_map.1 hx
        exact (hb b (partsIn_mem hb1)).2

/-- **New artifacts that are finished all the way down lower no implemented percentage** of the old ones, as long as they do not close a cycle. The old ones may be changed for the better
with it (C95). -/
theorem C96_finished (h : ReadsProject L readToml hash ncpu fs base (.ok (c, p))) (h' : ReadsProject L' readToml' hash' ncpu' fs' base' (.ok (c', p')))
    (hc' : ¬ Cyclic (artsOf p'.artifacts)) (H : StillThere (artsOf p.artifacts) (artsOf p'.artifacts))
    (hE : Each (artsOf p.artifacts) (artsOf p'.artifacts) fun a a' => NoWorse (ownSlots a.impl a.subnames) (ownSlots a'.impl a'.subnames))
    (hN : NewParts (artsOf p.artifacts) (artsOf p'.artifacts) (AllAt 1 (artsOf p'.artifacts))) :
    Each (artsOf p.artifacts) (artsOf p'.artifacts) fun a a' => a.completed.spc ≤ a'.completed.spc := by
  intro a ha a' ha' e
  have hc : ¬ Cyclic (artsOf p.artifacts) := fun hx => hc' (still_cyclic H hx)
  obtain ⟨S, T, hr, f⟩ := C79_rule h hc
  obtain ⟨S', T', hr', f'⟩ := C79_rule h' hc'
  rw [f a ha, f' a' ha']
  dsimp only
  rw [e]
  exact roundRatio_mono (rule_bounds hr hc a ha).1.1 (ratios_spc_up (read_nodup h) (read_nodup h') H hE hN hc' hr hr' a ha)

/-- **And no tested percentage**, if they are tested all the way down, too. -/
theorem C96_tested (h : ReadsProject L readToml hash ncpu fs base (.ok (c, p))) (h' : ReadsProject L' readToml' hash' ncpu' fs' base' (.ok (c', p')))
    (hc' : ¬ Cyclic (artsOf p'.artifacts)) (H : StillThere (artsOf p.artifacts) (artsOf p'.artifacts))
    (hE : Each (artsOf p.artifacts) (artsOf p'.artifacts) fun a a' => NoWorse (ownSlots a.impl a.subnames) (ownSlots a'.impl a'.subnames))
    (hT : Each (artsOf p.artifacts) (artsOf p'.artifacts) fun a a' => NoWorse (testSlots a) (testSlots a'))
    (hN : NewParts (artsOf p.artifacts) (artsOf p'.artifacts) (AllAt 1 (artsOf p'.artifacts)))
    (hM : AnyNewParts (artsOf p.artifacts) (artsOf p'.artifacts) (TestsAt 1 (artsOf p'.artifacts))) :
    Each (artsOf p.artifacts) (artsOf p'.artifacts) fun a a' => a.completed.tst ≤ a'.completed.tst := by
  intro a ha a' ha' e
  have hc : ¬ Cyclic (artsOf p.artifacts) := fun hx => hc' (still_cyclic H hx)
  obtain ⟨S, T, hr, f⟩ := C79_rule h hc
  obtain ⟨S', T', hr', f'⟩ := C79_rule h' hc'
  rw [f a ha, f' a' ha']
  dsimp only
  rw [e]
  exact roundRatio_mono (rule_bounds hr hc a ha).2.1 (ratios_tst_up (read_nodup h) (read_nodup h') H hE hT hN hM hc' hr hr' a ha)

theorem shown_nonneg (h : ReadsProject L readToml hash ncpu fs base (.ok (c, p))) {a : Artifact} (ha : a ∈ artsOf p.artifacts) : 0 ≤ a.completed.spc ∧ 0 ≤ a.completed.tst := by
  by_cases hc : Cyclic (artsOf p.artifacts)
  · rw [C79_cycle h hc a ha]; exact ⟨le_refl _, le_refl _⟩
  · obtain ⟨S, T, hr, f⟩ := C79_rule h hc
    rw [f a ha]
    have z : roundRatio 0 = 0 := by decide +kernel
    have hb := rule_bounds hr hc a ha
    exact ⟨z ▸ roundRatio_mono (le_refl _) hb.1.1, z ▸ roundRatio_mono (le_refl _) hb.2.1⟩

/-- **New artifacts for which there is nothing yet raise no implemented percentage** of the old ones, whether or not they close a cycle. -/
theorem C96_planned (h : ReadsProject L readToml hash ncpu fs base (.ok (c, p))) (h' : ReadsProject L' readToml' hash' ncpu' fs' base' (.ok (c', p')))
    (H : StillThere (artsOf p.artifacts) (artsOf p'.artifacts))
    (hE : Each (artsOf p.artifacts) (artsOf p'.artifacts) fun a a' => NoWorse (ownSlots a'.impl a'.subnames) (ownSlots a.impl a.subnames))
    (hN : NewParts (artsOf p.artifacts) (artsOf p'.artifacts) (AllAt 0 (artsOf p'.artifacts))) :
    Each (artsOf p.artifacts) (artsOf p'.artifacts) fun a a' => a'.completed.spc ≤ a.completed.spc := by
  intro a ha a' ha' e
  by_cases hc' : Cyclic (artsOf p'.artifacts)
  · rw [C79_cycle h' hc' a' ha']; exact (shown_nonneg h ha).1
  have hc : ¬ Cyclic (artsOf p.artifacts) := fun hx => hc' (still_cyclic H hx)
  obtain ⟨S, T, hr, f⟩ := C79_rule h hc
  obtain ⟨S', T', hr', f'⟩ := C79_rule h' hc'
  have h0 := (rule_bounds hr' hc' a' ha').1.1
  rw [f a ha, f' a' ha']
  dsimp only
  rw [e] at h0 ⊢
  exact roundRatio_mono h0 (ratios_spc_down (read_nodup h) (read_nodup h') H hE hN hc' hr hr' a ha)

/-- **And no tested percentage**, if there are no tests for them either. -/
theorem C96_untested (h : ReadsProject L readToml hash ncpu fs base (.ok (c, p))) (h' : ReadsProject L' readToml' hash' ncpu' fs' base' (.ok (c', p')))
    (H : StillThere (artsOf p.artifacts) (artsOf p'.artifacts))
    (hE : Each (artsOf p.artifacts) (artsOf p'.artifacts) fun a a' => NoWorse (ownSlots a'.impl a'.subnames) (ownSlots a.impl a.subnames))
    (hT : Each (artsOf p.artifacts) (artsOf p'.artifacts) fun a a' => NoWorse (testSlots a') (testSlots a))
    (hN : NewParts (artsOf p.artifacts) (artsOf p'.artifacts) (AllAt 0 (artsOf p'.artifacts)))
    (hM : AnyNewParts (artsOf p.artifacts) (artsOf p'.artifacts) (TestsAt 0 (artsOf p'.artifacts))) :
    Each (artsOf p.artifacts) (artsOf p'.artifacts) fun a a' => a'.completed.tst ≤ a.completed.tst := by
  intro a ha a' ha' e
  by_cases hc' : Cyclic (artsOf p'.artifacts)
  · rw [C79_cycle h' hc' a' ha']; exact (shown_nonneg h ha).2
  have hc : ¬ Cyclic (artsOf p.artifacts) := fun hx => hc' (still_cyclic H hx)
  obtain ⟨S, T, hr, f⟩ := C79_rule h hc
  obtain ⟨S', T', hr', f'⟩ := C79_rule h' hc'
  have h0 := (rule_bounds hr' hc' a' ha').2.1
  rw [f a ha, f' a' ha']
  dsimp only
  rw [e] at h0 ⊢
  exact roundRatio_mono h0 (ratios_tst_down (read_nodup h) (read_nodup h') H hE hT hN hM hc' hr hr' a ha)

end Art.Grow
