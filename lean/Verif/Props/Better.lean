import Verif.Spec.Better
import Verif.Props.Depends

/-!
# C95: when a change cannot lower a percentage

Exactly when no artifact loses a finished slot of its own or gains an unfinished one.
-/

namespace Art.Better
open Spec Depends Tested

variable {L : Libs} {readToml : Str → Option SettingsRaw} {hash : ArtifactIm → HashIm} {ncpu : Nat} {fs : FS} {base : FilePath} {c : Categorized} {p : Project}
  {L' : Libs} {readToml' : Str → Option SettingsRaw} {hash' : ArtifactIm → HashIm} {ncpu' : Nat} {fs' : FS} {base' : FilePath} {c' : Categorized} {p' : Project}

theorem avg_div (l : List ℚ) : avg l = l.sum / l.length := by
  unfold avg
  split
  · rename_i h; subst h; simp
  · rfl

/-- Slots are finished or not. -/
def Bits (l : List ℚ) : Prop := ∀ x ∈ l, x = 0 ∨ x = 1

theorem bits_count : ∀ {l : List ℚ}, Bits l → l.sum = finished l ∧ l.length = finished l + unfinished l
  | [], _ => by simp [finished, unfinished]
  | x :: l, h => by
    obtain ⟨h1, h2⟩ := bits_count (l := l) fun y hy => h y (by simp [hy])
    unfold finished unfinished at *
    rcases h x (by simp) with rfl | rfl
    · simp [h1, h2]; omega
    · simp [h1, h2]; constructor <;> [ring; omega]

theorem bits_avg {o m : List ℚ} (h : Bits o) : avg (o ++ m) = (finished o + m.sum) / (finished o + unfinished o + m.length : ℚ) := by
  rw [avg_div, List.sum_append, List.length_append, (bits_count h).1, (bits_count h).2]
  push_cast
  rfl

theorem ratio_le {F U F' U' x k : ℚ} (hF : 0 ≤ F) (hU' : 0 ≤ U') (h1 : F ≤ F') (h2 : U' ≤ U) (hx : 0 ≤ x) (hk : x ≤ k) :
    (F + x) / (F + U + k) ≤ (F' + x) / (F' + U' + k) := by
  have hk0 : 0 ≤ k := hx.trans hk
  have hF' : 0 ≤ F' := hF.trans h1
  have hU : 0 ≤ U := hU'.trans h2
  rcases eq_or_lt_of_le (show 0 ≤ F + U + k by positivity) with e | hpos
  · rw [← e, div_zero]; positivity
  rcases eq_or_lt_of_le (show 0 ≤ F' + U' + k by positivity) with e | hpos'
  · have : F + x = 0 := by linarith
    rw [this, zero_div]; positivity
  rw [div_le_div_iff₀ hpos hpos']
  nlinarith [mul_le_mul h1 h2 hU' hF', mul_le_mul_of_nonneg_left h2 hx, mul_nonneg (sub_nonneg.2 h1) (sub_nonneg.2 hk)]

/-- **Own slots may be exchanged for others, without lowering the average whatever the parts are, exactly if no finished one is lost and no unfinished one is gained.** -/
theorem C95_slots {o o' : List ℚ} (h : Bits o) (h' : Bits o') :
    (∀ m : List ℚ, (∀ x ∈ m, 0 ≤ x ∧ x ≤ 1) → avg (o ++ m) ≤ avg (o' ++ m)) ↔ NoWorse o o' := by
  constructor
  · intro hm
    constructor
    · by_contra hc
      push Not at hc
      have := hm (List.replicate (finished o' * unfinished o + 1) 0) (by intro x hx; rw [List.eq_of_mem_replicate hx]; norm_num)
      rw [bits_avg h, bits_avg h', List.sum_replicate, List.length_replicate, div_le_div_iff₀ (by positivity) (by positivity)] at this
      simp only [nsmul_eq_mul, mul_zero, add_zero] at this
      norm_cast at this
      generalize finished o = F at *
      generalize unfinished o = U at *
      generalize finished o' = F' at *
      generalize unfinished o' = U' at *
      nlinarith [Nat.zero_le (F * U'), Nat.mul_le_mul_right (F' * U + 1) hc]
    · by_contra hc
      push Not at hc
      have := hm (List.replicate (unfinished o * finished o' + 1) 1) (by intro x hx; rw [List.eq_of_mem_replicate hx]; norm_num)
      rw [bits_avg h, bits_avg h', List.sum_replicate, List.length_replicate, div_le_div_iff₀ (by positivity) (by positivity)] at this
      simp only [nsmul_eq_mul, mul_one] at this
      norm_cast at this
      generalize finished o = F at *
      generalize unfinished o = U at *
      generalize finished o' = F' at *
      generalize unfinished o' = U' at *
      nlinarith [Nat.zero_le (F * U'), Nat.mul_le_mul_right (U * F' + 1) hc]
  · rintro ⟨h1, h2⟩ m hm
    rw [bits_avg h, bits_avg h']
    obtain ⟨b1, b2⟩ := sum_bounds (l := m) hm
    exact ratio_le (by positivity) (by positivity) (by exact_mod_cast h1) (by exact_mod_cast h2) b1 b2

theorem own_bits (i : Impl) (subs : List SubName) : Bits (ownSlots i subs) ∧ Bits (ownTests i subs) := by
  have hs : ∀ (c : ImplCode) (s : SubName), subDone c s = 0 ∨ subDone c s = 1 := fun c s => by unfold subDone; split <;> simp
  unfold Bits ownSlots ownTests
  cases i with
  | done d => simp
  | code c =>
    constructor
    · intro x hx
      rcases List.mem_cons.1 hx with rfl | hx
      · split <;> simp
      · obtain ⟨s, _, rfl⟩ := List.mem_map.1 hx; exact hs c s
    · intro x hx
      obtain ⟨s, _, rfl⟩ := List.mem_map.1 hx; exact hs c s
  | notImpl =>
    refine ⟨fun x hx => ?_, by simp⟩
    dsimp only at hx
    split at hx
    · cases hx
    · exact .inl (List.eq_of_mem_replicate hx)

theorem slots_mono {o o' l l' : List ℚ} (h : Bits o) (h' : Bits o') (hn : NoWorse o o') (hl : List.Forall₂ (· ≤ ·) l l') (hu : ∀ x ∈ l', Unit01 x) :
    avg (o ++ l) ≤ avg (o' ++ l') :=
  (avg_le_of_forall₂ (List.rel_append (List.forall₂_same.2 fun _ _ => le_refl _) hl)).trans ((C95_slots h h').2 hn l' hu)

theorem kept_cyclic {as as' : List Artifact} (hb : Kept as as') (hc : Cyclic as) : Cyclic as' := by
  have : ∀ b, ∃ b', b ∈ as → b' ∈ as' ∧ key b'.name = key b.name ∧ ∀ n, PartOf b n ↔ PartOf b' n := by
    intro b
    by_cases hbm : b ∈ as
    · obtain ⟨b', h⟩ := hb b hbm
      exact ⟨b', fun _ => h⟩
    · exact ⟨b, fun hx => absurd hx hbm⟩
  choose f hf using this
  obtain ⟨a, ha⟩ := hc
  refine ⟨f a, ha.lift f fun x y hxy => ⟨(hf x hxy.1).1, (hf y hxy.2.1).1, ?_⟩⟩
  have := ((hf x hxy.1).2.2 y.name).1 hxy.2.2
  unfold PartOf at this ⊢
  rw [(hf y hxy.2.1).2.1]
  exact this

theorem ratios_spc {as as' : List Artifact} (hnd : (as.map fun a => key a.name).Nodup) (hnd' : (as'.map fun a => key a.name).Nodup) (K : Kept as as') (K' : Kept as' as)
    (hE : Each as as' fun a a' => NoWorse (ownSlots a.impl a.subnames) (ownSlots a'.impl a'.subnames)) (hc : ¬ Cyclic as) {S T S' T' : Ty × Str → ℚ}
    (hr : CompletionRule as S T) (hr' : CompletionRule as' S' T') : ∀ a ∈ as, S (key a.name) ≤ S' (key a.name) := by
  have hb' := rule_bounds hr' fun hx => hc (kept_cyclic K' hx)
  intro a
  induction a using (directPart_wf hc).induction with
  | _ a ih =>
    intro ha
    obtain ⟨a', ha', hka, _⟩ := K a ha
    have hty : a'.name.ty = a.name.ty := congrArg Prod.fst hka
    have hperm : (((partsIn as a.name).filter (fun b => a.name.ty = .TST ∨ b.name.ty ≠ .TST)).map (fun b => key b.name)).Perm
        (((partsIn as' a'.name).filter (fun b => a'.name.ty = .TST ∨ b.name.ty ≠ .TST)).map (fun b => key b.name)) := by
      rw [hty]
      exact parts_perm (fun t => a.name.ty = .TST ∨ t ≠ .TST) hnd hnd' (fun a ha _ => K a ha) (fun a ha _ => K' a ha) hka.symm
    rw [spcSlots_eq hr ha, ← hka, spcSlots_eq hr' ha']
    unfold spcSlots
    rw [avg_perm ((List.Perm.refl (ownSlots a'.impl a'.subnames)).append (map_parts_perm hperm S').symm)]
    refine slots_mono (own_bits _ _).1 (own_bits _ _).1 (hE a ha a' ha' hka) ?_ ?_
    · rw [List.forall₂_map_left_iff, List.forall₂_map_right_iff, List.forall₂_same]
      intro b hb1
      have hd := directPart_of_mem ha (List.mem_filter.1 hb1).1
      exact ih b hd hd.1
    · intro x hx
      obtain ⟨b, hb1, rfl⟩ := List.mem_map.1 hx
      obtain ⟨b', hb2, hkb, _⟩ := K b (partsIn_mem (List.mem_filter.1 hb1).1)
      rw [← hkb]
      exact (hb' b' hb2).1

theorem ratios_tst {as as' : List Artifact} (hnd : (as.map fun a => key a.name).Nodup) (hnd' : (as'.map fun a => key a.name).Nodup) (K : Kept as as') (K' : Kept as' as)
    (hE : Each as as' fun a a' => NoWorse (ownSlots a.impl a.subnames) (ownSlots a'.impl a'.subnames)) (hT : Each as as' fun a a' => NoWorse (testSlots a) (testSlots a'))
    (hc : ¬ Cyclic as) {S T S' T' : Ty × Str → ℚ} (hr : CompletionRule as S T) (hr' : CompletionRule as' S' T') : ∀ a ∈ as, T (key a.name) ≤ T' (key a.name) := by
  have hb' := rule_bounds hr' fun hx => hc (kept_cyclic K' hx)
  have hS := ratios_spc hnd hnd' K K' hE hc hr hr'
  intro a
  induction a using (directPart_wf hc).induction with
  | _ a ih =>
    intro ha
    obtain ⟨a', ha', hka, _⟩ := K a ha
    have hty : a'.name.ty = a.name.ty := congrArg Prod.fst hka
    by_cases ht : a.name.ty = .TST
    · have e := hr'.test_tst a' ha' (hty.trans ht)
      rw [hka] at e
      rw [hr.test_tst a ha ht, e]
      exact hS a ha
    · have hperm : ((partsIn as a.name).map (fun b => key b.name)).Perm ((partsIn as' a'.name).map (fun b => key b.name)) := by
        simpa using parts_perm (fun _ => true) hnd hnd' (fun a ha _ => K a ha) (fun a ha _ => K' a ha) hka.symm
      rw [hr.other_tst a ha ht, ← hka, hr'.other_tst a' ha' (hty ▸ ht),
        avg_perm ((List.Perm.refl (ownTests a'.impl a'.subnames)).append (map_parts_perm hperm T').symm)]
      have hn : NoWorse (testSlots a) (testSlots a') := hT a ha a' ha' hka
      unfold testSlots at hn
      rw [if_neg ht, if_neg (hty ▸ ht)] at hn
      refine slots_mono (own_bits _ _).2 (own_bits _ _).2 hn ?_ ?_
      · rw [List.forall₂_map_left_iff, List.forall₂_map_right_iff, List.forall₂_same]
        intro b hb1
        have hd := directPart_of_mem ha hb1
        exact ih b hd hd.1
      · intro x hx
        obtain ⟨b, hb1, rfl⟩ := List.mem_map.1 hx
        obtain ⟨b', hb2, hkb, _⟩ := K b (partsIn_mem hb1)
        rw [← hkb]
        exact (hb' b' hb2).2

theorem read_nodup (h : ReadsProject L readToml hash ncpu fs base (.ok (c, p))) : ((artsOf p.artifacts).map fun a => key a.name).Nodup := by
  have hl := read_linked h
  have e : (artsOf p.artifacts).map (fun a => key a.name) = p.artifacts.map (fun x => key x.1) := by
    unfold artsOf
    rw [List.map_map]
    exact List.map_congr_left fun x hx => by rw [Function.comp, hl.names x hx]
  rw [e]
  exact hl.nodup

/-- **A change lowers no implemented percentage** if the artifacts and their links stay and no artifact loses a finished slot of its own or gains an unfinished one. -/
theorem C95_spc (h : ReadsProject L readToml hash ncpu fs base (.ok (c, p))) (h' : ReadsProject L' readToml' hash' ncpu' fs' base' (.ok (c', p')))
    (K : Kept (artsOf p.artifacts) (artsOf p'.artifacts)) (K' : Kept (artsOf p'.artifacts) (artsOf p.artifacts))
    (hE : Each (artsOf p.artifacts) (artsOf p'.artifacts) fun a a' => NoWorse (ownSlots a.impl a.subnames) (ownSlots a'.impl a'.subnames)) :
    Each (artsOf p.artifacts) (artsOf p'.artifacts) fun a a' => a.completed.spc ≤ a'.completed.spc := by
  intro a ha a' ha' e
  by_cases hc : Cyclic (artsOf p.artifacts)
  · rw [C79_cycle h hc a ha, C79_cycle h' (kept_cyclic K hc) a' ha']
  obtain ⟨S, T, hr, f⟩ := C79_rule h hc
  obtain ⟨S', T', hr', f'⟩ := C79_rule h' fun hx => hc (kept_cyclic K' hx)
  rw [f a ha, f' a' ha']
  dsimp only
  rw [e]
  exact roundRatio_mono (rule_bounds hr hc a ha).1.1 (ratios_spc (read_nodup h) (read_nodup h') K K' hE hc hr hr' a ha)

/-- **And no tested percentage**, if this holds for the slots that count as tests, too. -/
theorem C95_tst (h : ReadsProject L readToml hash ncpu fs base (.ok (c, p))) (h' : ReadsProject L' readToml' hash' ncpu' fs' base' (.ok (c', p')))
    (K : Kept (artsOf p.artifacts) (artsOf p'.artifacts)) (K' : Kept (artsOf p'.artifacts) (artsOf p.artifacts))
    (hE : Each (artsOf p.artifacts) (artsOf p'.artifacts) fun a a' => NoWorse (ownSlots a.impl a.subnames) (ownSlots a'.impl a'.subnames))
    (hT : Each (artsOf p.artifacts) (artsOf p'.artifacts) fun a a' => NoWorse (testSlots a) (testSlots a')) :
    Each (artsOf p.artifacts) (artsOf p'.artifacts) fun a a' => a.completed.tst ≤ a'.completed.tst := by
  intro a ha a' ha' e
  by_cases hc : Cyclic (artsOf p.artifacts)
  · rw [C79_cycle h hc a ha, C79_cycle h' (kept_cyclic K hc) a' ha']
  obtain ⟨S, T, hr, f⟩ := C79_rule h hc
  obtain ⟨S', T', hr', f'⟩ := C79_rule h' fun hx => hc (kept_cyclic K' hx)
  rw [f a ha, f' a' ha']
  dsimp only
  rw [e]
  exact roundRatio_mono (rule_bounds hr hc a ha).2.1 (ratios_tst (read_nodup h) (read_nodup h') K K' hE hT hc hr hr' a ha)

theorem noWorse_perm {o o' : List ℚ} (h : o.Perm o') : NoWorse o o' :=
  ⟨(h.countP_eq _).le, (h.countP_eq _).ge⟩

theorem done_slots {i : Impl} {subs : List SubName} (h : subs = [] ∨ i = .notImpl) : NoWorse (ownSlots i subs) [1] ∧ NoWorse (ownTests i subs) [1] := by
  have one : finished [1] = 1 ∧ unfinished [1] = 0 := by constructor <;> simp [finished, unfinished]
  unfold NoWorse
  rw [one.1, one.2]
  refine ⟨⟨?_, Nat.zero_le _⟩, ⟨?_, Nat.zero_le _⟩⟩
  · rcases h with rfl | rfl
    · refine (List.countP_le_length).trans ?_
      unfold ownSlots
      cases i <;> simp
    · unfold ownSlots finished
      dsimp only
      split
      · simp
      · rw [List.countP_replicate]; simp
  · rcases h with rfl | rfl
    · refine (List.countP_le_length).trans ?_
      unfold ownTests
      cases i <;> simp
    · simp [ownTests, finished]

/-- **Marking artifacts as done lowers no percentage**, as long as they have no subnames or no code. Artifacts that are not marked have the same things of their own as before; texts, files
and places in the code may change with it. -/
theorem C95_done (h : ReadsProject L readToml hash ncpu fs base (.ok (c, p))) (h' : ReadsProject L' readToml' hash' ncpu' fs' base' (.ok (c', p')))
    (K : Kept (artsOf p.artifacts) (artsOf p'.artifacts)) (K' : Kept (artsOf p'.artifacts) (artsOf p.artifacts))
    (hE : Each (artsOf p.artifacts) (artsOf p'.artifacts) fun a a' => SameOwn a a' ∨ (∃ d, a'.impl = .done d) ∧ (a.subnames = [] ∨ a.impl = .notImpl)) :
    Each (artsOf p.artifacts) (artsOf p'.artifacts) fun a a' => a.completed.spc ≤ a'.completed.spc ∧ a.completed.tst ≤ a'.completed.tst := by
  have h1 : Each (artsOf p.artifacts) (artsOf p'.artifacts) fun a a' => NoWorse (ownSlots a.impl a.subnames) (ownSlots a'.impl a'.subnames) := by
    intro a ha a' ha' e
    rcases hE a ha a' ha' e with hs | ⟨⟨d, hd⟩, hs⟩
    · exact noWorse_perm (sameOwn_slots hs).1
    · rw [hd]; exact (done_slots hs).1
  have h2 : Each (artsOf p.artifacts) (artsOf p'.artifacts) fun a a' => NoWorse (testSlots a) (testSlots a') := by
    intro a ha a' ha' e
    have hty : a'.name.ty = a.name.ty := congrArg Prod.fst e
    unfold testSlots
    rw [hty]
    split
    · exact h1 a ha a' ha' e
    · rcases hE a ha a' ha' e with hs | ⟨⟨d, hd⟩, hs⟩
      · exact noWorse_perm (sameOwn_slots hs).2
      · rw [hd]; exact (done_slots hs).2
  exact fun a ha a' ha' e => ⟨C95_spc h h' K K' h1 a ha a' ha' e, C95_tst h h' K K' h1 h2 a ha a' ha' e⟩

end Art.Better
