import Verif.Props.Share
import Verif.Spec.Tested

/-!
# Property C92: how far the tested percentage can be trusted, and when new code cannot lower it
-/

namespace Art.Tested
open Spec Share

variable {as : List Artifact} {S T S' T' : Ty × Str → ℚ} {a b : Artifact} {w : Nat} {ims : IMap Name ArtifactIm}
  {defined : IMap Name FilePath} {hash hash' : ArtifactIm → HashIm} {code code' : IMap Name ImplCode} {arts arts' : IMap Name Artifact}

/-- All that is averaged for the tested ratio of `a`. -/
def tstSlots (as : List Artifact) (S T : Ty × Str → ℚ) (a : Artifact) : List ℚ :=
  testSlots a ++ (partsIn as a.name).map (fun b => if a.name.ty = .TST then S (key b.name) else T (key b.name))

theorem tstSlots_eq (h : CompletionRule as S T) (ha : a ∈ as) : T (key a.name) = avg (tstSlots as S T a) := by
  unfold tstSlots testSlots
  by_cases ht : a.name.ty = .TST
  · rw [h.test_tst a ha ht, h.test a ha ht]; simp [ht]
  · rw [h.other_tst a ha ht]; simp [ht]

theorem tstSlots_length : (tstSlots as S T a).length = testWidth as a := by
  unfold tstSlots testWidth; rw [List.length_append, List.length_map]

theorem unit_tstSlots (hc : ¬ Cyclic as) (h : CompletionRule as S T) (a : Artifact) : ∀ x ∈ tstSlots as S T a, Unit01 x := by
  intro x hx
  rcases List.mem_append.1 hx with hx | hx
  · unfold testSlots at hx
    split at hx
    · exact unit_ownSlots _ _ x hx
    · exact unit_ownTests _ _ x hx
  · obtain ⟨c, hc', rfl⟩ := List.mem_map.1 hx
    have hb := rule_bounds h hc c (partsIn_mem hc')
    split
    · exact hb.1
    · exact hb.2

theorem test_zero_one (a : Artifact) : ∀ x ∈ testSlots a, x = 0 ∨ x = 1 := by
  intro x hx
  unfold testSlots at hx
  split at hx
  · exact slot_zero_one _ _ x hx
  · cases hi : a.impl with
    | done _ => rw [hi] at hx; simp [ownTests] at hx; exact .inr hx
    | notImpl => rw [hi] at hx; simp [ownTests] at hx
    | code c =>
      rw [hi] at hx
      obtain ⟨s, _, rfl⟩ := List.mem_map.1 hx
      unfold subDone; split
      · exact .inr rfl
      · exact .inl rfl

theorem TestRoute.mem (r : TestRoute as b a w) : b ∈ as ∧ a ∈ as := by
  induction r with
  | here h => exact ⟨h, h⟩
  | up _ ha _ _ ih => exact ⟨ih.1, ha⟩

theorem TestRoute.pos (r : TestRoute as b a w) : 0 < w := by
  induction r with
  | here _ => exact Nat.one_pos
  | up _ _ hc _ ih =>
    refine Nat.mul_pos ?_ ih
    have := List.length_pos_of_mem hc
    unfold testWidth; omega

/-- Whatever is below an artifact contributes at least its share to how far the artifact is tested, and what it lacks in tests is missing there by at
least the same share. -/
theorem C92_share (hc : ¬ Cyclic as) (h : CompletionRule as S T) (r : TestRoute as b a w) :
    T (key b.name) / w ≤ T (key a.name) ∧ (1 - T (key b.name)) / w ≤ 1 - T (key a.name) := by
  induction r with
  | here _ => simp
  | @up c a w r ha hm ht ih =>
    have hx : T (key c.name) ∈ tstSlots as S T a := by
      refine List.mem_append_right _ (List.mem_map.2 ⟨c, hm, ?_⟩)
      split
      · rename_i e
        rw [h.test_tst c r.mem.2 (ht e)]
      · rfl
    obtain ⟨s1, s2⟩ := avg_share (unit_tstSlots hc h a) hx
    rw [← tstSlots_eq h ha, tstSlots_length] at s1 s2
    have hp : (0 : ℚ) ≤ testWidth as a := Nat.cast_nonneg _
    rw [Nat.cast_mul, mul_comm, ← div_div, ← div_div]
    exact ⟨(div_le_div_of_nonneg_right ih.1 hp).trans s1, (div_le_div_of_nonneg_right ih.2 hp).trans s2⟩

/-- **The shown "100% tested" can be trusted as far down as fewer than 2000 things are averaged**: every artifact below has tests of its own or below it,
and all its own ones are implemented. -/
theorem C92_hundred (inp : LoadInput ims defined) (h : Loads hash ims code defined arts) (r : TestRoute (artsOf arts) b a w)
    (hw : w * max 1 (testWidth (artsOf arts) b) < 2000) (h1 : a.completed.tst = 1) :
    0 < testWidth (artsOf arts) b ∧ ∀ x ∈ testSlots b, x = 1 := by
  obtain ⟨hb, ha⟩ := r.mem
  have hc : ¬ Cyclic (artsOf arts) := fun hc => by
    rw [(h.spec inp).2.2.2.2.2.2.1 hc a ha] at h1; norm_num at h1
  obtain ⟨S, T, hr, hcomp⟩ := C16_rule inp h hc
  rw [hcomp a ha] at h1
  obtain ⟨u0, u1⟩ := (rule_bounds hr hc a ha).2
  have h2 := ((C18_rounding u0 u1).2.1).1 h1
  have h3 := (C92_share hc hr r).2
  have hwp : (0 : ℚ) < w := by exact_mod_cast r.pos
  have h4 : 1 - T (key b.name) ≤ w / 2000 := by
    have := (div_le_iff₀ hwp).1 h3
    nlinarith
  have hww : w < 2000 := lt_of_le_of_lt (Nat.le_mul_of_pos_right w (by omega)) hw
  have hww' : (w : ℚ) < 2000 := by exact_mod_cast hww
  have hpos : 0 < testWidth (artsOf arts) b := by
    rw [← tstSlots_length (S := S) (T := T), List.length_pos_iff]
    intro hn
    have := tstSlots_eq hr hb
    rw [hn, avg_nil] at this
    rw [this] at h4
    linarith
  refine ⟨hpos, fun x hx => ?_⟩
  rcases test_zero_one _ x hx with rfl | rfl
  · exfalso
    obtain ⟨_, s2⟩ := avg_share (unit_tstSlots hc hr b) (List.mem_append_left _ hx : (0 : ℚ) ∈ tstSlots (artsOf arts) S T b)
    rw [← tstSlots_eq hr hb, tstSlots_length, sub_zero] at s2
    have hb' : (0 : ℚ) < testWidth (artsOf arts) b := by exact_mod_cast hpos
    have h5 := (div_le_iff₀ hb').1 (s2.trans h4)
    have h6 : ((w * testWidth (artsOf arts) b : Nat) : ℚ) < 2000 := by
      have : w * testWidth (artsOf arts) b < 2000 := lt_of_le_of_lt (Nat.mul_le_mul_left w (le_max_right 1 _)) hw
      exact_mod_cast this
    rw [Nat.cast_mul] at h6
    linarith
  · rfl

/-- **The shown "0% tested" can be trusted as far down as no more than 2000 things are averaged**: in a project without cycles, no own test slot of any
artifact below is implemented. -/
theorem C92_zero (inp : LoadInput ims defined) (h : Loads hash ims code defined arts) (hc : ¬ Cyclic (artsOf arts))
    (r : TestRoute (artsOf arts) b a w) (hw : w * testWidth (artsOf arts) b ≤ 2000) (h0 : a.completed.tst = 0) :
    ∀ x ∈ testSlots b, x = 0 := by
  obtain ⟨hb, ha⟩ := r.mem
  obtain ⟨S, T, hr, hcomp⟩ := C16_rule inp h hc
  rw [hcomp a ha] at h0
  obtain ⟨u0, u1⟩ := (rule_bounds hr hc a ha).2
  have h2 := ((C18_rounding u0 u1).2.2).1 h0
  have h3 := (C92_share hc hr r).1
  have hwp : (0 : ℚ) < w := by exact_mod_cast r.pos
  intro x hx
  rcases test_zero_one _ x hx with rfl | rfl
  · rfl
  · exfalso
    have hm : (1 : ℚ) ∈ tstSlots (artsOf arts) S T b := List.mem_append_left _ hx
    obtain ⟨s1, _⟩ := avg_share (unit_tstSlots hc hr b) hm
    rw [← tstSlots_eq hr hb, tstSlots_length] at s1
    have hb' : (0 : ℚ) < testWidth (artsOf arts) b := by
      have : 0 < testWidth (artsOf arts) b := by rw [← tstSlots_length (S := S) (T := T)]; exact List.length_pos_of_mem hm
      exact_mod_cast this
    have h5 := (div_le_iff₀ hwp).1 h3
    have h6 := (div_le_iff₀ hb').1 s1
    have h7 : ((w * testWidth (artsOf arts) b : Nat) : ℚ) ≤ 2000 := by exact_mod_cast hw
    rw [Nat.cast_mul] at h7
    have h8 : T (key b.name) < w / 2000 := by
      refine lt_of_le_of_lt h5 ?_
      nlinarith
    have h9 := mul_lt_mul_of_pos_right h8 hb'
    have h10 : (w : ℚ) / 2000 * testWidth (artsOf arts) b ≤ 1 := by
      rw [div_mul_eq_mul_div, div_le_one (by norm_num)]; exact h7
    linarith

/-- More ones do not lower an average of things between 0 and 1. -/
theorem avg_le_ones {l : List ℚ} (h : ∀ x ∈ l, Unit01 x) : ∀ {m : List ℚ}, (∀ x ∈ m, x = 1) → avg l ≤ avg (m ++ l)
  | [], _ => le_refl _
  | x :: m, hm => by
    rw [hm x (by simp), List.cons_append]
    refine (avg_le_ones h (fun y hy => hm y (by simp [hy]))).trans (avg_le_cons_one fun y hy => ?_)
    rcases List.mem_append.1 hy with hy | hy
    · rw [hm y (by simp [hy])]; exact ⟨zero_le_one, le_refl _⟩
    · exact h y hy

theorem avg_tests_mono {i i' : Impl} {subs : List SubName} {l l' : List ℚ}
    (hll : List.Forall₂ (· ≤ ·) l l') (hl : ∀ x ∈ l', Unit01 x)
    (h : i = i' ∨ (∃ c c', i = .code c ∧ i' = .code c' ∧
        ∀ s : SubName, (∃ x ∈ c.secondary, key x.1 = key s) → ∃ x ∈ c'.secondary, key x.1 = key s) ∨
      (∃ c', i = .notImpl ∧ i' = .code c' ∧ ∀ s ∈ subs, TestSub s → ∃ x ∈ c'.secondary, key x.1 = key s)) :
    avg (ownTests i subs ++ l) ≤ avg (ownTests i' subs ++ l') := by
  rcases h with rfl | ⟨c, c', rfl, rfl, hsec⟩ | ⟨c', rfl, rfl, hv⟩
  · exact avg_le_of_forall₂ (List.rel_append (List.forall₂_same.2 (fun _ _ => le_refl _)) hll)
  · refine avg_le_of_forall₂ (List.rel_append ?_ hll)
    unfold ownTests
    rw [List.forall₂_map_left_iff, List.forall₂_map_right_iff, List.forall₂_same]
    intro s _
    unfold subDone
    by_cases h1 : ∃ x ∈ c.secondary, key x.1 = key s
    · rw [if_pos h1, if_pos (hsec s h1)]
    · rw [if_neg h1]; split <;> norm_num
  · refine (avg_le_of_forall₂ hll).trans (avg_le_ones hl ?_)
    intro x hx
    obtain ⟨s, hs, rfl⟩ := List.mem_map.1 hx
    obtain ⟨h1, h2⟩ := List.mem_filter.1 hs
    unfold subDone
    rw [if_pos (hv s h1 (by simpa using h2))]

/-- **New code that comes with its tests lowers no percentage.** If references are added as in C48 and an artifact that had no code before gets code for
all its `.tst-` subnames at once, then no artifact is shown as less tested than before. -/
theorem C92_tst_monotone (inp : LoadInput ims defined) (h : Loads hash ims code defined arts)
    (h' : Loads hash' ims code' defined arts') (hadd : AddsImpl ims code code')
    (hwith : WithTests ims code code' (fun t l => parseSubnames t = .ok l)) :
    ∀ a ∈ artsOf arts, ∀ a' ∈ artsOf arts', key a.name = key a'.name →
      a.completed.spc ≤ a'.completed.spc ∧ a.completed.tst ≤ a'.completed.tst := by
  intro a0 ha0 a0' ha0' hkey0
  refine ⟨C48_spc_monotone inp h h' hadd a0 ha0 a0' ha0' hkey0, ?_⟩
  by_cases hc : Cyclic (artsOf arts)
  · have hc' := C16_cyclic_independent inp h inp h' (fun _ => rfl) hc
    rw [(h.spec inp).2.2.2.2.2.2.1 hc a0 ha0, (h'.spec inp).2.2.2.2.2.2.1 hc' a0' ha0']
  have hc' : ¬ Cyclic (artsOf arts') := fun hx => hc (C16_cyclic_independent inp h' inp h (fun _ => rfl) hx)
  have hnd := (h.spec inp).2.2.2.1
  have hnd' := (h'.spec inp).2.2.2.1
  obtain ⟨S, T, hr, hcomp⟩ := C16_rule inp h hc
  obtain ⟨S', T', hr', hcomp'⟩ := C16_rule inp h' hc'
  have M := match_of_inputs inp h inp h' (fun _ => true) (fun _ _ _ _ => rfl) (fun n _ => rfl)
  have M' := match_of_inputs inp h' inp h (fun _ => true) (fun _ _ _ _ => rfl) (fun n _ => rfl)
  have hb := rule_bounds hr hc
  have hb' := rule_bounds hr' hc'
  have hS := spc_ratio_mono inp h h' hadd hc hr hr'
  have hT : ∀ a ∈ artsOf arts, T (key a.name) ≤ T' (key a.name) := by
    intro a
    induction a using (directPart_wf hc).induction with
    | _ a ih =>
      intro ha
      obtain ⟨a', ha', hka, _, hsub, im, him, hi1, hi2, hps⟩ := M a ha rfl
      have hty : a'.name.ty = a.name.ty := congrArg Prod.fst hka
      by_cases ht : a.name.ty = .TST
      · have e := hr'.test_tst a' ha' (hty.trans ht)
        rw [hka] at e
        rw [hr.test_tst a ha ht, e]
        exact hS a ha
      · have hperm : ((partsIn (artsOf arts) a.name).map (fun b => key b.name)).Perm
            ((partsIn (artsOf arts') a'.name).map (fun b => key b.name)) := by
          simpa using parts_perm (fun _ => true) hnd hnd'
            (fun a ha _ => by obtain ⟨a', h1, h2, h3, _⟩ := M a ha rfl; exact ⟨a', h1, h2, h3⟩)
            (fun a ha _ => by obtain ⟨a', h1, h2, h3, _⟩ := M' a ha rfl; exact ⟨a', h1, h2, h3⟩) hka.symm
        rw [hr.other_tst a ha ht, ← hka, hr'.other_tst a' ha' (hty ▸ ht),
          avg_perm ((List.Perm.refl (ownTests a'.impl a'.subnames)).append (map_parts_perm hperm T').symm), ← hsub]
        refine avg_tests_mono ?_ ?_ ?_
        · rw [List.forall₂_map_left_iff, List.forall₂_map_right_iff, List.forall₂_same]
          intro b hb1
          have hd := directPart_of_mem ha hb1
          exact ih b hd hd.1
        · intro x hx
          obtain ⟨b, hb1, rfl⟩ := List.mem_map.1 hx
          obtain ⟨b', hb2, hkb, _⟩ := M b (partsIn_mem hb1) rfl
          rw [← hkb]
          exact (hb' b' hb2).2
        · obtain ⟨ha1, _⟩ := hadd a.name im him
          rw [hi1, hi2]
          unfold implOf
          simp only
          cases im.done with
          | some d => exact Or.inl rfl
          | none =>
            simp only
            cases hg : IMap.get? code a.name with
            | some c =>
              obtain ⟨c', hc', _, h2⟩ := ha1 c hg
              rw [hc']
              exact Or.inr (Or.inl ⟨c, c', rfl, rfl, h2⟩)
            | none =>
              cases hg' : IMap.get? code' a.name with
              | none => exact Or.inl rfl
              | some c' =>
                exact Or.inr (Or.inr ⟨c', rfl, rfl, hwith a.name im him ht hg c' hg' _ hps⟩)
  rw [hcomp a0 ha0, hcomp' a0' ha0']
  simp only
  rw [← hkey0]
  exact roundRatio_mono (hb a0 ha0).2.1 (hT a0 ha0)

end Art.Tested
