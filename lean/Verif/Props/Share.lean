import Verif.Spec.Share
import Verif.Props.Completion

/-!
# Property C90: how much one thing below an artifact counts

The shown 100% and 0% are rounded (C18). Here: as long as no more than so many things are averaged on the way down they can be trusted, and code
written for one artifact raises the artifacts above it by at least its share and by no more than it raises the artifact
itself.
-/

namespace Art.Share
open Spec

variable {hash hash' : ArtifactIm → HashIm} {ims : IMap Name ArtifactIm} {code code' : IMap Name ImplCode}
  {defined : IMap Name FilePath} {arts arts' : IMap Name Artifact} {as : List Artifact} {a b : Artifact} {w : Nat} {S T S' T' : Ty × Str → ℚ}

theorem mem_counts {c : Artifact} (ha : a ∈ as) (h : c ∈ Counts as a) : CountsFor as c a := by
  obtain ⟨h1, h2⟩ := List.mem_filter.1 h
  exact ⟨directPart_of_mem ha h1, by simpa using h2⟩

theorem slots_eq (as : List Artifact) (S : Ty × Str → ℚ) (a : Artifact) :
    spcSlots as S a = ownSlots a.impl a.subnames ++ (Counts as a).map (fun b => S (key b.name)) := rfl

theorem slots_length (as : List Artifact) (S : Ty × Str → ℚ) (a : Artifact) : (spcSlots as S a).length = width as a := by
  rw [slots_eq, List.length_append, List.length_map]; rfl

theorem Route.mem (r : Route as b a w) : b ∈ as ∧ a ∈ as := by
  induction r with
  | here h => exact ⟨h, h⟩
  | up _ ha _ ih => exact ⟨ih.1, ha⟩

theorem width_pos {c : Artifact} (h : c ∈ Counts as a) : 0 < width as a := by
  have := List.length_pos_of_mem h
  unfold width; omega

theorem Route.pos (r : Route as b a w) : 0 < w := by
  induction r with
  | here _ => exact Nat.one_pos
  | up _ _ hc ih => exact Nat.mul_pos (width_pos hc) ih

/-- One of the things that are averaged is at least its share of the average, and so is what it lacks. -/
theorem avg_share {l : List ℚ} (h : ∀ x ∈ l, Unit01 x) {x : ℚ} (hx : x ∈ l) :
    x / l.length ≤ avg l ∧ (1 - x) / l.length ≤ 1 - avg l := by
  have hne : l ≠ [] := List.ne_nil_of_mem hx
  have hpos : (0 : ℚ) < l.length := by
    have : 0 < l.length := List.length_pos_iff.2 hne
    exact_mod_cast this
  obtain ⟨l1, l2, rfl⟩ := List.append_of_mem hx
  obtain ⟨a1, a2⟩ := sum_bounds (l := l1) (fun y hy => h y (by simp [hy]))
  obtain ⟨b1, b2⟩ := sum_bounds (l := l2) (fun y hy => h y (by simp [hy]))
  unfold avg
  rw [if_neg hne]
  have hs : (l1 ++ x :: l2).sum = l1.sum + (x + l2.sum) := by simp
  have hl : ((l1 ++ x :: l2).length : ℚ) = l1.length + (1 + l2.length) := by simp; ring
  constructor
  · rw [div_le_div_iff_of_pos_right hpos, hs]; linarith
  · rw [le_sub_iff_add_le, ← add_div, div_le_one hpos, hs, hl]; linarith

theorem unit_slots (hc : ¬ Cyclic as) (h : CompletionRule as S T) (a : Artifact) : ∀ x ∈ spcSlots as S a, Unit01 x := by
  intro x hx
  rcases List.mem_append.1 hx with hx | hx
  · exact unit_ownSlots _ _ x hx
  · obtain ⟨c, hc', rfl⟩ := List.mem_map.1 hx
    exact (rule_bounds h hc c (partsIn_mem (List.mem_filter.1 hc').1)).1

/-- Whatever is below an artifact contributes at least its share to the true completion of the artifact, and what it lacks is missing
there by at least the same share. -/
theorem C90_share (hc : ¬ Cyclic as) (h : CompletionRule as S T) (r : Route as b a w) :
    S (key b.name) / w ≤ S (key a.name) ∧ (1 - S (key b.name)) / w ≤ 1 - S (key a.name) := by
  induction r with
  | here _ => simp
  | @up c a w r ha hm ih =>
    have hx : S (key c.name) ∈ spcSlots as S a := List.mem_append_right _ (List.mem_map.2 ⟨c, hm, rfl⟩)
    obtain ⟨s1, s2⟩ := avg_share (unit_slots hc h a) hx
    rw [← spcSlots_eq h ha, slots_length] at s1 s2
    have hp : (0 : ℚ) ≤ width as a := Nat.cast_nonneg _
    rw [Nat.cast_mul, mul_comm, ← div_div, ← div_div]
    exact ⟨(div_le_div_of_nonneg_right ih.1 hp).trans s1, (div_le_div_of_nonneg_right ih.2 hp).trans s2⟩

/-- The own slots of an artifact are each done or not. -/
theorem slot_zero_one (i : Impl) (subs : List SubName) : ∀ x ∈ ownSlots i subs, x = 0 ∨ x = 1 := by
  intro x hx
  cases i with
  | done _ => simp [ownSlots] at hx; exact .inr hx
  | code c =>
    simp only [ownSlots, List.mem_cons, List.mem_map] at hx
    rcases hx with rfl | ⟨s, _, rfl⟩
    · split
      · exact .inr rfl
      · exact .inl rfl
    · unfold subDone; split
      · exact .inr rfl
      · exact .inl rfl
  | notImpl =>
    simp only [ownSlots] at hx
    split at hx
    · simp at hx
    · exact .inl (List.eq_of_mem_replicate hx)

/-- **The shown 100% can be trusted as far down as fewer than 2000 things are averaged.** If an artifact is shown at 100%, then
every artifact below it has something to implement and all its own slots are implemented, as long as the numbers of things averaged on some way down
to it, its own included, multiply to less than 2000. -/
theorem C90_hundred (inp : LoadInput ims defined) (h : Loads hash ims code defined arts) (r : Route (artsOf arts) b a w)
    (hw : w * max 1 (width (artsOf arts) b) < 2000) (h1 : a.completed.spc = 1) :
    0 < width (artsOf arts) b ∧ ∀ x ∈ ownSlots b.impl b.subnames, x = 1 := by
  obtain ⟨hb, ha⟩ := r.mem
  have hc : ¬ Cyclic (artsOf arts) := fun hc => by
    rw [(h.spec inp).2.2.2.2.2.2.1 hc a ha] at h1; norm_num at h1
  obtain ⟨S, T, hr, hcomp⟩ := C16_rule inp h hc
  rw [hcomp a ha] at h1
  obtain ⟨u0, u1⟩ := (rule_bounds hr hc a ha).1
  have h2 := ((C18_rounding u0 u1).2.1).1 h1
  have h3 := (C90_share hc hr r).2
  have hwp : (0 : ℚ) < w := by exact_mod_cast r.pos
  have h4 : 1 - S (key b.name) ≤ w / 2000 := by
    have := (div_le_iff₀ hwp).1 h3
    nlinarith
  have hww : w < 2000 := lt_of_le_of_lt (Nat.le_mul_of_pos_right w (by omega)) hw
  have hww' : (w : ℚ) < 2000 := by exact_mod_cast hww
  have hpos : 0 < width (artsOf arts) b := by
    rw [← slots_length (artsOf arts) S b, List.length_pos_iff]
    intro hn
    have := spcSlots_eq hr hb
    rw [hn, avg_nil] at this
    rw [this] at h4
    have : (2000 : ℚ) ≤ w := by linarith
    linarith
  refine ⟨hpos, fun x hx => ?_⟩
  rcases slot_zero_one _ _ x hx with rfl | rfl
  · exfalso
    obtain ⟨_, s2⟩ := avg_share (unit_slots hc hr b) (List.mem_append_left _ hx : (0 : ℚ) ∈ spcSlots (artsOf arts) S b)
    rw [← spcSlots_eq hr hb, slots_length, sub_zero] at s2
    have hb' : (0 : ℚ) < width (artsOf arts) b := by exact_mod_cast hpos
    have h5 := (div_le_iff₀ hb').1 (s2.trans h4)
    have h6 : ((w * width (artsOf arts) b : Nat) : ℚ) < 2000 := by
      have : w * width (artsOf arts) b < 2000 := lt_of_le_of_lt (Nat.mul_le_mul_left w (le_max_right 1 _)) hw
      exact_mod_cast this
    rw [Nat.cast_mul] at h6
    linarith
  · rfl

/-- **The shown 0% can be trusted as far down as no more than 2000 things are averaged**: in a project without cycles, if an artifact is shown at 0%, no own
slot of any artifact below it is implemented, as long as the numbers of things averaged on some way down to it, its own
included, multiply to at most 2000. -/
theorem C90_zero (inp : LoadInput ims defined) (h : Loads hash ims code defined arts) (hc : ¬ Cyclic (artsOf arts))
    (r : Route (artsOf arts) b a w) (hw : w * width (artsOf arts) b ≤ 2000) (h0 : a.completed.spc = 0) :
    ∀ x ∈ ownSlots b.impl b.subnames, x = 0 := by
  obtain ⟨hb, ha⟩ := r.mem
  obtain ⟨S, T, hr, hcomp⟩ := C16_rule inp h hc
  rw [hcomp a ha] at h0
  obtain ⟨u0, u1⟩ := (rule_bounds hr hc a ha).1
  have h2 := ((C18_rounding u0 u1).2.2).1 h0
  have h3 := (C90_share hc hr r).1
  have hwp : (0 : ℚ) < w := by exact_mod_cast r.pos
  intro x hx
  rcases slot_zero_one _ _ x hx with rfl | rfl
  · rfl
  · exfalso
    have hm : (1 : ℚ) ∈ spcSlots (artsOf arts) S b := List.mem_append_left _ hx
    obtain ⟨s1, _⟩ := avg_share (unit_slots hc hr b) hm
    rw [← spcSlots_eq hr hb, slots_length] at s1
    have hb' : (0 : ℚ) < width (artsOf arts) b := by
      have : 0 < width (artsOf arts) b := by rw [← slots_length (artsOf arts) S b]; exact List.length_pos_of_mem hm
      exact_mod_cast this
    have h5 := (div_le_iff₀ hwp).1 h3
    have h6 := (div_le_iff₀ hb').1 s1
    have h7 : ((w * width (artsOf arts) b : Nat) : ℚ) ≤ 2000 := by exact_mod_cast hw
    rw [Nat.cast_mul] at h7
    have h8 : S (key b.name) < w / 2000 := by
      refine lt_of_le_of_lt h5 ?_
      nlinarith
    have h9 : S (key b.name) * width (artsOf arts) b < w / 2000 * width (artsOf arts) b := by
      exact mul_lt_mul_of_pos_right h8 hb'
    have h10 : (w : ℚ) / 2000 * width (artsOf arts) b ≤ 1 := by
      rw [div_mul_eq_mul_div, div_le_one (by norm_num)]; exact h7
    linarith

/-- Apart from the artifact whose code has changed, the ratios of the second project satisfy the equations of the first. -/
theorem rest_eq (inp : LoadInput ims defined) (h : Loads hash ims code defined arts) (h' : Loads hash' ims code' defined arts')
    (n : Name) (honly : OnlyAt SameCoverage n code code') (hr' : CompletionRule (artsOf arts') S' T') :
    ∀ a ∈ artsOf arts, key a.name ≠ key n → S' (key a.name) = avg (spcSlots (artsOf arts) S' a) := by
  intro a ha hne
  obtain ⟨_, _, _, hnd, hk, hs, _, _⟩ := h.spec inp
  obtain ⟨_, _, _, hnd', hk', hs', _, _⟩ := h'.spec inp
  have M := match_of_inputs inp h inp h' (fun _ => true) (fun _ _ _ _ => rfl) (fun n _ => rfl)
  have M' := match_of_inputs inp h' inp h (fun _ => true) (fun _ _ _ _ => rfl) (fun n _ => rfl)
  obtain ⟨a', ha', hka, _, hsub, im, him, hi1, hi2, hps⟩ := M a ha rfl
  have hty : a'.name.ty = a.name.ty := congrArg Prod.fst hka
  have hperm : (((partsIn (artsOf arts) a.name).filter (fun b => a.name.ty = .TST ∨ b.name.ty ≠ .TST)).map
        (fun b => key b.name)).Perm
      (((partsIn (artsOf arts') a'.name).filter (fun b => a'.name.ty = .TST ∨ b.name.ty ≠ .TST)).map
        (fun b => key b.name)) := by
    rw [hty]
    exact parts_perm (fun t => a.name.ty = .TST ∨ t ≠ .TST) hnd hnd'
      (fun a ha _ => by obtain ⟨a', h1, h2, h3, _⟩ := M a ha rfl; exact ⟨a', h1, h2, h3⟩)
      (fun a ha _ => by obtain ⟨a', h1, h2, h3, _⟩ := M' a ha rfl; exact ⟨a', h1, h2, h3⟩) hka.symm
  rw [← hka, spcSlots_eq hr' ha']
  unfold spcSlots
  rw [avg_perm ((List.Perm.refl (ownSlots a'.impl a'.subnames)).append (map_parts_perm hperm S').symm), ← hsub, hi1, hi2,
    (own_of_coverage (p := (a.name, im)) (honly a.name hne) a.subnames).1]

/-- The change of an average when only some of the things averaged change. -/
theorem avg_change {α : Type*} (own : List ℚ) (ps : List α) (f g : α → ℚ) :
    avg (own ++ ps.map g) - avg (own ++ ps.map f) = (ps.map (fun p => g p - f p)).sum / ((own.length + ps.length : Nat) : ℚ) := by
  have hs : ∀ l : List α, (l.map (fun p => g p - f p)).sum = (l.map g).sum - (l.map f).sum := by
    intro l
    induction l with
    | nil => simp
    | cons x l ih => simp only [List.map_cons, List.sum_cons, ih]; ring
  unfold avg
  by_cases h : own ++ ps.map g = []
  · obtain ⟨rfl, h2⟩ := List.append_eq_nil_iff.1 h
    have : ps = [] := List.map_eq_nil_iff.1 h2
    subst this; simp
  · have h' : own ++ ps.map f ≠ [] := fun e => h (by
      obtain ⟨rfl, h2⟩ := List.append_eq_nil_iff.1 e
      have : ps = [] := List.map_eq_nil_iff.1 h2
      subst this; rfl)
    rw [if_neg h, if_neg h', hs]
    simp only [List.sum_append, List.length_append, List.length_map]
    rw [← sub_div]; congr 1; ring

theorem route_ne (hc : ¬ Cyclic as) (hnd : (as.map (fun a => key a.name)).Nodup) {c : Artifact} (r : Route as b c w) (ha : a ∈ as)
    (hm : c ∈ Counts as a) : key a.name ≠ key b.name := by
  intro e
  have := nodup_map_inj hnd a ha b r.mem.1 e
  subst this
  refine hc ⟨a, ?_⟩
  have up : ∀ {c : Artifact} {w : Nat}, Route as a c w → Relation.ReflTransGen (DirectPart as) a c := by
    intro c w r
    induction r with
    | here _ => exact .refl
    | up _ hx hm ih => exact ih.tail (mem_counts hx hm).1
  exact Relation.TransGen.tail' (up r) (mem_counts ha hm).1

/-- **Code written for one artifact counts everywhere above it.** When the code references of two loads of the same artifacts cover the same things
except for the artifact `b`, and the true completion of `b` has not fallen, then that of no artifact has fallen, no
artifact has risen by more than `b`, and every artifact above `b` has risen by at least its share of what `b` has. -/
theorem C90_counts (inp : LoadInput ims defined) (h : Loads hash ims code defined arts) (h' : Loads hash' ims code' defined arts')
    (hc : ¬ Cyclic (artsOf arts)) (hr : CompletionRule (artsOf arts) S T) (hr' : CompletionRule (artsOf arts') S' T')
    (honly : OnlyAt SameCoverage b.name code code') (hup : S (key b.name) ≤ S' (key b.name)) :
    (∀ a ∈ artsOf arts, 0 ≤ S' (key a.name) - S (key a.name) ∧ S' (key a.name) - S (key a.name) ≤ S' (key b.name) - S (key b.name)) ∧
    ∀ (a : Artifact) (w : Nat), Route (artsOf arts) b a w →
      (S' (key b.name) - S (key b.name)) / w ≤ S' (key a.name) - S (key a.name) := by
  have hrest := rest_eq inp h h' b.name honly hr'
  have hnd := (h.spec inp).2.2.2.1
  have change : ∀ a ∈ artsOf arts, key a.name ≠ key b.name → S' (key a.name) - S (key a.name) =
      ((Counts (artsOf arts) a).map (fun p => S' (key p.name) - S (key p.name))).sum / (width (artsOf arts) a : Nat) := by
    intro a ha hne
    rw [hrest a ha hne, spcSlots_eq hr ha, slots_eq, slots_eq, avg_change]; rfl
  have all : ∀ a ∈ artsOf arts, 0 ≤ S' (key a.name) - S (key a.name) ∧
      S' (key a.name) - S (key a.name) ≤ S' (key b.name) - S (key b.name) := by
    intro a
    induction a using (directPart_wf hc).induction with
    | _ a ih =>
      intro ha
      by_cases e : key a.name = key b.name
      · rw [e]; exact ⟨by linarith, le_refl _⟩
      · rw [change a ha e]
        have hp : ∀ p ∈ Counts (artsOf arts) a, 0 ≤ S' (key p.name) - S (key p.name) ∧
            S' (key p.name) - S (key p.name) ≤ S' (key b.name) - S (key b.name) :=
          fun p hm => ih p (mem_counts ha hm).1 (mem_counts ha hm).1.1
        have hsum : ∀ l : List Artifact, (∀ p ∈ l, 0 ≤ S' (key p.name) - S (key p.name) ∧
            S' (key p.name) - S (key p.name) ≤ S' (key b.name) - S (key b.name)) →
            0 ≤ (l.map (fun p => S' (key p.name) - S (key p.name))).sum ∧
            (l.map (fun p => S' (key p.name) - S (key p.name))).sum ≤ l.length * (S' (key b.name) - S (key b.name)) := by
          intro l
          induction l with
          | nil => simp
          | cons p l ihl =>
            intro hl
            obtain ⟨i1, i2⟩ := ihl (fun q hq => hl q (by simp [hq]))
            obtain ⟨j1, j2⟩ := hl p (by simp)
            simp only [List.map_cons, List.sum_cons, List.length_cons, Nat.cast_add, Nat.cast_one]
            constructor <;> linarith
        obtain ⟨s1, s2⟩ := hsum _ hp
        refine ⟨div_nonneg s1 (Nat.cast_nonneg _), ?_⟩
        by_cases hw0 : width (artsOf arts) a = 0
        · rw [hw0]; simp; linarith
        · have hwp : (0 : ℚ) < (width (artsOf arts) a : Nat) := by exact_mod_cast Nat.pos_of_ne_zero hw0
          rw [div_le_iff₀ hwp]
          have hle : ((Counts (artsOf arts) a).length : ℚ) ≤ (width (artsOf arts) a : Nat) := by
            exact_mod_cast Nat.le_add_left _ _
          have hd : 0 ≤ S' (key b.name) - S (key b.name) := by linarith
          nlinarith [mul_le_mul_of_nonneg_right hle hd]
  refine ⟨all, fun a w r => ?_⟩
  induction r with
  | here _ => simp
  | @up c a w r ha hm ih =>
    rw [change a ha (route_ne hc hnd r ha hm), Nat.cast_mul, mul_comm, ← div_div]
    refine div_le_div_of_nonneg_right (ih.trans ?_) (Nat.cast_nonneg _)
    refine List.single_le_sum ?_ _ (List.mem_map.2 ⟨c, hm, rfl⟩)
    intro x hx
    obtain ⟨p, hp, rfl⟩ := List.mem_map.1 hx
    exact (all p (mem_counts ha hp).1.1).1

end Art.Share
