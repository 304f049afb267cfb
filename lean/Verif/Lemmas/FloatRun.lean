import Verif.Lemmas.Float
import Verif.Lemmas.LoadSpec

/-! # The floating point run beside the exact run -/

namespace Art
open Spec

/-- `y` is a ratio computed in floating point, `x` the exact one. -/
structure Near (E x y : ℚ) : Prop where
  x0 : 0 ≤ x
  x1 : x ≤ 1
  y0 : 0 ≤ y
  y1 : y ≤ 1
  err : |y - x| ≤ E
  one : x = 1 → y = 1
  zero : x = 0 → y = 0

/-- The same for a sum of `c` ratios. -/
structure NearSum (D : ℚ) (c : Nat) (s t : ℚ) : Prop where
  s0 : 0 ≤ s
  s1 : s ≤ c
  t0 : 0 ≤ t
  t1 : t ≤ c
  err : |t - s| ≤ c * D
  one : s = c → t = c
  zero : s = 0 → t = 0

theorem Near.mono {E E' x y : ℚ} (h : Near E x y) (hE : E ≤ E') : Near E' x y :=
  ⟨h.x0, h.x1, h.y0, h.y1, h.err.trans hE, h.one, h.zero⟩

section
variable {fl : ℚ → ℚ} {u : ℚ} {B M : Nat}

theorem Rounding.zero (r : Rounding fl u B) : fl 0 = 0 := by simpa using r.nat (Nat.zero_le B)

theorem Rounding.nonneg (r : Rounding fl u B) {x : ℚ} (h : 0 ≤ x) : 0 ≤ fl x := by rw [← r.zero]; exact r.mono h

theorem Rounding.le_nat (r : Rounding fl u B) {x : ℚ} {n : Nat} (hn : n ≤ B) (h : x ≤ n) : fl x ≤ n := by
  rw [← r.nat hn]; exact r.mono h

theorem NearSum.add (r : Rounding fl u B) {E D x y s t : ℚ} {c : Nat} (h : NearSum D c s t) (hx : Near E x y)
    (hD : E + M * u ≤ D) (hc : c + 1 ≤ M) (hM : M ≤ B) : NearSum D (c + 1) (s + x) (fl (t + y)) := by
  have h1 := h.s0; have h2 := h.s1; have h3 := h.t0; have h4 := h.t1; have h5 := h.err
  have g1 := hx.x0; have g2 := hx.x1; have g3 := hx.y0; have g4 := hx.y1; have g5 := hx.err
  have hle : t + y ≤ ((c + 1 : Nat) : ℚ) := by push_cast; linarith
  have hcB : c + 1 ≤ B := hc.trans hM
  refine ⟨by linarith, by push_cast; linarith, r.nonneg (by linarith), r.le_nat hcB hle, ?_, ?_, ?_⟩
  · have e1 := r.err (x := t + y) (c := ((c + 1 : Nat) : ℚ)) (by linarith) hle (by push_cast; linarith [h1, h2])
    have e2 : ((c + 1 : Nat) : ℚ) * u ≤ M * u := mul_le_mul_of_nonneg_right (by exact_mod_cast hc) r.u0
    have e3 : |fl (t + y) - (s + x)| ≤ |fl (t + y) - (t + y)| + |t - s| + |y - x| := by
      have : fl (t + y) - (s + x) = (fl (t + y) - (t + y)) + (t - s) + (y - x) := by ring
      rw [this]
      exact (abs_add_le _ _).trans (add_le_add_left (abs_add_le _ _) _)
    push_cast
    linarith
  · intro he
    push_cast at he
    have a1 : s = c := by linarith
    have a2 : x = 1 := by linarith
    rw [h.one a1, hx.one a2]
    have := r.nat hcB
    push_cast at this
    push_cast
    exact this
  · intro he
    have a1 : s = 0 := by linarith
    have a2 : x = 0 := by linarith
    rw [h.zero a1, hx.zero a2, add_zero, r.zero]

theorem NearSum.nil (D : ℚ) : NearSum D 0 0 0 := by constructor <;> simp

theorem NearSum.ratio (r : Rounding fl u B) {D s t : ℚ} {c : Nat} (h : NearSum D c s t) (hD : 0 ≤ D) (hc : c ≤ B) (hB : 1 ≤ B) :
    Near (D + u) (ratio s c) (ratioF fl t c) := by
  unfold Art.ratio ratioF
  have hu := r.u0
  by_cases h0 : c = 0
  · rw [if_pos h0, if_pos h0]
    refine ⟨le_refl _, zero_le_one, le_refl _, zero_le_one, ?_, fun h => h, fun h => h⟩
    simp; linarith
  · rw [if_neg h0, if_neg h0, r.nat hc]
    have hp : (0 : ℚ) < c := by exact_mod_cast Nat.pos_of_ne_zero h0
    have t1 : t / c ≤ 1 := (div_le_one hp).2 h.t1
    have t0 : 0 ≤ t / c := div_nonneg h.t0 hp.le
    have one : fl 1 = 1 := by simpa using r.nat hB
    refine ⟨div_nonneg h.s0 hp.le, (div_le_one hp).2 h.s1, r.nonneg t0, by rw [← one]; exact r.mono t1, ?_, ?_, ?_⟩
    · have e1 := r.err t0 t1 (le_refl 1)
      have e2 : |t / c - s / c| ≤ D := by
        rw [← sub_div, abs_div, abs_of_pos hp, div_le_iff₀ hp, mul_comm]; exact h.err
      have e3 := abs_sub_le (fl (t / c)) (t / c) (s / c)
      linarith
    · intro he
      rw [div_eq_one_iff_eq hp.ne'] at he
      rw [h.one he, div_self hp.ne', one]
    · intro he
      rw [div_eq_zero_iff] at he
      rw [h.zero (he.resolve_right hp.ne'), zero_div, r.zero]

/-! ## own slots -/

/-- The sums of one artifact. -/
structure NearStats (D : ℚ) (s t : Stats) : Prop where
  count : t.count = s.count
  secCount : t.secCount = s.secCount
  value : NearSum D s.count s.value t.value
  secValue : NearSum D s.secCount s.secValue t.secValue

theorem near_oneIf {E : ℚ} (hE : 0 ≤ E) (b : Bool) : Near E (oneIf b) (oneIf b) := by
  cases b <;> constructor <;> simp [oneIf, hE]

theorem statStep_near (r : Rounding fl u B) (hM : M ≤ B) {D : ℚ} (hD : M * u ≤ D) (c : ImplCode) (subs : List SubName) : ∀ (s t : Stats),
    NearStats D s t → s.count + subs.length ≤ M → s.secCount + subs.length ≤ M →
    NearStats D (subs.foldl (statStep c) s) (subs.foldl (statStepF fl c) t) ∧
      (subs.foldl (statStep c) s).count = s.count + subs.length ∧ (subs.foldl (statStep c) s).secCount ≤ s.secCount + subs.length := by
  induction subs with
  | nil => intro s t h _ _; exact ⟨h, rfl, le_refl _⟩
  | cons sub l ih =>
    intro s t h h1 h2
    rw [List.length_cons] at h1 h2
    have hone := near_oneIf (le_refl (0 : ℚ)) (IMap.contains c.secondary sub)
    have hn : NearStats D (statStep c s sub) (statStepF fl c t sub) := by
      refine ⟨?_, ?_, ?_, ?_⟩
      · simp only [statStep, statStepF, h.count]
      · simp only [statStep, statStepF, h.secCount]
      · exact h.value.add r hone (by linarith) (by omega) hM
      · simp only [statStep, statStepF]
        cases sub.isTst with
        | true => simp only [if_true]; exact h.secValue.add r hone (by linarith) (by omega) hM
        | false => simp only [Bool.false_eq_true, if_false]; exact h.secValue
    have c1 : (statStep c s sub).count = s.count + 1 := rfl
    have c2 : (statStep c s sub).secCount ≤ s.secCount + 1 := by
      simp only [statStep]
      split <;> omega
    obtain ⟨i1, i2, i3⟩ := ih _ _ hn (by omega) (by omega)
    refine ⟨i1, ?_, ?_⟩
    · rw [List.foldl_cons, List.length_cons, i2]; omega
    · rw [List.foldl_cons, List.length_cons]; omega

theorem stats_near (r : Rounding fl u B) (hM : M ≤ B) {D : ℚ} (hD : M * u ≤ D) (i : Impl) (subs : ISet SubName)
    (h : 1 + subs.length ≤ M) : NearStats D (i.toStatistics subs) (i.toStatisticsF fl subs) ∧
      (i.toStatistics subs).count ≤ 1 + subs.length ∧ (i.toStatistics subs).secCount ≤ 1 + subs.length := by
  have hD0 : 0 ≤ D := le_trans (mul_nonneg (Nat.cast_nonneg _) r.u0) hD
  have one : ∀ c : Nat, ∀ b, c = 1 → NearSum D c (oneIf b) (oneIf b) := by
    rintro c b rfl
    cases b <;> constructor <;> simp [oneIf, hD0]
  have nought : ∀ c : Nat, NearSum D c 0 0 := by
    intro c
    constructor <;> simp [mul_nonneg, hD0]
  cases i with
  | done d =>
    exact ⟨⟨rfl, rfl, one 1 true rfl, one 1 true rfl⟩, by simp [Impl.toStatistics], by simp [Impl.toStatistics]⟩
  | notImpl =>
    unfold Impl.toStatistics Impl.toStatisticsF
    simp only
    split
    · exact ⟨⟨rfl, rfl, nought _, nought _⟩, by simp, by simp⟩
    · exact ⟨⟨rfl, rfl, nought _, nought _⟩, le_refl _, by simp⟩
  | code c =>
    unfold Impl.toStatistics Impl.toStatisticsF
    simp only
    obtain ⟨h1, h2, h3⟩ := statStep_near r hM hD c subs ⟨1, oneIf c.primary.isSome, 0, 0⟩ ⟨1, oneIf c.primary.isSome, 0, 0⟩
      ⟨rfl, rfl, one 1 _ rfl, nought 0⟩ h (by simp only; omega)
    refine ⟨h1, by rw [h2], ?_⟩
    simp only at h3
    omega

/-! ## maps of ratios -/

/-- The same ids, with ratios that are near. -/
def NearMap (E : ℚ) (m m' : IMap Nat ℚ) : Prop := List.Forall₂ (fun p q => p.1 = q.1 ∧ Near E p.2 q.2) m m'

theorem NearMap.mono {E E' : ℚ} {m m' : IMap Nat ℚ} (h : NearMap E m m') (hE : E ≤ E') : NearMap E' m m' :=
  h.imp (fun _ _ hp => ⟨hp.1, hp.2.mono hE⟩)

theorem NearMap.get {E : ℚ} {m m' : IMap Nat ℚ} (h : NearMap E m m') (i : Nat) {x : ℚ} (hx : IMap.get? m i = some x) :
    ∃ y, IMap.get? m' i = some y ∧ Near E x y := by
  induction h with
  | nil => exact nomatch hx
  | @cons p q l l' hp _ ih =>
    obtain ⟨a, x'⟩ := p
    obtain ⟨b, y'⟩ := q
    obtain ⟨rfl, hn⟩ := hp
    unfold IMap.get? at hx ⊢
    split
    · rename_i hk
      rw [if_pos hk] at hx
      exact ⟨_, rfl, (Option.some.inj hx) ▸ hn⟩
    · rename_i hk
      rw [if_neg hk] at hx
      exact ih hx

theorem NearMap.insert {E : ℚ} {m m' : IMap Nat ℚ} (h : NearMap E m m') (i : Nat) {x y : ℚ} (hx : Near E x y) :
    NearMap E (IMap.insert m i x) (IMap.insert m' i y) := by
  unfold NearMap
  induction h with
  | nil => exact List.Forall₂.cons ⟨rfl, hx⟩ .nil
  | @cons p q l l' hp hl ih =>
    obtain ⟨a, x'⟩ := p
    obtain ⟨b, y'⟩ := q
    obtain ⟨rfl, hn⟩ := hp
    unfold IMap.insert
    split
    · exact List.Forall₂.cons ⟨rfl, hx⟩ hl
    · exact List.Forall₂.cons ⟨rfl, hn⟩ ih

/-- The two accumulators. -/
structure NearSt (E : ℚ) (st st' : DoneSt) : Prop where
  implemented : NearMap E st.implemented st'.implemented
  tested : NearMap E st.tested st'.tested

/-! ## one artifact -/

theorem index_ok {m : IMap Nat ℚ} {i : Nat} {x : ℚ} (h : index m i = .ok x) : IMap.get? m i = some x := index_eq_ok.1 h

theorem addPartTst_near (r : Rounding fl u B) (hM : M ≤ B) {E D : ℚ} (hD : E + M * u ≤ D) {st st' : DoneSt} (hst : NearSt E st st')
    (l : List Nat) : ∀ (s t : Stats) (out : Stats), NearStats D s t → s.count + l.length ≤ M → foldRes (addPartTst st) s l = .ok out →
    ∃ out', foldRes (addPartTstF fl st') t l = .ok out' ∧ NearStats D out out' ∧ out.count = s.count + l.length := by
  induction l with
  | nil => intro s t out h _ ho; cases Res.ok.inj ho; exact ⟨t, rfl, h, rfl⟩
  | cons i l ih =>
    intro s t out h hc ho
    rw [List.length_cons] at hc
    unfold foldRes at ho
    obtain ⟨s1, h1, ho⟩ := Res.bind_eq_ok.1 ho
    unfold addPartTst at h1
    obtain ⟨x, hx, h1⟩ := Res.bind_eq_ok.1 h1
    cases Res.ok.inj h1
    obtain ⟨y, hy, hn⟩ := hst.implemented.get i (index_ok hx)
    have hs : NearStats D { s with value := s.value + x, count := s.count + 1 } { t with value := fl (t.value + y), count := t.count + 1 } :=
      ⟨by simp [h.count], h.secCount, h.value.add r hn hD (by omega) hM, h.secValue⟩
    obtain ⟨out', o1, o2, o3⟩ := ih _ _ out hs (by simp only; omega) ho
    refine ⟨out', ?_, o2, ?_⟩
    · unfold foldRes addPartTstF
      rw [index_eq_ok.2 hy]
      exact o1
    · rw [o3, List.length_cons]; simp only; omega

theorem addPart_near (r : Rounding fl u B) (hM : M ≤ B) (g : Graphs) {E D : ℚ} (hD : E + M * u ≤ D) {st st' : DoneSt} (hst : NearSt E st st')
    (l : List Nat) : ∀ (s t : Stats) (out : Stats), NearStats D s t → s.count + l.length ≤ M → s.secCount + l.length ≤ M →
    foldRes (addPart g st) s l = .ok out →
    ∃ out', foldRes (addPartF fl g st') t l = .ok out' ∧ NearStats D out out' ∧ out.count ≤ s.count + l.length ∧
      out.secCount ≤ s.secCount + l.length := by
  induction l with
  | nil => intro s t out h _ _ ho; cases Res.ok.inj ho; exact ⟨t, rfl, h, le_refl _, le_refl _⟩
  | cons i l ih =>
    intro s t out h hc hc2 ho
    rw [List.length_cons] at hc hc2
    unfold foldRes at ho
    obtain ⟨s1, h1, ho⟩ := Res.bind_eq_ok.1 ho
    unfold addPart at h1
    obtain ⟨x, hx, h1⟩ := Res.bind_eq_ok.1 h1
    obtain ⟨n, hn, h1⟩ := Res.bind_eq_ok.1 h1
    obtain ⟨y, hy, hxy⟩ := hst.tested.get i (index_ok hx)
    by_cases hty : n.ty ≠ Ty.TST
    · rw [if_pos hty] at h1
      obtain ⟨v, hv, h1⟩ := Res.bind_eq_ok.1 h1
      cases Res.ok.inj h1
      obtain ⟨w, hw, hvw⟩ := hst.implemented.get i (index_ok hv)
      obtain ⟨out', o1, o2, o3, o4⟩ := ih _ ⟨t.count + 1, fl (t.value + w), t.secCount + 1, fl (t.secValue + y)⟩ out
        ⟨by simp [h.count], by simp [h.secCount], h.value.add r hvw hD (by omega) hM, h.secValue.add r hxy hD (by omega) hM⟩
        (by simp only; omega) (by simp only; omega) ho
      refine ⟨out', ?_, o2, ?_, ?_⟩
      · unfold foldRes addPartF
        rw [index_eq_ok.2 hy, hn, index_eq_ok.2 hw]
        simp only [Res.bind_ok, if_pos hty, Res.pure_def]
        exact o1
      · rw [List.length_cons]; simp only at o3; omega
      · rw [List.length_cons]; simp only at o4; omega
    · rw [if_neg hty] at h1
      cases Res.ok.inj h1
      obtain ⟨out', o1, o2, o3, o4⟩ := ih ⟨s.count, s.value, s.secCount + 1, s.secValue + x⟩
        ⟨t.count, t.value, t.secCount + 1, fl (t.secValue + y)⟩ out
        ⟨h.count, by simp [h.secCount], h.value, h.secValue.add r hxy hD (by omega) hM⟩
        (by simp only; omega) (by simp only; omega) ho
      refine ⟨out', ?_, o2, ?_, ?_⟩
      · unfold foldRes addPartF
        rw [index_eq_ok.2 hy, hn]
        simp only [Res.bind_ok, if_neg hty, Res.pure_def]
        exact o1
      · rw [List.length_cons]; simp only at o3; omega
      · rw [List.length_cons]; simp only at o4; omega

theorem slots_near (r : Rounding fl u B) (hM : M ≤ B) (g : Graphs) {E D : ℚ} (hD : E + M * u ≤ D) {st st' : DoneSt} (hst : NearSt E st st')
    (i : Nat) (n : Name) {s t out : Stats} (h : NearStats D s t) (hc : s.count + (g.full.neighbors i).length ≤ M)
    (hc2 : s.secCount + (g.full.neighbors i).length ≤ M) (ho : slots g st i n s = .ok out) :
    ∃ out', slotsF fl g st' i n t = .ok out' ∧ NearStats D out out' ∧ out.count ≤ M ∧ out.secCount ≤ M := by
  unfold slots at ho
  unfold slotsF
  by_cases hty : n.ty = Ty.TST
  · rw [if_pos hty] at ho ⊢
    obtain ⟨s1, h1, ho⟩ := Res.bind_eq_ok.1 ho
    cases Res.ok.inj ho
    obtain ⟨o, o1, o2, o3⟩ := addPartTst_near r hM hD hst _ s t s1 h hc h1
    refine ⟨{ o with secValue := o.value, secCount := o.count }, by rw [o1]; rfl, ⟨o2.count, o2.count, o2.value, o2.value⟩, by simp only; omega, by simp only; omega⟩
  · rw [if_neg hty] at ho ⊢
    obtain ⟨o, o1, o2, o3, o4⟩ := addPart_near r hM g hD hst _ s t out h hc hc2 ho
    exact ⟨o, o1, o2, by omega, by omega⟩

/-! ## the loop -/

/-- The step does something: the id is that of an artifact. -/
def defined? (g : Graphs) (subnames : IMap Name (ISet SubName)) (i : Nat) : Bool :=
  ((IMap.get? g.lookupName i).bind (IMap.get? subnames)).isSome

theorem complete_near (r : Rounding fl u B) (hM : M ≤ B) (hB : 1 ≤ B) (g : Graphs) (byId : IMap Nat Impl) (subnames : IMap Name (ISet SubName))
    (todo : List Nat)
    (hslots : ∀ i ∈ todo, ∀ n sub, IMap.get? g.lookupName i = some n → IMap.get? subnames n = some sub →
      1 + sub.length + (g.full.neighbors i).length ≤ M) :
    ∀ (k : Nat) (st st' out : DoneSt), NearSt (k * ((M + 1) * u)) st st' → foldRes (completeStep g byId subnames) st todo = .ok out →
    ∃ out', foldRes (completeStepF fl g byId subnames) st' todo = .ok out' ∧
      NearSt ((k + (todo.filter (defined? g subnames)).length : Nat) * ((M + 1) * u)) out out' := by
  induction todo with
  | nil => intro k st st' out h ho; cases Res.ok.inj ho; exact ⟨st', rfl, h⟩
  | cons i l ih =>
    intro k st st' out h ho
    have ih := ih (fun j hj => hslots j (List.mem_cons_of_mem _ hj))
    unfold foldRes at ho
    obtain ⟨s1, h1, ho⟩ := Res.bind_eq_ok.1 ho
    unfold completeStep at h1
    obtain ⟨n, hn, h1⟩ := Res.bind_eq_ok.1 h1
    have hn' : IMap.get? g.lookupName i = some n := index_eq_ok.1 hn
    cases hsub : IMap.get? subnames n with
    | none =>
      rw [hsub] at h1
      cases Res.ok.inj h1
      obtain ⟨out', o1, o2⟩ := ih k st st' out h ho
      have hd : defined? g subnames i = false := by simp [defined?, hn', hsub]
      refine ⟨out', ?_, ?_⟩
      · unfold foldRes completeStepF
        rw [hn]
        simp only [Res.bind_ok, hsub]
        exact o1
      · rw [List.filter_cons, hd]; exact o2
    | some sub =>
      rw [hsub] at h1
      obtain ⟨impl, hi, h1⟩ := Res.bind_eq_ok.1 h1
      obtain ⟨s, hs, h1⟩ := Res.bind_eq_ok.1 h1
      cases Res.ok.inj h1
      have hd : defined? g subnames i = true := by simp [defined?, hn', hsub]
      have hb := hslots i (by simp) n sub hn' hsub
      have hk0 : (0 : ℚ) ≤ k * ((M + 1) * u) := by have := r.u0; positivity
      have hMu : (0 : ℚ) ≤ M * u := mul_nonneg (Nat.cast_nonneg _) r.u0
      obtain ⟨q1, q2, q3⟩ := stats_near r hM (D := k * ((M + 1) * u) + M * u) (by linarith) impl sub (by omega)
      obtain ⟨t, t1, t2, t3, t4⟩ := slots_near r hM g (le_refl _) h i n q1 (by omega) (by omega) hs
      have e : (k : ℚ) * ((M + 1) * u) + M * u + u = ((k + 1 : Nat) : ℚ) * ((M + 1) * u) := by push_cast; ring
      have hle : (k : ℚ) * ((M + 1) * u) ≤ ((k + 1 : Nat) : ℚ) * ((M + 1) * u) := by rw [← e]; linarith [r.u0]
      have v1 := t2.value.ratio r (by linarith) (t3.trans hM) hB
      have v2 := t2.secValue.ratio r (by linarith) (t4.trans hM) hB
      rw [e] at v1 v2
      obtain ⟨out', o1, o2⟩ := ih (k + 1)
        { tested := IMap.insert st.tested i (ratio s.secValue s.secCount), implemented := IMap.insert st.implemented i (ratio s.value s.count) }
        { tested := IMap.insert st'.tested i (ratioF fl t.secValue t.secCount),
          implemented := IMap.insert st'.implemented i (ratioF fl t.value t.count) } out
        ⟨(h.implemented.mono hle).insert i (by rw [t2.count]; exact v1), (h.tested.mono hle).insert i (by rw [t2.secCount]; exact v2)⟩ ho
      refine ⟨out', ?_, ?_⟩
      · unfold foldRes completeStepF
        rw [hn]
        simp only [Res.bind_ok, hsub]
        rw [hi]
        simp only [Res.bind_ok]
        rw [t1]
        exact o1
      · rw [List.filter_cons, hd]
        simp only [if_true, List.length_cons]
        rw [show k + ((l.filter (defined? g subnames)).length + 1) = k + 1 + (l.filter (defined? g subnames)).length by omega]
        exact o2

/-! ## all artifacts -/

section Graph
variable {arts : List Artifact} {partofs : IMap Name (ISet Name)} {impls : IMap Name Impl}
  {subnames : IMap Name (ISet SubName)} {g : Graphs}

theorem id_of_name (h : GraphsFor partofs g) {i : Nat} {n : Name} (hn : IMap.get? g.lookupName i = some n) : i = idOf g.lookupId n := by
  obtain ⟨i', hi, hm⟩ := IMap.mem_of_get? hn
  have hi' : i' = i := hi
  subst hi'
  rw [h.names, List.mem_map] at hm
  obtain ⟨p, hp, e⟩ := hm
  cases e
  unfold idOf
  rw [IMap.get?_of_mem h.nodup hp]; rfl

theorem determineCompletedF_near (r : Rounding fl u B) (hM : M ≤ B) (hB : 1 ≤ B) (fl' : ℚ → ℚ) (h : GraphsFor partofs g)
    (ha : Agrees arts partofs impls subnames) {order : List Nat} (ht : DiGraph.TopoContract g.full (some order))
    (hslots : ∀ a ∈ arts, 1 + a.subnames.length + (partsIn arts a.name).length ≤ M) :
    ∃ cm cm' spc tst, determineCompleted (some order) g impls subnames = .ok cm ∧
      determineCompletedF fl fl' (some order) g impls subnames = .ok cm' ∧ CompletionRule arts spc tst ∧
      (∀ a ∈ arts, IMap.get? cm a.name = some ⟨roundRatio (spc (key a.name)), roundRatio (tst (key a.name))⟩) ∧
      ∀ a ∈ arts, ∃ y z, Near (arts.length * ((M + 1) * u)) (spc (key a.name)) y ∧
        Near (arts.length * ((M + 1) * u)) (tst (key a.name)) z ∧
        IMap.get? cm' a.name = some ⟨roundRatioF fl fl' y, roundRatioF fl fl' z⟩ := by
  obtain ⟨cm, spc, tst, h1, h2, h3, h4, h5, byId, st, hby, hst, hinv, hall, hval⟩ := determineCompleted_run h ha ht
  have hnodes : List.Nodup (α := Nat) g.full.nodes := by
    have := h.wf.nodes
    unfold ISet.Nodup at this
    exact List.Nodup.of_map _ this
  have hnd : order.Nodup := ht.1.nodup_iff.2 hnodes
  have hdef : ∀ {i n sub}, IMap.get? g.lookupName i = some n → IMap.get? subnames n = some sub →
      ∃ a ∈ arts, key a.name = key n ∧ i = idOf g.lookupId a.name ∧ a.subnames = sub := by
    intro i n sub hn hs
    obtain ⟨a, hm, hk⟩ := ha.only n (Or.inr (Or.inr (by unfold IMap.contains; rw [hs]; rfl)))
    obtain ⟨S, hS, e⟩ := ha.subs a hm
    rw [IMap.get?_congr _ hk, hs] at hS
    exact ⟨a, hm, hk, by rw [id_of_name h hn, idOf_congr _ hk], by rw [e]; exact (Option.some.inj hS).symm⟩
  obtain ⟨st', hst', hnear⟩ := complete_near r hM hB g (IMap.collect byId) subnames order.reverse
    (by
      intro i _ n sub hn hs
      obtain ⟨a, hm, hk, e, es⟩ := hdef hn hs
      have := (neighbors_perm h ha hm).length_eq
      rw [List.length_map] at this
      rw [e, this, ← es]
      exact hslots a hm) 0 ⟨[], []⟩ ⟨[], []⟩ st ⟨.nil, .nil⟩ hst
  have hlen : (order.reverse.filter (defined? g subnames)).length ≤ arts.length := by
    have hsub : ∀ i ∈ order.reverse.filter (defined? g subnames), i ∈ arts.map (fun a => idOf g.lookupId a.name) := by
      intro i hi
      have hd := (List.mem_filter.1 hi).2
      unfold defined? at hd
      cases hn : IMap.get? g.lookupName i with
      | none => rw [hn] at hd; simp at hd
      | some n =>
        rw [hn] at hd
        obtain ⟨sub, hs⟩ := Option.isSome_iff_exists.1 (by simpa using hd)
        obtain ⟨a, hm, _, e, _⟩ := hdef hn hs
        exact List.mem_map.2 ⟨a, hm, e.symm⟩
    have := (List.subperm_of_subset ((List.nodup_reverse.2 hnd).filter _) hsub).length_le
    rwa [List.length_map] at this
  have hE : ((0 + (order.reverse.filter (defined? g subnames)).length : Nat) : ℚ) * ((M + 1) * u) ≤ arts.length * ((M + 1) * u) := by
    have := r.u0
    refine mul_le_mul_of_nonneg_right ?_ (by positivity)
    rw [Nat.zero_add]; exact_mod_cast hlen
  have nS := hnear.implemented.mono hE
  have nT := hnear.tested.mono hE
  -- the values of an artifact
  have hvals : ∀ a ∈ arts, ∃ y z, IMap.get? st'.implemented (idOf g.lookupId a.name) = some y ∧
      IMap.get? st'.tested (idOf g.lookupId a.name) = some z ∧
      Near (arts.length * ((M + 1) * u)) (spc (key a.name)) y ∧ Near (arts.length * ((M + 1) * u)) (tst (key a.name)) z := by
    intro a hm
    obtain ⟨v, hv⟩ := Option.isSome_iff_exists.1 ((hinv.hasS (idOf g.lookupId a.name)).2 ⟨hall a hm, a, hm, rfl⟩)
    obtain ⟨w, hw⟩ := Option.isSome_iff_exists.1 ((hinv.hasT (idOf g.lookupId a.name)).2 ⟨hall a hm, a, hm, rfl⟩)
    obtain ⟨y, hy, n1⟩ := nS.get _ hv
    obtain ⟨z, hz, n2⟩ := nT.get _ hw
    refine ⟨y, z, hy, hz, ?_, ?_⟩
    · rw [(hval a.name).1]; unfold valS; rw [hv]; exact n1
    · rw [(hval a.name).2]; unfold valT; rw [hw]; exact n2
  have hids : st'.implemented.map Prod.fst = st.implemented.map Prod.fst := forall₂_map_eq nS (fun x _ y hxy => hxy.1.symm)
  have hnodS : IMap.Nodup st'.implemented := by
    have e := hinv.nodS
    unfold IMap.Nodup at e ⊢
    have e' : ∀ m : IMap Nat ℚ, m.map (fun p => key p.1) = m.map Prod.fst := fun _ => rfl
    rw [e'] at e ⊢
    rw [hids]; exact e
  -- the output
  have hname : ∀ q ∈ st'.implemented, ∃ a ∈ arts, q.1 = idOf g.lookupId a.name ∧ ∃ n z, key n = key a.name ∧
      IMap.get? st'.tested q.1 = some z ∧
      completeOutF fl fl' g st' q = .ok (n, ⟨roundRatioF fl fl' q.2, roundRatioF fl fl' z⟩) := by
    intro q hq
    obtain ⟨p, hp, e, -⟩ := forall₂_mem_right nS hq
    have hg := IMap.get?_of_mem (a := p.1) (b := p.2) hinv.nodS hp
    obtain ⟨_, a, hm, e2⟩ := (hinv.hasS p.1).1 (by rw [hg]; rfl)
    obtain ⟨n', hn', hk, _⟩ := h.get_name (ha.mentioned hm)
    obtain ⟨y, z, hy, hz, -⟩ := hvals a hm
    have e3 : q.1 = idOf g.lookupId a.name := e ▸ e2
    refine ⟨a, hm, e3, n', z, hk, by rw [e3]; exact hz, ?_⟩
    unfold completeOutF
    rw [e3, index_eq_ok.2 hz, index_eq_ok.2 hn']
    rfl
  obtain ⟨out, hout⟩ := Res.mapM'_ok_of (f := completeOutF fl fl' g st') (l := st'.implemented)
    (fun q hq => by obtain ⟨a, _, _, n, z, _, _, h2⟩ := hname q hq; exact ⟨_, h2⟩)
  have hf := Res.mapM'_eq_ok.1 hout
  have hkeys : out.map (fun p => idOf g.lookupId p.1) = st'.implemented.map Prod.fst := by
    refine forall₂_map_eq hf (fun x hx y hxy => ?_)
    obtain ⟨a, hm, e, n, z, h2, _, h3⟩ := hname x hx
    rw [h3] at hxy
    rw [← Res.ok.inj hxy]
    simp only
    rw [idOf_congr _ h2, e]
  have hnodup : IMap.Nodup out := by
    have h1 : (out.map (fun p => idOf g.lookupId p.1)).Nodup := by
      rw [hkeys]; exact hnodS
    unfold IMap.Nodup
    refine List.Nodup.map_on ?_ (List.Nodup.of_map _ h1)
    intro x hx y hy e
    exact nodup_map_inj h1 x hx y hy (idOf_congr _ e)
  refine ⟨cm, out, spc, tst, h1, ?_, h2, h5, ?_⟩
  · unfold determineCompletedF
    simp only
    rw [hby]
    simp only [Res.bind_ok]
    rw [hst']
    simp only [Res.bind_ok]
    rw [hout]
    simp only [Res.bind_ok, Res.pure_def]
    rw [IMap.collect_of_nodup hnodup]
  · intro a hm
    obtain ⟨y, z, hy, hz, n1, n2⟩ := hvals a hm
    refine ⟨y, z, n1, n2, ?_⟩
    obtain ⟨i, hi, hmem⟩ := IMap.mem_of_get? hy
    have hi' : i = idOf g.lookupId a.name := hi
    subst hi'
    obtain ⟨o, ho, hxy⟩ := forall₂_mem_left hf hmem
    obtain ⟨a', hm', e, n, z', hk, hz', h3⟩ := hname _ hmem
    simp only at e hz'
    have : key a.name = key a'.name := h.id_inj (ha.mentioned hm) (ha.mentioned hm') e
    rw [h3] at hxy
    have ho' := Res.ok.inj hxy
    rw [hz] at hz'
    cases Option.some.inj hz'
    rw [IMap.get?_congr out (this.trans hk.symm)]
    apply IMap.get?_of_mem hnodup
    rw [← ho'] at ho
    exact ho

end Graph

/-- `b` is the artifact `a` with another completion. -/
def SameBut (a b : Artifact) : Prop := b = { a with completed := b.completed }

theorem buildArtifact_other {l : ArtifactsLoaded} {impls : IMap Name Impl} {cm cm' : IMap Name Completed} {ids : IMap Name HashIm}
    {p : Name × FilePath} {o : Name × Artifact} (h : buildArtifact l impls cm ids p = .ok o) {c : Completed}
    (hc : IMap.get? cm' p.1 = some c) : buildArtifact l impls cm' ids p = .ok (o.1, { o.2 with completed := c }) := by
  unfold buildArtifact at h ⊢
  obtain ⟨id, h1, h⟩ := Res.bind_eq_ok.1 h
  obtain ⟨po, h2, h⟩ := Res.bind_eq_ok.1 h
  obtain ⟨pa, h3, h⟩ := Res.bind_eq_ok.1 h
  obtain ⟨co, h4, h⟩ := Res.bind_eq_ok.1 h
  obtain ⟨im, h5, h⟩ := Res.bind_eq_ok.1 h
  obtain ⟨il, h6, h⟩ := Res.bind_eq_ok.1 h
  obtain ⟨su, h7, h⟩ := Res.bind_eq_ok.1 h
  cases Res.ok.inj h
  rw [h1, h2, h3, index_eq_ok.2 hc, h5, h6, h7]
  rfl

theorem mapM'_rel {ε α β : Type} {f f' : α → Res ε β} {R : β → β → Prop} : ∀ {l : List α} {out : List β}, Res.mapM' f l = .ok out →
    (∀ a ∈ l, ∀ b, f a = .ok b → b ∈ out → ∃ b', f' a = .ok b' ∧ R b b') →
    ∃ out', Res.mapM' f' l = .ok out' ∧ List.Forall₂ R out out' := by
  intro l
  induction l with
  | nil => intro out h _; cases Res.ok.inj h; exact ⟨[], rfl, .nil⟩
  | cons a l ih =>
    intro out h hR
    unfold Res.mapM' at h
    obtain ⟨b, hb, h⟩ := Res.bind_eq_ok.1 h
    obtain ⟨bs, hbs, h⟩ := Res.bind_eq_ok.1 h
    cases Res.ok.inj h
    obtain ⟨b', hb', r1⟩ := hR a (by simp) b hb (by simp)
    obtain ⟨out', ho', r2⟩ := ih hbs (fun x hx y hy hm => hR x (by simp [hx]) y hy (by simp [hm]))
    refine ⟨b' :: out', ?_, .cons r1 r2⟩
    unfold Res.mapM'
    rw [hb', ho']; rfl

/-- Building the artifacts: the floating point run ends as the exact run does, with completions that are near. -/
theorem determineArtifactsF_near (r : Rounding fl u B) (hM : M ≤ B) (hB : 1 ≤ B) (fl' : ℚ → ℚ)
    {hash : ArtifactIm → HashIm} {ims : IMap Name ArtifactIm} {code : IMap Name ImplCode}
    {defined : IMap Name FilePath} {arts : IMap Name Artifact} {l : ArtifactsLoaded} {topo : Option (List Nat)}
    (inp : LoadInput ims defined) (hl : finalizeLoadArtifact ims = .ok l) (ht : DiGraph.TopoContract l.graphs.full topo)
    (ha : determineArtifacts hash topo l code defined = .ok arts)
    (hslots : ∀ a ∈ arts.map Prod.snd, 1 + a.subnames.length + (partsIn (arts.map Prod.snd) a.name).length ≤ M) :
    ∃ arts', determineArtifactsF fl fl' hash topo l code defined = .ok arts' ∧
      List.Forall₂ (fun x y => y.1 = x.1 ∧ SameBut x.2 y.2) arts arts' ∧
      (Cyclic (arts.map Prod.snd) → List.Forall₂ (fun x y => x.2.completed = ⟨0, 0⟩ ∧ y.2.completed = ⟨0, 0⟩) arts arts') ∧
      (¬ Cyclic (arts.map Prod.snd) → ∃ spc tst, CompletionRule (arts.map Prod.snd) spc tst ∧
        List.Forall₂ (fun x y => x.2.completed = ⟨roundRatio (spc (key x.2.name)), roundRatio (tst (key x.2.name))⟩ ∧
          ∃ v w, Near (arts.length * ((M + 1) * u)) (spc (key x.2.name)) v ∧ Near (arts.length * ((M + 1) * u)) (tst (key x.2.name)) w ∧
            y.2.completed = ⟨roundRatioF fl fl' v, roundRatioF fl fl' w⟩) arts arts') := by
  obtain ⟨b1, b2, b3, b4⟩ := determineArtifacts_built inp.nodup hl inp.dnodup ha
  obtain ⟨hg, hag⟩ := agrees_of_load inp.nodup hl inp.dnodup inp.keys ha
  obtain ⟨l', hl', e1, -⟩ := finalizeLoad_ok inp.nodup
  rw [hl] at hl'
  cases Res.ok.inj hl'
  -- the two completions
  obtain ⟨cm, cm', hcm, hcm', hwhich⟩ : ∃ cm cm', determineCompleted topo l.graphs (determineImpls ims code) l.subnames = .ok cm ∧
      determineCompletedF fl fl' topo l.graphs (determineImpls ims code) l.subnames = .ok cm' ∧
      ((topo = none ∧ ∀ a ∈ arts.map Prod.snd, IMap.get? cm a.name = some ⟨0, 0⟩ ∧ IMap.get? cm' a.name = some ⟨0, 0⟩) ∨
        (topo ≠ none ∧ ∃ spc tst, CompletionRule (arts.map Prod.snd) spc tst ∧
        (∀ a ∈ arts.map Prod.snd, IMap.get? cm a.name = some ⟨roundRatio (spc (key a.name)), roundRatio (tst (key a.name))⟩) ∧
        ∀ a ∈ arts.map Prod.snd, ∃ v w, Near (arts.length * ((M + 1) * u)) (spc (key a.name)) v ∧
          Near (arts.length * ((M + 1) * u)) (tst (key a.name)) w ∧
          IMap.get? cm' a.name = some ⟨roundRatioF fl fl' v, roundRatioF fl fl' w⟩)) := by
    cases topo with
    | none =>
      have hz : ∀ a ∈ arts.map Prod.snd, IMap.get? (IMap.collect ((determineImpls ims code).map
          (fun p => (p.1, ({ spc := 0, tst := 0 } : Completed))))) a.name = some ⟨0, 0⟩ := by
        intro a hm
        rw [IMap.collect_of_nodup (IMap.nodup_of_fst hag.inodup (by rw [List.map_map]; rfl)),
          IMap.get?_map_val _ (fun _ => ({ spc := 0, tst := 0 } : Completed)) (fun _ _ _ _ => rfl), hag.impl a hm]
        rfl
      exact ⟨_, _, rfl, rfl, Or.inl ⟨rfl, fun a hm => ⟨hz a hm, hz a hm⟩⟩⟩
    | some order =>
      obtain ⟨cm, cm', spc, tst, h1, h2, h3, h4, h5⟩ := determineCompletedF_near r hM hB fl' hg hag ht hslots
      rw [List.length_map] at h5
      exact ⟨cm, cm', h1, h2, Or.inr ⟨nofun, spc, tst, h3, h4, h5⟩⟩
  -- the artifacts
  have ha0 := ha
  unfold determineArtifacts at ha
  simp only at ha
  rw [e1, hcm] at ha
  simp only [Res.bind_ok] at ha
  obtain ⟨out, hout, ha⟩ := Res.bind_eq_ok.1 ha
  have hf := Res.mapM'_eq_ok.1 hout
  have hfst : out.map Prod.fst = defined.map Prod.fst :=
    forall₂_map_eq hf (fun x _ y hxy => (buildArtifact_eq_ok.1 hxy).1)
  have hc : arts = out := by
    have := Res.ok.inj ha
    rw [IMap.collect_of_nodup (IMap.nodup_of_fst inp.dnodup hfst)] at this
    exact this.symm
  subst hc
  have hex : ∀ a ∈ arts.map Prod.snd, ∃ c, IMap.get? cm' a.name = some c := by
    intro a hm
    rcases hwhich with ⟨-, h⟩ | ⟨-, spc, tst, -, -, h⟩
    · exact ⟨_, (h a hm).2⟩
    · obtain ⟨v, w, -, -, h⟩ := h a hm; exact ⟨_, h⟩
  obtain ⟨out', hout', hrel⟩ := mapM'_rel
    (f' := buildArtifact l (determineImpls ims code) cm' (IMap.collect (ims.map (fun p => (p.1, hash p.2)))))
    (R := fun x y => y.1 = x.1 ∧ SameBut x.2 y.2 ∧ x ∈ arts ∧ IMap.get? cm x.2.name = some x.2.completed ∧
      IMap.get? cm' x.2.name = some y.2.completed) hout (by
      intro p _ o ho hm
      obtain ⟨c, hc⟩ := hex o.2 (List.mem_map.2 ⟨o, hm, rfl⟩)
      obtain ⟨q1, q2, q3, q4, q5, q6, q7, _⟩ := buildArtifact_eq_ok.1 ho
      have hp : o.2.name = p.1 := q2
      refine ⟨_, buildArtifact_other ho (c := c) (by rw [← hp]; exact hc), rfl, rfl, hm, by rw [q2, q7], hc⟩)
  have hfst' : out'.map Prod.fst = defined.map Prod.fst := by
    rw [← hfst]
    exact forall₂_map_eq hrel (fun x _ y hxy => hxy.1)
  refine ⟨out', ?_, hrel.imp (fun x y h => ⟨h.1, h.2.1⟩), ?_, ?_⟩
  · unfold determineArtifactsF
    simp only
    rw [e1, hcm']
    simp only [Res.bind_ok]
    rw [hout']
    simp only [Res.bind_ok, Res.pure_def]
    rw [IMap.collect_of_nodup (IMap.nodup_of_fst inp.dnodup hfst')]
  · intro hcyc
    have htn := (cyclic_iff_topo hg hag ht).2 hcyc
    rcases hwhich with ⟨-, h⟩ | ⟨hne, -⟩
    · refine hrel.imp (fun x y hxy => ?_)
      obtain ⟨-, -, hm, c1, c2⟩ := hxy
      obtain ⟨h1, h2⟩ := h x.2 (List.mem_map.2 ⟨x, hm, rfl⟩)
      rw [h1] at c1
      rw [h2] at c2
      exact ⟨(Option.some.inj c1).symm, (Option.some.inj c2).symm⟩
    · exact absurd htn hne
  · intro hcyc
    rcases hwhich with ⟨htn, -⟩ | ⟨-, spc, tst, h1, h2, h3⟩
    · exact absurd ((cyclic_iff_topo hg hag ht).1 htn) hcyc
    · refine ⟨spc, tst, h1, hrel.imp (fun x y hxy => ?_)⟩
      obtain ⟨-, -, hm, c1, c2⟩ := hxy
      have hm' : x.2 ∈ arts.map Prod.snd := List.mem_map.2 ⟨x, hm, rfl⟩
      rw [h2 _ hm'] at c1
      obtain ⟨v, w, n1, n2, h⟩ := h3 _ hm'
      rw [h] at c2
      exact ⟨(Option.some.inj c1).symm, v, w, n1, n2, (Option.some.inj c2).symm⟩

end

end Art
