import Verif.Lemmas.FloatRun
import Verif.Lemmas.FloatGrid
import Verif.Props.Completion

/-!
# Property C58: completion in floating point
The program computes completion in `f64` and shows it as `f32`. Here: what that arithmetic is, that it ends as the exact computation of the
other theorems does, how far the shown numbers can be off, that colours and printed numbers are those of the exact model, and that the
shown number can depend on the order in which artifacts arrive.
-/

namespace Art
open Spec

/-! ## the arithmetic -/

/-- The numbers of the model are those of IEEE 754. -/
theorem C58_ieee (x : ℚ) : RoundedF64 x (f64 x) ∧ RoundedF32 x (f32 x) :=
  ⟨roundTo_rounded (by norm_num) _ x, roundTo_rounded (by norm_num) _ x⟩

/-- There is only one way to round. -/
theorem C58_unique {p : Nat} {emin : ℤ} {x y z : ℚ} (hy : Rounded p emin x y) (hz : Rounded p emin x z) : y = z := by
  by_contra hne
  have he := le_antisymm (hy.nearest z hz.repr) (hz.nearest y hy.repr)
  obtain ⟨m, e, hm, rfl, h1⟩ := hy.tie z hz.repr (Ne.symm hne) he
  obtain ⟨m', e', hm', rfl, h2⟩ := hz.tie _ hy.repr hne he.symm
  have hp := two_zpow_pos e
  have hp' := two_zpow_pos e'
  have hee : (2 : ℚ) ^ e = 2 ^ e' := by
    rcases h1 with h1 | h1 <;> rcases h2 with h2 | h2 <;> linarith
  rw [← hee] at h1
  have : (m' : ℚ) = m + 1 ∨ (m' : ℚ) = m - 1 := by
    rcases h1 with h1 | h1
    · exact Or.inl (mul_right_cancel₀ hp.ne' h1)
    · exact Or.inr (mul_right_cancel₀ hp.ne' h1)
  obtain ⟨a, ha⟩ := hm
  obtain ⟨b, hb⟩ := hm'
  rcases this with h | h
  · have : m' = m + 1 := by exact_mod_cast h
    omega
  · have : m' = m - 1 := by exact_mod_cast h
    omega

/-- A third is not a `f64`; a quarter is. -/
example : f64 (1 / 3) = 6004799503160661 / 2 ^ 54 ∧ f64 (1 / 3) ≠ 1 / 3 ∧ f64 (1 / 4) = 1 / 4 := by decide +kernel

/-- Without rounding the functions of Model/Float.lean are those of Model/Graph.lean. -/
theorem C58_exact (topo : Option (List Nat)) (g : Graphs) (impls : IMap Name Impl) (subnames : IMap Name (ISet SubName)) :
    determineCompletedF id id topo g impls subnames = determineCompleted topo g impls subnames := rfl

/-! ## what is shown -/

/-- `arts` is a possible outcome of loading artifacts with the arithmetic of the program, as `Loads` for exact arithmetic
(artifact-data/src/artifact.rs L37-56 and L61-117 as composed in artifact-data/src/project.rs L43-182). -/
def LoadsF (hash : ArtifactIm → HashIm) (ims : IMap Name ArtifactIm) (code : IMap Name ImplCode)
    (defined : IMap Name FilePath) (arts : IMap Name Artifact) : Prop :=
  ∃ l topo, finalizeLoadArtifact ims = .ok l ∧ DiGraph.TopoContract l.graphs.full topo ∧
    determineArtifactsF f64 f32 hash topo l code defined = .ok arts

theorem rounded_eq {k : Nat} {v : ℚ} (h : RoundedF32 ((k : ℚ) / 1000) v) : v = f32 ((k : ℚ) / 1000) := C58_unique h (C58_ieee _).2

/-- Colours: the comparisons of the program with its `f32` constants give the points of the exact model, for every number of thousandths. -/
theorem C58_points {k j : Nat} (hk : k ≤ 1000) (hj : j ≤ 1000) {c : Completed} (hs : RoundedF32 ((k : ℚ) / 1000) c.spc)
    (ht : RoundedF32 ((j : ℚ) / 1000) c.tst) : c.spcPointsF = (⟨(k : ℚ) / 1000, (j : ℚ) / 1000⟩ : Completed).spcPoints ∧
      c.tstPointsF = (⟨(k : ℚ) / 1000, (j : ℚ) / 1000⟩ : Completed).tstPoints := by
  obtain ⟨-, h1, -⟩ := grid ⟨k, by omega⟩
  obtain ⟨-, -, h2, -⟩ := grid ⟨j, by omega⟩
  simp only [Completed.spcPointsF, Completed.tstPointsF, Completed.spcPoints, Completed.tstPoints] at h1 h2 ⊢
  rw [rounded_eq hs, rounded_eq ht]
  exact ⟨h1, h2⟩

/-- Printed numbers: `{:.1}` of the ratio times 100 (terminal, web page) and `{:.2}` (exported document) print exactly the number of
thousandths, as percentage. -/
theorem C58_printed {k : Nat} (hk : k ≤ 1000) {v : ℚ} (h : RoundedF32 ((k : ℚ) / 1000) v) : tenthsF v = k ∧ hundredthsF v = 10 * k := by
  obtain ⟨-, -, -, h1, -, h2, -⟩ := grid ⟨k, by omega⟩
  rw [rounded_eq h]
  exact ⟨h1, h2⟩

/-- No number that is printed is half way between two decimal numbers, so the rounding of ties does not matter. -/
theorem C58_no_tie {k : Nat} (hk : k ≤ 1000) {v : ℚ} (h : RoundedF32 ((k : ℚ) / 1000) v) (n : ℤ) :
    |f32 (v * 100) * 10 - (n + 1 / 2)| > 1 / 4 ∧ |f32 (v * 100) * 100 - (n + 1 / 2)| > 1 / 4 := by
  obtain ⟨-, -, -, -, h1, -, h2⟩ := grid ⟨k, by omega⟩
  rw [rounded_eq h]
  simp only at h1 h2
  have half : ∀ m : ℤ, |((m : ℚ)) - (n + 1 / 2)| ≥ 1 / 2 := by
    intro m
    rcases le_or_gt m n with hmn | hmn
    · have : (m : ℚ) ≤ n := by exact_mod_cast hmn
      rw [abs_of_nonpos (by linarith)]; linarith
    · have : (n : ℚ) + 1 ≤ m := by exact_mod_cast hmn
      rw [abs_of_nonneg (by linarith)]; linarith
  constructor
  · have e := half k
    have t := abs_sub_le (k : ℚ) (f32 (f32 ((k : ℚ) / 1000) * 100) * 10) (n + 1 / 2)
    rw [abs_sub_comm (k : ℚ) (f32 _ * 10)] at t
    push_cast at e
    linarith
  · have e := half (10 * k)
    have t := abs_sub_le (10 * (k : ℚ)) (f32 (f32 ((k : ℚ) / 1000) * 100) * 100) (n + 1 / 2)
    rw [abs_sub_comm (10 * (k : ℚ)) (f32 _ * 100)] at t
    push_cast at e
    linarith

/-- Different numbers of thousandths are different `f32`. -/
theorem C58_distinct {k j : Nat} (hk : k ≤ 1000) (hj : j ≤ 1000) {v : ℚ} (h : RoundedF32 ((k : ℚ) / 1000) v)
    (h' : RoundedF32 ((j : ℚ) / 1000) v) : k = j := by
  have h1 := (C58_printed hk h).1
  have h2 := (C58_printed hj h').1
  rw [h1] at h2
  exact_mod_cast h2

example : tenthsF (f32 (333 / 1000)) = 333 ∧ f32 (333 / 1000) ≠ 333 / 1000 ∧ f32 (f32 (333 / 1000) * 100) ≠ 333 / 10 := by decide +kernel

/-! ## how far it is off -/

theorem shown_of_near {N M : Nat} {r y : ℚ} (h : Near (N * ((M + 1) * (1 / 2 ^ 53))) r y) :
    ShownAs (floatError N M) r (roundRatioF f64 f32 y) := by
  have R := f64_rounding
  have h0 : 0 ≤ y * 1000 := by linarith [h.y0]
  have h1 : y * 1000 ≤ ((1000 : Nat) : ℚ) := by push_cast; linarith [h.y1]
  have g0 : 0 ≤ f64 (y * 1000) := R.nonneg h0
  have g1 : f64 (y * 1000) ≤ 1000 := by simpa using R.le_nat (by norm_num) h1
  have int : ∀ n : Nat, roundQ (n : ℚ) = n := by
    intro n
    unfold roundQ
    rw [if_pos (Nat.cast_nonneg n), Int.floor_eq_iff]
    push_cast
    constructor <;> linarith
  have k0 : 0 ≤ roundQ (f64 (y * 1000)) := by
    have := roundQ_mono (x := ((0 : Nat) : ℚ)) (by simp) (by simpa using g0)
    rw [int] at this; simpa using this
  have k1 : roundQ (f64 (y * 1000)) ≤ 1000 := by
    have := roundQ_mono (y := ((1000 : Nat) : ℚ)) g0 (by simpa using g1)
    rw [int] at this; simpa using this
  obtain ⟨k, hk⟩ := Int.eq_ofNat_of_zero_le k0
  have hk' : k ≤ 1000 := by omega
  have hkq : (roundQ (f64 (y * 1000)) : ℚ) = k := by rw [hk]; simp
  refine ⟨k, hk', ?_, ?_, ?_, ?_⟩
  · unfold roundRatioF
    rw [hkq, (grid ⟨k, by omega⟩).1]
    exact (C58_ieee _).2
  · have e1 := roundQ_bounds (f64 (y * 1000))
    rw [hkq] at e1
    have e2 := R.err h0 h1 (by norm_num)
    have e3 := h.err
    have t1 := abs_sub_le (k : ℚ) (f64 (y * 1000)) (1000 * r)
    have t2 := abs_sub_le (f64 (y * 1000)) (y * 1000) (1000 * r)
    have e4 : |y * 1000 - 1000 * r| = 1000 * |y - r| := by
      rw [← abs_of_pos (show (0 : ℚ) < 1000 by norm_num), ← abs_mul, abs_of_pos (show (0 : ℚ) < 1000 by norm_num)]
      congr 1; ring
    unfold floatError
    push_cast at e2
    rw [e4] at t2
    have : (1000 : ℚ) * ((N * (M + 1) + 1) / 2 ^ 53) = 1000 * (1 / 2 ^ 53) + 1000 * (N * ((M + 1) * (1 / 2 ^ 53))) := by ring
    rw [this]
    linarith
  · intro hr
    rw [h.one hr, one_mul] at hk
    have e : f64 (1000 : ℚ) = ((1000 : Nat) : ℚ) := by simpa using R.nat (n := 1000) (by norm_num)
    rw [e, int] at hk
    exact_mod_cast hk.symm
  · intro hr
    rw [h.zero hr, zero_mul, R.zero] at hk
    have := int 0
    rw [Nat.cast_zero] at this
    rw [this] at hk
    exact_mod_cast hk.symm

section
variable {hash hash' : ArtifactIm → HashIm} {ims ims' : IMap Name ArtifactIm} {code code' : IMap Name ImplCode}
  {defined defined' : IMap Name FilePath} {arts arts' : IMap Name Artifact}

/-- No artifact has more than `M` slots: itself, its subnames, its parts. -/
def SlotsLe (M : Nat) (as : List Artifact) : Prop := ∀ a ∈ as, 1 + a.subnames.length + (partsIn as a.name).length ≤ M

theorem sameBut_parts {as bs : IMap Name Artifact} (h : List.Forall₂ (fun x y : Name × Artifact => y.1 = x.1 ∧ SameBut x.2 y.2) as bs) (n : Name) :
    (partsIn (bs.map Prod.snd) n).length = (partsIn (as.map Prod.snd) n).length := by
  induction h with
  | nil => rfl
  | @cons x y l l' hxy _ ih =>
    unfold partsIn at ih ⊢
    have e : PartOf y.2 n ↔ PartOf x.2 n := by rw [hxy.2]; exact Iff.rfl
    rw [List.map_cons, List.map_cons, List.filter_cons, List.filter_cons]
    simp only [e]
    split
    · rw [List.length_cons, List.length_cons, ih]
    · exact ih

theorem sameBut_slots {M : Nat} {as bs : IMap Name Artifact} (h : List.Forall₂ (fun x y : Name × Artifact => y.1 = x.1 ∧ SameBut x.2 y.2) as bs) :
    SlotsLe M (artsOf as) ↔ SlotsLe M (artsOf bs) := by
  constructor
  · intro hs b hb
    obtain ⟨y, hy, rfl⟩ := List.mem_map.1 hb
    obtain ⟨x, hx, -, e⟩ := forall₂_mem_right h hy
    have := hs x.2 (List.mem_map.2 ⟨x, hx, rfl⟩)
    unfold artsOf at this ⊢
    rw [sameBut_parts h]
    rw [e]
    exact this
  · intro hs b hb
    obtain ⟨x, hx, rfl⟩ := List.mem_map.1 hb
    obtain ⟨y, hy, -, e⟩ := forall₂_mem_left h hx
    have := hs y.2 (List.mem_map.2 ⟨y, hy, rfl⟩)
    unfold artsOf at this ⊢
    rw [sameBut_parts h] at this
    rw [e] at this
    exact this

theorem built_sameBut_aux {l : ArtifactsLoaded} {impls : IMap Name Impl} {cm cm' : IMap Name Completed} {ids : IMap Name HashIm}
    {ds : List (Name × FilePath)} {as : List (Name × Artifact)}
    (hf : List.Forall₂ (fun p o => buildArtifact l impls cm ids p = .ok o) ds as) : ∀ {as' : List (Name × Artifact)},
    List.Forall₂ (fun p o => buildArtifact l impls cm' ids p = .ok o) ds as' →
    List.Forall₂ (fun x y : Name × Artifact => y.1 = x.1 ∧ SameBut x.2 y.2) as as' := by
  induction hf with
  | nil => intro as' h; cases h; exact .nil
  | @cons p o _ _ hp _ ih =>
    intro as' hf'
    cases hf' with
    | @cons _ o' _ _ hp' hl' =>
      refine .cons ?_ (ih hl')
      obtain ⟨co, hco⟩ : ∃ co, IMap.get? cm' p.1 = some co := by
        unfold buildArtifact at hp'
        obtain ⟨id, h1, h⟩ := Res.bind_eq_ok.1 hp'
        obtain ⟨po, h2, h⟩ := Res.bind_eq_ok.1 h
        obtain ⟨pa, h3, h⟩ := Res.bind_eq_ok.1 h
        obtain ⟨co, h4, h⟩ := Res.bind_eq_ok.1 h
        exact ⟨co, index_eq_ok.1 h4⟩
      rw [buildArtifact_other hp hco] at hp'
      rw [← Res.ok.inj hp']
      exact ⟨rfl, rfl⟩

/-- What `buildArtifact` takes from the completions is the completion only. -/
theorem built_sameBut {l : ArtifactsLoaded} {topo : Option (List Nat)} (hd : IMap.Nodup defined)
    (h : determineArtifacts hash topo l code defined = .ok arts) {fl fl' : ℚ → ℚ}
    (h' : determineArtifactsF fl fl' hash topo l code defined = .ok arts') :
    List.Forall₂ (fun x y : Name × Artifact => y.1 = x.1 ∧ SameBut x.2 y.2) arts arts' := by
  unfold determineArtifacts at h
  unfold determineArtifactsF at h'
  simp only at h h'
  obtain ⟨cm, -, h⟩ := Res.bind_eq_ok.1 h
  obtain ⟨out, ho, h⟩ := Res.bind_eq_ok.1 h
  obtain ⟨cm', -, h'⟩ := Res.bind_eq_ok.1 h'
  obtain ⟨out', ho', h'⟩ := Res.bind_eq_ok.1 h'
  have hf := Res.mapM'_eq_ok.1 ho
  have hf' := Res.mapM'_eq_ok.1 ho'
  have n1 := IMap.nodup_of_fst hd (forall₂_map_eq hf (fun x _ y hxy => (buildArtifact_eq_ok.1 hxy).1))
  have n2 := IMap.nodup_of_fst hd (forall₂_map_eq hf' (fun x _ y hxy => (buildArtifact_eq_ok.1 hxy).1))
  have e1 := Res.ok.inj h
  have e2 := Res.ok.inj h'
  rw [IMap.collect_of_nodup n1] at e1
  rw [IMap.collect_of_nodup n2] at e2
  subst e1 e2
  exact built_sameBut_aux hf hf'

/-- The computation ends for every project and every topological order (as the exact one does), if no artifact has more slots than there
are exact integers. -/
theorem C58_total (inp : LoadInput ims defined) {l : ArtifactsLoaded} {topo : Option (List Nat)} (hl : finalizeLoadArtifact ims = .ok l)
    (ht : DiGraph.TopoContract l.graphs.full topo) (hs : ∀ as, determineArtifacts hash topo l code defined = .ok as → SlotsLe (2 ^ 53) (artsOf as)) :
    ∃ arts, determineArtifactsF f64 f32 hash topo l code defined = .ok arts := by
  obtain ⟨l', hl', he⟩ := Loads.exists (hash := hash) (code := code) inp
  rw [hl] at hl'
  cases Res.ok.inj hl'
  obtain ⟨as, ha⟩ := he topo ht
  obtain ⟨arts', h', -⟩ := determineArtifactsF_near f64_rounding (le_refl _) (by norm_num) f32 inp hl ht ha (hs as ha)
  exact ⟨arts', h'⟩

/-- What the program shows. The result is that of the exact computation except for the completions; they are 0 if there is a cycle and
else the true ratios rounded to thousandths, up to an error of the floating point sums; a ratio of 1 is shown as 100% and 0 as 0%. -/
theorem C58_shown (inp : LoadInput ims defined) (h : LoadsF hash ims code defined arts') {M : Nat} (hs : SlotsLe M (artsOf arts'))
    (hM : M ≤ 2 ^ 53) :
    ∃ arts, Loads hash ims code defined arts ∧ List.Forall₂ (fun x y : Name × Artifact => y.1 = x.1 ∧ SameBut x.2 y.2) arts arts' ∧
      (Cyclic (artsOf arts) → ∀ a ∈ artsOf arts', a.completed = ⟨0, 0⟩) ∧
      (¬ Cyclic (artsOf arts) → ∃ spc tst, CompletionRule (artsOf arts) spc tst ∧ ∀ a ∈ artsOf arts',
        ShownAs (floatError arts'.length M) (spc (key a.name)) a.completed.spc ∧
        ShownAs (floatError arts'.length M) (tst (key a.name)) a.completed.tst) := by
  obtain ⟨l, topo, hl, ht, hF⟩ := h
  obtain ⟨l', hl', he⟩ := Loads.exists (hash := hash) (code := code) inp
  rw [hl] at hl'
  cases Res.ok.inj hl'
  obtain ⟨as, ha⟩ := he topo ht
  have hsame := built_sameBut inp.dnodup ha hF
  obtain ⟨arts2, h2, h3, h4, h5⟩ := determineArtifactsF_near f64_rounding hM (by norm_num) f32 inp hl ht ha ((sameBut_slots hsame).2 hs)
  rw [hF] at h2
  cases Res.ok.inj h2
  refine ⟨as, ⟨l, topo, hl, ht, ha⟩, h3, ?_, ?_⟩
  · intro hc a hm
    obtain ⟨y, hy, rfl⟩ := List.mem_map.1 hm
    obtain ⟨x, _, hxy⟩ := forall₂_mem_right (h4 hc) hy
    exact hxy.2
  · intro hc
    obtain ⟨spc, tst, hr, hall⟩ := h5 hc
    refine ⟨spc, tst, hr, fun a hm => ?_⟩
    obtain ⟨y, hy, rfl⟩ := List.mem_map.1 hm
    obtain ⟨x, _, hn, v, w, n1, n2, e⟩ := forall₂_mem_right (List.Forall₂.mp (S := fun (x y : Name × Artifact) => y.2.name = x.2.name ∧
        ∃ v w, Near (as.length * ((M + 1) * (1 / 2 ^ 53))) (spc (key x.2.name)) v ∧
          Near (as.length * ((M + 1) * (1 / 2 ^ 53))) (tst (key x.2.name)) w ∧
            y.2.completed = ⟨roundRatioF f64 f32 v, roundRatioF f64 f32 w⟩)
      (fun x y h1 h2 => ⟨by rw [h1.2], h2.2⟩) h3 hall) hy
    rw [← h3.length_eq, hn, e]
    exact ⟨shown_of_near n1, shown_of_near n2⟩

/-- Both ratios are between 0 and 1, and an artifact whose true ratio is 1 is shown with exactly 1. -/
theorem C58_range {ε r v : ℚ} (h : ShownAs ε r v) : 0 ≤ v ∧ v ≤ 1 ∧ (r = 1 → v = 1) ∧ (r = 0 → v = 0) := by
  obtain ⟨k, hk, hv, -, h1, h0⟩ := h
  have e := rounded_eq hv
  have hk' : (k : ℚ) ≤ 1000 := by exact_mod_cast hk
  have m1 : f32 0 ≤ f32 ((k : ℚ) / 1000) := roundTo_mono (by norm_num) _ (by positivity)
  have m2 : f32 ((k : ℚ) / 1000) ≤ f32 1 := roundTo_mono (by norm_num) _ (by rw [div_le_one (by norm_num)]; exact hk')
  have e0 : f32 0 = 0 := by decide +kernel
  have e1 : f32 1 = 1 := by decide +kernel
  rw [e0] at m1
  rw [e1] at m2
  refine ⟨e ▸ m1, e ▸ m2, fun hr => ?_, fun hr => ?_⟩
  · rw [e, h1 hr, ← e1]; norm_num
  · rw [e, h0 hr, ← e0]; norm_num

/-- The number shown and the number that exact arithmetic would show differ by at most one in the third decimal, and only if the true ratio
is within `ε` of the middle between two thousandths. -/
theorem C58_close {ε r v : ℚ} (h : ShownAs ε r v) (hr : 0 ≤ r) (hε : 1000 * ε < 1 / 2) :
    ∃ k j : Nat, k ≤ 1000 ∧ RoundedF32 ((k : ℚ) / 1000) v ∧ roundRatio r = (j : ℚ) / 1000 ∧ (k ≤ j + 1 ∧ j ≤ k + 1) ∧
      ((∀ n : ℤ, 1000 * ε < |1000 * r - (n + 1 / 2)|) → k = j) := by
  obtain ⟨k, hk, hv, he, -, -⟩ := h
  have hj0 : 0 ≤ roundQ (r * 1000) := by
    have := roundQ_mono (x := 0) (y := r * 1000) (le_refl _) (by linarith)
    have e : roundQ 0 = 0 := by decide +kernel
    rwa [e] at this
  obtain ⟨j, hj⟩ := Int.eq_ofNat_of_zero_le hj0
  have hjq : (roundQ (r * 1000) : ℚ) = j := by rw [hj]; simp
  have hb := roundQ_bounds (r * 1000)
  rw [hjq] at hb
  have hb' := abs_le.1 hb
  have he' := abs_le.1 he
  refine ⟨k, j, hk, hv, ?_, ?_, ?_⟩
  · unfold roundRatio; rw [hjq]
  · constructor
    · have : (k : ℚ) < j + 2 := by linarith
      have : k < j + 2 := by exact_mod_cast this
      omega
    · have : (j : ℚ) < k + 2 := by linarith
      have : j < k + 2 := by exact_mod_cast this
      omega
  · intro hn
    rcases lt_trichotomy k j with hlt | heq | hlt
    · exfalso
      have h1 : (k : ℚ) + 1 ≤ j := by exact_mod_cast hlt
      have := hn k
      push_cast at this
      rw [abs_of_nonneg (by linarith)] at this
      linarith
    · exact heq
    · exfalso
      have h1 : (j : ℚ) + 1 ≤ k := by exact_mod_cast hlt
      have := hn j
      push_cast at this
      rw [abs_of_nonpos (by linarith)] at this
      linarith

/-- The error is below half a thousandth for every project with less than 2^42 slots (number of artifacts times slots of the largest). -/
theorem C58_small {n m : Nat} (h : n * (m + 1) < 2 ^ 42) : 1000 * floatError n m < 1 / 2 := by
  have h' : ((n * (m + 1) + 1 : Nat) : ℚ) ≤ 2 ^ 42 := by exact_mod_cast h
  push_cast at h'
  unfold floatError
  rw [mul_div_assoc', div_lt_iff₀ (by positivity)]
  norm_num at h' ⊢
  linarith

/-- Two loads of the same artifacts with the same things covered by code, in whatever order: the numbers shown differ by at most one in the
third decimal, and only if the true ratio is next to the middle between two thousandths. -/
theorem C58_orders (inp : LoadInput ims defined) (h : LoadsF hash ims code defined arts) (inp' : LoadInput ims' defined')
    (h' : LoadsF hash' ims' code' defined' arts') (hims : ∀ n : Name, IMap.get? ims n = IMap.get? ims' n)
    (hcode : ∀ n : Name, SameCoverage (IMap.get? code n) (IMap.get? code' n)) {M : Nat} (hs : SlotsLe M (artsOf arts))
    (hs' : SlotsLe M (artsOf arts')) (hM : M ≤ 2 ^ 53) (hsmall : arts.length * (M + 1) < 2 ^ 42)
    (hsmall' : arts'.length * (M + 1) < 2 ^ 42) :
    ∀ a ∈ artsOf arts, ∀ a' ∈ artsOf arts', key a.name = key a'.name →
      (∃ k k' : Nat, k ≤ 1000 ∧ k' ≤ 1000 ∧ RoundedF32 ((k : ℚ) / 1000) a.completed.spc ∧ RoundedF32 ((k' : ℚ) / 1000) a'.completed.spc ∧
        k ≤ k' + 1 ∧ k' ≤ k + 1) ∧
      (∃ k k' : Nat, k ≤ 1000 ∧ k' ≤ 1000 ∧ RoundedF32 ((k : ℚ) / 1000) a.completed.tst ∧ RoundedF32 ((k' : ℚ) / 1000) a'.completed.tst ∧
        k ≤ k' + 1 ∧ k' ≤ k + 1) := by
  obtain ⟨as, l1, l2, l3, l4⟩ := C58_shown inp h hs hM
  obtain ⟨as', l1', l2', l3', l4'⟩ := C58_shown inp' h' hs' hM
  have hsm := C58_small hsmall
  have hsm' := C58_small hsmall'
  have near : ∀ {r v v' : ℚ}, ShownAs (floatError arts.length M) r v → ShownAs (floatError arts'.length M) r v' →
      ∃ k k' : Nat, k ≤ 1000 ∧ k' ≤ 1000 ∧ RoundedF32 ((k : ℚ) / 1000) v ∧ RoundedF32 ((k' : ℚ) / 1000) v' ∧ k ≤ k' + 1 ∧ k' ≤ k + 1 := by
    rintro r v v' ⟨k, hk, hv, he, -⟩ ⟨k', hk', hv', he', -⟩
    have e := abs_le.1 he
    have e' := abs_le.1 he'
    refine ⟨k, k', hk, hk', hv, hv', ?_, ?_⟩
    · have : (k : ℚ) < k' + 2 := by linarith
      have : k < k' + 2 := by exact_mod_cast this
      omega
    · have : (k' : ℚ) < k + 2 := by linarith
      have : k' < k + 2 := by exact_mod_cast this
      omega
  intro a ha a' ha' hk
  by_cases hc : Cyclic (artsOf as)
  · have hc' := C16_cyclic_independent inp l1 inp' l1' hims hc
    rw [l3 hc a ha, l3' hc' a' ha']
    have z : RoundedF32 (((0 : Nat) : ℚ) / 1000) 0 := by
      have := (C58_ieee (((0 : Nat) : ℚ) / 1000)).2
      rwa [show f32 (((0 : Nat) : ℚ) / 1000) = 0 by decide +kernel] at this
    exact ⟨⟨0, 0, by omega, by omega, z, z, by omega, by omega⟩, ⟨0, 0, by omega, by omega, z, z, by omega, by omega⟩⟩
  · have hc' : ¬ Cyclic (artsOf as') := fun hx => hc (C16_cyclic_independent inp' l1' inp l1 (fun n => (hims n).symm) hx)
    obtain ⟨S, T, hr, hsh⟩ := l4 hc
    obtain ⟨S', T', hr', hsh'⟩ := l4' hc'
    obtain ⟨y, hy, rfl⟩ := List.mem_map.1 ha
    obtain ⟨x, hx, -, e⟩ := forall₂_mem_right l2 hy
    obtain ⟨u1, u2⟩ := C16_same_ratios inp l1 inp' l1' hims hcode hc hr hr' x.2 (List.mem_map.2 ⟨x, hx, rfl⟩)
    have en : x.2.name = y.2.name := by rw [e]
    rw [en] at u1 u2
    obtain ⟨a1, a2⟩ := hsh _ ha
    obtain ⟨b1, b2⟩ := hsh' _ ha'
    rw [← hk, ← u1] at b1
    rw [← hk, ← u2] at b2
    exact ⟨near a1 b1, near a2 b2⟩

end

/-! ## examples -/

/-- Load an example project with the arithmetic of the program and the modelled topological sort. -/
def exLoadF (ims : IMap Name ArtifactIm) (code : IMap Name ImplCode) : Res Unit (IMap Name Artifact) := do
  let l ← finalizeLoadArtifact ims
  determineArtifactsF f64 f32 exHash l.graphs.full.toposort l code (exDefined ims)

theorem exLoadsF {ims : IMap Name ArtifactIm} {code : IMap Name ImplCode} {arts : IMap Name Artifact}
    (h : IMap.Nodup ims) (ha : exLoadF ims code = .ok arts) : LoadsF exHash ims code (exDefined ims) arts := by
  obtain ⟨l, hl, h2⟩ := Res.bind_eq_ok.1 ha
  exact ⟨l, _, hl, toposort_contract ims h l hl, h2⟩

theorem exHasF {i : IMap Name ArtifactIm} {c : IMap Name ImplCode} (P : IMap Name Artifact → Prop) [DecidablePred P]
    (h : ((exLoadF i c).toOption.map (fun m => decide (P m))) = some true) : ∃ arts, exLoadF i c = .ok arts ∧ P arts := by
  cases he : exLoadF i c with
  | ok arts => rw [he] at h; exact ⟨arts, rfl, by simpa [Res.toOption] using h⟩
  | err e => rw [he] at h; simp [Res.toOption] at h
  | panic => rw [he] at h; simp [Res.toOption] at h

/-- The project of Props/Completion.lean: the numbers shown are the `f32` next to the exact ones. -/
example : exShown (exLoadF exProj exCode) =
    some [("REQ-a", f32 (833 / 1000), 3 / 4), ("SPC-a", f32 (667 / 1000), 1 / 2), ("SPC-b", 1, 1), ("TST-a", 1, 1)] := by
  decide +kernel

instance (M : Nat) (as : List Artifact) : Decidable (SlotsLe M as) := by unfold SlotsLe; infer_instance

/-- The hypotheses of `C58_shown` are met: four artifacts, the largest with three slots. -/
theorem exProjF_loads : ∃ arts, LoadInput exProj (exDefined exProj) ∧ LoadsF exHash exProj exCode (exDefined exProj) arts ∧
    SlotsLe 4 (artsOf arts) ∧ arts.length * (4 + 1) < 2 ^ 42 ∧ exShown (.ok arts) =
      some [("REQ-a", f32 (833 / 1000), 3 / 4), ("SPC-a", f32 (667 / 1000), 1 / 2), ("SPC-b", 1, 1), ("TST-a", 1, 1)] := by
  obtain ⟨arts, h, h1, h2, h3⟩ := exHasF (i := exProj) (c := exCode) (fun m => SlotsLe 4 (artsOf m) ∧ m.length * (4 + 1) < 2 ^ 42 ∧
    exShown (.ok m) = some [("REQ-a", f32 (833 / 1000), 3 / 4), ("SPC-a", f32 (667 / 1000), 1 / 2), ("SPC-b", 1, 1), ("TST-a", 1, 1)])
    (by decide +kernel)
  exact ⟨arts, exInput _ exProj_nodup, exLoadsF exProj_nodup h, h1, h2, h3⟩

/-! ## the order matters -/

/-- Four artifacts whose order is the order in which files and threads deliver them. -/
def exTie1 : IMap Name ArtifactIm :=
  [exArt "REQ-a" [] none "", exArt "SPC-c" ["REQ-a"] none "[[.x]] [[.y]] [[.z]]", exArt "SPC-b" ["REQ-a"] none "[[.x]] [[.y]]",
   exArt "SPC-a" ["REQ-a"] none "[[.x]] [[.y]]"]

/-- The same artifacts in another order. -/
def exTie2 : IMap Name ArtifactIm :=
  [exArt "REQ-a" [] none "", exArt "SPC-a" ["REQ-a"] none "[[.x]] [[.y]]", exArt "SPC-c" ["REQ-a"] none "[[.x]] [[.y]] [[.z]]",
   exArt "SPC-b" ["REQ-a"] none "[[.x]] [[.y]]"]

/-- A third, two thirds and three quarters are implemented, and the requirement itself. -/
def exTieCode : IMap Name ImplCode :=
  [(nm "REQ-a", ⟨some ⟨c!"/x.rs", 1⟩, []⟩), (nm "SPC-a", ⟨some ⟨c!"/x.rs", 2⟩, []⟩),
   (nm "SPC-b", ⟨some ⟨c!"/x.rs", 3⟩, [(⟨c!".x"⟩, ⟨c!"/x.rs", 4⟩)]⟩),
   (nm "SPC-c", ⟨some ⟨c!"/x.rs", 5⟩, [(⟨c!".x"⟩, ⟨c!"/x.rs", 6⟩), (⟨c!".y"⟩, ⟨c!"/x.rs", 7⟩)]⟩)]

/-- The number shown depends on the order in which the same artifacts with the same code arrive: the exact ratio is 11/16 = 68.75%, shown
as 68.8% or as 68.7%. So `C16_order_independent` cannot hold for the arithmetic of the program, and the bound of `C58_orders` is reached. -/
theorem C58_order_matters : ∃ (ims ims' : IMap Name ArtifactIm) (code : IMap Name ImplCode) (arts arts' : IMap Name Artifact)
    (a a' : Artifact), LoadInput ims (exDefined ims) ∧ LoadInput ims' (exDefined ims') ∧ ims.Perm ims' ∧
    LoadsF exHash ims code (exDefined ims) arts ∧ LoadsF exHash ims' code (exDefined ims') arts' ∧ SlotsLe 4 (artsOf arts) ∧
    SlotsLe 4 (artsOf arts') ∧ a ∈ artsOf arts ∧ a' ∈ artsOf arts' ∧ a.name = a'.name ∧
    RoundedF32 (688 / 1000) a.completed.spc ∧ RoundedF32 (687 / 1000) a'.completed.spc ∧ tenthsF a.completed.spc = 688 ∧
    tenthsF a'.completed.spc = 687 := by
  have n1 : IMap.Nodup exTie1 := by unfold IMap.Nodup; decide +kernel
  have n2 : IMap.Nodup exTie2 := by unfold IMap.Nodup; decide +kernel
  obtain ⟨a1, h1, s1, x1, hx1, hn1, hv1⟩ := exHasF (i := exTie1) (c := exTieCode) (fun m => SlotsLe 4 (artsOf m) ∧
    ∃ a ∈ artsOf m, a.name = nm "REQ-a" ∧ a.completed.spc = f32 (688 / 1000)) (by decide +kernel)
  obtain ⟨a2, h2, s2, x2, hx2, hn2, hv2⟩ := exHasF (i := exTie2) (c := exTieCode) (fun m => SlotsLe 4 (artsOf m) ∧
    ∃ a ∈ artsOf m, a.name = nm "REQ-a" ∧ a.completed.spc = f32 (687 / 1000)) (by decide +kernel)
  refine ⟨exTie1, exTie2, exTieCode, a1, a2, x1, x2, exInput _ n1, exInput _ n2, ?_, exLoadsF n1 h1, exLoadsF n2 h2, s1, s2, hx1, hx2,
    hn1.trans hn2.symm, ?_, ?_, ?_, ?_⟩
  · unfold exTie1 exTie2
    refine .cons _ ?_
    exact List.Perm.symm (List.perm_append_comm (l₁ := [_]) (l₂ := [_, _]))
  · rw [hv1]; exact (C58_ieee _).2
  · rw [hv2]; exact (C58_ieee _).2
  · rw [hv1]; decide +kernel
  · rw [hv2]; decide +kernel

end Art
