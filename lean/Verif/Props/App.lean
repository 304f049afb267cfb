import Verif.Model.App
import Verif.Props.Fs
import Verif.Props.Completion
import Mathlib.Tactic.Linarith
import Mathlib.Tactic.NormNum

/-!
# Properties C38, C39, C45 and C50: colours, trimmed paths, finding the project, names of enum values
-/

namespace Art.Spec

/-- How good a colour is. -/
def rank : TermColor → Nat
  | .red => 0
  | .yellow => 1
  | .blue => 2
  | .green => 3

/-- The colour in exported documents and on the web page for a colour on the terminal. -/
def hex : TermColor → Str
  | .red => c!"#FF4136"
  | .yellow => c!"#FF851B"
  | .blue => c!"#0074D9"
  | .green => c!"#3DA03D"

/-- There is something called `.art` in the directory. -/
def HasArt (fs : FS) (d : FilePath) : Prop := ∃ n, (d ++ c!"/.art", n) ∈ fs

end Art.Spec

namespace Art
open Spec

/-! ## C38 -/

theorem spcPoints_le (c : Completed) : c.spcPoints ≤ 3 := by unfold Completed.spcPoints; split_ifs <;> omega
theorem tstPoints_le (c : Completed) : c.tstPoints ≤ 2 := by unfold Completed.tstPoints; split_ifs <;> omega

/-- The colour of a name, in terms of the points. -/
theorem termColor_of (c : Completed) : ∃ k, c.termColor = .ok k ∧ rank k = (c.spcPoints + c.tstPoints + 1) / 2 := by
  have h1 := spcPoints_le c
  have h2 := tstPoints_le c
  unfold Completed.termColor
  obtain ⟨n, hn⟩ : ∃ n, n = c.spcPoints + c.tstPoints := ⟨_, rfl⟩
  rw [← hn]
  have : n ≤ 5 := by omega
  rcases n with _ | _ | _ | _ | _ | _ | n
  · exact ⟨_, rfl, rfl⟩
  · exact ⟨_, rfl, rfl⟩
  · exact ⟨_, rfl, rfl⟩
  · exact ⟨_, rfl, rfl⟩
  · exact ⟨_, rfl, rfl⟩
  · exact ⟨_, rfl, rfl⟩
  · omega

theorem rank_inj {a b : TermColor} (h : rank a = rank b) : a = b := by revert h; cases a <;> cases b <;> decide

/-- Every pair of ratios has a colour, and exported documents and the web page show the same one. -/
theorem C38_total (c : Completed) : ∃ k, c.termColor = .ok k ∧ c.mdColor = .ok (hex k) ∧ c.webColor = .ok (hex k) := by
  have h1 := spcPoints_le c
  have h2 := tstPoints_le c
  unfold Completed.termColor Completed.mdColor Completed.webColor
  obtain ⟨n, hn⟩ : ∃ n, n = c.spcPoints + c.tstPoints := ⟨_, rfl⟩
  rw [← hn]
  have : n ≤ 5 := by omega
  rcases n with _ | _ | _ | _ | _ | _ | n
  · exact ⟨_, rfl, rfl, rfl⟩
  · exact ⟨_, rfl, rfl, rfl⟩
  · exact ⟨_, rfl, rfl, rfl⟩
  · exact ⟨_, rfl, rfl, rfl⟩
  · exact ⟨_, rfl, rfl, rfl⟩
  · exact ⟨_, rfl, rfl, rfl⟩
  · omega

theorem spcPoints_mono {c c' : Completed} (h : c.spc ≤ c'.spc) : c.spcPoints ≤ c'.spcPoints := by
  unfold Completed.spcPoints; split_ifs <;> first | omega | (exfalso; linarith)

theorem tstPoints_mono {c c' : Completed} (h : c.tst ≤ c'.tst) : c.tstPoints ≤ c'.tstPoints := by
  unfold Completed.tstPoints; split_ifs <;> first | omega | (exfalso; linarith)

/-- The colour of a ratio, in terms of the points. -/
theorem spcColor_of (c : Completed) : ∃ k, c.spcColor = .ok k ∧ rank k = c.spcPoints := by
  unfold Completed.spcColor Completed.spcPoints; split_ifs <;> exact ⟨_, rfl, rfl⟩

theorem tstColor_of (c : Completed) : ∃ k, c.tstColor = .ok k ∧ (rank k = c.tstPoints ∧ c.tstPoints ≤ 1 ∨ k = .green ∧ c.tstPoints = 2) := by
  unfold Completed.tstColor Completed.tstPoints; split_ifs
  · exact ⟨_, rfl, by decide⟩
  · exact ⟨_, rfl, by decide⟩
  · exact ⟨_, rfl, by decide⟩

/-- More is never shown in a worse colour: for the name, and for each of the two numbers. -/
theorem C38_monotone {c c' : Completed} (hs : c.spc ≤ c'.spc) (ht : c.tst ≤ c'.tst) :
    (∃ k k', c.termColor = .ok k ∧ c'.termColor = .ok k' ∧ rank k ≤ rank k') ∧
    (∃ k k', c.spcColor = .ok k ∧ c'.spcColor = .ok k' ∧ rank k ≤ rank k') ∧
    ∃ k k', c.tstColor = .ok k ∧ c'.tstColor = .ok k' ∧ rank k ≤ rank k' := by
  have h1 := spcPoints_mono hs
  have h2 := tstPoints_mono ht
  obtain ⟨k, hk, e⟩ := termColor_of c
  obtain ⟨k', hk', e'⟩ := termColor_of c'
  obtain ⟨l, hl, f⟩ := spcColor_of c
  obtain ⟨l', hl', f'⟩ := spcColor_of c'
  obtain ⟨m, hm, g⟩ := tstColor_of c
  obtain ⟨m', hm', g'⟩ := tstColor_of c'
  refine ⟨⟨k, k', hk, hk', by omega⟩, ⟨l, l', hl, hl', by omega⟩, ⟨m, m', hm, hm', ?_⟩⟩
  rcases g with ⟨g, g1⟩ | ⟨rfl, g1⟩ <;> rcases g' with ⟨g', g1'⟩ | ⟨rfl, g1'⟩
  · omega
  · show _ ≤ 3
    omega
  · omega
  · exact le_refl _

example : (⟨1 / 2, 0⟩ : Completed).termColor = .ok .yellow ∧ (⟨3 / 4, 1⟩ : Completed).termColor = .ok .blue := by
  constructor <;> decide +kernel

/-- Green means that both ratios are full, and only that; red that both are below the first step. -/
theorem C38_green_red (c : Completed) :
    (c.termColor = .ok .green ↔ 1 ≤ c.spc ∧ 1 ≤ c.tst) ∧ (c.termColor = .ok .red ↔ c.spc < 4 / 10 ∧ c.tst < 5 / 10) ∧
    (c.spcColor = .ok .green ↔ 1 ≤ c.spc) ∧ (c.tstColor = .ok .green ↔ 1 ≤ c.tst) := by
  obtain ⟨k, hk, e⟩ := termColor_of c
  obtain ⟨l, hl, f⟩ := spcColor_of c
  obtain ⟨m, hm, g⟩ := tstColor_of c
  have s3 : c.spcPoints = 3 ↔ 1 ≤ c.spc := by
    unfold Completed.spcPoints; split_ifs <;> simp <;> linarith
  have s0 : c.spcPoints = 0 ↔ c.spc < 4 / 10 := by
    unfold Completed.spcPoints; split_ifs <;> simp <;> linarith
  have t2 : c.tstPoints = 2 ↔ 1 ≤ c.tst := by
    unfold Completed.tstPoints; split_ifs <;> simp <;> linarith
  have t0 : c.tstPoints = 0 ↔ c.tst < 5 / 10 := by
    unfold Completed.tstPoints; split_ifs <;> simp <;> linarith
  have h1 := spcPoints_le c
  have h2 := tstPoints_le c
  have col : ∀ {r : Res Unit TermColor} {k q : TermColor}, r = .ok k → (r = .ok q ↔ rank k = rank q) := by
    intro r k q h
    rw [h]
    exact ⟨fun h => by cases h; rfl, fun h => by rw [rank_inj h]⟩
  rw [col hk, col hk, col hl, col hm, ← s3, ← s0, ← t2, ← t0]
  refine ⟨?_, ?_, ?_, ?_⟩
  · show _ = 3 ↔ _
    omega
  · show _ = 0 ↔ _
    omega
  · show _ = 3 ↔ _
    omega
  · show _ = 3 ↔ _
    rcases g with ⟨g, g1⟩ | ⟨rfl, g1⟩
    · omega
    · exact ⟨fun _ => g1, fun _ => rfl⟩

/-- Exactly which ratios have the colours in between: 40% and 70% are the steps of the implementation, 50% that of the tests; the name is blue if the steps
of both make three or four of five points, and yellow if they make one or two. -/
theorem C38_bands (c : Completed) :
    (c.spcColor = .ok .red ↔ c.spc < 4 / 10) ∧ (c.spcColor = .ok .yellow ↔ 4 / 10 ≤ c.spc ∧ c.spc < 7 / 10) ∧
    (c.spcColor = .ok .blue ↔ 7 / 10 ≤ c.spc ∧ c.spc < 1) ∧
    (c.tstColor = .ok .red ↔ c.tst < 5 / 10) ∧ (c.tstColor = .ok .yellow ↔ 5 / 10 ≤ c.tst ∧ c.tst < 1) ∧
    (c.termColor = .ok .blue ↔ (1 ≤ c.spc ∧ c.tst < 1) ∨ (7 / 10 ≤ c.spc ∧ c.spc < 1 ∧ 5 / 10 ≤ c.tst) ∨ (4 / 10 ≤ c.spc ∧ c.spc < 7 / 10 ∧ 1 ≤ c.tst)) ∧
    (c.termColor = .ok .yellow ↔ (7 / 10 ≤ c.spc ∧ c.spc < 1 ∧ c.tst < 5 / 10) ∨ (4 / 10 ≤ c.spc ∧ c.spc < 7 / 10 ∧ c.tst < 1) ∨ (c.spc < 4 / 10 ∧ 5 / 10 ≤ c.tst)) := by
  unfold Completed.spcColor Completed.tstColor Completed.termColor Completed.spcPoints Completed.tstPoints
  simp only [← not_le, ge_iff_le]
  by_cases a : 1 ≤ c.spc <;> by_cases b : 7 / 10 ≤ c.spc <;> by_cases d : 4 / 10 ≤ c.spc <;> by_cases e : 1 ≤ c.tst <;> by_cases f : 5 / 10 ≤ c.tst <;>
    first
    | (exfalso; linarith)
    | simp only [a, b, d, e, f, if_true, if_false, not_true, not_false_iff, and_true, true_and, and_false, false_and, or_true, true_or, or_false, false_or, Res.ok.injEq,
        reduceCtorEq, iff_true, iff_false, Nat.reduceAdd, and_self]

example : (⟨7 / 10, 0⟩ : Completed).spcColor = .ok .blue ∧ (⟨7 / 10, 1 / 2⟩ : Completed).termColor = .ok .blue ∧ (⟨4 / 10, 1 / 2⟩ : Completed).termColor = .ok .yellow := by
  refine ⟨?_, ?_, ?_⟩ <;> decide +kernel

/-- The numbers printed next to the colour say the same: in a loaded project a name is green exactly when both are at least 100.0. -/
theorem C38_printed {hash : ArtifactIm → HashIm} {ims : IMap Name ArtifactIm} {code : IMap Name ImplCode} {defined : IMap Name FilePath}
    {arts : IMap Name Artifact} (inp : LoadInput ims defined) (h : Loads hash ims code defined arts) {a : Artifact} (ha : a ∈ artsOf arts) :
    (a.completed.termColor = .ok .green ↔ tenths a.completed.spc = 1000 ∧ tenths a.completed.tst = 1000) ∧
    a.completed.spc = tenths a.completed.spc / 1000 ∧ a.completed.tst = tenths a.completed.tst / 1000 := by
  obtain ⟨k, m, hk, hm, e⟩ : ∃ k m : ℤ, k ≤ 1000 ∧ m ≤ 1000 ∧ a.completed = ⟨(k : ℚ) / 1000, (m : ℚ) / 1000⟩ := by
    obtain ⟨_, _, _, _, _, _, hcyc, hrule⟩ := Loads.spec inp h
    by_cases hc : Cyclic (arts.map Prod.snd)
    · exact ⟨0, 0, by omega, by omega, by rw [hcyc hc a ha]; norm_num⟩
    · obtain ⟨spc, tst, hr, hcomp⟩ := hrule hc
      obtain ⟨u1, u2⟩ := rule_bounds hr hc a ha
      refine ⟨roundQ (spc (key a.name) * 1000), roundQ (tst (key a.name) * 1000), ?_, ?_, by rw [hcomp a ha]; rfl⟩
      · have := (roundRatio_unit u1).2
        unfold roundRatio at this
        rw [div_le_iff₀ (by norm_num)] at this
        exact_mod_cast (by linarith : (roundQ (spc (key a.name) * 1000) : ℚ) ≤ 1000)
      · have := (roundRatio_unit u2).2
        unfold roundRatio at this
        rw [div_le_iff₀ (by norm_num)] at this
        exact_mod_cast (by linarith : (roundQ (tst (key a.name) * 1000) : ℚ) ≤ 1000)
  have t : ∀ k : ℤ, tenths ((k : ℚ) / 1000) = k := by
    intro k
    unfold tenths roundQ
    rw [div_mul_cancel₀ _ (by norm_num)]
    split
    · rw [Int.floor_eq_iff]; constructor <;> linarith
    · rw [Int.ceil_eq_iff]; constructor <;> linarith
  rw [(C38_green_red _).1, e]
  simp only [t]
  refine ⟨and_congr ?_ ?_, trivial, trivial⟩
  · rw [le_div_iff₀ (by norm_num)]
    constructor
    · intro h
      have : (1000 : ℤ) ≤ k := by exact_mod_cast (by linarith : (1000 : ℚ) ≤ k)
      omega
    · rintro rfl; norm_num
  · rw [le_div_iff₀ (by norm_num)]
    constructor
    · intro h
      have : (1000 : ℤ) ≤ m := by exact_mod_cast (by linarith : (1000 : ℚ) ≤ m)
      omega
    · rintro rfl; norm_num

/-! ## C39 -/

/-- The base followed by a path inside it is shown as that path. -/
theorem C39_inside (base x : Str) : trimBase base (base ++ '/' :: x) = x ∧ trimBase base base = [] := by
  constructor
  · unfold trimBase
    rw [if_pos (by simp)]
    simp
  · unfold trimBase
    rw [if_pos (by simp)]
    simp

/-- Exactly when a path is shown correctly: if it lies inside the base, or does not begin with the characters of the base.
What is shown is then the rest of the path, or the whole path. -/
theorem C39_iff (base path : Str) (hb : base ≠ []) :
    (∃ x, Under base path ∧ trimBase base path = x ∧ (path = base ++ '/' :: x ∨ path = base ∧ x = [])) ∨
    (¬ Under base path ∧ ¬ base <+: path ∧ trimBase base path = path) ∨
    (¬ Under base path ∧ base <+: path ∧ trimBase base path ≠ path ∧ path = base ++ trimBase base path) := by
  by_cases hu : Under base path
  · left
    rcases hu with rfl | ⟨x, rfl⟩
    · exact ⟨[], Or.inl rfl, (C39_inside _ []).2, Or.inr ⟨rfl, rfl⟩⟩
    · exact ⟨x, Or.inr ⟨x, rfl⟩, (C39_inside _ x).1, Or.inl rfl⟩
  · right
    by_cases hp : base <+: path
    · right
      obtain ⟨r, rfl⟩ := hp
      have hr : ¬ c!"/" <+: r := by
        rintro ⟨t, rfl⟩
        exact hu (Or.inr ⟨t, rfl⟩)
      have e : trimBase base (base ++ r) = r := by
        unfold trimBase
        rw [if_pos (by simp), List.drop_left]
        simp only [List.isPrefixOf_iff_prefix, if_neg hr]
      refine ⟨hu, ⟨r, rfl⟩, ?_, by rw [e]⟩
      rw [e]
      intro h
      exact hb (by simpa using h.symm)
    · left
      refine ⟨hu, hp, ?_⟩
      unfold trimBase
      rw [if_neg (by simpa using hp)]

/-- A file of another project whose directory has a longer name is shown as if it were inside. -/
theorem C39_sibling : ∃ base path, ¬ Under base path ∧ trimBase base path ≠ path := by
  refine ⟨c!"/foo", c!"/foobar/x", ?_, by decide⟩
  rintro (h | ⟨r, h⟩)
  · revert h; decide
  · simp at h

example : trimBase c!"/foo" c!"/foobar/x" = c!"bar/x" ∧ trimBase c!"/foo" c!"/foo/a/b" = c!"a/b" ∧ trimBase c!"/foo" c!"/bar" = c!"/bar" := by
  decide

/-! ## C45 -/

theorem hasArt_iff (fs : FS) (d : FilePath) : (IMap.get? fs (d ++ c!"/.art")).isSome = true ↔ HasArt fs d := by
  rw [IMap.get?_isSome]
  constructor
  · rintro ⟨⟨p, n⟩, hm, e⟩
    have e : p = d ++ c!"/.art" := e
    exact ⟨n, by rw [← e]; exact hm⟩
  · rintro ⟨n, hm⟩
    exact ⟨_, hm, rfl⟩

theorem under_snoc {d p c : Str} (hc : '/' ∉ c) : Under d (p ++ '/' :: c) ↔ d = p ++ '/' :: c ∨ Under d p := by
  constructor
  · rintro (h | ⟨r, h⟩)
    · exact Or.inl h.symm
    · right
      rcases List.append_eq_append_iff.1 h with ⟨t, e1, e2⟩ | ⟨t, e1, e2⟩
      · -- d = p ++ t
        cases t with
        | nil => exact Or.inl (by rw [e1]; simp)
        | cons x t =>
          rw [List.cons_append] at e2
          injection e2 with _ e2
          exact absurd (by rw [e2]; simp) hc
      · cases t with
        | nil => exact Or.inl (by rw [e1]; simp)
        | cons x t =>
          rw [List.cons_append] at e2
          injection e2 with e2 _
          exact Or.inr ⟨t, by rw [e1, e2]⟩
  · rintro (rfl | h)
    · exact Or.inl rfl
    · rcases h with rfl | ⟨r, rfl⟩
      · exact Or.inr ⟨c, rfl⟩
      · exact Or.inr ⟨r ++ '/' :: c, by simp⟩

theorem findRepoLoop_snoc (fs : FS) (l : List Str) (c : Str) : findRepoLoop fs (l ++ [c]) =
    if (IMap.get? fs (pathOf (l ++ [c]) ++ c!"/.art")).isSome then some (pathOf (l ++ [c])) else findRepoLoop fs l := by
  rw [findRepoLoop]
  split
  · rfl
  · have e : parentComps (l ++ [c]) = some l := by
      have : parentComps (l ++ [c]) = some ((l ++ [c]).dropLast) := by cases l <;> rfl
      rw [this, List.dropLast_concat]
    split
    · rename_i d hd
      rw [e] at hd
      cases hd
      rfl
    · rename_i hd
      rw [e] at hd
      cases hd

theorem findRepoLoop_nil (fs : FS) : findRepoLoop fs [] = if (IMap.get? fs c!"/.art").isSome then some [] else none := by
  rw [findRepoLoop]
  rfl

theorem path_snoc (l : List Str) (c : Str) : Path (l ++ [c]) = Path l ++ '/' :: c := by rw [Path_append]; simp [Path]

theorem findRepoLoop_spec (fs : FS) {l : List Str} (hl : ∀ c ∈ l, c ≠ [] ∧ '/' ∉ c) :
    (∀ d, findRepoLoop fs l = some d ↔ Under d (Path l) ∧ HasArt fs d ∧ ∀ d', Under d' (Path l) → HasArt fs d' → Under d' d) ∧
    (findRepoLoop fs l = none ↔ ∀ d, Under d (Path l) → ¬ HasArt fs d) := by
  have anti : ∀ {p q : Str}, Under p q → Under q p → p = q := by
    rintro p q (h | ⟨r, h⟩) h2
    · exact h.symm
    · rcases h2 with h2 | ⟨r2, h2⟩
      · exact h2
      · have := congrArg List.length h
        have := congrArg List.length h2
        simp at *
        omega
  induction l using List.reverseRecOn with
  | nil =>
    have u : ∀ d, Under d (Path []) ↔ d = [] := by
      intro d
      constructor
      · rintro (h | ⟨r, h⟩)
        · exact h.symm
        · simp [Path] at h
      · rintro rfl; exact Or.inl rfl
    rw [findRepoLoop_nil]
    have ha := hasArt_iff fs []
    simp only [List.nil_append] at ha
    by_cases h : HasArt fs []
    · rw [if_pos (ha.2 h)]
      refine ⟨fun d => ⟨?_, ?_⟩, ?_⟩
      · intro e; cases e
        exact ⟨(u _).2 rfl, h, fun d' h1 _ => by rw [(u _).1 h1]; exact Or.inl rfl⟩
      · rintro ⟨h1, _⟩; rw [(u _).1 h1]
      · constructor
        · intro e; cases e
        · intro e; exact absurd h (e [] ((u _).2 rfl))
    · rw [if_neg (fun e => h (ha.1 e))]
      refine ⟨fun d => ⟨fun e => (nomatch e), ?_⟩, ?_⟩
      · rintro ⟨h1, h2, _⟩; rw [(u _).1 h1] at h2; exact absurd h2 h
      · exact ⟨fun _ d hd => by rw [(u _).1 hd]; exact h, fun _ => rfl⟩
  | append_singleton l c ih =>
    obtain ⟨ih1, ih2⟩ := ih (fun x hx => hl x (by simp [hx]))
    have hc := (hl c (by simp)).2
    rw [findRepoLoop_snoc, pathOf_eq, path_snoc]
    have ha := hasArt_iff fs (Path l ++ '/' :: c)
    by_cases h : HasArt fs (Path l ++ '/' :: c)
    · rw [if_pos (ha.2 h)]
      refine ⟨fun d => ⟨?_, ?_⟩, ?_⟩
      · intro e; cases e
        exact ⟨Or.inl rfl, h, fun d' h1 _ => h1⟩
      · rintro ⟨h1, _, h3⟩
        rw [anti (h3 _ (Or.inl rfl) h) h1]
      · constructor
        · intro e; cases e
        · intro e; exact absurd h (e _ (Or.inl rfl))
    · rw [if_neg (fun e => h (ha.1 e))]
      have uu : ∀ d, HasArt fs d → (Under d (Path l ++ '/' :: c) ↔ Under d (Path l)) := by
        intro d hd
        rw [under_snoc hc]
        exact ⟨fun e => e.resolve_left (by rintro rfl; exact h hd), Or.inr⟩
      refine ⟨fun d => (ih1 d).trans ?_, ih2.trans ?_⟩
      · constructor
        · rintro ⟨h1, h2, h3⟩
          exact ⟨(uu d h2).2 h1, h2, fun d' h4 h5 => h3 d' ((uu d' h5).1 h4) h5⟩
        · rintro ⟨h1, h2, h3⟩
          exact ⟨(uu d h2).1 h1, h2, fun d' h4 h5 => h3 d' ((uu d' h5).2 h4) h5⟩
      · exact ⟨fun e d hd hh => e d ((uu d hh).1 hd) hh, fun e d hd hh => e d ((uu d hh).2 hd) hh⟩

/-- The project is the nearest directory with `.art`: the start or a directory above it, and every other one with `.art` is above that. -/
theorem C45_nearest (fs : FS) {l : List Str} (hl : ∀ c ∈ l, PlainName c) (d : FilePath) :
    findRepo fs (Path l) = some d ↔ Under d (Path l) ∧ HasArt fs d ∧ ∀ d', Under d' (Path l) → HasArt fs d' → Under d' d := by
  have h := fun c hc => (⟨(hl c hc).1, (hl c hc).2.1⟩ : c ≠ [] ∧ '/' ∉ c)
  unfold findRepo
  rw [pathComps_Path h]
  exact (findRepoLoop_spec fs h).1 d

/-- The search fails exactly when there is no `.art` in the start directory or above. -/
theorem C45_none (fs : FS) {l : List Str} (hl : ∀ c ∈ l, PlainName c) :
    findRepo fs (Path l) = none ↔ ∀ d, Under d (Path l) → ¬ HasArt fs d := by
  have h := fun c hc => (⟨(hl c hc).1, (hl c hc).2.1⟩ : c ≠ [] ∧ '/' ∉ c)
  unfold findRepo
  rw [pathComps_Path h]
  exact (findRepoLoop_spec fs h).2

example : findRepo [(c!"/a/.art", .dir), (c!"/a/b/c/d", .dir), (c!"/.art", .dir), (c!"/a/b/.artx", .dir)] c!"/a/b/c/d" = some c!"/a" := by
  have e : pathComps c!"/a/b/c/d" = [c!"a"] ++ [c!"b"] ++ [c!"c"] ++ [c!"d"] := by decide
  unfold findRepo
  rw [e, findRepoLoop_snoc, findRepoLoop_snoc, findRepoLoop_snoc, ← List.nil_append [c!"a"], findRepoLoop_snoc]
  decide

/-! ## C50 -/

/-- A text is read as a kind of error exactly when it is its name. -/
theorem C50_kinds (s : Str) (k : ModifyErrorKind) : ModifyErrorKind.fromStr s = some k ↔ s = k.asStr := by
  unfold ModifyErrorKind.fromStr
  constructor
  · intro h
    split_ifs at h <;> (cases h; assumption)
  · rintro rfl
    cases k <;> decide

/-- A text is read as a method exactly when it is its name. -/
theorem C50_methods (s : Str) (m : Method) : Method.fromStr s = some m ↔ s = m.asStr := by
  unfold Method.fromStr
  constructor
  · intro h
    split_ifs at h <;> (cases h; assumption)
  · rintro rfl
    cases m <;> decide

/-- Different kinds and methods have different names. -/
theorem C50_distinct : Function.Injective ModifyErrorKind.asStr ∧ Function.Injective Method.asStr := by
  refine ⟨fun a b h => ?_, fun a b h => ?_⟩
  · have := (C50_kinds _ a).2 h.symm
    rw [(C50_kinds b.asStr b).2 rfl] at this
    exact (Option.some.inj this).symm
  · have := (C50_methods _ a).2 h.symm
    rw [(C50_methods b.asStr b).2 rfl] at this
    exact (Option.some.inj this).symm

example : ModifyErrorKind.fromStr c!"HashMismatch" = some .hashMismatch ∧ Method.fromStr c!"readProject" = none := by decide

end Art
