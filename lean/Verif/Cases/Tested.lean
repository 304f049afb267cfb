import Verif.Props.Tested

/-!
# Property C92: concrete cases

Projects at the very limit of `C92_hundred` and `C92_zero`, projects that meet the hypotheses, and what "100% tested" does not say.
-/

namespace Art.Tested
open Spec

/-- A way up, given as the list of the artifacts on it. -/
theorem climbTest {as : List Artifact} {b : Artifact} : ∀ (l : List Artifact) (c : Artifact) (w : Nat), TestRoute as b c w →
    (c :: l).IsChain (fun c a => a ∈ as ∧ c ∈ partsIn as a.name ∧ (a.name.ty = .TST → c.name.ty = .TST)) →
    ∀ a, (c :: l).getLast? = some a → TestRoute as b a (l.foldl (fun w a => testWidth as a * w) w)
  | [], c, w, r, _, a, ha => by
    simp at ha; subst ha; exact r
  | d :: l, c, w, r, hl, a, ha => by
    rw [List.isChain_cons_cons] at hl
    exact climbTest l d _ (.up r hl.1.1 hl.1.2.1 hl.1.2.2) hl.2 a (by simpa using ha)

/-- The last and the first artifact of a chain of artifacts of a project, with the numbers of things averaged multiplied. -/
def ChainedTest (as ch : List Artifact) (w : Nat) (P : Artifact → Artifact → Prop) : Prop :=
  match ch.reverse with
  | [] => False
  | b :: l => b ∈ as ∧ (b :: l).IsChain (fun c a => a ∈ as ∧ c ∈ partsIn as a.name ∧ (a.name.ty = .TST → c.name.ty = .TST)) ∧
    l.foldl (fun w a => testWidth as a * w) 1 = w ∧
    match (b :: l).getLast? with
    | none => False
    | some a => P b a

instance (as ch : List Artifact) (w : Nat) (P : Artifact → Artifact → Prop) [∀ b a, Decidable (P b a)] : Decidable (ChainedTest as ch w P) := by
  unfold ChainedTest
  split
  · infer_instance
  · split <;> infer_instance

theorem ChainedTest.route {as ch : List Artifact} {w : Nat} {P : Artifact → Artifact → Prop} (h : ChainedTest as ch w P) :
    ∃ b a, TestRoute as b a w ∧ P b a := by
  unfold ChainedTest at h
  split at h
  · exact h.elim
  · rename_i b l _
    obtain ⟨h1, h2, h3, h4⟩ := h
    split at h4
    · exact h4.elim
    · rename_i a ha
      exact ⟨b, a, h3 ▸ climbTest l b 1 (.here h1) h2 a ha, h4⟩

def fourTests : String := "[[.tst-p]] [[.tst-q]] [[.tst-r]] [[.tst-s]]"

/-- Four artifacts that are done and three with four tests, all of them written, each having the next one as its part; the last one, for which there
is no test, is the part of the seventh. -/
def untested : IMap Name ArtifactIm :=
  [exArt "REQ-a" [] (some "x") "", exArt "REQ-b" ["REQ-a"] (some "x") "", exArt "REQ-c" ["REQ-b"] (some "x") "",
   exArt "REQ-d" ["REQ-c"] (some "x") "", exArt "REQ-e" ["REQ-d"] none fourTests,
   exArt "REQ-f" ["REQ-e"] none fourTests, exArt "REQ-g" ["REQ-f"] none fourTests, exArt "REQ-h" ["REQ-g"] none ""]

def allFour : ImplCode := ⟨none, [(⟨c!".tst-p"⟩, ⟨c!"/x.rs", 2⟩), (⟨c!".tst-q"⟩, ⟨c!"/x.rs", 3⟩), (⟨c!".tst-r"⟩, ⟨c!"/x.rs", 4⟩),
  (⟨c!".tst-s"⟩, ⟨c!"/x.rs", 5⟩)]⟩

/-- The bound of `C92_hundred` cannot be raised: with exactly 2000 an artifact is shown as 100% tested and there is no test at all for something below it. -/
theorem C92_hundred_sharp : ∃ (arts : IMap Name Artifact) (code : IMap Name ImplCode) (b a : Artifact), LoadInput untested (exDefined untested) ∧
    Loads exHash untested code (exDefined untested) arts ∧ TestRoute (artsOf arts) b a 2000 ∧ a.completed.tst = 1 ∧
    testWidth (artsOf arts) b = 0 := by
  have hn : IMap.Nodup untested := by unfold IMap.Nodup; decide +kernel
  obtain ⟨arts, hl, h⟩ := exHas (i := untested) (c := [(nm "REQ-e", allFour), (nm "REQ-f", allFour), (nm "REQ-g", allFour)])
    (fun m => ChainedTest (artsOf m) (artsOf m) 2000 (fun b a => a.completed.tst = 1 ∧ testWidth (artsOf m) b = 0)) (by decide +kernel)
  obtain ⟨b, a, r, h1, h2⟩ := h.route
  exact ⟨arts, _, b, a, exInput _ hn, exLoads hn hl, r, h1, h2⟩

/-- A text with the first `n` of the subnames `.tst-a`, `.tst-b`, … -/
def manyTests (n : Nat) : String :=
  String.ofList (List.flatten ((c!"abcdefghijklmnopqrstuvwxyz0123456789".take n).map (fun x => c!"[[.tst-" ++ [x] ++ c!"]]")))

/-- Three artifacts with code and 2, 22 and 28 tests that are not written, and at the end one that is done. -/
def untested0 : IMap Name ArtifactIm :=
  [exArt "REQ-a" [] none (manyTests 2), exArt "REQ-b" ["REQ-a"] none (manyTests 22), exArt "REQ-c" ["REQ-b"] none (manyTests 28),
   exArt "REQ-d" ["REQ-c"] (some "x") ""]

def justCode : ImplCode := ⟨some ⟨c!"/x.rs", 1⟩, []⟩

/-- The bound of `C92_zero` cannot be raised: with 2001 an artifact is shown as 0% tested although something below it is 100% tested. -/
theorem C92_zero_sharp : ∃ (arts : IMap Name Artifact) (code : IMap Name ImplCode) (b a : Artifact), LoadInput untested0 (exDefined untested0) ∧
    Loads exHash untested0 code (exDefined untested0) arts ∧ ¬ Cyclic (artsOf arts) ∧ TestRoute (artsOf arts) b a 2001 ∧
    testWidth (artsOf arts) b = 1 ∧ a.completed.tst = 0 ∧ b.completed.tst = 1 := by
  have hn : IMap.Nodup untested0 := by unfold IMap.Nodup; decide +kernel
  obtain ⟨arts, hl, h⟩ := exHas (i := untested0) (c := [(nm "REQ-a", justCode), (nm "REQ-b", justCode), (nm "REQ-c", justCode)])
    (fun m => ChainedTest (artsOf m) (artsOf m) 2001 (fun b a => a.completed.tst = 0 ∧ b.completed.tst = 1 ∧ testWidth (artsOf m) b = 1))
    (by decide +kernel)
  obtain ⟨b, a, r, h1, h2, h3⟩ := h.route
  have hi := exInput untested0 hn
  have hL := exLoads hn hl
  refine ⟨arts, _, b, a, hi, hL, fun hc => ?_, r, h3, h1, h2⟩
  rw [(hL.spec hi).2.2.2.2.2.2.1 hc b r.mem.1] at h2
  norm_num at h2

/-- The hypotheses of `C92_hundred` are met: the chain without its two ends, 200 things down to an artifact with four tests. -/
theorem tested_case : ∃ (ims : IMap Name ArtifactIm) (code : IMap Name ImplCode) (arts : IMap Name Artifact) (b a : Artifact),
    LoadInput ims (exDefined ims) ∧ Loads exHash ims code (exDefined ims) arts ∧ TestRoute (artsOf arts) b a 200 ∧
    200 * max 1 (testWidth (artsOf arts) b) < 2000 ∧ a.completed.tst = 1 ∧ (testSlots b).length = 4 ∧ ∀ x ∈ testSlots b, x = 1 := by
  have hn : IMap.Nodup ((untested.drop 1).take 6) := by unfold IMap.Nodup; decide +kernel
  obtain ⟨arts, hl, h⟩ := exHas (i := (untested.drop 1).take 6)
    (c := [(nm "REQ-e", allFour), (nm "REQ-f", allFour), (nm "REQ-g", allFour)])
    (fun m => ChainedTest (artsOf m) (artsOf m) 200
      (fun b a => a.completed.tst = 1 ∧ 200 * max 1 (testWidth (artsOf m) b) < 2000 ∧ (testSlots b).length = 4))
    (by decide +kernel)
  obtain ⟨b, a, r, h1, h2, h3⟩ := h.route
  have hi := exInput _ hn
  have hL := exLoads hn hl
  exact ⟨_, _, arts, b, a, hi, hL, r, h2, h1, h3, (C92_hundred hi hL r h2 h1).2⟩

/-- And those of `C92_zero`, through a test: `REQ-a` is shown as 0% tested, and its test `TST-b` has two parts of its own, which are not written. -/
theorem tested_zero_case : ∃ (ims : IMap Name ArtifactIm) (arts : IMap Name Artifact) (b a : Artifact),
    LoadInput ims (exDefined ims) ∧ Loads exHash ims [] (exDefined ims) arts ∧ TestRoute (artsOf arts) b a 3 ∧ a.completed.tst = 0 ∧
    b.name.ty = .TST ∧ (testSlots b).length = 3 ∧ ∀ x ∈ testSlots b, x = 0 := by
  let i : IMap Name ArtifactIm := [exArt "REQ-a" [] none "", exArt "TST-b" ["REQ-a"] none "[[.p]]",
    exArt "TST-c" ["TST-b"] none "[[.p]] [[.q]]", exArt "REQ-z" [] (some "x") ""]
  have hn : IMap.Nodup i := by unfold IMap.Nodup; decide +kernel
  obtain ⟨arts, hl, h, z, hz, h1z⟩ := exHas (i := i) (c := [])
    (fun m => ChainedTest (artsOf m) ((artsOf m).take 3) 3
        (fun b a => a.completed.tst = 0 ∧ 3 * testWidth (artsOf m) b ≤ 2000 ∧ b.name.ty = .TST ∧ (testSlots b).length = 3) ∧
      ∃ z ∈ artsOf m, z.completed.tst = 1) (by decide +kernel)
  obtain ⟨b, a, r, h1, h2, h3, h4⟩ := h.route
  have hi := exInput _ hn
  have hL := exLoads hn hl
  refine ⟨_, arts, b, a, hi, hL, r, h1, h3, h4, C92_zero hi hL (fun hc => ?_) r h2 h1⟩
  rw [(hL.spec hi).2.2.2.2.2.2.1 hc z hz] at h1z
  norm_num at h1z

/-- The hypotheses of `C92_tst_monotone` are met by the project of `C48_tst_monotone_false` when the code comes with its test: `SPC-a`, tested by `TST-a`, stays
at 100% where it fell to 50%, and is implemented now. -/
theorem with_tests_case : ∃ (ims : IMap Name ArtifactIm) (code' : IMap Name ImplCode) (arts arts' : IMap Name Artifact) (a a' : Artifact),
    LoadInput ims (exDefined ims) ∧ Loads exHash ims [] (exDefined ims) arts ∧ Loads exHash ims code' (exDefined ims) arts' ∧
    AddsImpl ims [] code' ∧ WithTests ims [] code' (fun t l => parseSubnames t = .ok l) ∧ a ∈ artsOf arts ∧ a' ∈ artsOf arts' ∧
    a.name = a'.name ∧ a.completed = ⟨0, 1⟩ ∧ a'.completed = ⟨1, 1⟩ := by
  let i : IMap Name ArtifactIm := [exArt "SPC-a" [] none "[[.tst-two]]", exArt "TST-a" [] (some "yes") ""]
  let c : ImplCode := ⟨some ⟨c!"/x.rs", 1⟩, [(⟨c!".tst-two"⟩, ⟨c!"/x.rs", 2⟩)]⟩
  have hn : IMap.Nodup i := by unfold IMap.Nodup; decide +kernel
  obtain ⟨a1, h1, x1, hx1, hn1, hv1⟩ := exHas (i := i) (c := [])
    (fun m => ∃ a ∈ artsOf m, a.name = nm "SPC-a" ∧ a.completed.spc = 0 ∧ a.completed.tst = 1) (by decide +kernel)
  obtain ⟨a2, h2, x2, hx2, hn2, hv2⟩ := exHas (i := i) (c := [(nm "SPC-a", c)])
    (fun m => ∃ a ∈ artsOf m, a.name = nm "SPC-a" ∧ a.completed.spc = 1 ∧ a.completed.tst = 1) (by decide +kernel)
  have hget : ∀ (n : Name) (c' : ImplCode), IMap.get? [(nm "SPC-a", c)] n = some c' → key (nm "SPC-a") = key n ∧ c' = c := by
    intro n c' hc'
    simp only [IMap.get?] at hc'
    split at hc'
    · rename_i e; cases hc'; exact ⟨by simpa using e, rfl⟩
    · simp at hc'
  refine ⟨i, [(nm "SPC-a", c)], a1, a2, x1, x2, exInput _ hn, exLoads hn h1, exLoads hn h2, ?_, ?_, hx1, hx2, hn1.trans hn2.symm, ?_, ?_⟩
  · intro n im _
    refine ⟨fun c hc => by simp [IMap.get?] at hc, fun _ c' hc' => Or.inl ?_⟩
    rw [(hget n c' hc').2]; rfl
  · intro n im him _ _ c' hc' l hl s hs _
    obtain ⟨e, rfl⟩ := hget n c' hc'
    have him' : IMap.get? i n = some (exArt "SPC-a" [] none "[[.tst-two]]").2 := by
      exact if_pos e
    rw [him'] at him
    obtain rfl := Option.some.inj him
    have hp : parseSubnames (exArt "SPC-a" [] none "[[.tst-two]]").2.text = .ok [⟨c!".tst-two"⟩] := by decide +kernel
    rw [hp] at hl
    obtain rfl := Res.ok.inj hl
    obtain rfl := List.mem_singleton.1 hs
    exact ⟨_, List.mem_singleton.2 rfl, rfl⟩
  · rcases hx : x1.completed with ⟨p, q⟩; rw [hx] at hv1; obtain ⟨rfl, rfl⟩ := hv1; rfl
  · rcases hx : x2.completed with ⟨p, q⟩; rw [hx] at hv2; obtain ⟨rfl, rfl⟩ := hv2; rfl

end Art.Tested
