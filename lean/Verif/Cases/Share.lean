import Verif.Props.Share

/-!
# Property C90: concrete cases

Projects at the very limit of `C90_hundred` and `C90_zero`: with 2000 things averaged on the way down the shown 100% is wrong, and with 2001 the shown
0% is. And a project that meets the hypotheses.
-/

namespace Art.Share
open Spec

/-- A way up, given as the list of the artifacts on it. -/
theorem climb {as : List Artifact} {b : Artifact} : ∀ (l : List Artifact) (c : Artifact) (w : Nat), Route as b c w →
    (c :: l).IsChain (fun c a => a ∈ as ∧ c ∈ Counts as a) →
    ∀ a, (c :: l).getLast? = some a → Route as b a (l.foldl (fun w a => width as a * w) w)
  | [], c, w, r, _, a, ha => by
    simp at ha; subst ha; exact r
  | d :: l, c, w, r, hl, a, ha => by
    rw [List.isChain_cons_cons] at hl
    exact climb l d _ (.up r hl.1.1 hl.1.2) hl.2 a (by simpa using ha)

/-- The last and the first artifact of a chain of artifacts of a project, with the numbers of things averaged multiplied. -/
def Chained (as ch : List Artifact) (w : Nat) (P : Artifact → Artifact → Prop) : Prop :=
  match ch.reverse with
  | [] => False
  | b :: l => b ∈ as ∧ (b :: l).IsChain (fun c a => a ∈ as ∧ c ∈ Counts as a) ∧ l.foldl (fun w a => width as a * w) 1 = w ∧
    match (b :: l).getLast? with
    | none => False
    | some a => P b a

instance (as ch : List Artifact) (w : Nat) (P : Artifact → Artifact → Prop) [∀ b a, Decidable (P b a)] : Decidable (Chained as ch w P) := by
  unfold Chained
  split
  · infer_instance
  · split <;> infer_instance

theorem Chained.route {as ch : List Artifact} {w : Nat} {P : Artifact → Artifact → Prop} (h : Chained as ch w P) :
    ∃ b a, Route as b a w ∧ P b a := by
  unfold Chained at h
  split at h
  · exact h.elim
  · rename_i b l _
    obtain ⟨h1, h2, h3, h4⟩ := h
    split at h4
    · exact h4.elim
    · rename_i a ha
      exact ⟨b, a, h3 ▸ climb l b 1 (.here h1) h2 a ha, h4⟩

/-- Four artifacts that are done and three with three subnames, all of it implemented, each having the next one as its part; the last one, which is
not implemented, is the part of the seventh. -/
def limit100 : IMap Name ArtifactIm :=
  [exArt "REQ-a" [] (some "x") "", exArt "REQ-b" ["REQ-a"] (some "x") "", exArt "REQ-c" ["REQ-b"] (some "x") "",
   exArt "REQ-d" ["REQ-c"] (some "x") "", exArt "REQ-e" ["REQ-d"] none "[[.p]] [[.q]] [[.r]]",
   exArt "REQ-f" ["REQ-e"] none "[[.p]] [[.q]] [[.r]]", exArt "REQ-g" ["REQ-f"] none "[[.p]] [[.q]] [[.r]]",
   exArt "REQ-h" ["REQ-g"] none ""]

def allThree : ImplCode := ⟨some ⟨c!"/x.rs", 1⟩, [(⟨c!".p"⟩, ⟨c!"/x.rs", 2⟩), (⟨c!".q"⟩, ⟨c!"/x.rs", 3⟩), (⟨c!".r"⟩, ⟨c!"/x.rs", 4⟩)]⟩

/-- The bound of `C90_hundred` cannot be raised: with exactly 2000 an artifact is shown at 100% and something below it is not implemented at all. -/
theorem C90_hundred_sharp : ∃ (arts : IMap Name Artifact) (code : IMap Name ImplCode) (b a : Artifact), LoadInput limit100 (exDefined limit100) ∧
    Loads exHash limit100 code (exDefined limit100) arts ∧ Route (artsOf arts) b a 2000 ∧ a.completed.spc = 1 ∧ b.impl = .notImpl ∧
    width (artsOf arts) b = 0 := by
  have hn : IMap.Nodup limit100 := by unfold IMap.Nodup; decide +kernel
  obtain ⟨arts, hl, h⟩ := exHas (i := limit100) (c := [(nm "REQ-e", allThree), (nm "REQ-f", allThree), (nm "REQ-g", allThree)])
    (fun m => Chained (artsOf m) (artsOf m) 2000 (fun b a => a.completed.spc = 1 ∧ b.impl = .notImpl ∧ width (artsOf m) b = 0)) (by decide +kernel)
  obtain ⟨b, a, r, h1, h2, h3⟩ := h.route
  exact ⟨arts, _, b, a, exInput _ hn, exLoads hn hl, r, h1, h2, h3⟩

/-- A text with the first `n` of the subnames `.a`, `.b`, … -/
def manySubs (n : Nat) : String := String.ofList (List.flatten ((c!"abcdefghijklmnopqrstuvwxyz0123456789".take n).map (fun x => c!"[[." ++ [x] ++ c!"]]")))

/-- Three artifacts with 1, 21 and 27 subnames that are not implemented, and at the end one that is done. -/
def limit0 : IMap Name ArtifactIm :=
  [exArt "REQ-a" [] none "[[.a]]",
   exArt "REQ-b" ["REQ-a"] none (manySubs 21),
   exArt "REQ-c" ["REQ-b"] none (manySubs 27),
   exArt "REQ-d" ["REQ-c"] (some "x") ""]

/-- The bound of `C90_zero` cannot be raised: with 2001 an artifact is shown at 0% although something below it is done. -/
theorem C90_zero_sharp : ∃ (arts : IMap Name Artifact) (b a : Artifact), LoadInput limit0 (exDefined limit0) ∧
    Loads exHash limit0 [] (exDefined limit0) arts ∧ ¬ Cyclic (artsOf arts) ∧ Route (artsOf arts) b a 2001 ∧ width (artsOf arts) b = 1 ∧
    a.completed.spc = 0 ∧ b.completed.spc = 1 := by
  have hn : IMap.Nodup limit0 := by unfold IMap.Nodup; decide +kernel
  obtain ⟨arts, hl, h⟩ := exHas (i := limit0) (c := [])
    (fun m => Chained (artsOf m) (artsOf m) 2001 (fun b a => a.completed.spc = 0 ∧ b.completed.spc = 1 ∧ width (artsOf m) b = 1)) (by decide +kernel)
  obtain ⟨b, a, r, h1, h2, h3⟩ := h.route
  have hi := exInput limit0 hn
  have hL := exLoads hn hl
  refine ⟨arts, b, a, hi, hL, fun hc => ?_, r, h3, h1, h2⟩
  rw [(hL.spec hi).2.2.2.2.2.2.1 hc b r.mem.1] at h2
  norm_num at h2

/-- The hypotheses of the theorems are met: the same chain without its two ends is shown at 100%, and down to its last
artifact 200 things are averaged. -/
theorem share_case : ∃ (ims : IMap Name ArtifactIm) (code : IMap Name ImplCode) (arts : IMap Name Artifact) (b a : Artifact),
    LoadInput ims (exDefined ims) ∧ Loads exHash ims code (exDefined ims) arts ∧ Route (artsOf arts) b a 200 ∧
    200 * max 1 (width (artsOf arts) b) < 2000 ∧ a.completed.spc = 1 ∧ b.subnames.length = 3 ∧ ∀ x ∈ ownSlots b.impl b.subnames, x = 1 := by
  have hn : IMap.Nodup ((limit100.drop 1).take 6) := by unfold IMap.Nodup; decide +kernel
  obtain ⟨arts, hl, h⟩ := exHas (i := (limit100.drop 1).take 6)
    (c := [(nm "REQ-e", allThree), (nm "REQ-f", allThree), (nm "REQ-g", allThree)])
    (fun m => Chained (artsOf m) (artsOf m) 200 (fun b a => a.completed.spc = 1 ∧ 200 * max 1 (width (artsOf m) b) < 2000 ∧ b.subnames.length = 3))
    (by decide +kernel)
  obtain ⟨b, a, r, h1, h2, h3⟩ := h.route
  have hi := exInput _ hn
  have hL := exLoads hn hl
  exact ⟨_, _, arts, b, a, hi, hL, r, h2, h1, h3, (C90_hundred hi hL r h2 h1).2⟩

/-- And shown at 0%: nothing of this is implemented, and `C90_zero` says so for an artifact three steps down. -/
theorem zero_case : ∃ (ims : IMap Name ArtifactIm) (arts : IMap Name Artifact) (b a : Artifact),
    LoadInput ims (exDefined ims) ∧ Loads exHash ims [] (exDefined ims) arts ∧ Route (artsOf arts) b a 48 ∧ a.completed.spc = 0 ∧
    b.subnames.length = 3 ∧ ∀ x ∈ ownSlots b.impl b.subnames, x = 0 := by
  let i : IMap Name ArtifactIm := [exArt "REQ-a" [] none "[[.p]] [[.q]]", exArt "SPC-b" ["REQ-a"] none "[[.p]] [[.q]]",
    exArt "SPC-c" ["SPC-b"] none "[[.p]]", exArt "SPC-d" ["SPC-c"] none "[[.p]] [[.q]] [[.r]]", exArt "REQ-z" [] (some "x") ""]
  have hn : IMap.Nodup i := by unfold IMap.Nodup; decide +kernel
  obtain ⟨arts, hl, h, z, hz, h1z⟩ := exHas (i := i) (c := [])
    (fun m => Chained (artsOf m) ((artsOf m).take 4) 48
        (fun b a => a.completed.spc = 0 ∧ 48 * width (artsOf m) b ≤ 2000 ∧ b.subnames.length = 3) ∧
      ∃ z ∈ artsOf m, z.completed.spc = 1) (by decide +kernel)
  obtain ⟨b, a, r, h1, h2, h3⟩ := h.route
  have hi := exInput _ hn
  have hL := exLoads hn hl
  refine ⟨_, arts, b, a, hi, hL, r, h1, h3, C90_zero hi hL (fun hc => ?_) r h2 h1⟩
  rw [(hL.spec hi).2.2.2.2.2.2.1 hc z hz] at h1z
  norm_num at h1z

/-- Code is written for an artifact two steps down, which goes from 0 to 1/2: what is above it rises by at least a 24th. -/
theorem counts_case : ∃ (ims : IMap Name ArtifactIm) (code : IMap Name ImplCode) (arts arts' : IMap Name Artifact) (b a : Artifact)
    (S T S' T' : Ty × Str → ℚ), LoadInput ims (exDefined ims) ∧ Loads exHash ims [] (exDefined ims) arts ∧
    Loads exHash ims code (exDefined ims) arts' ∧ CompletionRule (artsOf arts) S T ∧ CompletionRule (artsOf arts') S' T' ∧
    OnlyAt SameCoverage b.name [] code ∧ Route (artsOf arts) b a 12 ∧ S (key b.name) = 0 ∧ S' (key b.name) = 1 / 2 ∧
    1 / 24 ≤ S' (key a.name) - S (key a.name) := by
  let i : IMap Name ArtifactIm := [exArt "REQ-a" [] none "[[.p]] [[.q]]", exArt "SPC-b" ["REQ-a"] none "[[.p]]",
    exArt "SPC-c" ["SPC-b"] none "[[.p]]", exArt "REQ-z" [] (some "x") ""]
  let c : IMap Name ImplCode := [(nm "SPC-c", ⟨some ⟨c!"/x.rs", 1⟩, []⟩)]
  have hn : IMap.Nodup i := by unfold IMap.Nodup; decide +kernel
  obtain ⟨arts, hl, h, z, hz, h1z⟩ := exHas (i := i) (c := [])
    (fun m => Chained (artsOf m) ((artsOf m).take 3) 12 (fun b a => b.name = nm "SPC-c" ∧ ownSlots b.impl b.subnames = [0, 0] ∧
        Counts (artsOf m) b = []) ∧ ∃ z ∈ artsOf m, z.completed.spc = 1) (by decide +kernel)
  obtain ⟨arts', hl', b', hb', n', o', p', z', hz', h1z'⟩ := exHas (i := i) (c := c)
    (fun m => ∃ b ∈ artsOf m, b.name = nm "SPC-c" ∧ ownSlots b.impl b.subnames = [1, 0] ∧ Counts (artsOf m) b = [] ∧
      ∃ z ∈ artsOf m, z.completed.spc = 1) (by decide +kernel)
  obtain ⟨b, a, r, n1, o1, p1⟩ := h.route
  have hi := exInput _ hn
  have hL := exLoads hn hl
  have hL' := exLoads hn hl'
  have hc : ¬ Cyclic (artsOf arts) := fun hc => by
    rw [(hL.spec hi).2.2.2.2.2.2.1 hc z hz] at h1z; norm_num at h1z
  have hc' : ¬ Cyclic (artsOf arts') := fun hc => by
    rw [(hL'.spec hi).2.2.2.2.2.2.1 hc z' hz'] at h1z'; norm_num at h1z'
  obtain ⟨S, T, hr, _⟩ := C16_rule hi hL hc
  obtain ⟨S', T', hr', _⟩ := C16_rule hi hL' hc'
  have e : S (key b.name) = 0 := by rw [spcSlots_eq hr r.mem.1, slots_eq, o1, p1]; norm_num [avg]
  have e' : S' (key b.name) = 1 / 2 := by
    rw [n1, ← n', spcSlots_eq hr' hb', slots_eq, o', p']; norm_num [avg]; simp
  have honly : OnlyAt SameCoverage b.name [] c := by
    intro m hm
    rw [n1] at hm
    have : IMap.get? c m = none := by
      simp only [c, IMap.get?]
      simp [Ne.symm hm]
    rw [this]; trivial
  have := (C90_counts hi hL hL' hc hr hr' honly (by rw [e, e']; norm_num)).2 a 12 r
  rw [e, e'] at this
  exact ⟨_, c, arts, arts', b, a, S, T, S', T', hi, hL, hL', hr, hr', honly, r, e, e', by norm_num at this; linarith⟩

end Art.Share
