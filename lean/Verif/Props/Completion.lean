import Verif.Lemmas.LoadSpec
import Verif.Props.Name

/-!
# Properties C12, C15 - C19, C48: parts and completion

All statements are about `Loads hash ims code defined arts`: `arts` is a possible result of loading the artifacts `ims` with the code references
`code`, for any hash function and for any topological order the graph library may return. The specification of
completion is in `Verif/Spec/Completion.lean`.
-/

namespace Art
open Spec

variable {hash hash' : ArtifactIm → HashIm} {ims ims' : IMap Name ArtifactIm} {code code' : IMap Name ImplCode}
  {defined defined' : IMap Name FilePath} {arts arts' : IMap Name Artifact}

/-- The artifacts of a loaded project. -/
abbrev artsOf (arts : IMap Name Artifact) : List Artifact := arts.map Prod.snd

/-! ## C15: loading always succeeds -/

/-- The contract assumed of the library's topological sort can be met on every graph built by the program: the modelled
sort meets it. -/
theorem toposort_contract (ims : IMap Name ArtifactIm) (h : IMap.Nodup ims) (l : ArtifactsLoaded)
    (hl : finalizeLoadArtifact ims = .ok l) : DiGraph.TopoContract l.graphs.full l.graphs.full.toposort := by
  obtain ⟨l', hl', _, _, _, e4, _⟩ := finalizeLoad_ok h
  rw [hl] at hl'
  cases Res.ok.inj hl'
  exact e4.toposort_ok

/-- Loading never panics and never fails, for every set of artifacts with distinct names, every code references and every topological order;
every artifact is present once, in order, with the file that defines it, and both completion ratios are between 0 and 1. -/
theorem C15_total (inp : LoadInput ims defined) : ∃ l, finalizeLoadArtifact ims = .ok l ∧
    (∃ topo, DiGraph.TopoContract l.graphs.full topo) ∧
    ∀ topo, DiGraph.TopoContract l.graphs.full topo → ∃ arts, determineArtifacts hash topo l code defined = .ok arts ∧
      arts.map (fun x => (x.1, x.2.file)) = defined ∧ (∀ x ∈ arts, x.2.name = x.1) ∧
      ∀ a ∈ artsOf arts, 0 ≤ a.completed.spc ∧ a.completed.spc ≤ 1 ∧ 0 ≤ a.completed.tst ∧ a.completed.tst ≤ 1 := by
  obtain ⟨l, hl, hall⟩ := Loads.exists (hash := hash) (code := code) inp
  refine ⟨l, hl, ⟨_, toposort_contract ims inp.nodup l hl⟩, fun topo ht => ?_⟩
  obtain ⟨arts, ha⟩ := hall topo ht
  obtain ⟨b1, b2, b3, _, _, _, hcyc, hrule⟩ := Loads.spec inp ⟨l, topo, hl, ht, ha⟩
  refine ⟨arts, ha, ?_, b2, fun a haa => ?_⟩
  · have : ∀ (x : IMap Name Artifact) (d : IMap Name FilePath), x.map Prod.fst = d.map Prod.fst →
        (x.map Prod.snd).map (fun a => a.file) = d.map Prod.snd → x.map (fun x => (x.1, x.2.file)) = d := by
      intro x
      induction x with
      | nil => intro d h1 _; cases d with
        | nil => rfl
        | cons _ _ => simp at h1
      | cons y x ih => intro d h1 h2; cases d with
        | nil => simp at h1
        | cons z d =>
          simp only [List.map_cons, List.cons.injEq] at h1 h2 ⊢
          exact ⟨Prod.ext h1.1 h2.1, ih d h1.2 h2.2⟩
    exact this arts defined b1 b3
  · by_cases hc : Cyclic (arts.map Prod.snd)
    · rw [hcyc hc a haa]; norm_num
    · obtain ⟨spc, tst, hr, hcomp⟩ := hrule hc
      obtain ⟨u1, u2⟩ := rule_bounds hr hc a haa
      rw [hcomp a haa]
      exact ⟨(roundRatio_unit u1).1, (roundRatio_unit u1).2, (roundRatio_unit u2).1, (roundRatio_unit u2).2⟩

/-! ## C12 -/

/-- `parts` is the converse of `partof`, for all artifacts of every loaded project (cyclic or with dangling links or not), and every part
is an artifact of the project. -/
theorem C12_converse (inp : LoadInput ims defined) (h : Loads hash ims code defined arts) :
    (∀ a ∈ artsOf arts, ∀ b ∈ artsOf arts,
      (∃ q ∈ a.parts, key q = key b.name) ↔ (∃ q ∈ b.partof, key q = key a.name)) ∧
    (∀ a ∈ artsOf arts, (a.parts.map key).Nodup ∧ ∀ q ∈ a.parts, ∃ b ∈ artsOf arts, key b.name = key q) := by
  obtain ⟨_, _, _, hnd, _, hs, _, _⟩ := h.spec inp
  refine ⟨fun a ha b hb => ?_, fun a ha => ?_⟩
  · obtain ⟨im, hsp⟩ := hs a ha
    rw [hsp.parts b.name]
    constructor
    · rintro ⟨b', hb', hk, hp⟩
      have := nodup_map_inj hnd b' hb' b hb hk
      subst this; exact hp
    · intro hp; exact ⟨b, hb, rfl, hp⟩
  · obtain ⟨im, hsp⟩ := hs a ha
    refine ⟨hsp.partsNodup, fun q hq => ?_⟩
    obtain ⟨b, hb, hk, _⟩ := (hsp.parts q).1 ⟨q, hq, rfl⟩
    exact ⟨b, hb, hk⟩

/-! ## C16 -/

/-- In a project without cycles the completion shown is the (rounded) solution of the documented equations. -/
theorem C16_rule (inp : LoadInput ims defined) (h : Loads hash ims code defined arts) (hc : ¬ Cyclic (artsOf arts)) :
    ∃ spc tst, CompletionRule (artsOf arts) spc tst ∧ ∀ a ∈ artsOf arts,
      a.completed = ⟨roundRatio (spc (key a.name)), roundRatio (tst (key a.name))⟩ :=
  (h.spec inp).2.2.2.2.2.2.2 hc

/-- The equations have one solution only (on the artifacts of the project). -/
theorem C16_unique {as : List Artifact} (hc : ¬ Cyclic as) {S T S' T' : Ty × Str → ℚ} (h : CompletionRule as S T)
    (h' : CompletionRule as S' T') : ∀ a ∈ as, S (key a.name) = S' (key a.name) ∧ T (key a.name) = T' (key a.name) := by
  intro a
  induction a using (directPart_wf hc).induction with
  | _ a ih =>
    intro ha
    have hp : ∀ b ∈ partsIn as a.name, S (key b.name) = S' (key b.name) ∧ T (key b.name) = T' (key b.name) :=
      fun b hb => ih b (directPart_of_mem ha hb) (directPart_of_mem ha hb).1
    have e1 : (partsIn as a.name).map (fun b => S (key b.name)) = (partsIn as a.name).map (fun b => S' (key b.name)) :=
      List.map_congr_left (fun b hb => (hp b hb).1)
    have e2 : (partsIn as a.name).map (fun b => T (key b.name)) = (partsIn as a.name).map (fun b => T' (key b.name)) :=
      List.map_congr_left (fun b hb => (hp b hb).2)
    have e3 : ((partsIn as a.name).filter (fun b => b.name.ty ≠ .TST)).map (fun b => S (key b.name)) =
        ((partsIn as a.name).filter (fun b => b.name.ty ≠ .TST)).map (fun b => S' (key b.name)) :=
      List.map_congr_left (fun b hb => (hp b (List.mem_filter.1 hb).1).1)
    by_cases ht : a.name.ty = .TST
    · have hS : S (key a.name) = S' (key a.name) := by rw [h.test a ha ht, h'.test a ha ht, e1]
      exact ⟨hS, by rw [h.test_tst a ha ht, h'.test_tst a ha ht, hS]⟩
    · exact ⟨by rw [h.other a ha ht, h'.other a ha ht, e3], by rw [h.other_tst a ha ht, h'.other_tst a ha ht, e2]⟩

/-- Matching artifacts of two loads whose inputs agree on all artifacts of the types selected by `q`. -/
theorem match_of_inputs (inp : LoadInput ims defined) (h : Loads hash ims code defined arts)
    (inp' : LoadInput ims' defined') (h' : Loads hash' ims' code' defined' arts') (q : Ty → Bool)
    (hq : ∀ n m : Name, q n.ty = true → AutoLink n m → q m.ty = true)
    (hims : ∀ n : Name, q n.ty = true → IMap.get? ims n = IMap.get? ims' n) :
    ∀ a ∈ artsOf arts, q a.name.ty = true → ∃ a' ∈ artsOf arts', key a'.name = key a.name ∧
      (∀ n, PartOf a n ↔ PartOf a' n) ∧ a.subnames = a'.subnames ∧
      ∃ im, IMap.get? ims a.name = some im ∧ a.impl = implOf code (a.name, im) ∧ a'.impl = implOf code' (a.name, im) ∧
        parseSubnames im.text = .ok a.subnames := by
  intro a ha hqa
  obtain ⟨_, _, _, hnd, hk, hs, _, _⟩ := h.spec inp
  obtain ⟨_, _, _, hnd', hk', hs', _, _⟩ := h'.spec inp'
  obtain ⟨im, hsp⟩ := hs a ha
  have hget' : IMap.get? ims' a.name = some im := by rw [← hims _ hqa]; exact hsp.mem
  obtain ⟨a', ha', hkey⟩ := (hk' a.name).2 (by unfold IMap.contains; rw [hget']; rfl)
  obtain ⟨im', hsp'⟩ := hs' a' ha'
  have him : im' = im := by
    have := hsp'.mem
    rw [IMap.get?_congr _ hkey, hget'] at this
    exact (Option.some.inj this).symm
  subst him
  refine ⟨a', ha', hkey, fun n => ?_, ?_, im', hsp.mem, hsp.impl, ?_, hsp.subs⟩
  · rw [hsp.partOf n, hsp'.partOf n]
    refine or_congr_right ?_
    have hcon : ∀ m : Name, q m.ty = true → ((∃ x ∈ ims, key x.1 = key m) ↔ ∃ x ∈ ims', key x.1 = key m) := by
      intro m hm
      rw [← IMap.contains_iff, ← IMap.contains_iff]
      unfold IMap.contains
      rw [hims m hm]
    constructor
    · rintro ⟨h1, h2⟩
      exact ⟨autoLink_congr hkey.symm h1, (hcon n (hq _ _ hqa h1)).1 h2⟩
    · rintro ⟨h1, h2⟩
      have h1' := autoLink_congr hkey h1
      exact ⟨h1', (hcon n (hq _ _ hqa h1')).2 h2⟩
  · have := hsp'.subs
    rw [hsp.subs] at this
    exact Res.ok.inj this
  · rw [hsp'.impl, implOf_congr code' _ _ _ hkey]

/-- Cycles are a matter of the artifacts alone as well. -/
theorem C16_cyclic_independent (inp : LoadInput ims defined) (h : Loads hash ims code defined arts)
    (inp' : LoadInput ims' defined') (h' : Loads hash' ims' code' defined' arts')
    (hims : ∀ n : Name, IMap.get? ims n = IMap.get? ims' n) : Cyclic (artsOf arts) → Cyclic (artsOf arts') := by
  obtain ⟨_, _, _, hnd', hk', _, _, _⟩ := h'.spec inp'
  have M := match_of_inputs inp h inp' h' (fun _ => true) (fun _ _ _ _ => rfl) (fun n _ => hims n)
  rintro ⟨a, ha⟩
  have step : ∀ x y, DirectPart (artsOf arts) x y → ∀ x' ∈ artsOf arts', ∀ y' ∈ artsOf arts', key x'.name = key x.name →
      key y'.name = key y.name → DirectPart (artsOf arts') x' y' := by
    intro x y hxy x' hx' y' hy' hkx hky
    refine ⟨hx', hy', ?_⟩
    obtain ⟨x'', hx'', hk'', hp, _⟩ := M x hxy.1 rfl
    have := nodup_map_inj hnd' x'' hx'' x' hx' (hk''.trans hkx.symm)
    subst this
    rw [partOf_congr _ hky, ← hp]
    exact hxy.2.2
  have trans : ∀ x, Relation.TransGen (DirectPart (artsOf arts)) x a → ∃ x' ∈ artsOf arts', ∃ a' ∈ artsOf arts',
      key x'.name = key x.name ∧ key a'.name = key a.name ∧ Relation.TransGen (DirectPart (artsOf arts')) x' a' := by
    intro x hx
    induction hx using Relation.TransGen.head_induction_on with
    | single hxa =>
      obtain ⟨x', hx', hkx, _⟩ := M _ hxa.1 rfl
      obtain ⟨a', ha', hka, _⟩ := M _ hxa.2.1 rfl
      exact ⟨x', hx', a', ha', hkx, hka, .single (step _ _ hxa x' hx' a' ha' hkx hka)⟩
    | head hxy _ ih =>
      obtain ⟨y', hy', a', ha', hky, hka, ht⟩ := ih
      obtain ⟨x', hx', hkx, _⟩ := M _ hxy.1 rfl
      exact ⟨x', hx', a', ha', hkx, hka, .head (step _ _ hxy x' hx' y' hy' hkx hky) ht⟩
  obtain ⟨x', hx', a', ha', hkx, hka, ht⟩ := trans a ha
  have := nodup_map_inj hnd' x' hx' a' ha' (hkx.trans hka.symm)
  subst this
  exact ⟨x', ht⟩

/-- The same places of an artifact are covered by code: the artifact itself, and each subname. Where they are covered does not matter. -/
def Spec.SameCoverage : Option ImplCode → Option ImplCode → Prop
  | none, none => True
  | some c, some c' => c.primary.isSome = c'.primary.isSome ∧
      ∀ s : SubName, (∃ x ∈ c.secondary, key x.1 = key s) ↔ ∃ x ∈ c'.secondary, key x.1 = key s
  | _, _ => False

theorem own_of_coverage {c c' : IMap Name ImplCode} {p : Name × ArtifactIm}
    (h : SameCoverage (IMap.get? c p.1) (IMap.get? c' p.1)) (subs : List SubName) :
    ownSlots (implOf c p) subs = ownSlots (implOf c' p) subs ∧ ownTests (implOf c p) subs = ownTests (implOf c' p) subs := by
  unfold implOf
  cases p.2.done with
  | some d => exact ⟨rfl, rfl⟩
  | none =>
    simp only
    cases h1 : IMap.get? c p.1 <;> cases h2 : IMap.get? c' p.1 <;> rw [h1, h2] at h
    · exact ⟨rfl, rfl⟩
    · exact h.elim
    · exact h.elim
    · rename_i x y
      obtain ⟨e1, e2⟩ := h
      have hs : subDone x = subDone y := by
        funext s; unfold subDone; rw [if_congr (e2 s) rfl rfl]
      simp only [ownSlots, ownTests, e1, hs, and_self]

/-- The true ratios do not depend on it either: the ratios of two loads of the same artifacts with the same things covered by code are the same. -/
theorem C16_same_ratios (inp : LoadInput ims defined) (h : Loads hash ims code defined arts)
    (inp' : LoadInput ims' defined') (h' : Loads hash' ims' code' defined' arts')
    (hims : ∀ n : Name, IMap.get? ims n = IMap.get? ims' n)
    (hcode : ∀ n : Name, SameCoverage (IMap.get? code n) (IMap.get? code' n)) (hc : ¬ Cyclic (artsOf arts)) {S T S' T' : Ty × Str → ℚ}
    (hr : CompletionRule (artsOf arts) S T) (hr' : CompletionRule (artsOf arts') S' T') :
    ∀ a ∈ artsOf arts, S (key a.name) = S' (key a.name) ∧ T (key a.name) = T' (key a.name) := by
  obtain ⟨_, _, _, hnd, hk, hs, _, _⟩ := h.spec inp
  obtain ⟨_, _, _, hnd', hk', hs', _, _⟩ := h'.spec inp'
  have M := match_of_inputs inp h inp' h' (fun _ => true) (fun _ _ _ _ => rfl) (fun n _ => hims n)
  have M' := match_of_inputs inp' h' inp h (fun _ => true) (fun _ _ _ _ => rfl) (fun n _ => (hims n).symm)
  have hpp : ∀ {n n' : Name}, key n = key n' → ((partsIn (artsOf arts) n).map (fun b => key b.name)).Perm
      ((partsIn (artsOf arts') n').map (fun b => key b.name)) := by
    intro n n' hkn
    have := parts_perm (fun _ => true) hnd hnd'
      (fun a ha _ => by obtain ⟨a', h1, h2, h3, _⟩ := M a ha rfl; exact ⟨a', h1, h2, h3⟩)
      (fun a ha _ => by obtain ⟨a', h1, h2, h3, _⟩ := M' a ha rfl; exact ⟨a', h1, h2, h3⟩) hkn
    simpa using this
  have hpq : ∀ {n n' : Name}, key n = key n' →
      (((partsIn (artsOf arts) n).filter (fun b => b.name.ty ≠ .TST)).map (fun b => key b.name)).Perm
      (((partsIn (artsOf arts') n').filter (fun b => b.name.ty ≠ .TST)).map (fun b => key b.name)) := by
    intro n n' hkn
    exact parts_perm (fun t => t ≠ .TST) hnd hnd'
      (fun a ha _ => by obtain ⟨a', h1, h2, h3, _⟩ := M a ha rfl; exact ⟨a', h1, h2, h3⟩)
      (fun a ha _ => by obtain ⟨a', h1, h2, h3, _⟩ := M' a ha rfl; exact ⟨a', h1, h2, h3⟩) hkn
  -- the second solution solves the equations of the first project
  have hr2 : CompletionRule (artsOf arts) S' T' := by
    refine ⟨?_, ?_, ?_, ?_⟩ <;> intro a ha ht <;> obtain ⟨a', ha', hka, _, hsub, im, _, hi1, hi2, _⟩ := M a ha rfl <;>
      have hty : a'.name.ty = a.name.ty := congrArg Prod.fst hka <;>
      have hi : ownSlots a'.impl a'.subnames = ownSlots a.impl a.subnames ∧ ownTests a'.impl a'.subnames = ownTests a.impl a.subnames := by
        (rw [hi1, hi2, ← hsub]
         obtain ⟨o1, o2⟩ := own_of_coverage (p := (a.name, im)) (hcode a.name) a.subnames
         exact ⟨o1.symm, o2.symm⟩)
    · rw [← hka, hr'.test a' ha' (hty.trans ht), hi.1]
      exact avg_perm ((List.Perm.refl _).append (map_parts_perm (hpp hka.symm) S').symm)
    · rw [← hka, hr'.test_tst a' ha' (hty.trans ht)]
    · rw [← hka, hr'.other a' ha' (fun e => ht (hty.symm.trans e)), hi.1]
      exact avg_perm ((List.Perm.refl _).append (map_parts_perm (hpq hka.symm) S').symm)
    · rw [← hka, hr'.other_tst a' ha' (fun e => ht (hty.symm.trans e)), hi.2]
      exact avg_perm ((List.Perm.refl _).append (map_parts_perm (hpp hka.symm) T').symm)
  exact C16_unique hc hr hr2

/-- The completion does not depend on the order in which artifacts were loaded, on the ids, on the topological order, or on where exactly the
code references are: two loads of the same artifacts (as maps) with the same things covered by code show the same completion. -/
theorem C16_order_independent (inp : LoadInput ims defined) (h : Loads hash ims code defined arts)
    (inp' : LoadInput ims' defined') (h' : Loads hash' ims' code' defined' arts')
    (hims : ∀ n : Name, IMap.get? ims n = IMap.get? ims' n)
    (hcode : ∀ n : Name, SameCoverage (IMap.get? code n) (IMap.get? code' n)) :
    ∀ a ∈ artsOf arts, ∀ a' ∈ artsOf arts', key a.name = key a'.name → a.completed = a'.completed := by
  by_cases hc : Cyclic (artsOf arts)
  · have hc' := C16_cyclic_independent inp h inp' h' hims hc
    intro a ha a' ha' _
    rw [(h.spec inp).2.2.2.2.2.2.1 hc a ha, (h'.spec inp').2.2.2.2.2.2.1 hc' a' ha']
  have hc' : ¬ Cyclic (artsOf arts') := fun hx => hc (C16_cyclic_independent inp' h' inp h (fun n => (hims n).symm) hx)
  obtain ⟨S, T, hr, hcomp⟩ := C16_rule inp h hc
  obtain ⟨S', T', hr', hcomp'⟩ := C16_rule inp' h' hc'
  intro a ha a' ha' hkey
  obtain ⟨u1, u2⟩ := C16_same_ratios inp h inp' h' hims hcode hc hr hr' a ha
  rw [hcomp a ha, hcomp' a' ha', u1, u2, hkey]

/-! ## C17 -/

/-- The two ratios of a test are always the same. -/
theorem C17_tst_eq_spc (inp : LoadInput ims defined) (h : Loads hash ims code defined arts) :
    ∀ a ∈ artsOf arts, a.name.ty = .TST → a.completed.spc = a.completed.tst := by
  intro a ha ht
  obtain ⟨_, _, _, _, _, _, hcyc, hrule⟩ := h.spec inp
  by_cases hc : Cyclic (artsOf arts)
  · rw [hcyc hc a ha]
  · obtain ⟨S, T, hr, hcomp⟩ := hrule hc
    rw [hcomp a ha]
    simp only
    rw [hr.test_tst a ha ht]

theorem autoLink_nonTst {n m : Name} (hn : n.ty ≠ .TST) (h : AutoLink n m) : m.ty ≠ .TST := by
  obtain ⟨p, hp, hk⟩ := h
  have hty : p.ty = m.ty := congrArg Prod.fst hk
  rw [← hty]
  rcases hp with hp | hp
  · rcases C04_parent n with ⟨_, h2⟩ | ⟨_, m', w, h2, _, _, _, h3, _⟩
    · rw [hp] at h2; simp at h2
    · rw [hp] at h2; cases h2; rw [h3]; exact hn
  · rcases C04_autoPartof n with ⟨_, h2⟩ | ⟨m', h2, _, ⟨_, h4, _⟩ | ⟨h3, _, _⟩⟩
    · rw [hp] at h2; simp at h2
    · rw [hp] at h2; cases h2; rw [h4]; decide
    · exact absurd h3 hn

/-- Tests do not influence the implementation completion of anything else: two projects (without cycles) that agree on everything except tests, i.e.
tests may be added, removed, edited, implemented or relinked at will, show the same `spc` for all requirements and specifications. -/
theorem C17_noninterference (inp : LoadInput ims defined) (h : Loads hash ims code defined arts)
    (inp' : LoadInput ims' defined') (h' : Loads hash' ims' code' defined' arts')
    (hims : ∀ n : Name, n.ty ≠ .TST → IMap.get? ims n = IMap.get? ims' n)
    (hcode : ∀ n : Name, n.ty ≠ .TST → IMap.get? code n = IMap.get? code' n)
    (hc : ¬ Cyclic (artsOf arts)) (hc' : ¬ Cyclic (artsOf arts')) :
    ∀ a ∈ artsOf arts, ∀ a' ∈ artsOf arts', key a.name = key a'.name → a.name.ty ≠ .TST →
      a.completed.spc = a'.completed.spc := by
  obtain ⟨_, _, _, hnd, hk, hs, _, _⟩ := h.spec inp
  obtain ⟨_, _, _, hnd', hk', hs', _, _⟩ := h'.spec inp'
  obtain ⟨S, T, hr, hcomp⟩ := C16_rule inp h hc
  obtain ⟨S', T', hr', hcomp'⟩ := C16_rule inp' h' hc'
  have M := match_of_inputs inp h inp' h' (fun t => t ≠ .TST)
    (fun n m hn hl => by simp only [decide_eq_true_eq] at *; exact autoLink_nonTst hn hl)
    (fun n hn => hims n (by simpa using hn))
  have M' := match_of_inputs inp' h' inp h (fun t => t ≠ .TST)
    (fun n m hn hl => by simp only [decide_eq_true_eq] at *; exact autoLink_nonTst hn hl)
    (fun n hn => (hims n (by simpa using hn)).symm)
  have hpq : ∀ {n n' : Name}, key n = key n' →
      (((partsIn (artsOf arts) n).filter (fun b => b.name.ty ≠ .TST)).map (fun b => key b.name)).Perm
      (((partsIn (artsOf arts') n').filter (fun b => b.name.ty ≠ .TST)).map (fun b => key b.name)) := by
    intro n n' hkn
    exact parts_perm (fun t => t ≠ .TST) hnd hnd'
      (fun a ha hq => by obtain ⟨a', h1, h2, h3, _⟩ := M a ha hq; exact ⟨a', h1, h2, h3⟩)
      (fun a ha hq => by obtain ⟨a', h1, h2, h3, _⟩ := M' a ha hq; exact ⟨a', h1, h2, h3⟩) hkn
  have key' : ∀ a ∈ artsOf arts, a.name.ty ≠ .TST → S (key a.name) = S' (key a.name) := by
    intro a
    induction a using (directPart_wf hc).induction with
    | _ a ih =>
      intro ha ht
      obtain ⟨a', ha', hka, _, hsub, im, _, hi1, hi2, _⟩ := M a ha (by simpa using ht)
      have hty : a'.name.ty = a.name.ty := congrArg Prod.fst hka
      have hi : a'.impl = a.impl := by
        rw [hi1, hi2]; unfold implOf; rw [hcode _ ht]
      have hmap : ((partsIn (artsOf arts) a.name).filter (fun b => b.name.ty ≠ .TST)).map (fun b => S (key b.name)) =
          ((partsIn (artsOf arts) a.name).filter (fun b => b.name.ty ≠ .TST)).map (fun b => S' (key b.name)) := by
        refine List.map_congr_left (fun b hb => ?_)
        rw [List.mem_filter] at hb
        have hd := directPart_of_mem ha hb.1
        exact ih b hd hd.1 (by simpa using hb.2)
      rw [hr.other a ha ht, ← hka, hr'.other a' ha' (fun e => ht (hty.symm.trans e)), hi, hsub, hmap]
      exact avg_perm ((List.Perm.refl _).append (map_parts_perm (hpq hka.symm) S'))
  intro a ha a' ha' hkey ht
  rw [hcomp a ha, hcomp' a' ha']
  simp only
  rw [key' a ha ht, hkey]

/-! ## C18 -/

/-- The slots that are averaged for the implementation of an artifact. -/
def spcSlots (as : List Artifact) (S : Ty × Str → ℚ) (a : Artifact) : List ℚ :=
  ownSlots a.impl a.subnames ++
    ((partsIn as a.name).filter (fun b => a.name.ty = .TST ∨ b.name.ty ≠ .TST)).map (fun b => S (key b.name))

theorem spcSlots_eq {as : List Artifact} {S T : Ty × Str → ℚ} (h : CompletionRule as S T) {a : Artifact} (ha : a ∈ as) :
    S (key a.name) = avg (spcSlots as S a) := by
  unfold spcSlots
  by_cases ht : a.name.ty = .TST
  · rw [h.test a ha ht]
    simp [ht]
  · rw [h.other a ha ht]
    simp [ht]

/-- Before rounding, 100% means exactly: there is something to implement, and all of it (own slots and the parts that
count) is at 100%. -/
theorem C18_hundred {as : List Artifact} (hc : ¬ Cyclic as) {S T : Ty × Str → ℚ} (h : CompletionRule as S T) :
    (∀ a ∈ as, S (key a.name) = 1 ↔ spcSlots as S a ≠ [] ∧ ∀ x ∈ spcSlots as S a, x = 1) ∧
    (∀ a ∈ as, a.name.ty ≠ .TST → (T (key a.name) = 1 ↔
      ownTests a.impl a.subnames ++ (partsIn as a.name).map (fun b => T (key b.name)) ≠ [] ∧
      (∀ x ∈ ownTests a.impl a.subnames, x = 1) ∧ ∀ b ∈ partsIn as a.name, T (key b.name) = 1)) := by
  have hb := rule_bounds h hc
  constructor
  · intro a ha
    rw [spcSlots_eq h ha]
    refine avg_eq_one (fun x hx => ?_)
    rcases List.mem_append.1 hx with hx | hx
    · exact (unit_ownSlots _ _ x hx).2
    · obtain ⟨b, hb', rfl⟩ := List.mem_map.1 hx
      exact (hb b (partsIn_mem (List.mem_filter.1 hb').1)).1.2
  · intro a ha ht
    rw [h.other_tst a ha ht, avg_eq_one]
    · refine and_congr_right fun _ => ?_
      constructor
      · intro hx
        exact ⟨fun x hx' => hx x (List.mem_append_left _ hx'),
          fun b hb' => hx _ (List.mem_append_right _ (List.mem_map.2 ⟨b, hb', rfl⟩))⟩
      · rintro ⟨h1, h2⟩ x hx
        rcases List.mem_append.1 hx with hx | hx
        · exact h1 x hx
        · obtain ⟨b, hb', rfl⟩ := List.mem_map.1 hx
          exact h2 b hb'
    · intro x hx
      rcases List.mem_append.1 hx with hx | hx
      · exact (unit_ownTests _ _ x hx).2
      · obtain ⟨b, hb', rfl⟩ := List.mem_map.1 hx
        exact (hb b (partsIn_mem hb')).2.2

/-- `b` counts, through any number of steps, for the implementation of `a`. -/
def CountsFor (as : List Artifact) (b a : Artifact) : Prop :=
  DirectPart as b a ∧ (a.name.ty = .TST ∨ b.name.ty ≠ .TST)

/-- Before rounding, an artifact at 100% has everything below it at 100%, at any depth, with every own slot implemented. -/
theorem C18_everything_below {as : List Artifact} (hc : ¬ Cyclic as) {S T : Ty × Str → ℚ} (h : CompletionRule as S T)
    {a b : Artifact} (ha : a ∈ as) (h1 : S (key a.name) = 1) (hb : Relation.ReflTransGen (CountsFor as) b a) :
    S (key b.name) = 1 ∧ ∀ x ∈ ownSlots b.impl b.subnames, x = 1 := by
  have base : ∀ c ∈ as, S (key c.name) = 1 → ∀ x ∈ ownSlots c.impl c.subnames, x = 1 := by
    intro c hcm hc1 x hx
    exact (((C18_hundred hc h).1 c hcm).1 hc1).2 x (List.mem_append_left _ hx)
  have main : b ∈ as ∧ S (key b.name) = 1 := by
    induction hb using Relation.ReflTransGen.head_induction_on with
    | refl => exact ⟨ha, h1⟩
    | @head x y hxy _ ih =>
      refine ⟨hxy.1.1, ?_⟩
      refine (((C18_hundred hc h).1 _ ih.1).1 ih.2).2 _ (List.mem_append_right _ (List.mem_map.2 ⟨x, ?_, rfl⟩))
      rw [List.mem_filter]
      exact ⟨List.mem_filter.2 ⟨hxy.1.1, by simpa using hxy.1.2.2⟩, by simpa using hxy.2⟩
  exact ⟨main.2, base b main.1 main.2⟩

/-- The shown value differs from the true ratio by at most 0.0005; it is 100% exactly from 99.95% on and 0% exactly below 0.05%. -/
theorem C18_rounding {x : ℚ} (h0 : 0 ≤ x) (h1 : x ≤ 1) : |roundRatio x - x| ≤ 1 / 2000 ∧
    (roundRatio x = 1 ↔ 1999 / 2000 ≤ x) ∧ (roundRatio x = 0 ↔ x < 1 / 2000) :=
  ⟨roundRatio_close x, roundRatio_eq_one ⟨h0, h1⟩, roundRatio_eq_zero ⟨h0, h1⟩⟩

/-! ## C19 -/

/-- Loading falls into the "0% for everything" case exactly when the library finds no topological order, and that is exactly when some artifact is
(transitively) part of itself; in all other projects the documented equations hold. -/
theorem C19_cycle_iff (inp : LoadInput ims defined) {l : ArtifactsLoaded} {topo : Option (List Nat)}
    (hl : finalizeLoadArtifact ims = .ok l) (ht : DiGraph.TopoContract l.graphs.full topo)
    (ha : determineArtifacts hash topo l code defined = .ok arts) :
    (topo = none ↔ Cyclic (artsOf arts)) ∧ (Cyclic (artsOf arts) → ∀ a ∈ artsOf arts, a.completed = ⟨0, 0⟩) := by
  obtain ⟨hg, hag⟩ := agrees_of_load inp.nodup hl inp.dnodup inp.keys ha
  exact ⟨cyclic_iff_topo hg hag ht, (Loads.spec inp ⟨l, topo, hl, ht, ha⟩).2.2.2.2.2.2.1⟩

/-! ## C48 -/

/-- `code'` arises from `code` by adding references; an artifact that was not referenced at all before gets at least one reference
to a slot that exists (itself or one of the subnames in its text). -/
def AddsImpl (ims : IMap Name ArtifactIm) (code code' : IMap Name ImplCode) : Prop :=
  ∀ n im, IMap.get? ims n = some im →
    (∀ c, IMap.get? code n = some c → ∃ c', IMap.get? code' n = some c' ∧
      (c.primary.isSome = true → c'.primary.isSome = true) ∧
      ∀ s : SubName, (∃ x ∈ c.secondary, key x.1 = key s) → ∃ x ∈ c'.secondary, key x.1 = key s) ∧
    (IMap.get? code n = none → ∀ c', IMap.get? code' n = some c' → c'.primary.isSome = true ∨
      ∃ subs, parseSubnames im.text = .ok subs ∧ ∃ s ∈ subs, ∃ x ∈ c'.secondary, key x.1 = key s)

theorem avg_own_mono {i i' : Impl} {subs : List SubName} {l l' : List ℚ}
    (hll : List.Forall₂ (· ≤ ·) l l') (hl : ∀ x ∈ l', Unit01 x)
    (h : i = i' ∨ (∃ c c', i = .code c ∧ i' = .code c' ∧ (c.primary.isSome = true → c'.primary.isSome = true) ∧
        ∀ s : SubName, (∃ x ∈ c.secondary, key x.1 = key s) → ∃ x ∈ c'.secondary, key x.1 = key s) ∨
      (∃ c', i = .notImpl ∧ i' = .code c' ∧ (c'.primary.isSome = true ∨ ∃ s ∈ subs, ∃ x ∈ c'.secondary, key x.1 = key s))) :
    avg (ownSlots i subs ++ l) ≤ avg (ownSlots i' subs ++ l') := by
  have hrefl : ∀ m : List ℚ, List.Forall₂ (· ≤ ·) m m := fun m => List.forall₂_same.2 (fun _ _ => le_refl _)
  have hdone : ∀ c c' : ImplCode,
      (∀ s : SubName, (∃ x ∈ c.secondary, key x.1 = key s) → ∃ x ∈ c'.secondary, key x.1 = key s) →
      ∀ s, subDone c s ≤ subDone c' s := by
    intro c c' hh s
    unfold subDone
    by_cases h1 : ∃ x ∈ c.secondary, key x.1 = key s
    · rw [if_pos h1, if_pos (hh s h1)]
    · rw [if_neg h1]; split <;> norm_num
  rcases h with rfl | ⟨c, c', rfl, rfl, hp, hsec⟩ | ⟨c', rfl, rfl, hv⟩
  · exact avg_le_of_forall₂ (List.rel_append (hrefl _) hll)
  · refine avg_le_of_forall₂ (List.rel_append ?_ hll)
    unfold ownSlots
    refine List.Forall₂.cons ?_ ?_
    · by_cases h1 : c.primary.isSome = true
      · rw [if_pos h1, if_pos (hp h1)]
      · rw [if_neg h1]; split <;> norm_num
    · rw [List.forall₂_map_left_iff, List.forall₂_map_right_iff, List.forall₂_same]
      exact fun s _ => hdone c c' hsec s
  · by_cases hs : subs = []
    · subst hs
      have hp : c'.primary.isSome = true := by
        rcases hv with h1 | ⟨s, hs, _⟩
        · exact h1
        · simp at hs
      have e : ownSlots (.code c') ([] : List SubName) = [1] := by unfold ownSlots; simp [hp]
      rw [e]
      have e' : ownSlots .notImpl ([] : List SubName) = [] := by unfold ownSlots; simp
      rw [e', List.nil_append]
      exact (avg_le_of_forall₂ hll).trans (avg_le_cons_one hl)
    · refine avg_le_of_forall₂ (List.rel_append ?_ hll)
      unfold ownSlots
      simp only
      rw [if_neg hs, Nat.add_comm, List.replicate_succ]
      refine List.Forall₂.cons (by split <;> norm_num) ?_
      rw [List.forall₂_map_right_iff]
      have : ∀ m : List SubName, List.Forall₂ (fun (x : ℚ) s => x ≤ subDone c' s) (List.replicate m.length 0) m := by
        intro m
        induction m with
        | nil => exact List.Forall₂.nil
        | cons s m ih =>
          rw [List.length_cons, List.replicate_succ]
          exact List.Forall₂.cons (by unfold subDone; split <;> norm_num) ih
      exact this subs

/-- The true ratios, for projects without cycles. -/
theorem spc_ratio_mono (inp : LoadInput ims defined) (h : Loads hash ims code defined arts)
    (h' : Loads hash' ims code' defined arts') (hadd : AddsImpl ims code code') (hc : ¬ Cyclic (artsOf arts)) {S T S' T' : Ty × Str → ℚ}
    (hr : CompletionRule (artsOf arts) S T) (hr' : CompletionRule (artsOf arts') S' T') :
    ∀ a ∈ artsOf arts, S (key a.name) ≤ S' (key a.name) := by
  have hc' : ¬ Cyclic (artsOf arts') := fun hx => hc (C16_cyclic_independent inp h' inp h (fun _ => rfl) hx)
  obtain ⟨_, _, _, hnd, hk, hs, _, _⟩ := h.spec inp
  obtain ⟨_, _, _, hnd', hk', hs', _, _⟩ := h'.spec inp
  have M := match_of_inputs inp h inp h' (fun _ => true) (fun _ _ _ _ => rfl) (fun n _ => rfl)
  have M' := match_of_inputs inp h' inp h (fun _ => true) (fun _ _ _ _ => rfl) (fun n _ => rfl)
  have hb' := rule_bounds hr' hc'
  intro a
  induction a using (directPart_wf hc).induction with
  | _ a ih =>
    intro ha
    obtain ⟨a', ha', hka, _, hsub, im, him, hi1, hi2, hps⟩ := M a ha rfl
    have hty : a'.name.ty = a.name.ty := congrArg Prod.fst hka
    have hperm : (((partsIn (artsOf arts) a.name).filter (fun b => a.name.ty = .TST ∨ b.name.ty ≠ .TST)).map
          (fun b => key b.name)).Perm
        (((partsIn (artsOf arts') a'.name).filter (fun b => a'.name.ty = .TST ∨ b.name.ty ≠ .TST)).map
          (fun b => key b.name)) := by
      rw [hty]
      exact parts_perm (fun t => a.name.ty = .TST ∨ t ≠ .TST) hnd hnd'
        (fun a ha _ => by obtain ⟨a', h1, h2, h3, _⟩ := M a ha rfl; exact ⟨a', h1, h2, h3⟩)
        (fun a ha _ => by obtain ⟨a', h1, h2, h3, _⟩ := M' a ha rfl; exact ⟨a', h1, h2, h3⟩) hka.symm
    rw [spcSlots_eq hr ha, ← hka, spcSlots_eq hr' ha']
    unfold spcSlots
    rw [avg_perm ((List.Perm.refl (ownSlots a'.impl a'.subnames)).append (map_parts_perm hperm S').symm), ← hsub]
    refine avg_own_mono ?_ ?_ ?_
    · rw [List.forall₂_map_left_iff, List.forall₂_map_right_iff, List.forall₂_same]
      intro b hb1
      have hd := directPart_of_mem ha (List.mem_filter.1 hb1).1
      exact ih b hd hd.1
    · intro x hx
      obtain ⟨b, hb1, rfl⟩ := List.mem_map.1 hx
      obtain ⟨b', hb2, hkb, _⟩ := M b (partsIn_mem (List.mem_filter.1 hb1).1) rfl
      rw [← hkb]
      exact (hb' b' hb2).1
    · obtain ⟨ha1, ha2⟩ := hadd a.name im him
      rw [hi1, hi2]
      unfold implOf
      simp only
      cases im.done with
      | some d => exact Or.inl rfl
      | none =>
        simp only
        cases hg : IMap.get? code a.name with
        | some c =>
          obtain ⟨c', hc', h1, h2⟩ := ha1 c hg
          rw [hc']
          exact Or.inr (Or.inl ⟨c, c', rfl, rfl, h1, h2⟩)
        | none =>
          cases hg' : IMap.get? code' a.name with
          | none => exact Or.inl rfl
          | some c' =>
            refine Or.inr (Or.inr ⟨c', rfl, rfl, ?_⟩)
            rcases ha2 hg c' hg' with h1 | ⟨subs, h1, h2⟩
            · exact Or.inl h1
            · rw [hps] at h1
              rw [Res.ok.inj h1]; exact Or.inr h2

/-- Adding implementations never lowers the shown `spc` of any artifact. -/
theorem C48_spc_monotone (inp : LoadInput ims defined) (h : Loads hash ims code defined arts)
    (h' : Loads hash' ims code' defined arts') (hadd : AddsImpl ims code code') :
    ∀ a ∈ artsOf arts, ∀ a' ∈ artsOf arts', key a.name = key a'.name → a.completed.spc ≤ a'.completed.spc := by
  by_cases hc : Cyclic (artsOf arts)
  · have hc' := C16_cyclic_independent inp h inp h' (fun _ => rfl) hc
    intro a ha a' ha' _
    rw [(h.spec inp).2.2.2.2.2.2.1 hc a ha, (h'.spec inp).2.2.2.2.2.2.1 hc' a' ha']
  have hc' : ¬ Cyclic (artsOf arts') := fun hx => hc (C16_cyclic_independent inp h' inp h (fun _ => rfl) hx)
  obtain ⟨S, T, hr, hcomp⟩ := C16_rule inp h hc
  obtain ⟨S', T', hr', hcomp'⟩ := C16_rule inp h' hc'
  intro a ha a' ha' hkey
  rw [hcomp a ha, hcomp' a' ha']
  simp only
  rw [← hkey]
  exact roundRatio_mono (rule_bounds hr hc a ha).1.1 (spc_ratio_mono inp h h' hadd hc hr hr' a ha)

/-! ## Concrete cases and negations -/

/-- Names for the examples. -/
def nm (s : String) : Name :=
  match Name.fromStr s.toList with
  | .ok n => n
  | _ => Name.lit c!"REQ-invalid"

/-- An artifact for the examples. -/
def exArt (n : String) (partof : List String) (done : Option String) (text : String) : Name × ArtifactIm :=
  (nm n, ⟨nm n, c!"/a.md", partof.map nm, done.map String.toList, text.toList⟩)

/-- Where the example artifacts are defined. -/
def exDefined (ims : IMap Name ArtifactIm) : IMap Name FilePath := ims.map (fun x => (x.1, c!"/a.md"))

def exHash : ArtifactIm → HashIm := fun _ => ⟨Vector.replicate 16 0⟩

/-- Load an example project with the modelled topological sort. -/
def exLoad (ims : IMap Name ArtifactIm) (code : IMap Name ImplCode) : Res Unit (IMap Name Artifact) := do
  let l ← finalizeLoadArtifact ims
  determineArtifacts exHash l.graphs.full.toposort l code (exDefined ims)

theorem exInput (ims : IMap Name ArtifactIm) (h : IMap.Nodup ims) : LoadInput ims (exDefined ims) := by
  have hm : (exDefined ims).map (fun x => key x.1) = ims.map (fun x => key x.1) := by
    unfold exDefined; rw [List.map_map]; rfl
  refine ⟨h, ?_, ?_⟩
  · unfold IMap.Nodup at *; rw [hm]; exact h
  · intro n
    rw [IMap.contains_iff, IMap.contains_iff]
    constructor
    · rintro ⟨x, hx, hk⟩
      obtain ⟨y, hy, rfl⟩ := List.mem_map.1 hx
      exact ⟨y, hy, hk⟩
    · rintro ⟨x, hx, hk⟩
      exact ⟨(x.1, c!"/a.md"), List.mem_map.2 ⟨x, hx, rfl⟩, hk⟩

theorem exLoads {ims : IMap Name ArtifactIm} {code : IMap Name ImplCode} {arts : IMap Name Artifact}
    (h : IMap.Nodup ims) (ha : exLoad ims code = .ok arts) : Loads exHash ims code (exDefined ims) arts := by
  obtain ⟨l, hl, h2⟩ := Res.bind_eq_ok.1 ha
  exact ⟨l, _, hl, toposort_contract ims h l hl, h2⟩

/-- What an example project shows: name, `spc` and `tst` of each artifact. -/
def exShown (r : Res Unit (IMap Name Artifact)) : Option (List (String × ℚ × ℚ)) :=
  r.toOption.map (fun m => m.map (fun x => (String.ofList x.2.name.raw, x.2.completed.spc, x.2.completed.tst)))

/-- A project with an automatic link (`SPC-a` to `REQ-a`), a written one, a test, subnames, and a link to nowhere. -/
def exProj : IMap Name ArtifactIm :=
  [exArt "REQ-a" [] none "", exArt "SPC-a" [] none "[[.one]] [[.tst-two]]", exArt "SPC-b" ["REQ-a", "REQ-nowhere"] (some "yes") "",
   exArt "TST-a" [] none ""]

def exCode : IMap Name ImplCode :=
  [(nm "SPC-a", ⟨some ⟨c!"/x.rs", 1⟩, [(⟨c!".one"⟩, ⟨c!"/x.rs", 2⟩)]⟩), (nm "TST-a", ⟨some ⟨c!"/x.rs", 3⟩, []⟩)]

theorem exProj_nodup : IMap.Nodup exProj := by unfold IMap.Nodup; decide +kernel

example : exShown (exLoad exProj exCode) =
    some [("REQ-a", 833 / 1000, 3 / 4), ("SPC-a", 667 / 1000, 1 / 2), ("SPC-b", 1, 1), ("TST-a", 1, 1)] := by
  decide +kernel

/-- The hypotheses of all theorems of this file are met by a concrete project without cycles, in which `REQ-a` has two parts. -/
theorem exProj_loads : ∃ arts, LoadInput exProj (exDefined exProj) ∧ Loads exHash exProj exCode (exDefined exProj) arts ∧
    exShown (.ok arts) =
      some [("REQ-a", 833 / 1000, 3 / 4), ("SPC-a", 667 / 1000, 1 / 2), ("SPC-b", 1, 1), ("TST-a", 1, 1)] ∧
    arts.map (fun x => x.2.parts.map Name.raw) = [[c!"SPC-a", c!"SPC-b"], [c!"TST-a"], [], []] ∧
    ¬ Cyclic (artsOf arts) := by
  cases h : exLoad exProj exCode with
  | ok arts =>
    have e : exShown (exLoad exProj exCode) =
      some [("REQ-a", 833 / 1000, 3 / 4), ("SPC-a", 667 / 1000, 1 / 2), ("SPC-b", 1, 1), ("TST-a", 1, 1)] := by decide +kernel
    have e2 : (exLoad exProj exCode).toOption.map (fun m => m.map (fun x => x.2.parts.map Name.raw)) =
      some [[c!"SPC-a", c!"SPC-b"], [c!"TST-a"], [], []] := by decide +kernel
    rw [h] at e e2
    have hi := exInput exProj exProj_nodup
    have hl := exLoads exProj_nodup h
    refine ⟨arts, hi, hl, e, ?_, ?_⟩
    · simpa [Res.toOption] using e2
    · intro hc
      have hz := (hl.spec hi).2.2.2.2.2.2.1 hc
      have : ∃ a ∈ artsOf arts, a.completed.spc = 1 := by
        have e' : ((exLoad exProj exCode).toOption.map (fun m => decide (∃ a ∈ artsOf m, a.completed.spc = 1))) = some true := by
          decide +kernel
        rw [h] at e'
        simpa [Res.toOption] using e'
      obtain ⟨a, ha, h1⟩ := this
      rw [hz a ha] at h1
      norm_num at h1
  | err e => exact absurd h (by
      intro h; have : (exLoad exProj exCode).toOption.isSome = true := by decide +kernel
      rw [h] at this; simp [Res.toOption] at this)
  | panic => exact absurd h (by
      intro h; have : (exLoad exProj exCode).toOption.isSome = true := by decide +kernel
      rw [h] at this; simp [Res.toOption] at this)

/-- A cycle anywhere (here: two unrelated tests that are part of each other) sets everything to 0%, even artifacts marked as done. -/
example : exShown (exLoad (exProj ++ [exArt "TST-x" ["TST-y"] none "", exArt "TST-y" ["TST-x"] none ""]) exCode) =
    some [("REQ-a", 0, 0), ("SPC-a", 0, 0), ("SPC-b", 0, 0), ("TST-a", 0, 0), ("TST-x", 0, 0), ("TST-y", 0, 0)] := by
  decide +kernel

/-- Loading an example and looking at the result. -/
theorem exHas {i : IMap Name ArtifactIm} {c : IMap Name ImplCode} (P : IMap Name Artifact → Prop) [DecidablePred P]
    (h : ((exLoad i c).toOption.map (fun m => decide (P m))) = some true) : ∃ arts, exLoad i c = .ok arts ∧ P arts := by
  cases he : exLoad i c with
  | ok arts => rw [he] at h; exact ⟨arts, rfl, by simpa [Res.toOption] using h⟩
  | err e => rw [he] at h; simp [Res.toOption] at h
  | panic => rw [he] at h; simp [Res.toOption] at h

/-- The acyclicity hypotheses of `C17_noninterference` are needed: adding a cycle of tests changes `spc` of a specification. -/
theorem C17_needs_acyclic : ∃ (ims ims' : IMap Name ArtifactIm) (code : IMap Name ImplCode) (arts arts' : IMap Name Artifact)
    (a a' : Artifact), LoadInput ims (exDefined ims) ∧ LoadInput ims' (exDefined ims') ∧
    Loads exHash ims code (exDefined ims) arts ∧ Loads exHash ims' code (exDefined ims') arts' ∧
    (∀ n : Name, n.ty ≠ .TST → IMap.get? ims n = IMap.get? ims' n) ∧ a ∈ artsOf arts ∧ a' ∈ artsOf arts' ∧ a.name = a'.name ∧
    a.name.ty = .SPC ∧ a.completed.spc = 1 ∧ a'.completed.spc = 0 := by
  let i1 : IMap Name ArtifactIm := [exArt "SPC-b" [] (some "yes") ""]
  let i2 : IMap Name ArtifactIm := [exArt "SPC-b" [] (some "yes") "", exArt "TST-x" ["TST-y"] none "", exArt "TST-y" ["TST-x"] none ""]
  have n1 : IMap.Nodup i1 := by unfold IMap.Nodup; decide +kernel
  have n2 : IMap.Nodup i2 := by unfold IMap.Nodup; decide +kernel
  obtain ⟨a1, h1, x1, hx1, hn1, hv1⟩ := exHas (i := i1) (c := [])
    (fun m => ∃ a ∈ artsOf m, a.name = nm "SPC-b" ∧ a.completed.spc = 1) (by decide +kernel)
  obtain ⟨a2, h2, x2, hx2, hn2, hv2⟩ := exHas (i := i2) (c := [])
    (fun m => ∃ a ∈ artsOf m, a.name = nm "SPC-b" ∧ a.completed.spc = 0) (by decide +kernel)
  refine ⟨i1, i2, [], a1, a2, x1, x2, exInput _ n1, exInput _ n2, exLoads n1 h1, exLoads n2 h2, ?_, hx1, hx2, hn1.trans hn2.symm,
    by rw [hn1]; decide +kernel, hv1, hv2⟩
  intro n hn
  have hne : ∀ s : String, (nm s).ty = .TST → key (nm s) ≠ key n := by
    intro s hs hk
    have : (nm s).ty = n.ty := congrArg Prod.fst hk
    exact hn (this.symm.trans hs)
  have ht1 := hne "TST-x" (by decide +kernel)
  have ht2 := hne "TST-y" (by decide +kernel)
  simp only [i1, i2, exArt, IMap.get?]
  simp [ht1, ht2]

/-- A chain of `k + 1` requirements, each but the last marked as done and having the next one as its only part. -/
def exChain : Nat → IMap Name ArtifactIm
  | 0 => [exArt "REQ-a" [] none ""]
  | k + 1 => exArt (String.ofList (c!"REQ-a" ++ List.replicate (k + 1) 'a')) [] (some "x") "" ::
      (exChain k).map (fun x => if x.1 = nm (String.ofList (c!"REQ-a" ++ List.replicate k 'a')) then
        (x.1, { x.2 with partof := [nm (String.ofList (c!"REQ-a" ++ List.replicate (k + 1) 'a'))] }) else x)

instance (as : List Artifact) (b a : Artifact) : Decidable (CountsFor as b a) :=
  inferInstanceAs (Decidable ((b ∈ as ∧ a ∈ as ∧ PartOf b a.name) ∧ _))

theorem transGen_of_isChain {α : Type*} {R : α → α → Prop} : ∀ (l : List α) (a b : α), l.IsChain R → l.head? = some a →
    l.getLast? = some b → 2 ≤ l.length → Relation.TransGen R a b := by
  intro l
  induction l with
  | nil => simp
  | cons x l ih =>
    intro a b hc ha hb hl
    cases l with
    | nil => simp at hl
    | cons y l =>
      simp only [List.head?_cons, Option.some.injEq] at ha
      subst ha
      rw [List.isChain_cons_cons] at hc
      cases l with
      | nil =>
        simp at hb
        subst hb
        exact .single hc.1
      | cons z l =>
        exact .head hc.1 (ih y b hc.2 rfl (by simpa using hb) (by simp))

/-- "Shown as 100%" does not mean that everything below is implemented: in a chain of twelve artifacts the first is shown at
100% although the last one is not implemented at all. -/
theorem C18_shown_hundred_false : ∃ (ims : IMap Name ArtifactIm) (arts : IMap Name Artifact), LoadInput ims (exDefined ims) ∧
    Loads exHash ims [] (exDefined ims) arts ∧ ∃ a ∈ artsOf arts, ∃ b ∈ artsOf arts, a.completed.spc = 1 ∧ b.completed.spc = 0 ∧
      Relation.TransGen (CountsFor (artsOf arts)) b a ∧ b.impl = .notImpl := by
  have hn : IMap.Nodup (exChain 11) := by unfold IMap.Nodup; decide +kernel
  obtain ⟨arts, hl, h1, h2, h3, h4⟩ := exHas (i := exChain 11) (c := [])
    (fun m => (artsOf m).reverse.IsChain (CountsFor (artsOf m)) ∧
      (artsOf m).reverse.head?.map (fun b => (b.completed.spc, b.impl)) = some (0, .notImpl) ∧
      (artsOf m).reverse.getLast?.map (fun a => a.completed.spc) = some 1 ∧ 2 ≤ (artsOf m).reverse.length) (by decide +kernel)
  obtain ⟨b, hb, hb'⟩ := Option.map_eq_some_iff.1 h2
  obtain ⟨a, ha, ha'⟩ := Option.map_eq_some_iff.1 h3
  refine ⟨exChain 11, arts, exInput _ hn, exLoads hn hl, a, ?_, b, ?_, ha', congrArg Prod.fst hb',
    transGen_of_isChain _ b a h1 hb ha h4, congrArg Prod.snd hb'⟩
  · exact List.mem_reverse.1 (List.mem_of_getLast? ha)
  · exact List.mem_reverse.1 (List.mem_of_head? hb)

/-- `tst` is not monotone: `SPC-a` is tested by `TST-a`, and writing code for it (without its `.tst-` subname) lowers its `tst`. -/
theorem C48_tst_monotone_false : ∃ (ims : IMap Name ArtifactIm) (code code' : IMap Name ImplCode) (arts arts' : IMap Name Artifact)
    (a a' : Artifact), LoadInput ims (exDefined ims) ∧ Loads exHash ims code (exDefined ims) arts ∧
    Loads exHash ims code' (exDefined ims) arts' ∧ AddsImpl ims code code' ∧ a ∈ artsOf arts ∧ a' ∈ artsOf arts' ∧
    a.name = a'.name ∧ a'.completed.tst < a.completed.tst := by
  let i : IMap Name ArtifactIm := [exArt "SPC-a" [] none "[[.tst-two]]", exArt "TST-a" [] (some "yes") ""]
  let c : ImplCode := ⟨some ⟨c!"/x.rs", 1⟩, []⟩
  have hn : IMap.Nodup i := by unfold IMap.Nodup; decide +kernel
  obtain ⟨a1, h1, x1, hx1, hn1, hv1⟩ := exHas (i := i) (c := [])
    (fun m => ∃ a ∈ artsOf m, a.name = nm "SPC-a" ∧ a.completed.tst = 1) (by decide +kernel)
  obtain ⟨a2, h2, x2, hx2, hn2, hv2⟩ := exHas (i := i) (c := [(nm "SPC-a", c)])
    (fun m => ∃ a ∈ artsOf m, a.name = nm "SPC-a" ∧ a.completed.tst = 1 / 2) (by decide +kernel)
  refine ⟨i, [], [(nm "SPC-a", c)], a1, a2, x1, x2, exInput _ hn, exLoads hn h1, exLoads hn h2, ?_, hx1, hx2,
    hn1.trans hn2.symm, by rw [hv1, hv2]; norm_num⟩
  intro n im _
  refine ⟨fun c hc => by simp [IMap.get?] at hc, fun _ c' hc' => Or.inl ?_⟩
  simp only [IMap.get?] at hc'
  split at hc'
  · cases hc'; rfl
  · simp at hc'

/-- Without the second condition of `AddsImpl` even `spc` is not monotone: a code reference to a subname that does not exist
lowers the completion of the artifact (although the program only warns about it). -/
theorem C48_wrong_reference_lowers : ∃ (ims : IMap Name ArtifactIm) (code' : IMap Name ImplCode) (arts arts' : IMap Name Artifact)
    (a a' : Artifact), LoadInput ims (exDefined ims) ∧ Loads exHash ims [] (exDefined ims) arts ∧
    Loads exHash ims code' (exDefined ims) arts' ∧ a ∈ artsOf arts ∧ a' ∈ artsOf arts' ∧
    a.name = a'.name ∧ a'.completed.spc < a.completed.spc ∧
    (∀ x ∈ code', x.2.primary = none ∧ ∀ y ∈ x.2.secondary, ∀ s ∈ a.subnames, key s ≠ key y.1) := by
  let i : IMap Name ArtifactIm := [exArt "REQ-a" [] none "", exArt "SPC-a" [] (some "yes") ""]
  let c : IMap Name ImplCode := [(nm "REQ-a", ⟨none, [(⟨c!".typo"⟩, ⟨c!"/x.rs", 1⟩)]⟩)]
  have hn : IMap.Nodup i := by unfold IMap.Nodup; decide +kernel
  obtain ⟨a1, h1, x1, hx1, hn1, hv1, hs⟩ := exHas (i := i) (c := [])
    (fun m => ∃ a ∈ artsOf m, a.name = nm "REQ-a" ∧ a.completed.spc = 1 ∧ a.subnames = []) (by decide +kernel)
  obtain ⟨a2, h2, x2, hx2, hn2, hv2⟩ := exHas (i := i) (c := c)
    (fun m => ∃ a ∈ artsOf m, a.name = nm "REQ-a" ∧ a.completed.spc = 1 / 2) (by decide +kernel)
  refine ⟨i, c, a1, a2, x1, x2, exInput _ hn, exLoads hn h1, exLoads hn h2, hx1, hx2, hn1.trans hn2.symm,
    by rw [hv1, hv2]; norm_num, ?_⟩
  intro x hx
  simp only [c, List.mem_singleton] at hx
  subst hx
  exact ⟨rfl, fun y _ s hs' => by rw [hs] at hs'; simp at hs'⟩

end Art
