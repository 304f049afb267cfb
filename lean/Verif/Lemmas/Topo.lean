import Verif.Lemmas.Load
import Mathlib.Order.WellFounded
import Mathlib.Order.RelClasses
import Mathlib.Data.Fintype.List
import Mathlib.Data.Set.Finite.List
import Mathlib.Data.Set.Finite.Lemmas

/-! # Topological order and cycles -/

namespace Art
open Spec

/-- A relation on the elements of a list without cycles is well founded. -/
theorem wf_of_acyclic {α : Type} (r : α → α → Prop) (l : List α) (hl : ∀ x y, r x y → x ∈ l)
    (h : ¬ ∃ a, Relation.TransGen r a a) : WellFounded r := by
  let r' : {x // x ∈ l} → {x // x ∈ l} → Prop := fun x y => Relation.TransGen r x.1 y.1
  have hfin : Finite {x // x ∈ l} := (List.finite_toSet l).to_subtype
  have : IsTrans _ r' := ⟨fun _ _ _ h1 h2 => h1.trans h2⟩
  have : Std.Irrefl r' := ⟨fun a ha => h ⟨_, ha⟩⟩
  have hwf : WellFounded r' := Finite.wellFounded_of_trans_of_irrefl r'
  have key : ∀ x : {x // x ∈ l}, Acc r x.1 := by
    intro x
    induction x using hwf.induction with
    | _ x ih => exact ⟨_, fun y hy => ih ⟨y, hl _ _ hy⟩ (.single hy)⟩
  exact ⟨fun a => ⟨_, fun y hy => key ⟨y, hl _ _ hy⟩⟩⟩

theorem cycle_of_preds {α : Type} (r : α → α → Prop) (l : List α) (hne : l ≠ [])
    (h : ∀ b ∈ l, ∃ a ∈ l, r a b) : ∃ a, Relation.TransGen r a a := by
  by_contra hc
  have hwf := wf_of_acyclic (fun a b => r a b ∧ a ∈ l) l (fun _ _ h => h.2) (by
    rintro ⟨a, ha⟩
    exact hc ⟨a, Relation.TransGen.mono (r := fun a b => r a b ∧ a ∈ l) (p := r) (fun _ _ h => h.1) _ _ ha⟩)
  obtain ⟨m, hm, hmin⟩ := hwf.has_min {x | x ∈ l} (List.exists_mem_of_ne_nil l hne)
  obtain ⟨a, ha, hr⟩ := h m hm
  exact hmin a ha ⟨hr, ha⟩

theorem topoAux_some (g : DiGraph) : ∀ fuel rest order, rest.Nodup → g.topoAux fuel rest = some order →
    order.Perm rest ∧ ∀ a b, a ∈ rest → b ∈ rest → (a, b) ∈ g.edges → ∃ l₁ l₂ l₃, order = l₁ ++ a :: l₂ ++ b :: l₃ := by
  intro fuel
  induction fuel with
  | zero =>
    intro rest order _ h
    unfold DiGraph.topoAux at h
    split at h
    · rename_i hr
      subst hr
      simp only [Option.some.injEq] at h
      subst h
      exact ⟨List.Perm.refl _, by simp⟩
    · cases h
  | succ fuel ih =>
    intro rest order hnd h
    unfold DiGraph.topoAux at h
    split at h
    · rename_i hr
      subst hr
      simp only [Option.some.injEq] at h
      subst h
      exact ⟨List.Perm.refl _, by simp⟩
    · split at h
      · cases h
      · rename_i b0 hfind
        obtain ⟨o', ho', rfl⟩ := Option.map_eq_some_iff.1 h
        obtain ⟨hp, he⟩ := ih _ _ (hnd.erase b0) ho'
        have hb0 : b0 ∈ rest := List.mem_of_find?_eq_some hfind
        have hno := List.find?_some hfind
        simp only [decide_not, List.all_eq_true, Bool.not_eq_eq_eq_not, Bool.not_true, decide_eq_false_iff_not] at hno
        refine ⟨(hp.cons b0).trans (List.perm_cons_erase hb0).symm, ?_⟩
        intro a b ha hb hab
        have hbne : b ≠ b0 := fun e => hno a ha (e ▸ hab)
        have hb' : b ∈ rest.erase b0 := (List.mem_erase_of_ne hbne).2 hb
        by_cases hab0 : a = b0
        · subst hab0
          obtain ⟨s, t, e⟩ := List.append_of_mem (hp.mem_iff.2 hb')
          exact ⟨[], s, t, by rw [e]; rfl⟩
        · obtain ⟨l₁, l₂, l₃, e⟩ := he a b ((List.mem_erase_of_ne hab0).2 ha) hb' hab
          exact ⟨b0 :: l₁, l₂, l₃, by rw [e]; rfl⟩

theorem topoAux_none (g : DiGraph) : ∀ fuel rest, rest.length ≤ fuel → g.topoAux fuel rest = none →
    ∃ a, Relation.TransGen (fun x y => (x, y) ∈ g.edges) a a := by
  intro fuel
  induction fuel with
  | zero =>
    intro rest hlen h
    have : rest = [] := List.length_eq_zero_iff.1 (Nat.le_zero.1 hlen)
    subst this
    simp [DiGraph.topoAux] at h
  | succ fuel ih =>
    intro rest hlen h
    unfold DiGraph.topoAux at h
    split at h
    · cases h
    · rename_i hr
      split at h
      · rename_i hfind
        refine cycle_of_preds _ rest hr (fun b hb => ?_)
        have := List.find?_eq_none.1 hfind b hb
        simpa using this
      · rename_i b0 hfind
        rw [Option.map_eq_none_iff] at h
        refine ih _ ?_ h
        rw [List.length_erase_of_mem (List.mem_of_find?_eq_some hfind)]
        omega

/-- The modelled sort satisfies the contract on every well formed graph all of whose edges join nodes. -/
theorem toposort_ok (g : DiGraph) (hw : g.WF) (he : ∀ a b, (a, b) ∈ g.edges → a ∈ g.nodes ∧ b ∈ g.nodes) :
    DiGraph.TopoContract g g.toposort := by
  have hnd : List.Nodup (α := Nat) g.nodes := by
    have := hw.nodes
    unfold ISet.Nodup at this
    exact List.Nodup.of_map _ this
  unfold DiGraph.TopoContract
  split
  · rename_i order ho
    obtain ⟨h1, h2⟩ := topoAux_some g _ _ _ hnd ho
    exact ⟨h1, fun a b hab => h2 a b (he a b hab).1 (he a b hab).2 hab⟩
  · rename_i ho
    exact topoAux_none g _ _ le_rfl ho

section Cycles
variable {arts : List Artifact} {partofs : IMap Name (ISet Name)} {impls : IMap Name Impl}
  {subnames : IMap Name (ISet SubName)} {g : Graphs}

theorem GraphsFor.toposort_ok (h : GraphsFor partofs g) : DiGraph.TopoContract g.full g.full.toposort := by
  refine Art.toposort_ok _ h.wf (fun a b hab => ?_)
  obtain ⟨p, hp, q, hq, e⟩ := (h.edges _).1 hab
  rw [Prod.mk_inj] at e
  exact ⟨(h.nodes _).2 ⟨q, ⟨p, hp, Or.inr ⟨q, hq, rfl⟩⟩, e.1⟩, (h.nodes _).2 ⟨p.1, ⟨p, hp, Or.inl rfl⟩, e.2⟩⟩

/-- Edges of the graph are direct parts. -/
theorem edge_iff (h : GraphsFor partofs g) (ha : Agrees arts partofs impls subnames) {a : Artifact} (hm : a ∈ arts)
    (j : Nat) : (idOf g.lookupId a.name, j) ∈ g.full.edges ↔ ∃ b, DirectPart arts b a ∧ j = idOf g.lookupId b.name := by
  have hp := neighbors_perm h ha hm
  have h1 : (idOf g.lookupId a.name, j) ∈ g.full.edges ↔ j ∈ g.full.neighbors (idOf g.lookupId a.name) := by
    unfold DiGraph.neighbors
    rw [List.mem_map]
    constructor
    · intro hh; exact ⟨_, List.mem_filter.2 ⟨hh, by simp⟩, rfl⟩
    · rintro ⟨⟨x, y⟩, hx, rfl⟩
      rw [List.mem_filter, decide_eq_true_eq] at hx
      rw [← hx.2]; exact hx.1
  rw [h1, hp.mem_iff, List.mem_map]
  unfold partsIn DirectPart
  simp only [List.mem_filter, decide_eq_true_eq]
  constructor
  · rintro ⟨b, ⟨k1, k2⟩, e⟩; exact ⟨b, ⟨k1, hm, k2⟩, e.symm⟩
  · rintro ⟨b, ⟨k1, _, k2⟩, e⟩; exact ⟨b, ⟨k1, k2⟩, e.symm⟩

theorem cyclic_iff_topo (h : GraphsFor partofs g) (ha : Agrees arts partofs impls subnames) {topo : Option (List Nat)}
    (ht : DiGraph.TopoContract g.full topo) : topo = none ↔ Cyclic arts := by
  constructor
  · rintro rfl
    obtain ⟨i, hi⟩ := ht
    have hart : ∀ x y, (x, y) ∈ g.full.edges → ∃ b ∈ arts, y = idOf g.lookupId b.name := by
      intro x y hxy
      obtain ⟨p, hp, q, hq, e⟩ := (h.edges _).1 hxy
      rw [Prod.mk_inj] at e
      obtain ⟨b, hb, hk⟩ := ha.only p.1 (Or.inl (IMap.contains_iff.2 ⟨p, hp, rfl⟩))
      exact ⟨b, hb, by rw [e.2, idOf_congr _ hk]⟩
    have htrans : ∀ a ∈ arts, ∀ y, Relation.TransGen (fun x y => (x, y) ∈ g.full.edges) (idOf g.lookupId a.name) y →
        ∃ b ∈ arts, y = idOf g.lookupId b.name ∧ Relation.TransGen (DirectPart arts) b a := by
      intro a hm y hy
      induction hy with
      | single hxy =>
        obtain ⟨b, hb, e⟩ := (edge_iff h ha hm _).1 hxy
        exact ⟨b, hb.1, e, .single hb⟩
      | tail _ hxy ih =>
        obtain ⟨b, hb, rfl, htg⟩ := ih
        obtain ⟨c, hc, e⟩ := (edge_iff h ha hb _).1 hxy
        exact ⟨c, hc.1, e, .head hc htg⟩
    have hi0 : ∃ a ∈ arts, i = idOf g.lookupId a.name := by
      rcases (Relation.transGen_iff _ _ _).1 hi with hh | ⟨b, _, hh⟩
      · exact hart _ _ hh
      · exact hart _ _ hh
    obtain ⟨a, hm, rfl⟩ := hi0
    obtain ⟨b, hb, e, htg⟩ := htrans a hm _ hi
    have := nodup_map_inj ha.nodup a hm b hb (h.id_inj (ha.mentioned hm) (ha.mentioned hb) e)
    subst this
    exact ⟨a, htg⟩
  · rintro ⟨a, hcyc⟩
    cases topo with
    | none => rfl
    | some order =>
      exfalso
      obtain ⟨hperm, hedge⟩ := ht
      have hnodes : List.Nodup (α := Nat) g.full.nodes := by
        have := h.wf.nodes
        unfold ISet.Nodup at this
        exact List.Nodup.of_map _ this
      have hnd : order.Nodup := hperm.nodup_iff.2 hnodes
      have hidx : ∀ x y, (x, y) ∈ g.full.edges → order.idxOf x < order.idxOf y := by
        intro x y hxy
        obtain ⟨l₁, l₂, l₃, rfl⟩ := hedge x y hxy
        have hx : x ∉ l₁ := by
          intro hc
          have := List.disjoint_of_nodup_append hnd
          rw [List.append_assoc] at hnd
          exact List.disjoint_of_nodup_append hnd hc (by simp)
        have hy : y ∉ l₁ ++ x :: l₂ := fun hc => List.disjoint_of_nodup_append hnd hc (by simp)
        rw [List.idxOf_append_of_notMem hy, List.append_assoc, List.idxOf_append_of_notMem hx]
        simp
      have hlt : ∀ b, Relation.TransGen (DirectPart arts) b a →
          order.idxOf (idOf g.lookupId a.name) < order.idxOf (idOf g.lookupId b.name) := by
        intro b hb
        induction hb using Relation.TransGen.head_induction_on with
        | single hbc => exact hidx _ _ ((edge_iff h ha hbc.2.1 _).2 ⟨_, hbc, rfl⟩)
        | head hbc _ ih => exact ih.trans (hidx _ _ ((edge_iff h ha hbc.2.1 _).2 ⟨_, hbc, rfl⟩))
      exact lt_irrefl _ (hlt a hcyc)

theorem directPart_wf (h : ¬ Cyclic arts) : WellFounded (DirectPart arts) :=
  wf_of_acyclic _ arts (fun _ _ h => h.1) h

end Cycles

end Art
