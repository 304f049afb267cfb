import Verif.Lemmas.IMap
import Verif.Model.Graph

/-! # Helper lemmas about ids, graphs and parts -/

namespace Art

section Generic
variable {α β κ : Type} [HasKey α κ] [DecidableEq κ]

theorem index_eq_ok {m : IMap α β} {a : α} {b : β} : index m a = .ok b ↔ IMap.get? m a = some b := by
  unfold index
  cases IMap.get? m a <;> simp

theorem ISet.mem_insert_inj (hk : Function.Injective (key : α → κ)) (m : ISet α) (a x : α) :
    x ∈ ISet.insert m a ↔ x ∈ m ∨ x = a := by
  unfold ISet.insert
  split
  · rename_i h
    obtain ⟨y, hy, e⟩ := ISet.contains_iff.1 h
    rw [hk e] at hy
    constructor
    · exact Or.inl
    · rintro (h | rfl)
      · exact h
      · exact hy
  · simp

theorem IMap.nodup_vals_insert {m : IMap α β} {a : α} {b : β} (h : (m.map Prod.snd).Nodup)
    (hb : b ∉ m.map Prod.snd) : ((IMap.insert m a b).map Prod.snd).Nodup ∧
      ∀ x ∈ (IMap.insert m a b).map Prod.snd, x = b ∨ x ∈ m.map Prod.snd := by
  induction m with
  | nil => simp [IMap.insert]
  | cons p m ih =>
    obtain ⟨a', b'⟩ := p
    rw [List.map_cons, List.nodup_cons] at h
    rw [List.map_cons, List.mem_cons, not_or] at hb
    obtain ⟨i1, i2⟩ := ih h.2 hb.2
    unfold IMap.insert
    split
    · constructor
      · rw [List.map_cons, List.nodup_cons]
        exact ⟨hb.2, h.2⟩
      · intro x hx
        rw [List.map_cons, List.mem_cons] at hx
        rcases hx with rfl | hx
        · exact Or.inl rfl
        · exact Or.inr (List.mem_cons_of_mem _ hx)
    · constructor
      · rw [List.map_cons, List.nodup_cons]
        refine ⟨fun hc => ?_, i1⟩
        rcases i2 _ hc with e | hc
        · exact hb.1 e.symm
        · exact h.1 hc
      · intro x hx
        rw [List.map_cons, List.mem_cons] at hx
        rcases hx with rfl | hx
        · exact Or.inr (by simp)
        · rcases i2 _ hx with e | hx
          · exact Or.inl e
          · exact Or.inr (List.mem_cons_of_mem _ hx)

theorem IMap.contains_insert (m : IMap α β) (a : α) (b : β) (a' : α) :
    IMap.contains (IMap.insert m a b) a' = true ↔ key a = key a' ∨ IMap.contains m a' = true := by
  unfold IMap.contains
  rw [IMap.get?_insert]
  split <;> simp_all

end Generic

/-! ## ids -/

/-- Invariant of `create_ids`. -/
def IdsInv (st : IMap Name Nat × Nat) : Prop :=
  IMap.Nodup st.1 ∧ (st.1.map Prod.snd).Nodup ∧ ∀ x ∈ st.1.map Prod.snd, x < st.2

theorem idsInv_insert {st : IMap Name Nat × Nat} (h : IdsInv st) (n : Name) :
    IdsInv (IMap.insert st.1 n st.2, st.2 + 1) := by
  obtain ⟨h1, h2, h3⟩ := h
  have hb : st.2 ∉ st.1.map Prod.snd := fun hc => lt_irrefl _ (h3 _ hc)
  obtain ⟨i1, i2⟩ := IMap.nodup_vals_insert (a := n) h2 hb
  refine ⟨IMap.nodup_insert h1 _ _, i1, ?_⟩
  intro x hx
  rcases i2 x hx with rfl | hx
  · exact Nat.lt_succ_self _
  · exact Nat.lt_succ_of_lt (h3 x hx)

theorem idsInv_inner (l : List Name) {st : IMap Name Nat × Nat} (h : IdsInv st) :
    IdsInv (l.foldl createIdsInner st) := by
  induction l generalizing st with
  | nil => exact h
  | cons n l ih => exact ih (idsInv_insert h n)

theorem contains_inner (l : List Name) (st : IMap Name Nat × Nat) (n : Name) :
    IMap.contains (l.foldl createIdsInner st).1 n = true ↔
      IMap.contains st.1 n = true ∨ ∃ q ∈ l, key q = key n := by
  induction l generalizing st with
  | nil => simp
  | cons a l ih =>
    rw [List.foldl_cons, ih]
    unfold createIdsInner
    rw [IMap.contains_insert]
    simp only [List.mem_cons, exists_eq_or_imp]
    rw [or_assoc, or_left_comm]

/-- A name occurs in the family relation: as an artifact or as the target of a link. -/
def Mentioned (partofs : IMap Name (ISet Name)) (n : Name) : Prop :=
  ∃ p ∈ partofs, key p.1 = key n ∨ ∃ q ∈ p.2, key q = key n

theorem createIds_aux (partofs : IMap Name (ISet Name)) {st : IMap Name Nat × Nat} (h : IdsInv st) :
    IdsInv (partofs.foldl createIdsStep st) ∧ ∀ n, IMap.contains (partofs.foldl createIdsStep st).1 n = true ↔
      IMap.contains st.1 n = true ∨ Mentioned partofs n := by
  induction partofs generalizing st with
  | nil => exact ⟨h, by simp [Mentioned]⟩
  | cons p l ih =>
    obtain ⟨i1, i2⟩ := ih (st := createIdsStep st p) (idsInv_inner _ (idsInv_insert h _))
    refine ⟨i1, fun n => ?_⟩
    rw [List.foldl_cons, i2]
    unfold createIdsStep
    rw [contains_inner, IMap.contains_insert]
    unfold Mentioned
    simp only [List.mem_cons, exists_eq_or_imp]
    rw [← or_assoc, or_assoc (b := IMap.contains st.1 n = true), or_left_comm]

theorem createIds_nodup (partofs : IMap Name (ISet Name)) : IMap.Nodup (createIds partofs) :=
  (createIds_aux partofs (st := ([], 1)) ⟨by simp, by simp, by simp⟩).1.1

theorem createIds_vals (partofs : IMap Name (ISet Name)) : ((createIds partofs).map Prod.snd).Nodup :=
  (createIds_aux partofs (st := ([], 1)) ⟨by simp, by simp, by simp⟩).1.2.1

theorem createIds_contains (partofs : IMap Name (ISet Name)) (n : Name) :
    IMap.contains (createIds partofs) n = true ↔ Mentioned partofs n := by
  have := (createIds_aux partofs (st := ([], 1)) ⟨by simp, by simp, by simp⟩).2 n
  rw [show createIds partofs = (partofs.foldl createIdsStep ([], 1)).1 from rfl, this]
  simp [IMap.contains]

/-- The id of a name (0 if it has none). -/
def idOf (ids : IMap Name Nat) (n : Name) : Nat := (IMap.get? ids n).getD 0

theorem get?_idOf {ids : IMap Name Nat} {n : Name} (h : IMap.contains ids n = true) :
    IMap.get? ids n = some (idOf ids n) := by
  unfold IMap.contains at h
  unfold idOf
  cases hg : IMap.get? ids n with
  | none => simp [hg] at h
  | some v => rfl

theorem idOf_congr (ids : IMap Name Nat) {n n' : Name} (h : key n = key n') : idOf ids n = idOf ids n' := by
  unfold idOf; rw [IMap.get?_congr _ h]

theorem idOf_inj {ids : IMap Name Nat} (hv : (ids.map Prod.snd).Nodup) {n n' : Name}
    (h : IMap.contains ids n = true) (h' : IMap.contains ids n' = true) (e : idOf ids n = idOf ids n') :
    key n = key n' := by
  obtain ⟨a, hm, ha⟩ := IMap.mem_of_get? (get?_idOf h)
  obtain ⟨a', hm', ha'⟩ := IMap.mem_of_get? (get?_idOf h')
  have := nodup_map_inj hv _ ha _ ha' e
  have h2 : a = a' := congrArg Prod.fst this
  rw [← hm, ← hm', h2]

/-! ## the graph -/

theorem addPartof_fold (ids : IMap Name Nat) (id : Nat) (l : List Name) (g : DiGraph)
    (hl : ∀ q ∈ l, IMap.contains ids q = true) :
    foldRes (addPartof ids id) g l = .ok (l.foldl (fun g q => g.addEdge (idOf ids q) id) g) := by
  induction l generalizing g with
  | nil => rfl
  | cons q l ih =>
    unfold foldRes
    have h1 : addPartof ids id g q = .ok (g.addEdge (idOf ids q) id) := by
      unfold addPartof
      rw [index_eq_ok.2 (get?_idOf (hl q (by simp)))]
      rfl
    rw [h1]
    exact ih _ (fun x hx => hl x (by simp [hx]))

theorem natKey_inj : Function.Injective (key : Nat → Nat) := fun _ _ h => h
theorem pairKey_inj : Function.Injective (key : Nat × Nat → Nat × Nat) := fun _ _ h => h

/-- Well formed graphs: no repetition. -/
structure DiGraph.WF (g : DiGraph) : Prop where
  nodes : ISet.Nodup g.nodes
  edges : ISet.Nodup g.edges

theorem addEdge_fold (f : Name → Nat) (id : Nat) (l : List Name) (g : DiGraph) (hg : g.WF) :
    (l.foldl (fun g q => g.addEdge (f q) id) g).WF ∧
    (∀ i, i ∈ (l.foldl (fun g q => g.addEdge (f q) id) g).nodes ↔
      i ∈ g.nodes ∨ (l ≠ [] ∧ i = id) ∨ ∃ q ∈ l, i = f q) ∧
    (∀ e, e ∈ (l.foldl (fun g q => g.addEdge (f q) id) g).edges ↔ e ∈ g.edges ∨ ∃ q ∈ l, e = (f q, id)) := by
  induction l generalizing g with
  | nil => simp [hg]
  | cons q l ih =>
    have hg' : (g.addEdge (f q) id).WF :=
      ⟨ISet.nodup_insert (ISet.nodup_insert hg.nodes _) _, ISet.nodup_insert hg.edges _⟩
    obtain ⟨i1, i2, i3⟩ := ih (g.addEdge (f q) id) hg'
    refine ⟨i1, fun i => ?_, fun e => ?_⟩
    · rw [List.foldl_cons, i2]
      unfold DiGraph.addEdge
      simp only
      rw [ISet.mem_insert_inj natKey_inj, ISet.mem_insert_inj natKey_inj]
      simp only [List.mem_cons, exists_eq_or_imp, ne_eq, reduceCtorEq, not_false_eq_true, true_and]
      constructor
      · rintro (((h | h) | h) | ⟨_, h⟩ | h)
        · exact Or.inl h
        · exact Or.inr (Or.inr (Or.inl h))
        · exact Or.inr (Or.inl h)
        · exact Or.inr (Or.inl h)
        · exact Or.inr (Or.inr (Or.inr h))
      · rintro (h | h | h | h)
        · exact Or.inl (Or.inl (Or.inl h))
        · exact Or.inl (Or.inr h)
        · exact Or.inl (Or.inl (Or.inr h))
        · exact Or.inr (Or.inr h)
    · rw [List.foldl_cons, i3]
      unfold DiGraph.addEdge
      simp only
      rw [ISet.mem_insert_inj pairKey_inj]
      simp only [List.mem_cons, exists_eq_or_imp]
      rw [or_assoc]

theorem addArtifact_fold (ids : IMap Name Nat) (l : IMap Name (ISet Name)) (g : DiGraph) (hg : g.WF)
    (hl : ∀ n, Mentioned l n → IMap.contains ids n = true) :
    ∃ g', foldRes (addArtifact ids) g l = .ok g' ∧ g'.WF ∧
      (∀ i, i ∈ g'.nodes ↔ i ∈ g.nodes ∨ ∃ n, Mentioned l n ∧ i = idOf ids n) ∧
      (∀ e, e ∈ g'.edges ↔ e ∈ g.edges ∨ ∃ p ∈ l, ∃ q ∈ p.2, e = (idOf ids q, idOf ids p.1)) := by
  induction l generalizing g with
  | nil => exact ⟨g, rfl, hg, by simp [Mentioned], by simp⟩
  | cons p l ih =>
    have hp1 : IMap.contains ids p.1 = true := hl _ ⟨p, by simp, Or.inl rfl⟩
    have hp2 : ∀ q ∈ p.2, IMap.contains ids q = true := fun q hq => hl _ ⟨p, by simp, Or.inr ⟨q, hq, rfl⟩⟩
    have hstep : addArtifact ids g p =
        .ok (p.2.foldl (fun g q => g.addEdge (idOf ids q) (idOf ids p.1)) (g.addNode (idOf ids p.1))) := by
      unfold addArtifact
      rw [index_eq_ok.2 (get?_idOf hp1)]
      exact addPartof_fold _ _ _ _ hp2
    have hn : (g.addNode (idOf ids p.1)).WF := ⟨ISet.nodup_insert hg.nodes _, hg.edges⟩
    obtain ⟨a1, a2, a3⟩ := addEdge_fold (idOf ids) (idOf ids p.1) p.2 _ hn
    obtain ⟨g', e, w, n1, n2⟩ := ih _ a1 (fun n ⟨x, hx, h⟩ => hl n ⟨x, by simp [hx], h⟩)
    refine ⟨g', ?_, w, fun i => ?_, fun e => ?_⟩
    · unfold foldRes
      rw [hstep]; exact e
    · rw [n1, a2]
      unfold DiGraph.addNode
      simp only
      rw [ISet.mem_insert_inj natKey_inj]
      constructor
      · rintro (((h | h) | ⟨_, h⟩ | ⟨q, hq, h⟩) | ⟨n, ⟨x, hx, hm⟩, h⟩)
        · exact Or.inl h
        · exact Or.inr ⟨p.1, ⟨p, by simp, Or.inl rfl⟩, h⟩
        · exact Or.inr ⟨p.1, ⟨p, by simp, Or.inl rfl⟩, h⟩
        · exact Or.inr ⟨q, ⟨p, by simp, Or.inr ⟨q, hq, rfl⟩⟩, h⟩
        · exact Or.inr ⟨n, ⟨x, by simp [hx], hm⟩, h⟩
      · rintro (h | ⟨n, ⟨x, hx, hm⟩, h⟩)
        · exact Or.inl (Or.inl (Or.inl h))
        · rcases List.mem_cons.1 hx with rfl | hx
          · rcases hm with hm | ⟨q, hq, hm⟩
            · exact Or.inl (Or.inl (Or.inr (by rw [h, idOf_congr ids hm])))
            · exact Or.inl (Or.inr (Or.inr ⟨q, hq, by rw [h, idOf_congr ids hm]⟩))
          · exact Or.inr ⟨n, ⟨x, hx, hm⟩, h⟩
    · rw [n2, a3]
      unfold DiGraph.addNode
      simp only [List.mem_cons, exists_eq_or_imp]
      rw [or_assoc]

/-- Everything that is used about the graphs of a project. -/
structure GraphsFor (partofs : IMap Name (ISet Name)) (g : Graphs) : Prop where
  wf : g.full.WF
  nodup : IMap.Nodup g.lookupId
  vals : (g.lookupId.map Prod.snd).Nodup
  has : ∀ n, IMap.contains g.lookupId n = true ↔ Mentioned partofs n
  names : g.lookupName = g.lookupId.map (fun p => (p.2, p.1))
  nodes : ∀ i, i ∈ g.full.nodes ↔ ∃ n, Mentioned partofs n ∧ i = idOf g.lookupId n
  edges : ∀ e, e ∈ g.full.edges ↔ ∃ p ∈ partofs, ∃ q ∈ p.2, e = (idOf g.lookupId q, idOf g.lookupId p.1)

theorem determineGraphs_ok (partofs : IMap Name (ISet Name)) :
    ∃ g, determineGraphs partofs = .ok g ∧ GraphsFor partofs g := by
  obtain ⟨g', e, w, n1, n2⟩ := addArtifact_fold (createIds partofs) partofs DiGraph.empty
    ⟨by simp [DiGraph.empty, ISet.Nodup], by simp [DiGraph.empty, ISet.Nodup]⟩
    (fun n h => (createIds_contains partofs n).2 h)
  have hv := createIds_vals partofs
  have hnn : IMap.collect ((createIds partofs).map (fun p => (p.2, p.1))) =
      (createIds partofs).map (fun p => (p.2, p.1)) := by
    apply IMap.collect_of_nodup
    unfold IMap.Nodup
    rw [List.map_map]; exact hv
  refine ⟨⟨_, createIds partofs, g'⟩, ?_, ⟨w, createIds_nodup partofs, hv, createIds_contains partofs, hnn, ?_, ?_⟩⟩
  · unfold determineGraphs
    simp only
    rw [e]; rfl
  · intro i; rw [n1]; simp [DiGraph.empty]
  · intro i; rw [n2]; simp [DiGraph.empty]

namespace GraphsFor
variable {partofs : IMap Name (ISet Name)} {g : Graphs}

theorem lookupName_nodup (h : GraphsFor partofs g) : IMap.Nodup g.lookupName := by
  rw [h.names]; unfold IMap.Nodup; rw [List.map_map]; exact h.vals

/-- The name found under an id is the one the id was made for (as a key). -/
theorem get_name (h : GraphsFor partofs g) {n : Name} (hn : Mentioned partofs n) :
    ∃ n', IMap.get? g.lookupName (idOf g.lookupId n) = some n' ∧ key n' = key n ∧
      (n', idOf g.lookupId n) ∈ g.lookupId := by
  obtain ⟨n', hk, hm⟩ := IMap.mem_of_get? (get?_idOf ((h.has n).2 hn))
  refine ⟨n', ?_, hk, hm⟩
  apply IMap.get?_of_mem h.lookupName_nodup
  rw [h.names]
  exact List.mem_map.2 ⟨_, hm, rfl⟩

theorem id_inj (h : GraphsFor partofs g) {n n' : Name} (hn : Mentioned partofs n) (hn' : Mentioned partofs n')
    (e : idOf g.lookupId n = idOf g.lookupId n') : key n = key n' :=
  idOf_inj h.vals ((h.has n).2 hn) ((h.has n').2 hn') e

theorem mem_neighbors (h : GraphsFor partofs g) {n : Name} (hn : Mentioned partofs n) (j : Nat) :
    j ∈ g.full.neighbors (idOf g.lookupId n) ↔
      ∃ p ∈ partofs, ISet.contains p.2 n = true ∧ j = idOf g.lookupId p.1 := by
  unfold DiGraph.neighbors
  rw [List.mem_map]
  constructor
  · rintro ⟨⟨a, b⟩, he, rfl⟩
    rw [List.mem_filter, h.edges] at he
    obtain ⟨⟨p, hp, q, hq, e⟩, ha⟩ := he
    simp only [decide_eq_true_eq] at ha
    rw [Prod.mk_inj] at e
    refine ⟨p, hp, ISet.contains_iff.2 ⟨q, hq, ?_⟩, e.2⟩
    exact h.id_inj ⟨p, hp, Or.inr ⟨q, hq, rfl⟩⟩ hn (by rw [← e.1, ha])
  · rintro ⟨p, hp, hc, rfl⟩
    obtain ⟨q, hq, hk⟩ := ISet.contains_iff.1 hc
    refine ⟨(idOf g.lookupId n, idOf g.lookupId p.1), ?_, rfl⟩
    rw [List.mem_filter, h.edges]
    exact ⟨⟨p, hp, q, hq, by rw [idOf_congr _ hk]⟩, by simp⟩

theorem neighbors_nodup (h : GraphsFor partofs g) (i : Nat) : (g.full.neighbors i).Nodup := by
  unfold DiGraph.neighbors
  have h1 : List.Nodup (α := Nat × Nat) g.full.edges := by
    have := h.wf.edges
    unfold ISet.Nodup at this
    exact List.Nodup.of_map _ this
  refine List.Nodup.map_on ?_ (h1.filter _)
  intro x hx y hy e
  rw [List.mem_filter] at hx hy
  simp only [decide_eq_true_eq] at hx hy
  exact Prod.ext (hx.2.trans hy.2.symm) e

end GraphsFor

/-! ## parts -/

theorem Res.mapM'_ok_of {ε α β : Type} {f : α → Res ε β} {l : List α} (h : ∀ a ∈ l, ∃ b, f a = .ok b) :
    ∃ r, Res.mapM' f l = .ok r := by
  induction l with
  | nil => exact ⟨[], rfl⟩
  | cons a l ih =>
    obtain ⟨b, hb⟩ := h a (by simp)
    obtain ⟨r, hr⟩ := ih (fun x hx => h x (by simp [hx]))
    exact ⟨b :: r, by unfold Res.mapM'; rw [hb, hr]; rfl⟩

theorem forall₂_mem_left {α β : Type} {R : α → β → Prop} {l : List α} {r : List β} (h : List.Forall₂ R l r) {a : α}
    (ha : a ∈ l) : ∃ b ∈ r, R a b := by
  induction h with
  | nil => simp at ha
  | @cons x y _ _ hxy _ ih =>
    rcases List.mem_cons.1 ha with rfl | ha
    · exact ⟨y, by simp, hxy⟩
    · obtain ⟨b, hb, hr⟩ := ih ha
      exact ⟨b, by simp [hb], hr⟩

theorem forall₂_mem_right {α β : Type} {R : α → β → Prop} {l : List α} {r : List β} (h : List.Forall₂ R l r) {b : β}
    (hb : b ∈ r) : ∃ a ∈ l, R a b := by
  obtain ⟨a, ha, hr⟩ := forall₂_mem_left (R := fun b a => R a b) h.flip hb
  exact ⟨a, ha, hr⟩

theorem forall₂_map_eq {α β γ : Type} {R : α → β → Prop} {l : List α} {r : List β} {f : α → γ} {g : β → γ}
    (h : List.Forall₂ R l r) (hfg : ∀ x ∈ l, ∀ y, R x y → g y = f x) : r.map g = l.map f := by
  induction h with
  | nil => rfl
  | @cons x y _ _ hxy _ ih =>
    rw [List.map_cons, List.map_cons, hfg x (by simp) y hxy, ih (fun z hz => hfg z (by simp [hz]))]

theorem determineParts_ok {partofs : IMap Name (ISet Name)} {g : Graphs} (h : GraphsFor partofs g) :
    ∃ parts, determineParts g = .ok parts ∧ IMap.Nodup parts ∧
      (∀ n, IMap.contains parts n = true ↔ Mentioned partofs n) ∧
      ∀ n S, IMap.get? parts n = some S → ISet.Nodup S ∧
        ∀ b, ISet.contains S b = true ↔ ∃ p ∈ partofs, key p.1 = key b ∧ ISet.contains p.2 n = true := by
  -- the entry of one name
  have hentry : ∀ m i, (m, i) ∈ g.lookupId → ∃ S, partsOf g (i, m) = .ok (m, S) ∧ ISet.Nodup S ∧
      ∀ b, ISet.contains S b = true ↔ ∃ p ∈ partofs, key p.1 = key b ∧ ISet.contains p.2 m = true := by
    intro m i hm
    have hg : IMap.get? g.lookupId m = some i := IMap.get?_of_mem h.nodup hm
    have hmen : Mentioned partofs m := (h.has m).1 (by unfold IMap.contains; rw [hg]; rfl)
    have hi : i = idOf g.lookupId m := by unfold idOf; rw [hg]; rfl
    obtain ⟨l, hl⟩ := Res.mapM'_ok_of (f := fun i => index g.lookupName i) (l := g.full.neighbors i) (by
      intro j hj
      rw [hi, h.mem_neighbors hmen] at hj
      obtain ⟨p, hp, _, rfl⟩ := hj
      obtain ⟨n', hn', _⟩ := h.get_name (n := p.1) ⟨p, hp, Or.inl rfl⟩
      exact ⟨n', index_eq_ok.2 hn'⟩)
    refine ⟨ISet.collect l, ?_, ISet.nodup_collect l, fun b => ?_⟩
    · unfold partsOf
      simp only
      rw [hl]; rfl
    · rw [ISet.contains_collect]
      have hf := Res.mapM'_eq_ok.1 hl
      constructor
      · rintro ⟨x, hx, hk⟩
        obtain ⟨j, hj, hjx⟩ := forall₂_mem_right hf hx
        rw [index_eq_ok] at hjx
        rw [hi, h.mem_neighbors hmen] at hj
        obtain ⟨p, hp, hc, rfl⟩ := hj
        obtain ⟨n', hn', hk', _⟩ := h.get_name (n := p.1) ⟨p, hp, Or.inl rfl⟩
        rw [hn'] at hjx
        refine ⟨p, hp, ?_, hc⟩
        rw [← hk, ← hk', Option.some.inj hjx]
      · rintro ⟨p, hp, hk, hc⟩
        obtain ⟨x, hx, hjx⟩ := forall₂_mem_left hf (a := idOf g.lookupId p.1) (by
          rw [hi, h.mem_neighbors hmen]; exact ⟨p, hp, hc, rfl⟩)
        rw [index_eq_ok] at hjx
        obtain ⟨n', hn', hk', _⟩ := h.get_name (n := p.1) ⟨p, hp, Or.inl rfl⟩
        rw [hn'] at hjx
        exact ⟨x, hx, by rw [← Option.some.inj hjx, hk', hk]⟩
  obtain ⟨l, hl⟩ := Res.mapM'_ok_of (f := partsOf g) (l := g.lookupName) (by
    rintro ⟨i, m⟩ hp
    rw [h.names] at hp
    obtain ⟨⟨m', i'⟩, hm, e⟩ := List.mem_map.1 hp
    cases e
    obtain ⟨S, hS, _⟩ := hentry _ _ hm
    exact ⟨_, hS⟩)
  have hf := Res.mapM'_eq_ok.1 hl
  have hfst : l.map Prod.fst = g.lookupId.map Prod.fst := by
    rw [h.names, List.forall₂_map_left_iff] at hf
    refine forall₂_map_eq hf (fun x hx y hxy => ?_)
    obtain ⟨S, hS, _⟩ := hentry x.1 x.2 hx
    rw [hS] at hxy
    rw [← Res.ok.inj hxy]
  have hnd : IMap.Nodup l := by
    have := h.nodup
    unfold IMap.Nodup at this ⊢
    rw [show l.map (fun p => key p.1) = (l.map Prod.fst).map key by rw [List.map_map]; rfl, hfst, List.map_map]
    exact this
  have hcoll : IMap.collect l = l := IMap.collect_of_nodup hnd
  refine ⟨l, ?_, hnd, fun n => ?_, fun n S hS => ?_⟩
  · unfold determineParts
    rw [hl]
    simp [hcoll]
  · rw [← h.has, IMap.contains_iff, IMap.contains_iff]
    have h1 : (∃ p ∈ l, key p.1 = key n) ↔ ∃ x ∈ l.map Prod.fst, key x = key n := by simp
    have h2 : (∃ p ∈ g.lookupId, key p.1 = key n) ↔ ∃ x ∈ g.lookupId.map Prod.fst, key x = key n := by simp
    rw [h1, h2, hfst]
  · obtain ⟨m, hk, hm⟩ := IMap.mem_of_get? hS
    obtain ⟨⟨i, m'⟩, hp, hpo⟩ := forall₂_mem_right hf hm
    rw [h.names] at hp
    obtain ⟨⟨m'', i'⟩, hmi, e⟩ := List.mem_map.1 hp
    cases e
    obtain ⟨S', hS', hSn, hSb⟩ := hentry _ _ hmi
    rw [hS'] at hpo
    have e := Res.ok.inj hpo
    rw [Prod.mk_inj] at e
    obtain ⟨rfl, rfl⟩ := e
    refine ⟨hSn, fun b => ?_⟩
    rw [hSb]
    simp only [ISet.contains_congr _ hk]

end Art
