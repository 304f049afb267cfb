import Verif.Lemmas.Graph
import Verif.Lemmas.Regex
import Verif.Spec.Completion
import Mathlib.Algebra.BigOperators.Group.List.Basic
import Mathlib.Tactic.Linarith
import Mathlib.Tactic.Ring
import Mathlib.Algebra.Order.Field.Rat

/-! # Helper lemmas about completion -/

namespace Art
open Spec

/-! ## own slots -/

theorem isTst_iff (s : SubName) : s.isTst = true ↔ TestSub s := by
  unfold SubName.isTst TestSub subnameTstRe
  rw [Re.isFull_iff, Re.lang_seq]
  constructor
  · rintro ⟨x, y, hx, hy, hs⟩
    rw [Re.lang_litI] at hx
    rw [Re.lang_star_ch] at hy
    have hl : x.length = 5 := by simpa using congrArg List.length hx
    have ht : s.raw.take 5 = x := by rw [hs, ← hl]; simp
    refine ⟨by rw [ht, hx]; decide, ?_⟩
    rw [hs, List.mem_append, not_or]
    constructor
    · intro h
      have : foldC '\n' ∈ x.map foldC := List.mem_map.2 ⟨_, h, rfl⟩
      rw [hx] at this
      revert this; decide
    · intro h
      simpa using hy _ h
  · rintro ⟨h1, h2⟩
    refine ⟨s.raw.take 5, s.raw.drop 5, ?_, ?_, (List.take_append_drop _ _).symm⟩
    · rw [Re.lang_litI, h1]; decide
    · rw [Re.lang_star_ch]
      intro c hc
      have := List.mem_of_mem_drop hc
      simp only [ne_eq, decide_not, Bool.not_eq_eq_eq_not, Bool.not_true, decide_eq_false_iff_not]
      rintro rfl
      exact h2 this

theorem oneIf_contains (c : ImplCode) (s : SubName) : oneIf (IMap.contains c.secondary s) = subDone c s := by
  unfold oneIf subDone
  by_cases h : ∃ x ∈ c.secondary, key x.1 = key s
  · rw [if_pos h, IMap.contains_iff.2 h]; rfl
  · rw [if_neg h]
    have : ¬ IMap.contains c.secondary s = true := fun hc => h (IMap.contains_iff.1 hc)
    simp [this]

theorem statStep_fold (c : ImplCode) (subs : List SubName) (st : Stats) :
    subs.foldl (statStep c) st =
      ⟨st.count + subs.length, st.value + (subs.map (subDone c)).sum,
       st.secCount + (subs.filter (fun s => TestSub s)).length,
       st.secValue + ((subs.filter (fun s => TestSub s)).map (subDone c)).sum⟩ := by
  induction subs generalizing st with
  | nil => simp
  | cons s l ih =>
    rw [List.foldl_cons, ih]
    unfold statStep
    simp only [oneIf_contains]
    by_cases h : TestSub s
    · have h' := (isTst_iff s).2 h
      simp only [h', h, if_true, List.filter_cons, decide_true, List.map_cons, List.sum_cons, List.length_cons]
      congr 1 <;> first | omega | ring
    · have h' : s.isTst = false := by
        by_contra hc
        exact h ((isTst_iff s).1 (by simpa using hc))
      simp only [h', h, List.filter_cons, decide_false, List.map_cons, List.sum_cons, List.length_cons,
        Bool.false_eq_true, if_false]
      congr 1 <;> first | omega | ring

theorem toStatistics_eq (i : Impl) (subs : ISet SubName) :
    i.toStatistics subs = ⟨(ownSlots i subs).length, (ownSlots i subs).sum, (ownTests i subs).length,
      (ownTests i subs).sum⟩ := by
  cases i with
  | done d => simp [Impl.toStatistics, ownSlots, ownTests]
  | code c =>
    unfold Impl.toStatistics ownSlots ownTests
    simp only
    rw [statStep_fold]
    simp only [List.length_cons, List.length_map, List.sum_cons, oneIf, zero_add]
    congr 1
    omega
  | notImpl =>
    unfold Impl.toStatistics ownSlots ownTests
    simp only
    split <;> simp

theorem ratio_eq_avg (l m : List ℚ) (v : ℚ) (c : Nat) (hv : v = l.sum + m.sum) (hc : c = l.length + m.length) :
    ratio v c = avg (l ++ m) := by
  unfold ratio avg
  subst hv hc
  have : l ++ m = [] ↔ l.length + m.length = 0 := by simp
  by_cases h : l.length + m.length = 0
  · rw [if_pos h, if_pos (this.2 h)]
  · rw [if_neg h, if_neg (fun e => h (this.1 e)), List.sum_append, List.length_append]

/-! ## one step -/

theorem addPartTst_fold (st : DoneSt) (v : Nat → ℚ) (l : List Nat) (s : Stats)
    (h : ∀ j ∈ l, IMap.get? st.implemented j = some (v j)) :
    foldRes (addPartTst st) s l = .ok { s with value := s.value + (l.map v).sum, count := s.count + l.length } := by
  induction l generalizing s with
  | nil => simp [foldRes]
  | cons j l ih =>
    unfold foldRes addPartTst
    rw [index_eq_ok.2 (h j (by simp))]
    simp only [Res.bind_ok, Res.pure_def]
    have := ih { s with value := s.value + v j, count := s.count + 1 } (fun x hx => h x (by simp [hx]))
    unfold addPartTst at this
    simp only [Res.pure_def] at this
    rw [this]
    simp only [List.map_cons, List.sum_cons, List.length_cons]
    congr 2
    · omega
    · ring

theorem addPart_fold (g : Graphs) (st : DoneSt) (v t : Nat → ℚ) (isT : Nat → Bool) (l : List Nat) (s : Stats)
    (h : ∀ j ∈ l, IMap.get? st.implemented j = some (v j))
    (h' : ∀ j ∈ l, IMap.get? st.tested j = some (t j))
    (hn : ∀ j ∈ l, ∃ n, IMap.get? g.lookupName j = some n ∧ (isT j = true ↔ n.ty = .TST)) :
    foldRes (addPart g st) s l = .ok
      { count := s.count + (l.filter (fun j => !isT j)).length
        value := s.value + ((l.filter (fun j => !isT j)).map v).sum
        secCount := s.secCount + l.length
        secValue := s.secValue + (l.map t).sum } := by
  induction l generalizing s with
  | nil => simp [foldRes]
  | cons j l ih =>
    obtain ⟨n, hn1, hn2⟩ := hn j (by simp)
    have hstep : addPart g st s j = .ok
        { count := if isT j then s.count else s.count + 1, value := if isT j then s.value else s.value + v j,
          secCount := s.secCount + 1, secValue := s.secValue + t j } := by
      unfold addPart
      rw [index_eq_ok.2 (h' j (by simp)), index_eq_ok.2 hn1]
      simp only [Res.bind_ok]
      by_cases ht : n.ty = .TST
      · rw [if_neg (by simp [ht]), hn2.2 ht]; rfl
      · rw [if_pos ht, index_eq_ok.2 (h j (by simp))]
        have : isT j = false := by
          cases hh : isT j with
          | true => exact absurd (hn2.1 hh) ht
          | false => rfl
        rw [this]; rfl
    unfold foldRes
    rw [hstep]
    simp only [Res.bind_ok]
    rw [ih _ (fun x hx => h x (by simp [hx])) (fun x hx => h' x (by simp [hx])) (fun x hx => hn x (by simp [hx]))]
    cases hT : isT j with
    | true =>
      simp only [if_true, List.filter_cons, hT, List.map_cons, List.sum_cons, List.length_cons, Bool.not_true,
        Bool.false_eq_true, if_false]
      congr 2
      · omega
      · ring
    | false =>
      simp only [if_false, List.filter_cons, hT, List.map_cons, List.sum_cons, List.length_cons, Bool.not_false,
        Bool.false_eq_true, if_true]
      congr 2
      · omega
      · ring
      · omega
      · ring

/-! ## the loop -/

/-- The maps used by `determineCompleted` describe the artifacts `arts`. -/
structure Agrees (arts : List Artifact) (partofs : IMap Name (ISet Name)) (impls : IMap Name Impl)
    (subnames : IMap Name (ISet SubName)) : Prop where
  nodup : (arts.map (fun a => key a.name)).Nodup
  pnodup : IMap.Nodup partofs
  inodup : IMap.Nodup impls
  partof : ∀ a ∈ arts, ∃ P, IMap.get? partofs a.name = some P ∧ ∀ q : Name, ISet.contains P q = ISet.contains a.partof q
  impl : ∀ a ∈ arts, IMap.get? impls a.name = some a.impl
  subs : ∀ a ∈ arts, ∃ S, IMap.get? subnames a.name = some S ∧ a.subnames = S
  only : ∀ n, (IMap.contains partofs n = true ∨ IMap.contains impls n = true ∨ IMap.contains subnames n = true) →
    ∃ a ∈ arts, key a.name = key n

section Loop
variable {arts : List Artifact} {partofs : IMap Name (ISet Name)} {impls : IMap Name Impl}
  {subnames : IMap Name (ISet SubName)} {g : Graphs}

theorem contains_partOf (b : Artifact) (n : Name) : ISet.contains b.partof n = true ↔ PartOf b n := ISet.contains_iff

theorem Agrees.mentioned (ha : Agrees arts partofs impls subnames) {a : Artifact} (h : a ∈ arts) :
    Mentioned partofs a.name := by
  obtain ⟨P, hP, _⟩ := ha.partof a h
  obtain ⟨n, hk, hm⟩ := IMap.mem_of_get? hP
  exact ⟨_, hm, Or.inl hk⟩

/-- The neighbours of an artifact in the graph are the ids of its parts. -/
theorem neighbors_perm (h : GraphsFor partofs g) (ha : Agrees arts partofs impls subnames) {a : Artifact}
    (hm : a ∈ arts) : (g.full.neighbors (idOf g.lookupId a.name)).Perm
      ((partsIn arts a.name).map (fun b => idOf g.lookupId b.name)) := by
  refine (List.perm_ext_iff_of_nodup (h.neighbors_nodup _) ?_).2 ?_
  · refine List.Nodup.map_on ?_ ((List.Nodup.of_map _ ha.nodup).filter _)
    intro x hx y hy e
    have hx' := (List.mem_filter.1 hx).1
    have hy' := (List.mem_filter.1 hy).1
    exact nodup_map_inj ha.nodup x hx' y hy' (h.id_inj (ha.mentioned hx') (ha.mentioned hy') e)
  · intro j
    rw [h.mem_neighbors (ha.mentioned hm), List.mem_map]
    constructor
    · rintro ⟨p, hp, hc, rfl⟩
      obtain ⟨b, hb, hk⟩ := ha.only p.1 (Or.inl (IMap.contains_iff.2 ⟨p, hp, rfl⟩))
      refine ⟨b, ?_, idOf_congr _ hk⟩
      obtain ⟨P, hP, hPq⟩ := ha.partof b hb
      have : IMap.get? partofs b.name = some p.2 := by
        rw [IMap.get?_congr _ hk]; exact IMap.get?_of_mem ha.pnodup hp
      rw [this] at hP
      cases hP
      unfold partsIn
      rw [List.mem_filter]
      refine ⟨hb, ?_⟩
      rw [decide_eq_true_eq, ← contains_partOf, ← hPq]; exact hc
    · rintro ⟨b, hb, rfl⟩
      unfold partsIn at hb
      rw [List.mem_filter, decide_eq_true_eq, ← contains_partOf] at hb
      obtain ⟨P, hP, hPq⟩ := ha.partof b hb.1
      obtain ⟨n, hk, hmem⟩ := IMap.mem_of_get? hP
      exact ⟨_, hmem, by rw [hPq]; exact hb.2, (idOf_congr _ hk).symm⟩

/-- Current value of an artifact in the loop. -/
def valS (g : Graphs) (st : DoneSt) (n : Name) : ℚ := (IMap.get? st.implemented (idOf g.lookupId n)).getD 0
def valT (g : Graphs) (st : DoneSt) (n : Name) : ℚ := (IMap.get? st.tested (idOf g.lookupId n)).getD 0

/-- The equations of one artifact. -/
def EqAt (arts : List Artifact) (a : Artifact) (S T : Name → ℚ) : Prop :=
  (a.name.ty = .TST → S a.name = avg (ownSlots a.impl a.subnames ++ (partsIn arts a.name).map (fun b => S b.name)) ∧
    T a.name = S a.name) ∧
  (a.name.ty ≠ .TST → S a.name = avg (ownSlots a.impl a.subnames ++
      ((partsIn arts a.name).filter (fun b => b.name.ty ≠ .TST)).map (fun b => S b.name)) ∧
    T a.name = avg (ownTests a.impl a.subnames ++ (partsIn arts a.name).map (fun b => T b.name)))

/-- Loop invariant: `B` are the ids processed so far. -/
structure LoopInv (arts : List Artifact) (g : Graphs) (B : List Nat) (st : DoneSt) : Prop where
  nodS : IMap.Nodup st.implemented
  nodT : IMap.Nodup st.tested
  hasS : ∀ i, (IMap.get? st.implemented i).isSome = true ↔ i ∈ B ∧ ∃ a ∈ arts, i = idOf g.lookupId a.name
  hasT : ∀ i, (IMap.get? st.tested i).isSome = true ↔ i ∈ B ∧ ∃ a ∈ arts, i = idOf g.lookupId a.name
  closed : ∀ a ∈ arts, idOf g.lookupId a.name ∈ B → ∀ b ∈ partsIn arts a.name, idOf g.lookupId b.name ∈ B
  eqs : ∀ a ∈ arts, idOf g.lookupId a.name ∈ B → EqAt arts a (valS g st) (valT g st)

theorem partsIn_mem {a b : Artifact} (h : b ∈ partsIn arts a.name) : b ∈ arts := (List.mem_filter.1 h).1

theorem slots_ok (h : GraphsFor partofs g) (ha : Agrees arts partofs impls subnames) {B : List Nat} {st : DoneSt}
    (hinv : LoopInv arts g B st) {a : Artifact} (hm : a ∈ arts) {n : Name} (hn : key n = key a.name)
    (hparts : ∀ b ∈ partsIn arts a.name, idOf g.lookupId b.name ∈ B) (s0 : Stats) :
    ∃ s, slots g st (idOf g.lookupId a.name) n s0 = .ok s ∧
      (a.name.ty = .TST → s = ⟨s0.count + (partsIn arts a.name).length,
        s0.value + ((partsIn arts a.name).map (fun b => valS g st b.name)).sum,
        s0.count + (partsIn arts a.name).length,
        s0.value + ((partsIn arts a.name).map (fun b => valS g st b.name)).sum⟩) ∧
      (a.name.ty ≠ .TST → s =
        ⟨s0.count + ((partsIn arts a.name).filter (fun b => b.name.ty ≠ .TST)).length,
         s0.value + (((partsIn arts a.name).filter (fun b => b.name.ty ≠ .TST)).map (fun b => valS g st b.name)).sum,
         s0.secCount + (partsIn arts a.name).length,
         s0.secValue + ((partsIn arts a.name).map (fun b => valT g st b.name)).sum⟩) := by
  have hty : n.ty = a.name.ty := congrArg Prod.fst hn
  have hperm := neighbors_perm h ha hm
  have hmem : ∀ j ∈ g.full.neighbors (idOf g.lookupId a.name), ∃ b ∈ partsIn arts a.name, j = idOf g.lookupId b.name := by
    intro j hj
    obtain ⟨b, hb, e⟩ := List.mem_map.1 (hperm.mem_iff.1 hj)
    exact ⟨b, hb, e.symm⟩
  have hS : ∀ j ∈ g.full.neighbors (idOf g.lookupId a.name),
      IMap.get? st.implemented j = some ((IMap.get? st.implemented j).getD 0) := by
    intro j hj
    obtain ⟨b, hb, rfl⟩ := hmem j hj
    obtain ⟨v, hv⟩ := Option.isSome_iff_exists.1 ((hinv.hasS (idOf g.lookupId b.name)).2
      ⟨hparts b hb, b, partsIn_mem hb, rfl⟩)
    rw [hv]; rfl
  have hT : ∀ j ∈ g.full.neighbors (idOf g.lookupId a.name),
      IMap.get? st.tested j = some ((IMap.get? st.tested j).getD 0) := by
    intro j hj
    obtain ⟨b, hb, rfl⟩ := hmem j hj
    obtain ⟨v, hv⟩ := Option.isSome_iff_exists.1 ((hinv.hasT (idOf g.lookupId b.name)).2
      ⟨hparts b hb, b, partsIn_mem hb, rfl⟩)
    rw [hv]; rfl
  have hlen : (g.full.neighbors (idOf g.lookupId a.name)).length = (partsIn arts a.name).length := by
    rw [hperm.length_eq, List.length_map]
  have hsumS : ((g.full.neighbors (idOf g.lookupId a.name)).map (fun j => (IMap.get? st.implemented j).getD 0)).sum =
      ((partsIn arts a.name).map (fun b => valS g st b.name)).sum := by
    rw [(hperm.map _).sum_eq, List.map_map]; rfl
  by_cases ht : a.name.ty = .TST
  · refine ⟨_, ?_, fun _ => rfl, fun hc => absurd ht hc⟩
    unfold slots
    rw [if_pos (hty.trans ht), addPartTst_fold st _ _ _ hS]
    simp only [Res.bind_ok, Res.pure_def]
    rw [hlen, hsumS]
  · refine ⟨_, ?_, fun hc => absurd hc ht, fun _ => rfl⟩
    unfold slots
    rw [if_neg (fun hc => ht (hty.symm.trans hc))]
    let isT : Nat → Bool := fun j => match IMap.get? g.lookupName j with
      | some n => n.ty = .TST
      | none => false
    have hnm : ∀ b ∈ arts, ∃ n', IMap.get? g.lookupName (idOf g.lookupId b.name) = some n' ∧ n'.ty = b.name.ty := by
      intro b hb
      obtain ⟨n', h1, h2, _⟩ := h.get_name (ha.mentioned hb)
      exact ⟨n', h1, congrArg Prod.fst h2⟩
    rw [addPart_fold g st (fun j => (IMap.get? st.implemented j).getD 0) (fun j => (IMap.get? st.tested j).getD 0)
      isT _ _ hS hT (by
        intro j hj
        obtain ⟨b, hb, rfl⟩ := hmem j hj
        obtain ⟨n', h1, _⟩ := hnm b (partsIn_mem hb)
        exact ⟨n', h1, by simp only [isT, h1, decide_eq_true_eq]⟩)]
    have hfil : ((g.full.neighbors (idOf g.lookupId a.name)).filter (fun j => !isT j)).Perm
        (((partsIn arts a.name).filter (fun b => b.name.ty ≠ .TST)).map (fun b => idOf g.lookupId b.name)) := by
      refine (hperm.filter _).trans ?_
      rw [List.filter_map]
      refine List.Perm.of_eq (congrArg _ ?_)
      apply List.filter_congr
      intro b hb
      obtain ⟨n', h1, h2⟩ := hnm b (partsIn_mem hb)
      simp [isT, h1, h2]
    have hsumT : ((g.full.neighbors (idOf g.lookupId a.name)).map (fun j => (IMap.get? st.tested j).getD 0)).sum =
        ((partsIn arts a.name).map (fun b => valT g st b.name)).sum := by
      rw [(hperm.map _).sum_eq, List.map_map]; rfl
    have hsumF : (((g.full.neighbors (idOf g.lookupId a.name)).filter (fun j => !isT j)).map
        (fun j => (IMap.get? st.implemented j).getD 0)).sum =
        (((partsIn arts a.name).filter (fun b => b.name.ty ≠ .TST)).map (fun b => valS g st b.name)).sum := by
      rw [(hfil.map _).sum_eq, List.map_map]; rfl
    rw [hfil.length_eq, List.length_map, hsumF, hlen, hsumT]

theorem EqAt.congr {a : Artifact} {S T S' T' : Name → ℚ} (h : EqAt arts a S T)
    (h0 : S' a.name = S a.name) (h0' : T' a.name = T a.name)
    (h1 : ∀ b ∈ partsIn arts a.name, S' b.name = S b.name) (h2 : ∀ b ∈ partsIn arts a.name, T' b.name = T b.name) :
    EqAt arts a S' T' := by
  have e1 : (partsIn arts a.name).map (fun b => S' b.name) = (partsIn arts a.name).map (fun b => S b.name) :=
    List.map_congr_left h1
  have e2 : (partsIn arts a.name).map (fun b => T' b.name) = (partsIn arts a.name).map (fun b => T b.name) :=
    List.map_congr_left h2
  have e3 : ((partsIn arts a.name).filter (fun b => b.name.ty ≠ .TST)).map (fun b => S' b.name) =
      ((partsIn arts a.name).filter (fun b => b.name.ty ≠ .TST)).map (fun b => S b.name) :=
    List.map_congr_left (fun b hb => h1 b (List.mem_filter.1 hb).1)
  unfold EqAt at *
  rw [e1, e2, e3, h0, h0']
  exact h

theorem complete_step (h : GraphsFor partofs g) (ha : Agrees arts partofs impls subnames) {byId : IMap Nat Impl}
    (hby : ∀ a ∈ arts, IMap.get? byId (idOf g.lookupId a.name) = some a.impl)
    {B : List Nat} {st : DoneSt} (hinv : LoopInv arts g B st) {i : Nat}
    (hi : ∃ n, Mentioned partofs n ∧ i = idOf g.lookupId n) (hiB : i ∉ B)
    (hparts : ∀ a ∈ arts, i = idOf g.lookupId a.name → ∀ b ∈ partsIn arts a.name, idOf g.lookupId b.name ∈ B) :
    ∃ st', completeStep g byId subnames st i = .ok st' ∧ LoopInv arts g (i :: B) st' := by
  obtain ⟨n, hn, rfl⟩ := hi
  obtain ⟨n', hget, hk, _⟩ := h.get_name hn
  by_cases hart : ∃ a ∈ arts, key a.name = key n
  · obtain ⟨a, hm, hka⟩ := hart
    have hid : idOf g.lookupId n = idOf g.lookupId a.name := (idOf_congr _ hka).symm
    rw [hid] at hiB hparts hget ⊢
    have hp := hparts a hm rfl
    obtain ⟨S, hS, hSe⟩ := ha.subs a hm
    obtain ⟨s, hs, hs1, hs2⟩ := slots_ok h ha hinv hm (n := n') (hk.trans hka.symm) hp
      (a.impl.toStatistics a.subnames)
    let st' : DoneSt :=
      { tested := IMap.insert st.tested (idOf g.lookupId a.name) (ratio s.secValue s.secCount)
        implemented := IMap.insert st.implemented (idOf g.lookupId a.name) (ratio s.value s.count) }
    have hstep : completeStep g byId subnames st (idOf g.lookupId a.name) = .ok st' := by
      unfold completeStep
      rw [index_eq_ok.2 hget]
      simp only [Res.bind_ok]
      rw [IMap.get?_congr subnames (hk.trans hka.symm), hS]
      simp only
      rw [index_eq_ok.2 (hby a hm)]
      simp only [Res.bind_ok]
      rw [← hSe, hs]; rfl
    refine ⟨st', hstep, ?_⟩
    have hne : ∀ b ∈ arts, idOf g.lookupId b.name ∈ B → idOf g.lookupId b.name ≠ idOf g.lookupId a.name :=
      fun b _ hb e => hiB (e ▸ hb)
    have hSne : ∀ b : Artifact, idOf g.lookupId b.name ≠ idOf g.lookupId a.name → valS g st' b.name = valS g st b.name := by
      intro b hb
      unfold valS
      simp only [st']
      rw [IMap.get?_insert, if_neg (fun e => hb e.symm)]
    have hTne : ∀ b : Artifact, idOf g.lookupId b.name ≠ idOf g.lookupId a.name → valT g st' b.name = valT g st b.name := by
      intro b hb
      unfold valT
      simp only [st']
      rw [IMap.get?_insert, if_neg (fun e => hb e.symm)]
    have hSa : valS g st' a.name = ratio s.value s.count := by
      unfold valS; simp only [st']; rw [IMap.get?_insert, if_pos rfl]; rfl
    have hTa : valT g st' a.name = ratio s.secValue s.secCount := by
      unfold valT; simp only [st']; rw [IMap.get?_insert, if_pos rfl]; rfl
    refine ⟨IMap.nodup_insert hinv.nodS _ _, IMap.nodup_insert hinv.nodT _ _, ?_, ?_, ?_, ?_⟩
    · intro j
      simp only [st']
      rw [IMap.get?_insert]
      by_cases hj : key (idOf g.lookupId a.name) = key j
      · rw [if_pos hj]
        have hj' : idOf g.lookupId a.name = j := hj
        subst hj'
        simp only [Option.isSome_some, List.mem_cons, true_or, true_and, true_iff]
        exact ⟨a, hm, rfl⟩
      · rw [if_neg hj, hinv.hasS]
        have hj' : ¬ j = idOf g.lookupId a.name := fun e => hj e.symm
        simp only [List.mem_cons, hj', false_or]
    · intro j
      simp only [st']
      rw [IMap.get?_insert]
      by_cases hj : key (idOf g.lookupId a.name) = key j
      · rw [if_pos hj]
        have hj' : idOf g.lookupId a.name = j := hj
        subst hj'
        simp only [Option.isSome_some, List.mem_cons, true_or, true_and, true_iff]
        exact ⟨a, hm, rfl⟩
      · rw [if_neg hj, hinv.hasT]
        have hj' : ¬ j = idOf g.lookupId a.name := fun e => hj e.symm
        simp only [List.mem_cons, hj', false_or]
    · intro c hc hcB b hb
      rw [List.mem_cons] at hcB ⊢
      rcases hcB with e | hcB
      · have : key c.name = key a.name := h.id_inj (ha.mentioned hc) (ha.mentioned hm) e
        have hca := nodup_map_inj ha.nodup c hc a hm this
        subst hca
        exact Or.inr (hp b hb)
      · exact Or.inr (hinv.closed c hc hcB b hb)
    · intro c hc hcB
      rw [List.mem_cons] at hcB
      rcases hcB with e | hcB
      · have : key c.name = key a.name := h.id_inj (ha.mentioned hc) (ha.mentioned hm) e
        have hca := nodup_map_inj ha.nodup c hc a hm this
        subst hca
        have e1 : (partsIn arts c.name).map (fun b => valS g st' b.name) =
            (partsIn arts c.name).map (fun b => valS g st b.name) :=
          List.map_congr_left (fun b hb => hSne b (hne b (partsIn_mem hb) (hp b hb)))
        have e2 : (partsIn arts c.name).map (fun b => valT g st' b.name) =
            (partsIn arts c.name).map (fun b => valT g st b.name) :=
          List.map_congr_left (fun b hb => hTne b (hne b (partsIn_mem hb) (hp b hb)))
        have e3 : ((partsIn arts c.name).filter (fun b => b.name.ty ≠ .TST)).map (fun b => valS g st' b.name) =
            ((partsIn arts c.name).filter (fun b => b.name.ty ≠ .TST)).map (fun b => valS g st b.name) :=
          List.map_congr_left (fun b hb => by
            have hb' := (List.mem_filter.1 hb).1
            exact hSne b (hne b (partsIn_mem hb') (hp b hb')))
        unfold EqAt
        rw [e1, e2, e3, hSa, hTa]
        refine ⟨fun ht => ?_, fun ht => ?_⟩
        · rw [hs1 ht, toStatistics_eq]
          simp only
          refine ⟨ratio_eq_avg _ _ _ _ rfl (by rw [List.length_map]), trivial⟩
        · rw [hs2 ht, toStatistics_eq]
          simp only
          exact ⟨ratio_eq_avg _ _ _ _ rfl (by rw [List.length_map]), ratio_eq_avg _ _ _ _ rfl (by rw [List.length_map])⟩
      · refine (hinv.eqs c hc hcB).congr (hSne c (hne c hc hcB)) (hTne c (hne c hc hcB)) ?_ ?_
        · intro b hb; exact hSne b (hne b (partsIn_mem hb) (hinv.closed c hc hcB b hb))
        · intro b hb; exact hTne b (hne b (partsIn_mem hb) (hinv.closed c hc hcB b hb))
  · refine ⟨st, ?_, ?_⟩
    · unfold completeStep
      rw [index_eq_ok.2 hget]
      simp only [Res.bind_ok]
      have : IMap.get? subnames n' = none := by
        cases hg : IMap.get? subnames n' with
        | none => rfl
        | some S =>
          obtain ⟨a, hm, e⟩ := ha.only n' (Or.inr (Or.inr (by unfold IMap.contains; rw [hg]; rfl)))
          exact absurd ⟨a, hm, e.trans hk⟩ hart
      rw [this]; rfl
    · have hno : ∀ a ∈ arts, idOf g.lookupId a.name ≠ idOf g.lookupId n := fun a hm e =>
        hart ⟨a, hm, h.id_inj (ha.mentioned hm) hn e⟩
      refine ⟨hinv.nodS, hinv.nodT, ?_, ?_, ?_, ?_⟩
      · intro j
        rw [hinv.hasS, List.mem_cons]
        constructor
        · rintro ⟨h1, h2⟩; exact ⟨Or.inr h1, h2⟩
        · rintro ⟨rfl | h1, a, hm, e⟩
          · exact absurd e.symm (hno a hm)
          · exact ⟨h1, a, hm, e⟩
      · intro j
        rw [hinv.hasT, List.mem_cons]
        constructor
        · rintro ⟨h1, h2⟩; exact ⟨Or.inr h1, h2⟩
        · rintro ⟨rfl | h1, a, hm, e⟩
          · exact absurd e.symm (hno a hm)
          · exact ⟨h1, a, hm, e⟩
      · intro c hc hcB b hb
        rw [List.mem_cons] at hcB ⊢
        rcases hcB with e | hcB
        · exact absurd e (hno c hc)
        · exact Or.inr (hinv.closed c hc hcB b hb)
      · intro c hc hcB
        rw [List.mem_cons] at hcB
        rcases hcB with e | hcB
        · exact absurd e (hno c hc)
        · exact hinv.eqs c hc hcB

theorem complete_loop (h : GraphsFor partofs g) (ha : Agrees arts partofs impls subnames) {byId : IMap Nat Impl}
    (hby : ∀ a ∈ arts, IMap.get? byId (idOf g.lookupId a.name) = some a.impl)
    (todo : List Nat) : ∀ (B : List Nat) (st : DoneSt), LoopInv arts g B st →
    (∀ i ∈ todo, ∃ n, Mentioned partofs n ∧ i = idOf g.lookupId n) → todo.Nodup → (∀ i ∈ todo, i ∉ B) →
    (∀ t₁ i t₂, todo = t₁ ++ i :: t₂ → ∀ a ∈ arts, i = idOf g.lookupId a.name →
      ∀ b ∈ partsIn arts a.name, idOf g.lookupId b.name ∈ B ∨ idOf g.lookupId b.name ∈ t₁) →
    ∃ st', foldRes (completeStep g byId subnames) st todo = .ok st' ∧ LoopInv arts g (todo.reverse ++ B) st' := by
  induction todo with
  | nil => intro B st hinv _ _ _ _; exact ⟨st, rfl, hinv⟩
  | cons i l ih =>
    intro B st hinv hn hnd hB hord
    obtain ⟨st1, h1, hinv1⟩ := complete_step h ha hby hinv (hn i (by simp)) (hB i (by simp))
      (fun a hm e b hb => (hord [] i l rfl a hm e b hb).resolve_right (by simp))
    obtain ⟨st2, h2, hinv2⟩ := ih (i :: B) st1 hinv1 (fun j hj => hn j (by simp [hj])) (List.nodup_cons.1 hnd).2
      (by
        intro j hj hc
        rcases List.mem_cons.1 hc with rfl | hc
        · exact (List.nodup_cons.1 hnd).1 hj
        · exact hB j (by simp [hj]) hc)
      (by
        intro t₁ j t₂ e a hm hj b hb
        rcases hord (i :: t₁) j t₂ (by rw [e]; rfl) a hm hj b hb with hh | hh
        · exact Or.inl (List.mem_cons_of_mem _ hh)
        · rcases List.mem_cons.1 hh with e | hh
          · exact Or.inl (by rw [e]; simp)
          · exact Or.inr hh)
    refine ⟨st2, ?_, ?_⟩
    · unfold foldRes
      rw [h1]; exact h2
    · rw [List.reverse_cons, List.append_assoc]; exact hinv2

theorem split_unique {α : Type} {l t₁ t₂ s₁ s₂ : List α} {i : α} (hnd : l.Nodup) (h1 : l = t₁ ++ i :: t₂)
    (h2 : l = s₁ ++ i :: s₂) : t₁ = s₁ := by
  induction t₁ generalizing l s₁ with
  | nil =>
    cases s₁ with
    | nil => rfl
    | cons x s₁ =>
      exfalso
      rw [h1] at h2 hnd
      simp only [List.nil_append, List.cons_append, List.cons.injEq] at h2
      rw [List.nil_append, List.nodup_cons] at hnd
      exact hnd.1 (by rw [h2.2]; simp)
  | cons x t₁ ih =>
    cases s₁ with
    | nil =>
      exfalso
      rw [h1] at h2 hnd
      simp only [List.nil_append, List.cons_append, List.cons.injEq] at h2
      rw [List.cons_append, List.nodup_cons] at hnd
      exact hnd.1 (by rw [h2.1]; simp)
    | cons y s₁ =>
      rw [h1] at h2
      simp only [List.cons_append, List.cons.injEq] at h2
      have hnd' : (t₁ ++ i :: t₂).Nodup := by rw [h1] at hnd; exact (List.nodup_cons.1 hnd).2
      rw [ih hnd' rfl h2.2, h2.1]

theorem mapM'_map {ε α β : Type} {f : α → Res ε β} {f' : α → β} {l : List α} (h : ∀ a ∈ l, f a = .ok (f' a)) :
    Res.mapM' f l = .ok (l.map f') := by
  rw [Res.mapM'_eq_ok, List.forall₂_map_right_iff, List.forall₂_same]
  exact h

/-- The result of `determineCompleted` for a valid topological order, with the ratios before they are rounded. -/
theorem determineCompleted_run (h : GraphsFor partofs g) (ha : Agrees arts partofs impls subnames) {order : List Nat}
    (ht : DiGraph.TopoContract g.full (some order)) :
    ∃ cm spc tst, determineCompleted (some order) g impls subnames = .ok cm ∧ CompletionRule arts spc tst ∧
      IMap.Nodup cm ∧ (∀ n, IMap.contains cm n = true → ∃ a ∈ arts, key a.name = key n) ∧
      (∀ a ∈ arts, IMap.get? cm a.name = some ⟨roundRatio (spc (key a.name)), roundRatio (tst (key a.name))⟩) ∧
      ∃ byId st, Res.mapM' (implById g) impls = .ok byId ∧
        foldRes (completeStep g (IMap.collect byId) subnames) ⟨[], []⟩ order.reverse = .ok st ∧
        LoopInv arts g order st ∧ (∀ a ∈ arts, idOf g.lookupId a.name ∈ order) ∧
        ∀ n : Name, spc (key n) = valS g st n ∧ tst (key n) = valT g st n := by
  obtain ⟨hperm, hedge⟩ := ht
  have hnodes : List.Nodup (α := Nat) g.full.nodes := by
    have := h.wf.nodes
    unfold ISet.Nodup at this
    exact List.Nodup.of_map _ this
  have hnd : order.Nodup := hperm.nodup_iff.2 hnodes
  -- impls by id
  have hmapM : Res.mapM' (implById g) impls = .ok (impls.map (fun p => (idOf g.lookupId p.1, p.2))) := by
    apply mapM'_map
    intro p hp
    unfold implById
    obtain ⟨a, hm, hk⟩ := ha.only p.1 (Or.inr (Or.inl (IMap.contains_iff.2 ⟨p, hp, rfl⟩)))
    have hc : IMap.contains g.lookupId p.1 = true := by
      rw [h.has]
      obtain ⟨x, hx, hh⟩ := ha.mentioned hm
      exact ⟨x, hx, by rw [← hk]; exact hh⟩
    rw [index_eq_ok.2 (get?_idOf hc)]; rfl
  have hbynd : IMap.Nodup (impls.map (fun p => (idOf g.lookupId p.1, p.2))) := by
    unfold IMap.Nodup
    rw [List.map_map]
    have hin := ha.inodup
    unfold IMap.Nodup at hin
    refine List.Nodup.map_on ?_ (List.Nodup.of_map _ hin)
    intro x hx y hy e
    have men : ∀ p ∈ impls, Mentioned partofs p.1 := by
      intro p hp
      obtain ⟨a, hm, hk⟩ := ha.only p.1 (Or.inr (Or.inl (IMap.contains_iff.2 ⟨p, hp, rfl⟩)))
      obtain ⟨x, hx, hh⟩ := ha.mentioned hm
      exact ⟨x, hx, by rw [← hk]; exact hh⟩
    exact nodup_map_inj hin x hx y hy (h.id_inj (men x hx) (men y hy) e)
  have hby : ∀ a ∈ arts, IMap.get? (IMap.collect (impls.map (fun p => (idOf g.lookupId p.1, p.2))))
      (idOf g.lookupId a.name) = some a.impl := by
    intro a hm
    rw [IMap.collect_of_nodup hbynd]
    obtain ⟨n, hk, hmem⟩ := IMap.mem_of_get? (ha.impl a hm)
    apply IMap.get?_of_mem hbynd
    exact List.mem_map.2 ⟨_, hmem, by rw [idOf_congr _ hk]⟩
  -- the loop
  obtain ⟨st, hst, hinv⟩ := complete_loop h ha hby order.reverse [] ⟨[], []⟩
    ⟨by simp, by simp, by simp, by simp, by simp, by simp⟩
    (by
      intro i hi
      rw [List.mem_reverse, hperm.mem_iff, h.nodes] at hi
      exact hi)
    (List.nodup_reverse.2 hnd) (by simp)
    (by
      intro t₁ i t₂ e a hm hi b hb
      right
      have hb' := hb
      unfold partsIn at hb'
      rw [List.mem_filter, decide_eq_true_eq, ← contains_partOf] at hb'
      obtain ⟨P, hP, hPq⟩ := ha.partof b hb'.1
      obtain ⟨n, hk, hmem⟩ := IMap.mem_of_get? hP
      have hc : ISet.contains P a.name = true := by rw [hPq]; exact hb'.2
      obtain ⟨q, hq, hqk⟩ := ISet.contains_iff.1 hc
      obtain ⟨l₁, l₂, l₃, ho⟩ := hedge (idOf g.lookupId a.name) (idOf g.lookupId b.name)
        ((h.edges _).2 ⟨_, hmem, q, hq, by rw [idOf_congr _ hqk, idOf_congr _ hk]⟩)
      have ho' : order.reverse = (l₃.reverse ++ idOf g.lookupId b.name :: l₂.reverse) ++
          idOf g.lookupId a.name :: l₁.reverse := by
        rw [ho]; simp
      have := split_unique (List.nodup_reverse.2 hnd) e (hi ▸ ho')
      rw [this]; simp)
  rw [List.append_nil, List.reverse_reverse] at hinv
  have hall : ∀ a ∈ arts, idOf g.lookupId a.name ∈ order := by
    intro a hm
    rw [hperm.mem_iff, h.nodes]
    exact ⟨_, ha.mentioned hm, rfl⟩
  -- the output
  have hname : ∀ p ∈ st.implemented, ∃ a ∈ arts, p.1 = idOf g.lookupId a.name ∧
      completeOut g st p = .ok (((IMap.get? g.lookupName p.1).getD a.name),
        ⟨roundRatio p.2, roundRatio (valT g st a.name)⟩) ∧
      key ((IMap.get? g.lookupName p.1).getD a.name) = key a.name ∧ p.2 = valS g st a.name := by
    intro p hp
    have hg := IMap.get?_of_mem hinv.nodS hp
    obtain ⟨_, a, hm, e⟩ := (hinv.hasS p.1).1 (by rw [hg]; rfl)
    refine ⟨a, hm, e, ?_, ?_, ?_⟩
    · obtain ⟨t, htt⟩ := Option.isSome_iff_exists.1 ((hinv.hasT p.1).2 ⟨by rw [e]; exact hall a hm, a, hm, e⟩)
      obtain ⟨n', hn', _⟩ := h.get_name (ha.mentioned hm)
      unfold completeOut
      rw [index_eq_ok.2 htt]
      rw [e, index_eq_ok.2 hn', hn']
      unfold valT
      rw [← e, htt]; rfl
    · obtain ⟨n', hn', hk, _⟩ := h.get_name (ha.mentioned hm)
      rw [e, hn']; exact hk
    · unfold valS; rw [← e, hg]; rfl
  obtain ⟨out, hout⟩ := Res.mapM'_ok_of (f := completeOut g st) (l := st.implemented)
    (fun p hp => by obtain ⟨a, _, _, h2, _⟩ := hname p hp; exact ⟨_, h2⟩)
  have hf := Res.mapM'_eq_ok.1 hout
  -- keys of the output are distinct
  have hkeys : out.map (fun p => idOf g.lookupId p.1) = st.implemented.map Prod.fst := by
    refine forall₂_map_eq hf (fun x hx y hxy => ?_)
    obtain ⟨a, hm, e, h2, h3, _⟩ := hname x hx
    rw [h2] at hxy
    rw [← Res.ok.inj hxy]
    simp only
    rw [idOf_congr _ h3, e]
  have hnodup : IMap.Nodup out := by
    have h1 : (out.map (fun p => idOf g.lookupId p.1)).Nodup := by
      rw [hkeys]; exact hinv.nodS
    unfold IMap.Nodup
    refine List.Nodup.map_on ?_ (List.Nodup.of_map _ h1)
    intro x hx y hy e
    exact nodup_map_inj h1 x hx y hy (idOf_congr _ e)
  let fk : Ty × Str → Nat := fun k => ((g.lookupId.find? (fun p => key p.1 = k)).map Prod.snd).getD 0
  have hfk : ∀ n : Name, fk (key n) = idOf g.lookupId n := by
    intro n
    unfold idOf
    rw [IMap.get?_eq_find?]
  refine ⟨out, fun k => (IMap.get? st.implemented (fk k)).getD 0, fun k => (IMap.get? st.tested (fk k)).getD 0,
    ?_, ?_, hnodup, ?_, ?_, _, st, hmapM, hst, hinv, hall, fun n => ⟨by simp only [hfk]; rfl, by simp only [hfk]; rfl⟩⟩
  · unfold determineCompleted
    simp only
    rw [hmapM]
    simp only [Res.bind_ok]
    rw [hst]
    simp only [Res.bind_ok]
    rw [hout]
    simp only [Res.bind_ok, Res.pure_def]
    rw [IMap.collect_of_nodup hnodup]
  · have hS : ∀ n : Name, (IMap.get? st.implemented (fk (key n))).getD 0 = valS g st n := fun n => by rw [hfk]; rfl
    have hT : ∀ n : Name, (IMap.get? st.tested (fk (key n))).getD 0 = valT g st n := fun n => by rw [hfk]; rfl
    refine ⟨?_, ?_, ?_, ?_⟩
    · intro a hm ht; simp only [hS]; exact ((hinv.eqs a hm (hall a hm)).1 ht).1
    · intro a hm ht; simp only [hS, hT]; exact ((hinv.eqs a hm (hall a hm)).1 ht).2
    · intro a hm ht; simp only [hS]; exact ((hinv.eqs a hm (hall a hm)).2 ht).1
    · intro a hm ht; simp only [hT]; exact ((hinv.eqs a hm (hall a hm)).2 ht).2
  · intro n hn
    obtain ⟨y, hy, hk⟩ := IMap.contains_iff.1 hn
    obtain ⟨x, hx, hxy⟩ := forall₂_mem_right hf hy
    obtain ⟨a, hm, e, h2, h3, _⟩ := hname x hx
    rw [h2] at hxy
    refine ⟨a, hm, ?_⟩
    rw [← hk, ← h3, ← Res.ok.inj hxy]
  · intro a hm
    simp only [hfk]
    obtain ⟨v, hv⟩ := Option.isSome_iff_exists.1 ((hinv.hasS (idOf g.lookupId a.name)).2 ⟨hall a hm, a, hm, rfl⟩)
    obtain ⟨i, hi, hmem⟩ := IMap.mem_of_get? hv
    have hi' : i = idOf g.lookupId a.name := hi
    subst hi'
    obtain ⟨y, hy, hxy⟩ := forall₂_mem_left hf hmem
    obtain ⟨a', hm', e, h2, h3, h4⟩ := hname _ hmem
    have : key a.name = key a'.name := h.id_inj (ha.mentioned hm) (ha.mentioned hm') e
    have haa := nodup_map_inj ha.nodup a hm a' hm' this
    subst haa
    rw [h2] at hxy
    have hy' := Res.ok.inj hxy
    rw [← IMap.get?_congr out h3]
    apply IMap.get?_of_mem hnodup
    rw [← hy'] at hy
    simp only at h4
    rw [h4] at hy
    exact hy

/-- The result of `determineCompleted` for a valid topological order. -/
theorem determineCompleted_ok (h : GraphsFor partofs g) (ha : Agrees arts partofs impls subnames) {order : List Nat}
    (ht : DiGraph.TopoContract g.full (some order)) :
    ∃ cm spc tst, determineCompleted (some order) g impls subnames = .ok cm ∧ CompletionRule arts spc tst ∧
      IMap.Nodup cm ∧ (∀ n, IMap.contains cm n = true → ∃ a ∈ arts, key a.name = key n) ∧
      ∀ a ∈ arts, IMap.get? cm a.name = some ⟨roundRatio (spc (key a.name)), roundRatio (tst (key a.name))⟩ := by
  obtain ⟨cm, spc, tst, h1, h2, h3, h4, h5, _⟩ := determineCompleted_run h ha ht
  exact ⟨cm, spc, tst, h1, h2, h3, h4, h5⟩

end Loop

end Art
