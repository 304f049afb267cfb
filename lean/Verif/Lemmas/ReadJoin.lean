import Verif.Lemmas.ReadLint

/-! # Joining does not depend on the order of arrival -/

namespace Art
open Spec

/-! ## spelling of the names in the code references -/

/-- Where the spelling in the state of `join_locations` comes from. -/
structure JoinFrom (l : List Loc) (st : JoinSt) : Prop where
  prim : ∀ p ∈ st.primary, ∃ y ∈ l, y.2.1 = p.1
  sec : ∀ p ∈ st.secondary, ∃ y ∈ l, y.2.1 = p.1
  sub : ∀ n m, IMap.get? st.secondary n = some m → ∀ x ∈ m, ∃ y ∈ l, key y.2.1 = key n ∧ y.2.2 = some x.1

theorem joinFrom_step {l : List Loc} {st : JoinSt} (h : JoinFrom l st) (y : Loc) : JoinFrom (l ++ [y]) (joinStep st y) := by
  have up : ∀ {P : Loc → Prop}, (∃ z ∈ l, P z) → ∃ z ∈ l ++ [y], P z := by
    rintro P ⟨z, hz, e⟩; exact ⟨z, by simp [hz], e⟩
  obtain ⟨loc, n, sub⟩ := y
  have hins : ∀ {β : Type} (m : IMap Name β) (b : β), (∀ p ∈ m, ∃ y ∈ l, y.2.1 = p.1) →
      ∀ p ∈ IMap.insert m n b, ∃ y ∈ l ++ [(loc, n, sub)], y.2.1 = p.1 := by
    intro β m b hm p hp
    rcases fst_insert _ _ _ _ hp with e | e
    · exact ⟨(loc, n, sub), by simp, e.symm⟩
    · obtain ⟨z, hz, e⟩ := List.mem_map.1 e
      rw [← e]; exact up (hm z hz)
  cases sub with
  | none =>
    exact ⟨hins _ _ h.prim, fun p hp => up (h.sec p hp), fun n m hg x hx => up (h.sub n m hg x hx)⟩
  | some s =>
    show JoinFrom _ (insertSecondary st n s loc)
    unfold insertSecondary
    cases hg : IMap.get? st.secondary n with
    | none =>
      refine ⟨fun p hp => up (h.prim p hp), hins _ _ h.sec, ?_⟩
      intro n' m' hg' x hx
      rw [IMap.get?_insert] at hg'
      split at hg'
      · rename_i hk
        cases hg'
        simp only [List.mem_singleton] at hx
        subst hx
        exact ⟨(loc, n, some s), by simp, hk, rfl⟩
      · exact up (h.sub n' m' hg' x hx)
    | some e =>
      refine ⟨fun p hp => up (h.prim p hp), hins _ _ h.sec, ?_⟩
      intro n' m' hg' x hx
      rw [IMap.get?_insert] at hg'
      split at hg'
      · rename_i hk
        cases hg'
        rcases fst_insert _ _ _ _ hx with e1 | e1
        · exact ⟨(loc, n, some s), by simp, hk, by rw [e1]⟩
        · obtain ⟨z, hz, e2⟩ := List.mem_map.1 e1
          obtain ⟨y, hy, k1, k2⟩ := h.sub n e hg z hz
          exact up ⟨y, hy, k1.trans hk, by rw [k2, e2]⟩
      · exact up (h.sub n' m' hg' x hx)

theorem joinFrom_fold (l : List Loc) : JoinFrom l (l.foldl joinStep ⟨[], [], []⟩) := by
  induction l using List.reverseRecOn with
  | nil => exact ⟨by simp, by simp, by simp⟩
  | append_singleton l y ih =>
    rw [List.foldl_append, List.foldl_cons, List.foldl_nil]
    exact joinFrom_step ih y

theorem joinPrimary_from (ps : IMap Name CodeLoc) : ∀ (sec : IMap Name (IMap SubName CodeLoc)) (out : IMap Name ImplCode), IMap.Nodup sec →
    (∀ p ∈ (joinPrimary ps sec out).1, p.1 ∈ ps.map Prod.fst ∨ p.1 ∈ out.map Prod.fst) ∧
    (∀ p ∈ (joinPrimary ps sec out).2, p.1 ∈ sec.map Prod.fst) := by
  induction ps with
  | nil => intro sec out _; exact ⟨fun p hp => Or.inr (List.mem_map.2 ⟨p, hp, rfl⟩), fun p hp => List.mem_map.2 ⟨p, hp, rfl⟩⟩
  | cons q ps ih =>
    intro sec out hn
    obtain ⟨m, loc⟩ := q
    obtain ⟨h1, h2⟩ := ih (IMap.remove sec m) (IMap.insert out m ⟨some loc, (IMap.get? sec m).getD []⟩) (IMap.nodup_remove hn m)
    refine ⟨fun p hp => ?_, fun p hp => ?_⟩
    · rcases h1 p hp with e | e
      · left; simp only [List.map_cons, List.mem_cons]; exact Or.inr e
      · obtain ⟨z, hz, e⟩ := List.mem_map.1 e
        rw [← e]
        rcases fst_insert _ _ _ _ hz with e | e
        · left; simp [e]
        · exact Or.inr e
    · obtain ⟨z, hz, e⟩ := List.mem_map.1 (h2 p hp)
      rw [← e]
      exact List.mem_map.2 ⟨z, ((IMap.mem_remove hn m z).1 hz).1, rfl⟩

/-- Every artifact name among the joined code references is spelled as it was scanned. -/
theorem joinLocations_from (l : List Loc) : ∀ p ∈ (joinLocations l).1, ∃ y ∈ l, y.2.1 = p.1 := by
  have h := joinFrom_fold l
  obtain ⟨wf, _⟩ := join_fold l
  have e : (joinLocations l).1 = (joinPrimary (l.foldl joinStep ⟨[], [], []⟩).primary (l.foldl joinStep ⟨[], [], []⟩).secondary []).2.foldl
      (fun out p => IMap.insert out p.1 ⟨none, p.2⟩)
      (joinPrimary (l.foldl joinStep ⟨[], [], []⟩).primary (l.foldl joinStep ⟨[], [], []⟩).secondary []).1 := rfl
  rw [e]
  obtain ⟨h1, h2⟩ := joinPrimary_from (l.foldl joinStep ⟨[], [], []⟩).primary _ [] wf.s
  revert h1 h2
  generalize (joinPrimary (l.foldl joinStep ⟨[], [], []⟩).primary (l.foldl joinStep ⟨[], [], []⟩).secondary []).1 = O
  generalize (joinPrimary (l.foldl joinStep ⟨[], [], []⟩).primary (l.foldl joinStep ⟨[], [], []⟩).secondary []).2 = R
  intro h1 h2
  have hO : ∀ p ∈ O, ∃ y ∈ l, y.2.1 = p.1 := by
    intro p hp
    rcases h1 p hp with e | e
    · obtain ⟨z, hz, e⟩ := List.mem_map.1 e
      rw [← e]; exact h.prim z hz
    · simp at e
  have hR : ∀ p ∈ R, ∃ y ∈ l, y.2.1 = p.1 := by
    intro p hp
    obtain ⟨z, hz, e⟩ := List.mem_map.1 (h2 p hp)
    rw [← e]; exact h.sec z hz
  clear e h1 h2
  induction R generalizing O with
  | nil => exact hO
  | cons r R ih =>
    refine ih (IMap.insert O r.1 ⟨none, r.2⟩) ?_ (fun p hp => hR p (List.mem_cons_of_mem _ hp))
    intro p hp
    rcases fst_insert _ _ _ _ hp with e | e
    · rw [e]; exact hR r (by simp)
    · obtain ⟨z, hz, e⟩ := List.mem_map.1 e
      rw [← e]; exact hO z hz

/-- Every subname among the joined code references is spelled as it was scanned. -/
theorem joinLocations_sub (l : List Loc) {n : Name} {c : ImplCode} (h : IMap.get? (joinLocations l).1 n = some c) :
    ∀ x ∈ c.secondary, ∃ y ∈ l, key y.2.1 = key n ∧ y.2.2 = some x.1 := by
  have hf := joinFrom_fold l
  rw [(joinLocations_get l).2] at h
  split at h
  · cases h
    intro x hx
    simp only at hx
    cases hs : IMap.get? (l.foldl joinStep ⟨[], [], []⟩).secondary n with
    | none => rw [hs] at hx; simp at hx
    | some m => rw [hs] at hx; exact hf.sub n m hs x hx
  · rename_i m _ hs
    cases h
    exact hf.sub n m hs
  · cases h

/-! ## joining without duplicates -/

theorem sameSlot_symm {x y : Loc} (h : SameSlot x y) : SameSlot y x := ⟨h.1.symm, h.2.symm⟩
theorem sameSlot_trans {x y z : Loc} (h : SameSlot x y) (h' : SameSlot y z) : SameSlot x z := ⟨h.1.trans h'.1, h.2.trans h'.2⟩

theorem slots_distinct {l : List Loc} (h : (joinLocations l).2 = []) : l.Pairwise (fun x y => ¬ SameSlot x y) := by
  by_contra hne; exact (C10_error_iff l).2 hne h

theorem slot_unique {l : List Loc} (h : (joinLocations l).2 = []) {x y : Loc} (hx : x ∈ l) (hy : y ∈ l) (hs : SameSlot x y) : x = y := by
  by_contra hne
  have : Std.Symm (fun x y : Loc => ¬ SameSlot x y) := ⟨fun _ _ h h' => h (sameSlot_symm h')⟩
  exact (slots_distinct h).forall hx hy hne hs

theorem lookup_of_get {m : IMap Name ImplCode} {n : Name} {c : ImplCode} (h : IMap.get? m n = some c) :
    lookup m n none = c.primary ∧ ∀ s, lookup m n (some s) = IMap.get? c.secondary s := by
  unfold lookup; rw [h]; exact ⟨rfl, fun _ => rfl⟩

theorem get_contains_iff (l : List Loc) (h : (joinLocations l).2 = []) (n : Name) :
    (∃ c, IMap.get? (joinLocations l).1 n = some c) ↔ ∃ y ∈ l, key y.2.1 = key n := by
  constructor
  · rintro ⟨c, hc⟩
    obtain ⟨a, hk, hm⟩ := IMap.mem_of_get? hc
    obtain ⟨y, hy, e⟩ := joinLocations_from l _ hm
    exact ⟨y, hy, by rw [e]; exact hk⟩
  · rintro ⟨y, hy, hk⟩
    have := (C10_exact l h n y.2.2 y.1).2 ⟨y, hy, ⟨hk, rfl⟩, rfl⟩
    unfold lookup at this
    cases hg : IMap.get? (joinLocations l).1 n with
    | none => rw [hg] at this; cases this
    | some c => exact ⟨c, rfl⟩

theorem mem_secondary_iff {l : List Loc} (h : (joinLocations l).2 = []) {n : Name} {c : ImplCode}
    (hc : IMap.get? (joinLocations l).1 n = some c) (x : SubName × CodeLoc) :
    x ∈ c.secondary ↔ ∃ y ∈ l, key y.2.1 = key n ∧ y.2.2 = some x.1 ∧ y.1 = x.2 := by
  obtain ⟨_, hlk⟩ := lookup_of_get hc
  obtain ⟨a, ha, hm⟩ := IMap.mem_of_get? hc
  have hnd := ((C10_no_empty l).2 a c hm).2
  have fwd : ∀ x : SubName × CodeLoc, x ∈ c.secondary → ∃ y ∈ l, key y.2.1 = key n ∧ y.2.2 = some x.1 ∧ y.1 = x.2 := by
    intro x hx
    obtain ⟨y, hy, h1, h2⟩ := joinLocations_sub l hc x hx
    have hg : IMap.get? c.secondary x.1 = some x.2 := IMap.get?_of_mem hnd hx
    rw [← hlk, C10_exact l h] at hg
    obtain ⟨z, hz, hs, e⟩ := hg
    have : z = y := slot_unique h hz hy (sameSlot_trans hs ⟨h1.symm, by rw [h2]⟩)
    subst this
    exact ⟨z, hz, h1, h2, e⟩
  refine ⟨fwd x, ?_⟩
  rintro ⟨y, hy, h1, h2, h3⟩
  have := (C10_exact l h n (some x.1) x.2).2 ⟨y, hy, ⟨h1, by rw [h2]⟩, h3⟩
  rw [hlk] at this
  obtain ⟨s, hs, hm'⟩ := IMap.mem_of_get? this
  obtain ⟨y', hy', k1, k2, k3⟩ := fwd _ hm'
  have : y' = y := slot_unique h hy' hy ⟨k1.trans h1.symm, by rw [k2, h2]; simp [hs]⟩
  subst this
  rw [h2] at k2
  have e : x.1 = s := Option.some.inj k2
  obtain ⟨x1, x2⟩ := x
  simp only at e
  rw [e]; exact hm'

theorem sortSecondary_eq {m m' : IMap SubName CodeLoc} (h : IMap.Nodup m) (h' : IMap.Nodup m') (hm : ∀ x, x ∈ m ↔ x ∈ m') :
    sortSecondary m = sortSecondary m' := by
  refine sortOn_eq_of_perm _ (perm_of_mem_iff (IMap.nodup_list h) (IMap.nodup_list h') hm) ?_
  exact nodup_map_inj h

/-- Without duplicates the order in which code references arrive matters only for the order of the result and for the spelling of the
artifact names. -/
theorem joinLocations_perm {l l' : List Loc} (hp : l.Perm l') (h : (joinLocations l).2 = []) (h' : (joinLocations l').2 = []) (n : Name) :
    (IMap.get? (joinLocations l).1 n).map ImplCode.sort = (IMap.get? (joinLocations l').1 n).map ImplCode.sort := by
  have hmem : ∀ y, y ∈ l ↔ y ∈ l' := fun y => hp.mem_iff
  have hex : (∃ c, IMap.get? (joinLocations l).1 n = some c) ↔ ∃ c, IMap.get? (joinLocations l').1 n = some c := by
    rw [get_contains_iff l h, get_contains_iff l' h']; simp only [hmem]
  cases hg : IMap.get? (joinLocations l).1 n with
  | none =>
    cases hg' : IMap.get? (joinLocations l').1 n with
    | none => rfl
    | some c' => obtain ⟨c, hc⟩ := hex.2 ⟨c', hg'⟩; rw [hg] at hc; cases hc
  | some c =>
    obtain ⟨c', hg'⟩ := hex.1 ⟨c, hg⟩
    rw [hg']
    simp only [Option.map_some, Option.some.injEq]
    obtain ⟨a, _, hm⟩ := IMap.mem_of_get? hg
    obtain ⟨a', _, hm'⟩ := IMap.mem_of_get? hg'
    have n1 := ((C10_no_empty l).2 a c hm).2
    have n2 := ((C10_no_empty l').2 a' c' hm').2
    have e1 : c.primary = c'.primary := by
      rw [← (lookup_of_get hg).1, ← (lookup_of_get hg').1]
      apply Option.ext
      intro loc
      rw [C10_exact l h, C10_exact l' h']
      simp only [hmem]
    have e2 : sortSecondary c.secondary = sortSecondary c'.secondary := by
      refine sortSecondary_eq n1 n2 fun x => ?_
      rw [mem_secondary_iff h hg, mem_secondary_iff h' hg']
      simp only [hmem]
    unfold ImplCode.sort
    rw [e1, e2]

theorem join_err_perm {l l' : List Loc} (hp : l.Perm l') : (joinLocations l).2 = [] ↔ (joinLocations l').2 = [] := by
  have h := C10_error_iff l
  have h' := C10_error_iff l'
  have : l.Pairwise (fun x y => ¬ SameSlot x y) ↔ l'.Pairwise (fun x y => ¬ SameSlot x y) :=
    hp.pairwise_iff (fun h h' => h (sameSlot_symm h'))
  constructor
  · intro e; by_contra hne; exact (h'.1 hne) (this.1 (slots_distinct e))
  · intro e; by_contra hne; exact (h.1 hne) (this.2 (slots_distinct e))

end Art
