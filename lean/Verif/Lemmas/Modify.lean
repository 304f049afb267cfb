import Verif.Model.Save
import Verif.Props.Read
import Verif.Spec.Modify

/-!
# Lemmas about checking and performing operations
-/

namespace Art
open Spec

section
variable {hash : ArtifactIm → HashIm} {dbg : ArtifactIm → Str}

/-- The ids an operation is about, new id first; none if nothing changes. -/
def opIds (hash : ArtifactIm → HashIm) (op : ArtifactOp) : List HashIm :=
  if (op.idPieces hash).newId = (op.idPieces hash).origId then []
  else (op.idPieces hash).newId.toList ++ (op.idPieces hash).origId.toList

theorem overlapId_fold (name : Name) (st : ISet HashIm × List Lint) (o : Option HashIm) :
    ∃ ls, (overlapId name st o).2 = st.2 ++ ls ∧ (∀ x, ISet.contains (overlapId name st o).1 x = true ↔ ISet.contains st.1 x = true ∨ x ∈ o.toList) ∧
      (ls = [] ↔ ∀ x ∈ o.toList, ISet.contains st.1 x = false) := by
  cases o with
  | none => exact ⟨[], by simp [overlapId], by simp [overlapId], by simp⟩
  | some id =>
    refine ⟨if ISet.contains st.1 id then [Lint.opError .idOverlap (c!"Attempting to operate twice on " ++ name.raw)] else [], ?_, ?_, ?_⟩
    · show (if _ then _ else _) = _
      split
      · rfl
      · rw [List.append_nil]
    · intro x
      unfold overlapId
      rw [ISet.contains_insert]
      show _ ∨ id = x ↔ _
      rw [Option.mem_toList, Option.some.injEq]
    · by_cases h : ISet.contains st.1 id = true
      · simp [h]
      · simp [h]

/-- The overlap check finds nothing exactly when no id occurs twice. -/
theorem overlap_fold (ops : List ArtifactOp) (st : ISet HashIm × List Lint) :
    ∃ ls, (ops.foldl (overlapStep hash) st).2 = st.2 ++ ls ∧
      (∀ x, ISet.contains (ops.foldl (overlapStep hash) st).1 x = true ↔ ISet.contains st.1 x = true ∨ x ∈ ops.flatMap (opIds hash)) ∧
      (ls = [] ↔ (ops.flatMap (opIds hash)).Nodup ∧ ∀ x ∈ ops.flatMap (opIds hash), ISet.contains st.1 x = false) := by
  induction ops generalizing st with
  | nil => exact ⟨[], by simp⟩
  | cons op ops ih =>
    obtain ⟨ls2, e2, c2, n2⟩ := ih (overlapStep hash st op)
    have step : ∃ ls, (overlapStep hash st op).2 = st.2 ++ ls ∧
        (∀ x, ISet.contains (overlapStep hash st op).1 x = true ↔ ISet.contains st.1 x = true ∨ x ∈ opIds hash op) ∧
        (ls = [] ↔ (opIds hash op).Nodup ∧ ∀ x ∈ opIds hash op, ISet.contains st.1 x = false) := by
      unfold overlapStep opIds
      by_cases he : (op.idPieces hash).newId = (op.idPieces hash).origId
      · simp only [he, if_true]; exact ⟨[], by simp⟩
      · simp only [he, if_false]
        obtain ⟨la, ea, ca, na⟩ := overlapId_fold (op.idPieces hash).name st (op.idPieces hash).newId
        obtain ⟨lb, eb, cb, nb⟩ := overlapId_fold (op.idPieces hash).name (overlapId (op.idPieces hash).name st (op.idPieces hash).newId) (op.idPieces hash).origId
        refine ⟨la ++ lb, by rw [eb, ea, List.append_assoc], fun x => by rw [cb, ca, List.mem_append, or_assoc], ?_⟩
        rw [List.append_eq_nil_iff, na, nb]
        have hca : ∀ x, ISet.contains (overlapId (op.idPieces hash).name st (op.idPieces hash).newId).1 x = false ↔
            ISet.contains st.1 x = false ∧ x ∉ (op.idPieces hash).newId.toList := by
          intro x
          rw [Bool.eq_false_iff, Ne, ca, not_or, Bool.eq_false_iff]
        simp only [hca]
        revert he
        generalize (op.idPieces hash).newId = n
        generalize (op.idPieces hash).origId = o
        intro he
        cases n <;> cases o <;> simp_all
        rintro - -
        exact fun h => he h.symm
    obtain ⟨ls1, e1, c1, n1⟩ := step
    refine ⟨ls1 ++ ls2, by rw [List.foldl_cons, e2, e1, List.append_assoc], ?_, ?_⟩
    · intro x
      rw [List.foldl_cons, c2, c1, List.flatMap_cons, List.mem_append, or_assoc]
    · rw [List.append_eq_nil_iff, n1, n2, List.flatMap_cons, List.nodup_append]
      have hc1 : ∀ x, ISet.contains (overlapStep hash st op).1 x = false ↔ ISet.contains st.1 x = false ∧ x ∉ opIds hash op := by
        intro x
        rw [Bool.eq_false_iff, Ne, c1, not_or, Bool.eq_false_iff]
      simp only [hc1, List.mem_append]
      constructor
      · rintro ⟨⟨a1, a2⟩, b1, b2⟩
        refine ⟨⟨a1, b1, ?_⟩, ?_⟩
        · rintro x hx y hy rfl; exact (b2 x hy).2 hx
        · rintro x (hx | hx)
          · exact a2 x hx
          · exact (b2 x hx).1
      · rintro ⟨⟨a1, b1, d⟩, a2⟩
        exact ⟨⟨a1, fun x hx => a2 x (Or.inl hx)⟩, b1, fun x hx => ⟨a2 x (Or.inr hx), fun hx' => d x hx' x hx rfl⟩⟩

theorem mem_opIds {op : ArtifactOp} {id : HashIm} :
    id ∈ opIds hash op ↔ ¬ Idle hash op ∧ (Presents op id ∨ ∃ a, Brings op a ∧ hash a = id) := by
  unfold opIds Idle Presents Brings
  cases op with
  | create a => simp [ArtifactOp.idPieces, eq_comm]
  | update a i =>
    by_cases h : hash a = i
    · subst h; simp [ArtifactOp.idPieces]
    · have h' : ¬ i = hash a := fun e => h e.symm
      simp only [ArtifactOp.idPieces, Option.some.injEq, h, if_false, Option.toList_some, List.cons_append, List.nil_append, List.mem_cons,
        List.not_mem_nil, or_false, reduceCtorEq, ArtifactOp.update.injEq, false_or, exists_false]
      constructor
      · rintro (rfl | rfl)
        · exact ⟨fun ⟨b, e, e'⟩ => h' (e' ▸ e ▸ rfl), Or.inr ⟨a, ⟨i, rfl, rfl⟩, rfl⟩⟩
        · exact ⟨fun ⟨b, e, e'⟩ => h' (e' ▸ e ▸ rfl), Or.inl ⟨a, rfl, rfl⟩⟩
      · rintro ⟨_, ⟨b, rfl, rfl⟩ | ⟨b, ⟨j, rfl, rfl⟩, rfl⟩⟩
        · exact Or.inr rfl
        · exact Or.inl rfl
  | delete n i => simp [ArtifactOp.idPieces, eq_comm]

theorem broughtIn_cons {op : ArtifactOp} {ops : List ArtifactOp} {id : HashIm} :
    BroughtIn hash (op :: ops) id ↔ (¬ Idle hash op ∧ ∃ a, Brings op a ∧ hash a = id) ∨ BroughtIn hash ops id := by
  unfold BroughtIn; simp

theorem takenOut_cons {op : ArtifactOp} {ops : List ArtifactOp} {id : HashIm} :
    TakenOut hash (op :: ops) id ↔ (¬ Idle hash op ∧ Presents op id) ∨ TakenOut hash ops id := by
  unfold TakenOut; simp

theorem mem_flatMap_opIds {ops : List ArtifactOp} {id : HashIm} :
    id ∈ ops.flatMap (opIds hash) ↔ TakenOut hash ops id ∨ BroughtIn hash ops id := by
  unfold TakenOut BroughtIn
  simp only [List.mem_flatMap, mem_opIds]
  constructor
  · rintro ⟨op, h, hi, h' | h'⟩
    · exact Or.inl ⟨op, h, hi, h'⟩
    · exact Or.inr ⟨op, h, hi, h'⟩
  · rintro (⟨op, h, hi, h'⟩ | ⟨op, h, hi, h'⟩)
    · exact ⟨op, h, hi, Or.inl h'⟩
    · exact ⟨op, h, hi, Or.inr h'⟩

theorem presents_create {a : ArtifactIm} {id : HashIm} : ¬ Presents (.create a) id := by rintro (⟨_, h⟩ | ⟨_, h⟩) <;> cases h
theorem presents_update {a : ArtifactIm} {i id : HashIm} : Presents (.update a i) id ↔ id = i :=
  ⟨by rintro (⟨_, h⟩ | ⟨_, h⟩) <;> cases h; rfl, by rintro rfl; exact Or.inl ⟨a, rfl⟩⟩
theorem presents_delete {n : Name} {i id : HashIm} : Presents (.delete n i) id ↔ id = i :=
  ⟨by rintro (⟨_, h⟩ | ⟨_, h⟩) <;> cases h; rfl, by rintro rfl; exact Or.inr ⟨n, rfl⟩⟩
theorem brings_create {a b : ArtifactIm} : Brings (.create a) b ↔ b = a :=
  ⟨by rintro (h | ⟨_, h⟩) <;> cases h; rfl, by rintro rfl; exact Or.inl rfl⟩
theorem brings_update {a b : ArtifactIm} {i : HashIm} : Brings (.update a i) b ↔ b = a :=
  ⟨by rintro (h | ⟨_, h⟩) <;> cases h; rfl, by rintro rfl; exact Or.inr ⟨i, rfl⟩⟩
theorem brings_delete {n : Name} {b : ArtifactIm} {i : HashIm} : ¬ Brings (.delete n i) b := by rintro (h | ⟨_, h⟩) <;> cases h

/-! ## one operation -/

/-- What one operation does to the ids. -/
theorem performOp_ids {m : IMap HashIm ArtifactIm} (hn : IMap.Nodup m) (ls : List Lint) (op : ArtifactOp) :
    ∃ new, (performOp hash dbg (ls, m) op).1 = ls ++ new ∧
      (new = [] ↔ (∀ id, Presents op id → IMap.contains m id = true) ∧ ∀ a, op = .create a → IMap.contains m (hash a) = false) ∧
      (∀ d ∈ new, d.level = .error) ∧
      IMap.Nodup (performOp hash dbg (ls, m) op).2 ∧
      (∀ e ∈ (performOp hash dbg (ls, m) op).2, e ∈ m ∨ (Brings op e.2 ∧ e.1 = hash e.2)) ∧
      (new = [] → ∀ id, IMap.contains (performOp hash dbg (ls, m) op).2 id = true ↔
        (∃ a, Brings op a ∧ hash a = id) ∨ (IMap.contains m id = true ∧ ¬ Presents op id)) := by
  have hins : ∀ {m : IMap HashIm ArtifactIm} (a : ArtifactIm), IMap.Nodup m →
      IMap.Nodup (IMap.insert m (hash a) a) ∧ (∀ e ∈ IMap.insert m (hash a) a, e ∈ m ∨ e = (hash a, a)) ∧
      ∀ id, IMap.contains (IMap.insert m (hash a) a) id = true ↔ id = hash a ∨ IMap.contains m id = true := by
    intro m a hm
    refine ⟨IMap.nodup_insert hm _ _, ?_, ?_⟩
    · intro e he
      have hg := IMap.get?_of_mem (IMap.nodup_insert hm (hash a) a) (a := e.1) (b := e.2) he
      rw [IMap.get?_insert] at hg
      split at hg
      · rename_i hk
        have hk' : hash a = e.1 := hk
        cases hg
        right; exact Prod.ext hk'.symm rfl
      · obtain ⟨b, hb, hm'⟩ := IMap.mem_of_get? hg
        have : b = e.1 := hb
        subst this
        exact Or.inl hm'
    · intro id
      rw [IMap.contains_insert]
      exact or_congr_left eq_comm
  have hrem : ∀ id0 id, IMap.contains (IMap.remove m id0) id = true ↔ IMap.contains m id = true ∧ id ≠ id0 := by
    intro id0 id
    rw [IMap.contains_iff, IMap.contains_iff]
    simp only [IMap.mem_remove hn]
    constructor
    · rintro ⟨p, ⟨hp, hk⟩, e⟩
      refine ⟨⟨p, hp, e⟩, fun e' => hk ?_⟩
      rw [e, e']
    · rintro ⟨⟨p, hp, e⟩, hne⟩
      exact ⟨p, ⟨hp, fun e' => hne (e.symm.trans e')⟩, e⟩
  cases op with
  | create a =>
    have hc : ∀ d ∈ (match IMap.get? m (hash a) with
      | some old => [Lint.opError .createExists (c!"Attempting to create an artifact which already exists: " ++ dbg old)]
      | none => []), d.level = .error := by
      intro d hd
      split at hd
      · rw [List.mem_singleton] at hd; subst hd; rfl
      · cases hd
    refine ⟨match IMap.get? m (hash a) with
      | some old => [Lint.opError .createExists (c!"Attempting to create an artifact which already exists: " ++ dbg old)]
      | none => [], ?_, ?_, hc, (hins a hn).1, ?_, ?_⟩
    · simp only [performOp]
      cases IMap.get? m (hash a) with
      | none => simp
      | some _ => rfl
    · have hiff : IMap.contains m (hash a) = false ↔ IMap.get? m (hash a) = none := by
        unfold IMap.contains; simp
      simp only [Presents, reduceCtorEq, exists_false, or_self, false_imp_iff, implies_true, true_and, ArtifactOp.create.injEq, forall_eq', hiff]
      cases IMap.get? m (hash a) <;> simp
    · intro e he
      rcases (hins a hn).2.1 e he with h | h
      · exact Or.inl h
      · subst h; exact Or.inr ⟨Or.inl rfl, rfl⟩
    · intro _ id
      refine ((hins a hn).2.2 id).trans ?_
      simp only [brings_create, presents_create, exists_eq_left, not_false_eq_true, and_true]
      exact or_congr_left eq_comm
  | update a id0 =>
    simp only [performOp]
    by_cases h : IMap.contains m id0 = true
    · simp only [h, if_true]
      have hnr := IMap.nodup_remove hn id0
      refine ⟨[], by simp, ?_, by simp, (hins a hnr).1, ?_, ?_⟩
      · simp [Presents, h]
      · intro e he
        rcases (hins a hnr).2.1 e he with h | h
        · exact Or.inl ((IMap.mem_remove hn _ _).1 h).1
        · subst h; exact Or.inr ⟨Or.inr ⟨_, rfl⟩, rfl⟩
      · intro _ id
        refine ((hins a hnr).2.2 id).trans ?_
        rw [hrem]
        simp only [brings_update, presents_update, exists_eq_left]
        exact or_congr_left eq_comm
    · simp only [h]
      refine ⟨_, rfl, ?_, ?_, hn, fun e he => Or.inl he, ?_⟩
      · simp [Presents, h]
      · intro d hd; rw [List.mem_singleton] at hd; subst hd; rfl
      · intro h; cases h
  | delete n id0 =>
    simp only [performOp]
    by_cases h : IMap.contains m id0 = true
    · simp only [h, if_true]
      refine ⟨[], by simp, ?_, by simp, IMap.nodup_remove hn id0, ?_, ?_⟩
      · simp [Presents, h]
      · intro e he
        exact Or.inl ((IMap.mem_remove hn _ _).1 he).1
      · intro _ id
        refine (hrem id0 id).trans ?_
        simp only [brings_delete, presents_delete, false_and, exists_false, false_or, ne_eq]
    · simp only [h]
      refine ⟨_, rfl, ?_, ?_, hn, fun e he => Or.inl he, ?_⟩
      · simp [Presents, h]
      · intro d hd; rw [List.mem_singleton] at hd; subst hd; rfl
      · intro h; cases h

/-! ## all operations -/

theorem idle_update {a : ArtifactIm} {i : HashIm} : Idle hash (.update a i) ↔ i = hash a :=
  ⟨by rintro ⟨b, h⟩; cases h; rfl, by rintro rfl; exact ⟨a, rfl⟩⟩

/-- What all operations do. -/
theorem performOps_fold (ops : List ArtifactOp) : ∀ (m : IMap HashIm ArtifactIm) (ls : List Lint), IMap.Nodup m →
    ∃ new, (ops.foldl (performOp hash dbg) (ls, m)).1 = ls ++ new ∧ (∀ d ∈ new, d.level = .error) ∧
      IMap.Nodup (ops.foldl (performOp hash dbg) (ls, m)).2 ∧
      (∀ e ∈ (ops.foldl (performOp hash dbg) (ls, m)).2, e ∈ m ∨ (e.1 = hash e.2 ∧ ∃ op ∈ ops, Brings op e.2)) ∧
      (new = [] → (ops.flatMap (opIds hash)).Nodup →
        (∀ id, IMap.contains (ops.foldl (performOp hash dbg) (ls, m)).2 id = true ↔
          BroughtIn hash ops id ∨ (IMap.contains m id = true ∧ ¬ TakenOut hash ops id)) ∧
        (∀ op ∈ ops, ∀ id, Presents op id → IMap.contains m id = true ∨ (Idle hash op ∧ BroughtIn hash ops id)) ∧
        (∀ a, ArtifactOp.create a ∈ ops → IMap.contains m (hash a) = false)) ∧
      ((ops.flatMap (opIds hash)).Nodup → Unchained hash ops → (∀ op ∈ ops, ∀ id, Presents op id → IMap.contains m id = true) →
        (∀ a, ArtifactOp.create a ∈ ops → IMap.contains m (hash a) = false) → new = []) := by
  induction ops with
  | nil =>
    intro m ls hm
    refine ⟨[], by simp, by simp, hm, fun e he => Or.inl he, fun _ _ => ⟨fun id => ?_, by simp, by simp⟩, fun _ _ _ _ => rfl⟩
    simp [BroughtIn, TakenOut]
  | cons op ops ih =>
    intro m ls hm
    obtain ⟨new1, e1, n1, lv1, nd1, el1, id1⟩ := performOp_ids (dbg := dbg) (hash := hash) hm ls op
    obtain ⟨new2, e2, lv2, nd2, el2, ok2, acc2⟩ := ih (performOp hash dbg (ls, m) op).2 (ls ++ new1) nd1
    have hst : performOp hash dbg (ls, m) op = (ls ++ new1, (performOp hash dbg (ls, m) op).2) := Prod.ext e1 rfl
    rw [List.foldl_cons, hst]
    refine ⟨new1 ++ new2, by rw [e2, List.append_assoc], ?_, nd2, ?_, ?_, ?_⟩
    · intro d hd
      rcases List.mem_append.1 hd with h | h
      · exact lv1 d h
      · exact lv2 d h
    · intro e he
      rcases el2 e he with h | ⟨h1, o, ho, hb⟩
      · rcases el1 e h with h | ⟨h, h'⟩
        · exact Or.inl h
        · exact Or.inr ⟨h', op, by simp, h⟩
      · exact Or.inr ⟨h1, o, by simp [ho], hb⟩
    · intro hnil hnd
      obtain ⟨hn1, hn2⟩ := List.append_eq_nil_iff.1 hnil
      rw [List.flatMap_cons, List.nodup_append] at hnd
      obtain ⟨_, hnd2, hdis⟩ := hnd
      obtain ⟨A, B, C⟩ := ok2 hn2 hnd2
      have I := id1 hn1
      obtain ⟨P1, P2⟩ := n1.1 hn1
      -- the ids of this operation do not occur later
      have dis : ∀ id, ¬ Idle hash op → (Presents op id ∨ ∃ a, Brings op a ∧ hash a = id) → ¬ (TakenOut hash ops id ∨ BroughtIn hash ops id) :=
        fun id hi h hh => hdis id (mem_opIds.2 ⟨hi, h⟩) id (mem_flatMap_opIds.2 hh) rfl
      by_cases hidle : Idle hash op
      · -- nothing changes
        have I' : ∀ id, IMap.contains (performOp hash dbg (ls, m) op).2 id = true ↔ IMap.contains m id = true := by
          intro id
          rw [I]
          obtain ⟨a, rfl⟩ := hidle
          simp only [brings_update, presents_update, exists_eq_left]
          have := P1 (hash a) (presents_update.2 rfl)
          constructor
          · rintro (rfl | h)
            · exact this
            · exact h.1
          · intro h
            by_cases e : id = hash a
            · exact Or.inl e.symm
            · exact Or.inr ⟨h, e⟩
        refine ⟨fun id => ?_, ?_, ?_⟩
        · rw [A, I', broughtIn_cons, takenOut_cons]
          simp [hidle]
        · intro o ho id hp
          rcases List.mem_cons.1 ho with rfl | ho
          · exact Or.inl (P1 id hp)
          · rcases B o ho id hp with h | ⟨h, h'⟩
            · exact Or.inl ((I' id).1 h)
            · exact Or.inr ⟨h, broughtIn_cons.2 (Or.inr h')⟩
        · intro a ha
          rcases List.mem_cons.1 ha with h | ha
          · exact P2 a h.symm
          · have := C a ha
            rw [Bool.eq_false_iff, Ne, I'] at this
            exact Bool.eq_false_iff.2 this
      · refine ⟨fun id => ?_, ?_, ?_⟩
        · rw [A, I, broughtIn_cons, takenOut_cons]
          have d := dis id hidle
          constructor
          · rintro (h | ⟨h | ⟨h1, h2⟩, h3⟩)
            · exact Or.inl (Or.inr h)
            · exact Or.inl (Or.inl ⟨hidle, h⟩)
            · exact Or.inr ⟨h1, fun h => h.elim (fun h => h2 h.2) h3⟩
          · rintro ((⟨_, h⟩ | h) | ⟨h1, h2⟩)
            · exact Or.inr ⟨Or.inl h, fun ht => d (Or.inr h) (Or.inl ht)⟩
            · exact Or.inl h
            · exact Or.inr ⟨Or.inr ⟨h1, fun hp => h2 (Or.inl ⟨hidle, hp⟩)⟩, fun ht => h2 (Or.inr ht)⟩
        · intro o ho id hp
          rcases List.mem_cons.1 ho with rfl | ho
          · exact Or.inl (P1 id hp)
          · rcases B o ho id hp with h | ⟨h, h'⟩
            · rcases (I id).1 h with h | h
              · by_cases hio : Idle hash o
                · exact Or.inr ⟨hio, broughtIn_cons.2 (Or.inl ⟨hidle, h⟩)⟩
                · exact absurd (Or.inl ⟨o, ho, hio, hp⟩) (dis id hidle (Or.inr h))
              · exact Or.inl h.1
            · exact Or.inr ⟨h, broughtIn_cons.2 (Or.inr h')⟩
        · intro a ha
          rcases List.mem_cons.1 ha with h | ha
          · exact P2 a h.symm
          · have h := C a ha
            rw [Bool.eq_false_iff, Ne, I] at h
            rw [Bool.eq_false_iff]
            intro hc
            refine h (Or.inr ⟨hc, fun hp => ?_⟩)
            have hb : BroughtIn hash ops (hash a) := ⟨_, ha, (by rintro ⟨_, h⟩; cases h), a, brings_create.2 rfl, rfl⟩
            exact dis _ hidle (Or.inl hp) (Or.inr hb)
    · intro hnd hun hpres hcr
      have hn1 : new1 = [] := n1.2 ⟨fun id h => hpres op (by simp) id h, fun a h => hcr a (by simp [h])⟩
      rw [List.flatMap_cons, List.nodup_append] at hnd
      obtain ⟨_, hnd2, hdis⟩ := hnd
      have I := id1 hn1
      have dis : ∀ id, ¬ Idle hash op → (Presents op id ∨ ∃ a, Brings op a ∧ hash a = id) → ¬ (TakenOut hash ops id ∨ BroughtIn hash ops id) :=
        fun id hi h hh => hdis id (mem_opIds.2 ⟨hi, h⟩) id (mem_flatMap_opIds.2 hh) rfl
      rw [hn1, List.nil_append]
      refine acc2 hnd2 ?_ ?_ ?_
      · intro a ha
        have := hun a (by simp [ha])
        rw [broughtIn_cons, takenOut_cons] at this
        exact ⟨fun h => this.1 (Or.inr h), fun h => this.2 (Or.inr h)⟩
      · intro o ho id hp
        have hm' := hpres o (by simp [ho]) id hp
        rw [I]
        by_cases hpo : Presents op id
        · left
          by_cases hidle : Idle hash op
          · obtain ⟨a, rfl⟩ := hidle
            exact ⟨a, brings_update.2 rfl, (presents_update.1 hpo).symm⟩
          · exfalso
            by_cases hio : Idle hash o
            · obtain ⟨a, rfl⟩ := hio
              rw [presents_update] at hp
              subst hp
              exact (hun a (by simp [ho])).2 (takenOut_cons.2 (Or.inl ⟨hidle, hpo⟩))
            · exact dis id hidle (Or.inl hpo) (Or.inl ⟨o, ho, hio, hp⟩)
        · exact Or.inr ⟨hm', hpo⟩
      · intro a ha
        have h := hcr a (by simp [ha])
        rw [Bool.eq_false_iff, Ne, I]
        have hb : BroughtIn hash ops (hash a) := ⟨_, ha, (by rintro ⟨_, h⟩; cases h), a, brings_create.2 rfl, rfl⟩
        rintro (hx | hx)
        · by_cases hidle : Idle hash op
          · obtain ⟨b, rfl⟩ := hidle
            obtain ⟨c, hc, hce⟩ := hx
            rw [brings_update] at hc
            subst hc
            exact (hun c (by simp)).1 (by rw [hce]; exact broughtIn_cons.2 (Or.inr hb))
          · exact dis _ hidle (Or.inr hx) (Or.inr hb)
        · rw [h] at hx; cases hx.1

/-! ## the checks -/

theorem opIds_nodup (op : ArtifactOp) : (opIds hash op).Nodup := by
  unfold opIds
  split
  · exact List.nodup_nil
  · rename_i h
    revert h
    generalize (op.idPieces hash).newId = n
    generalize (op.idPieces hash).origId = o
    intro h
    cases n <;> cases o <;> simp_all

theorem noOverlap_iff (ops : List ArtifactOp) : (ops.flatMap (opIds hash)).Nodup ↔ NoOverlap hash ops := by
  rw [List.nodup_flatMap]
  constructor
  · rintro ⟨_, h⟩
    exact h.imp fun hd id h1 h2 => hd (mem_opIds.2 h1) (mem_opIds.2 h2)
  · intro h
    exact ⟨fun op _ => opIds_nodup op, h.imp fun hd id h1 h2 => hd id (mem_opIds.1 h1) (mem_opIds.1 h2)⟩

theorem checkOverlap_ok (c : Categorized) (ops : List ArtifactOp) (hc : c.error = []) :
    (checkOverlap hash c ops).1.error = [] ↔ NoOverlap hash (ops.map ArtifactOp.clean) := by
  obtain ⟨ls, e, _, n⟩ := overlap_fold (hash := hash) (ops.map ArtifactOp.clean) ([], [])
  unfold checkOverlap
  simp only [hc, List.nil_append]
  rw [e, List.nil_append, n, noOverlap_iff]
  exact and_iff_left fun x _ => rfl

theorem checkPaths_ok (c : Categorized) (s : Settings) (ops : List ArtifactOp) (hc : c.error = []) :
    (checkPaths c s ops).error = [] ↔ ∀ op ∈ ops, ∀ a, Brings op a → checkPath s a.file = none := by
  unfold checkPaths
  simp only [hc, List.nil_append, List.filterMap_eq_nil_iff]
  refine forall₂_congr fun op _ => ?_
  cases op with
  | create a =>
    simp only [ArtifactOp.file, brings_create, forall_eq]
    cases h : checkPath s a.file <;> simp [h]
  | update a i =>
    simp only [ArtifactOp.file, brings_update, forall_eq]
    cases h : checkPath s a.file <;> simp [h]
  | delete n i =>
    simp only [ArtifactOp.file]
    exact ⟨fun _ a h => absurd h brings_delete, fun _ => rfl⟩

theorem checkLints_eq (c : Categorized) (k : ModifyErrorKind) :
    checkLints c k = if c.error = [] then .ok () else .err ⟨c.sort, k⟩ := by
  unfold checkLints
  simp only [List.isEmpty_iff]

/-- How the operations are judged before the new project is put together. -/
theorem prepare_cases (c : Categorized) (p : Project) (ops : List ArtifactOp) :
    (c.error ≠ [] → ∃ e, prepare hash dbg c p ops = .err e ∧ e.kind = .invalidFromLoad) ∧
    (c.error = [] → ¬ NoOverlap hash (ops.map ArtifactOp.clean) → ∃ e, prepare hash dbg c p ops = .err e ∧ e.kind = .invalidPaths) ∧
    (c.error = [] → NoOverlap hash (ops.map ArtifactOp.clean) →
      (¬ ∀ op ∈ ops.map ArtifactOp.clean, ∀ a, Brings op a → checkPath p.settings a.file = none) →
      ∃ e, prepare hash dbg c p ops = .err e ∧ e.kind = .invalidPaths) ∧
    (c.error = [] → NoOverlap hash (ops.map ArtifactOp.clean) →
      (∀ op ∈ ops.map ArtifactOp.clean, ∀ a, Brings op a → checkPath p.settings a.file = none) →
      ((performOps hash dbg (artifactIms hash p) (ops.map ArtifactOp.clean)).1 ≠ [] →
        ∃ e, prepare hash dbg c p ops = .err e ∧ e.kind = .hashMismatch) ∧
      ((performOps hash dbg (artifactIms hash p) (ops.map ArtifactOp.clean)).1 = [] →
        prepare hash dbg c p ops = .ok (c, (performOps hash dbg (artifactIms hash p) (ops.map ArtifactOp.clean)).2.map Prod.snd))) := by
  have ho := checkOverlap_ok (hash := hash) c ops
  have h2 : (checkOverlap hash c ops).2 = ops.map ArtifactOp.clean := rfl
  unfold prepare
  simp only [checkLints_eq]
  refine ⟨fun h => ?_, fun h hn => ?_, fun h hn hp => ?_, fun h hn hp => ⟨fun hl => ?_, fun hl => ?_⟩⟩
  · rw [if_neg h]; exact ⟨_, rfl, rfl⟩
  · rw [if_pos h]
    have := mt (ho h).1 hn
    simp only [Res.bind_ok, if_neg this]
    exact ⟨_, rfl, rfl⟩
  · have h1 := (ho h).2 hn
    have h3 := mt (checkPaths_ok (checkOverlap hash c ops).1 p.settings (ops.map ArtifactOp.clean) h1).1 hp
    simp only [if_pos h, Res.bind_ok, if_pos h1, h2, if_neg h3]
    exact ⟨_, rfl, rfl⟩
  · have h1 := (ho h).2 hn
    have h3 := (checkPaths_ok (checkOverlap hash c ops).1 p.settings (ops.map ArtifactOp.clean) h1).2 hp
    simp only [if_pos h, Res.bind_ok, if_pos h1, h2, if_pos h3, h3, List.nil_append, if_neg hl]
    exact ⟨_, rfl, rfl⟩
  · have h1 := (ho h).2 hn
    have h3 := (checkPaths_ok (checkOverlap hash c ops).1 p.settings (ops.map ArtifactOp.clean) h1).2 hp
    simp only [if_pos h, Res.bind_ok, if_pos h1, h2, if_pos h3, h3, List.nil_append, if_pos hl, hl]
    refine congrArg (fun x => Res.ok (x, _)) ?_
    show (⟨[], c.other⟩ : Categorized) = c
    rw [← h]

theorem prepare_ok {c c' : Categorized} {p : Project} {ops : List ArtifactOp} {ims : List ArtifactIm}
    (h : prepare hash dbg c p ops = .ok (c', ims)) : c.error = [] ∧ c' = c ∧ NoOverlap hash (ops.map ArtifactOp.clean) ∧
      (∀ op ∈ ops.map ArtifactOp.clean, ∀ a, Brings op a → checkPath p.settings a.file = none) ∧
      (performOps hash dbg (artifactIms hash p) (ops.map ArtifactOp.clean)).1 = [] ∧
      ims = (performOps hash dbg (artifactIms hash p) (ops.map ArtifactOp.clean)).2.map Prod.snd := by
  obtain ⟨h1, h2, h3, h4⟩ := prepare_cases (hash := hash) (dbg := dbg) c p ops
  by_cases a : c.error = []
  · by_cases b : NoOverlap hash (ops.map ArtifactOp.clean)
    · by_cases d : ∀ op ∈ ops.map ArtifactOp.clean, ∀ a, Brings op a → checkPath p.settings a.file = none
      · obtain ⟨h5, h6⟩ := h4 a b d
        by_cases e : (performOps hash dbg (artifactIms hash p) (ops.map ArtifactOp.clean)).1 = []
        · rw [h6 e] at h
          cases h
          exact ⟨a, rfl, b, d, e, rfl⟩
        · obtain ⟨e, he, _⟩ := h5 e; rw [he] at h; cases h
      · obtain ⟨e, he, _⟩ := h3 a b d; rw [he] at h; cases h
    · obtain ⟨e, he, _⟩ := h2 a b; rw [he] at h; cases h
  · obtain ⟨e, he, _⟩ := h1 a; rw [he] at h; cases h

/-! ## the ids of a project -/

theorem contains_artifactIms (p : Project) (id : HashIm) : IMap.contains (artifactIms hash p) id = true ↔ ∃ a ∈ editable p, hash a = id := by
  unfold artifactIms editable
  rw [IMap.contains_collect]
  simp only [List.map_map, List.mem_map, Function.comp_apply]
  constructor
  · rintro ⟨x, ⟨y, hy, rfl⟩, h⟩
    exact ⟨_, ⟨y, hy, rfl⟩, h⟩
  · rintro ⟨a, ⟨y, hy, rfl⟩, h⟩
    exact ⟨_, ⟨y, hy, rfl⟩, h⟩

theorem mem_artifactIms (p : Project) : ∀ e ∈ artifactIms hash p, e.2 ∈ editable p ∧ e.1 = hash e.2 := by
  have key : ∀ l : List ArtifactIm, ∀ e ∈ IMap.collect (l.map (fun a => (hash a, a))), e.2 ∈ l ∧ e.1 = hash e.2 := by
    intro l
    induction l using List.reverseRecOn with
    | nil => intro e he; cases he
    | append_singleton l a ih =>
      intro e he
      rw [List.map_append, IMap.collect, List.foldl_append] at he
      have hn := IMap.nodup_collect (l.map (fun a => (hash a, a)))
      have hg := IMap.get?_of_mem (IMap.nodup_insert hn (hash a) a) (a := e.1) (b := e.2) he
      rw [IMap.get?_insert] at hg
      split at hg
      · rename_i hk
        cases hg
        exact ⟨by simp, (hk : hash e.2 = e.1).symm⟩
      · obtain ⟨b, hb, hm'⟩ := IMap.mem_of_get? hg
        have : b = e.1 := hb
        subst this
        have := ih _ hm'
        exact ⟨by simp [this.1], this.2⟩
  have := key (editable p)
  unfold editable at this
  rw [List.map_map] at this
  exact this

/-! ## the new project -/

theorem clean_toIm {a : Artifact} (h : ISet.Nodup a.partof) : CleanIm a.toIm ∧ a.toIm.clean = a.toIm := by
  obtain ⟨h1, _, h2⟩ := C05_clean { name := a.name, file := a.file, partof := a.partof, done := a.impl.doneStr, text := a.text } h
  exact ⟨h1, h2⟩

/-- Loading gives back the editable artifacts that went in. -/
theorem loads_toIm {l : List ArtifactIm} {code : IMap Name ImplCode} {arts : IMap Name Artifact} (hl : (joinArtifacts l).lints = [])
    (hn : ∀ a ∈ l, ISet.Nodup a.partof) (h : Loads hash (joinArtifacts l).arts code (joinArtifacts l).files arts) :
    arts.map (fun x => x.2.toIm) = l.map ArtifactIm.clean := by
  obtain ⟨f1, f2⟩ := C11_present _ hl
  have inp := joinArtifacts_input l
  have sp := h.spec inp
  have hfst : (joinArtifacts l).files.map Prod.fst = (joinArtifacts l).arts.map Prod.fst := by
    rw [f1, f2, List.map_map, List.map_map]; rfl
  have raw := h.raw inp hfst
  obtain ⟨m, hm1, hm2, hm3⟩ := C05_partof_shown (joinArtifacts l).arts inp.nodup
  have each : ∀ x ∈ arts, ∃ a ∈ l, x.1 = a.name ∧ x.2.toIm = a.clean := by
    intro x hx
    obtain ⟨im, hmem, hfile, hname, hpart, _⟩ := raw x hx
    obtain ⟨im', as⟩ := sp.2.2.2.2.2.1 x.2 (List.mem_map.2 ⟨x, hx, rfl⟩)
    have him : im' = im := by
      have h1 := as.mem
      rw [hname, IMap.get?_of_mem inp.nodup hmem] at h1
      exact (Option.some.inj h1).symm
    subst him
    have hmem' := hmem
    rw [f2] at hmem'
    obtain ⟨a, ha, e⟩ := List.mem_map.1 hmem'
    obtain ⟨e1, e2⟩ := Prod.mk.inj e
    subst e2
    have hfile' := hfile
    rw [f1] at hfile'
    obtain ⟨b, hb, eb⟩ := List.mem_map.1 hfile'
    obtain ⟨eb1, eb2⟩ := Prod.mk.inj eb
    have hab : b = a := by
      have hnd : (l.map (fun a => key a.name)).Nodup := by
        have := (C11_reported l).1 hl
        rw [List.Nodup, List.pairwise_map]; exact this
      exact List.inj_on_of_nodup_map hnd hb ha (by rw [eb1, e1])
    subst hab
    refine ⟨b, ha, e1.symm, ?_⟩
    obtain ⟨P, hP, _, _⟩ := hm3 _ _ hmem
    refine C05_roundtrip _ inp.nodup m hm1 x.1 b.clean hmem (by rw [← e1]; rfl) (C05_clean b (hn b ha)).1 P hP x.2
      (by rw [hname, ← e1]; rfl) eb2.symm as.text ?_ ?_
    · intro d
      rw [as.impl]
      show implOf code (x.2.name, b.clean) = _ ↔ _
      unfold implOf
      cases hd : b.clean.done with
      | none =>
        simp only [reduceCtorEq, iff_false]
        split <;> simp
      | some d' => simp [eq_comm]
    · rw [hpart]
      rw [determinePartofs_eq inp.nodup] at hm1
      have hmm := Res.ok.inj hm1
      have hP' : P = linksOf (joinArtifacts l).arts (x.1, b.clean) := by
        have hnm : IMap.Nodup m := by
          rw [← hmm]
          have := inp.nodup
          unfold IMap.Nodup at *
          simpa [Function.comp_def] using this
        have hmemm : (x.1, linksOf (joinArtifacts l).arts (x.1, b.clean)) ∈ m := by
          rw [← hmm]
          exact List.mem_map.2 ⟨_, hmem, rfl⟩
        rw [IMap.get?_of_mem hnm hmemm] at hP
        exact (Option.some.inj hP).symm
      rw [hP']
  have hfsts : arts.map Prod.fst = l.map (fun a => a.name) := by
    rw [sp.1, f1, List.map_map]; rfl
  have hlen : arts.length = l.length := by simpa using congrArg List.length hfsts
  have hnd : (l.map (fun a => key a.name)).Nodup := by
    have := (C11_reported l).1 hl
    rw [List.Nodup, List.pairwise_map]; exact this
  apply List.ext_getElem
  · simp [hlen]
  · intro i h1 h2
    simp only [List.length_map] at h1 h2
    simp only [List.getElem_map]
    obtain ⟨a, ha, ea, et⟩ := each _ (List.getElem_mem h1)
    have hi : arts[i].1 = (l[i]).name := by
      have : (arts.map Prod.fst)[i]'(by simpa using h1) = (l.map (fun a => a.name))[i]'(by simpa using h2) := by
        simp only [hfsts]
      simpa using this
    have : a = l[i] := List.inj_on_of_nodup_map hnd ha (List.getElem_mem h2) (by rw [← ea, hi])
    rw [et, this]

end

end Art
