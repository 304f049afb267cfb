import Verif.Model.Scan
import Verif.Lemmas.IMap
import Mathlib.Data.List.Induction

/-! Helper lemmas for `join_locations`. -/

namespace Art

/-- Identity of what a location implements: name and optional subname, ignoring case. -/
def slotKey (n : Name) (s : Option SubName) : (Ty × Str) × Option Str := (key n, s.map key)

/-- Location of the last entry for a slot. -/
def lastLoc (l : List Loc) (k : (Ty × Str) × Option Str) : Option CodeLoc :=
  (l.reverse.find? (fun x => slotKey x.2.1 x.2.2 = k)).map (·.1)

theorem lastLoc_snoc (l : List Loc) (y : Loc) (k) :
    lastLoc (l ++ [y]) k = if slotKey y.2.1 y.2.2 = k then some y.1 else lastLoc l k := by
  unfold lastLoc
  rw [List.reverse_append, List.reverse_singleton, List.singleton_append, List.find?_cons]
  by_cases h : slotKey y.2.1 y.2.2 = k <;> simp [h]

/-- Lookup in the state of the first loop. -/
def JoinSt.look (st : JoinSt) (n : Name) (s : Option SubName) : Option CodeLoc :=
  match s with
  | none => IMap.get? st.primary n
  | some s => (IMap.get? st.secondary n).bind (fun e => IMap.get? e s)

/-- Lints caused by one entry, given the location registered before. -/
def dupLints (orig : Option CodeLoc) (y : Loc) : List Lint :=
  match orig with
  | some o => [duplicateDetected o (y.2.1.full y.2.2), duplicateDetected y.1 (y.2.1.full y.2.2)]
  | none => []

structure JoinSt.WF (st : JoinSt) : Prop where
  p : IMap.Nodup st.primary
  s : IMap.Nodup st.secondary
  e : ∀ x ∈ st.secondary, IMap.Nodup x.2 ∧ x.2 ≠ []

theorem insert_ne_nil {α β κ : Type _} [HasKey α κ] [DecidableEq κ] (m : IMap α β) (a : α) (b : β) : IMap.insert m a b ≠ [] := by
  cases m with
  | nil => simp [IMap.insert]
  | cons p m => obtain ⟨x, y⟩ := p; simp only [IMap.insert]; split <;> simp

theorem mem_insert {α β κ : Type _} [HasKey α κ] [DecidableEq κ] {m : IMap α β} {a : α} {b : β} {p : α × β}
    (h : p ∈ IMap.insert m a b) : p ∈ m ∨ p.2 = b := by
  induction m with
  | nil => simp [IMap.insert] at h; right; rw [h]
  | cons q m ih =>
    obtain ⟨x, y⟩ := q
    simp only [IMap.insert] at h
    split at h
    · rcases List.mem_cons.1 h with rfl | h
      · exact Or.inr rfl
      · exact Or.inl (by simp [h])
    · rcases List.mem_cons.1 h with rfl | h
      · exact Or.inl (by simp)
      · rcases ih h with h | h
        · exact Or.inl (by simp [h])
        · exact Or.inr h

theorem joinStep_spec (st : JoinSt) (h : st.WF) (y : Loc) :
    (joinStep st y).WF ∧
    (joinStep st y).lints = st.lints ++ dupLints (st.look y.2.1 y.2.2) y ∧
    ∀ n s, (joinStep st y).look n s = if slotKey y.2.1 y.2.2 = slotKey n s then some y.1 else st.look n s := by
  obtain ⟨loc, m, sub⟩ := y
  cases sub with
  | none =>
    simp only [joinStep]
    refine ⟨⟨IMap.nodup_insert h.p _ _, h.s, h.e⟩, ?_, ?_⟩
    · simp only [JoinSt.look, dupLints]
      cases IMap.get? st.primary m <;> rfl
    · intro n s
      cases s with
      | none => simp [JoinSt.look, slotKey, IMap.get?_insert]
      | some s => simp [JoinSt.look, slotKey]
  | some sub =>
    simp only [joinStep, insertSecondary]
    cases hg : IMap.get? st.secondary m with
    | none =>
      simp only
      refine ⟨⟨h.p, IMap.nodup_insert h.s _ _, ?_⟩, ?_, ?_⟩
      · intro x hx
        rcases mem_insert hx with hx | hx
        · exact h.e x hx
        · rw [hx]; simp [IMap.Nodup]
      · simp [JoinSt.look, hg, dupLints]
      · intro n s
        cases s with
        | none => simp [JoinSt.look, slotKey]
        | some s =>
          simp only [JoinSt.look, slotKey, IMap.get?_insert, Option.map_some, Prod.mk.injEq, Option.some.injEq]
          by_cases hk : key m = key n
          · rw [if_pos hk, ← IMap.get?_congr st.secondary hk, hg]
            simp [IMap.get?, hk]
          · simp [hk]
    | some e =>
      obtain ⟨a', hk', hmem⟩ := (IMap.get?_eq_some_iff h.s).1 hg
      have he := h.e _ hmem
      refine ⟨⟨h.p, IMap.nodup_insert h.s _ _, ?_⟩, ?_, ?_⟩
      · intro x hx
        rcases mem_insert hx with hx | hx
        · exact h.e x hx
        · rw [hx]; exact ⟨IMap.nodup_insert he.1 _ _, insert_ne_nil _ _ _⟩
      · simp only [JoinSt.look, hg, Option.bind_some, dupLints]
        cases IMap.get? e sub <;> rfl
      · intro n s
        cases s with
        | none => simp [JoinSt.look, slotKey]
        | some s =>
          simp only [JoinSt.look, slotKey, IMap.get?_insert, Option.map_some, Prod.mk.injEq, Option.some.injEq]
          by_cases hk : key m = key n
          · rw [if_pos hk, ← IMap.get?_congr st.secondary hk, hg]
            simp only [Option.bind_some, IMap.get?_insert, hk, true_and]
          · simp [hk]

theorem join_fold (l : List Loc) :
    (l.foldl joinStep ⟨[], [], []⟩).WF ∧
    (∀ n s, (l.foldl joinStep ⟨[], [], []⟩).look n s = lastLoc l (slotKey n s)) := by
  induction l using List.reverseRecOn with
  | nil =>
    refine ⟨⟨by simp [IMap.Nodup], by simp [IMap.Nodup], by simp⟩, ?_⟩
    intro n s; cases s <;> simp [JoinSt.look, lastLoc]
  | append_singleton l y ih =>
    rw [List.foldl_append, List.foldl_cons, List.foldl_nil]
    obtain ⟨h1, _, h3⟩ := joinStep_spec _ ih.1 y
    refine ⟨h1, ?_⟩
    intro n s
    rw [h3, lastLoc_snoc, ih.2]

theorem join_lints (l : List Loc) (y : Loc) :
    ((l ++ [y]).foldl joinStep ⟨[], [], []⟩).lints =
      (l.foldl joinStep ⟨[], [], []⟩).lints ++ dupLints (lastLoc l (slotKey y.2.1 y.2.2)) y := by
  rw [List.foldl_append, List.foldl_cons, List.foldl_nil]
  obtain ⟨h1, h2⟩ := join_fold l
  rw [(joinStep_spec _ h1 y).2.1, h2]

theorem joinPrimary_spec (ps : IMap Name CodeLoc) (hp : IMap.Nodup ps) (sec : IMap Name (IMap SubName CodeLoc)) (hs : IMap.Nodup sec)
    (out : IMap Name ImplCode) (ho : IMap.Nodup out) (hd : ∀ n, IMap.contains ps n = true → IMap.contains out n = false) :
    IMap.Nodup (joinPrimary ps sec out).1 ∧ IMap.Nodup (joinPrimary ps sec out).2 ∧
    (∀ n, IMap.get? (joinPrimary ps sec out).1 n = match IMap.get? ps n with
      | some loc => some ⟨some loc, (IMap.get? sec n).getD []⟩
      | none => IMap.get? out n) ∧
    (∀ n, IMap.get? (joinPrimary ps sec out).2 n = if IMap.contains ps n then none else IMap.get? sec n) := by
  induction ps generalizing sec out with
  | nil => exact ⟨ho, hs, fun n => rfl, fun n => rfl⟩
  | cons p ps ih =>
    obtain ⟨m, loc⟩ := p
    rw [IMap.nodup_cons] at hp
    have hnot : ∀ n, key m = key n → IMap.get? ps n = none := by
      intro n hk
      rw [IMap.get?_eq_none]
      intro q hq; rw [← hk]; exact hp.1 q hq
    have hd' : ∀ n, IMap.contains ps n = true → IMap.contains (IMap.insert out m ⟨some loc, (IMap.get? sec m).getD []⟩) n = false := by
      intro n hn
      have hne : key m ≠ key n := by
        intro e; have := hnot n e; simp [IMap.contains, this] at hn
      have : IMap.contains out n = false := hd n (by simp [IMap.contains, IMap.get?, hne]; simpa [IMap.contains] using hn)
      simpa [IMap.contains, IMap.get?_insert, hne] using this
    obtain ⟨i1, i2, i3, i4⟩ := ih hp.2 (IMap.remove sec m) (IMap.nodup_remove hs m) _ (IMap.nodup_insert ho _ _) hd'
    refine ⟨i1, i2, ?_, ?_⟩
    · intro n
      simp only [joinPrimary, i3, IMap.get?, IMap.get?_insert, IMap.get?_remove hs]
      by_cases hk : key m = key n
      · simp [hk, hnot n hk, IMap.get?_congr sec hk]
      · simp [hk]
    · intro n
      simp only [joinPrimary, i4, IMap.contains, IMap.get?, IMap.get?_remove hs]
      by_cases hk : key m = key n
      · simp [hk]
      · simp [hk]

theorem map_none_eq (sec : IMap Name (IMap SubName CodeLoc)) (out : IMap Name ImplCode) :
    sec.foldl (fun out p => IMap.insert out p.1 ⟨none, p.2⟩) out =
      (sec.map (fun p => (p.1, (⟨none, p.2⟩ : ImplCode)))).foldl (fun m p => IMap.insert m p.1 p.2) out := by
  rw [List.foldl_map]

theorem joinLocations_get (l : List Loc) :
    IMap.Nodup (joinLocations l).1 ∧
    ∀ n, IMap.get? (joinLocations l).1 n =
      match IMap.get? (l.foldl joinStep ⟨[], [], []⟩).primary n, IMap.get? (l.foldl joinStep ⟨[], [], []⟩).secondary n with
      | some loc, s => some ⟨some loc, s.getD []⟩
      | none, some s => some ⟨none, s⟩
      | none, none => none := by
  obtain ⟨wf, _⟩ := join_fold l
  obtain ⟨i1, i2, i3, i4⟩ := joinPrimary_spec _ wf.p _ wf.s [] (by simp [IMap.Nodup]) (by simp [IMap.contains])
  have e : (joinLocations l).1 = ((joinPrimary (l.foldl joinStep ⟨[], [], []⟩).primary (l.foldl joinStep ⟨[], [], []⟩).secondary []).2.map
      (fun p => (p.1, (⟨none, p.2⟩ : ImplCode)))).foldl (fun m p => IMap.insert m p.1 p.2)
      (joinPrimary (l.foldl joinStep ⟨[], [], []⟩).primary (l.foldl joinStep ⟨[], [], []⟩).secondary []).1 := by
    rw [← map_none_eq]; rfl
  rw [e]
  revert i1 i2 i3 i4
  generalize (l.foldl joinStep ⟨[], [], []⟩).primary = P
  generalize (l.foldl joinStep ⟨[], [], []⟩).secondary = S
  generalize (joinPrimary P S []).1 = O
  generalize (joinPrimary P S []).2 = R
  intro i1 i2 i3 i4
  refine ⟨IMap.foldl_insert_nodup _ _ i1, ?_⟩
  intro n
  rw [IMap.get?_foldl_insert, i3]
  have hR : ((R.map (fun p => (p.1, (⟨none, p.2⟩ : ImplCode)))).reverse.find? (fun p => key p.1 = key n)).map (·.2) =
      (IMap.get? R n).map (fun s => (⟨none, s⟩ : ImplCode)) := by
    have hn : IMap.Nodup R.reverse := (IMap.nodup_perm (List.reverse_perm R)).2 i2
    rw [← IMap.get?_perm (List.reverse_perm R) hn, IMap.get?_eq_find?, ← List.map_reverse, List.find?_map, Option.map_map, Option.map_map]
    rfl
  rw [hR, i4]
  unfold IMap.contains
  cases IMap.get? P n with
  | some loc => simp
  | none => cases IMap.get? S n <;> simp

end Art
