import Verif.Model.Text
import Verif.Lemmas.IMap
import Verif.Props.Name

/-! Helper lemmas about text cleaning and automatic links. -/

namespace Art

theorem trimEnd_append_ws (s w : Str) (h : ∀ c ∈ w, isWS c = true) : trimEnd (s ++ w) = trimEnd s := by
  unfold trimEnd
  rw [List.reverse_append]
  congr 1
  have h' : ∀ c ∈ w.reverse, isWS c = true := fun c hc => h c (by simpa using hc)
  revert h'
  generalize w.reverse = v
  intro h'
  induction v with
  | nil => rfl
  | cons c v ih =>
    simp only [List.cons_append, List.dropWhile_cons]
    rw [if_pos (h' c (by simp)), ih (fun d hd => h' d (by simp [hd]))]

theorem trimEnd_split (s : Str) : ∃ w, (∀ c ∈ w, isWS c = true) ∧ s = trimEnd s ++ w := by
  refine ⟨(s.reverse.takeWhile isWS).reverse, ?_, ?_⟩
  · intro c hc
    have : c ∈ s.reverse.takeWhile isWS := by simpa using hc
    exact (List.all_eq_true.1 (List.all_takeWhile (p := isWS) (l := s.reverse))) c this
  · unfold trimEnd
    rw [← List.reverse_append, List.takeWhile_append_dropWhile, List.reverse_reverse]

theorem trimEnd_idem (s : Str) : trimEnd (trimEnd s) = trimEnd s := by
  obtain ⟨w, hw, e⟩ := trimEnd_split s
  conv_rhs => rw [e]
  rw [trimEnd_append_ws _ _ hw]

theorem trimEnd_last (s : Str) (h : trimEnd s ≠ []) : ∃ t c, trimEnd s = t ++ [c] ∧ isWS c = false := by
  unfold trimEnd at *
  cases hd : s.reverse.dropWhile isWS with
  | nil => simp [hd] at h
  | cons c t =>
    refine ⟨t.reverse, c, by simp, ?_⟩
    have := List.head?_dropWhile_not isWS s.reverse
    rw [hd] at this
    simpa using this

theorem trimEnd_of_last {t : Str} {c : Char} (h : isWS c = false) : trimEnd (t ++ [c]) = t ++ [c] := by
  unfold trimEnd
  simp [h]

theorem isWS_newline : isWS '\n' = true := by decide

theorem trimEnd_cleanText (s : Str) : trimEnd (cleanText s) = trimEnd s := by
  unfold cleanText
  simp only
  split
  · rw [trimEnd_append_ws _ _ (by simp [isWS_newline]), trimEnd_idem]
  · exact trimEnd_idem s

theorem cleanText_congr {s t : Str} (h : trimEnd s = trimEnd t) : cleanText s = cleanText t := by
  unfold cleanText; rw [h]

theorem cleanText_idem (s : Str) : cleanText (cleanText s) = cleanText s :=
  cleanText_congr (trimEnd_cleanText s)

theorem parent?_eq (n : Name) : n.parent = .ok n.parent? := by
  unfold Name.parent?
  rcases C04_parent n with ⟨_, h⟩ | ⟨_, m, _, h, _⟩ <;> rw [h]

theorem auto?_eq (n : Name) : n.autoPartof = .ok n.auto? := by
  unfold Name.auto?
  rcases C04_autoPartof n with ⟨_, h⟩ | ⟨m, h, _⟩ <;> rw [h]

/-- `q` is (up to identity) the parent or the automatic link of `n`. -/
def IsAuto (n q : Name) : Prop := (∃ p, n.parent? = some p ∧ key p = key q) ∨ (∃ p, n.auto? = some p ∧ key p = key q)

theorem contains_autoPartofOf {β : Type} (names : IMap Name β) (n q : Name) :
    ISet.contains (autoPartofOf names n) q = true ↔ IsAuto n q ∧ IMap.contains names q = true := by
  have hc : ∀ {p : Name}, key p = key q → (IMap.contains names p = true ↔ IMap.contains names q = true) := by
    intro p h; unfold IMap.contains; rw [IMap.get?_congr names h]
  have key1 : ∀ (a : ISet Name) (o : Option Name),
      ISet.contains (match o with | some p => if IMap.contains names p then ISet.insert a p else a | none => a) q = true ↔
      ISet.contains a q = true ∨ (∃ p, o = some p ∧ key p = key q) ∧ IMap.contains names q = true := by
    intro a o
    cases o with
    | none => simp
    | some p =>
      simp only [Option.some.injEq]
      split
      · rename_i hp
        rw [ISet.contains_insert]
        constructor
        · rintro (h | h)
          · exact Or.inl h
          · exact Or.inr ⟨⟨p, rfl, h⟩, (hc h).1 hp⟩
        · rintro (h | ⟨⟨p', rfl, h⟩, _⟩)
          · exact Or.inl h
          · exact Or.inr h
      · rename_i hp
        constructor
        · exact Or.inl
        · rintro (h | ⟨⟨p', rfl, h⟩, h'⟩)
          · exact h
          · exact absurd ((hc h).2 h') hp
  unfold autoPartofOf IsAuto
  refine (key1 _ _).trans ?_
  refine (or_congr_left (key1 _ _)).trans ?_
  simp only [ISet.contains, List.any_nil, Bool.false_eq_true, false_or]
  exact or_and_right.symm

theorem nodup_autoPartofOf {β : Type} (names : IMap Name β) (n : Name) : ISet.Nodup (autoPartofOf names n) := by
  unfold autoPartofOf
  have hn : ISet.Nodup ([] : ISet Name) := by simp [ISet.Nodup]
  simp only
  split <;> split <;> (try split) <;> (try split) <;>
    first | exact hn | exact ISet.nodup_insert hn _ | exact ISet.nodup_insert (ISet.nodup_insert hn _) _

theorem nodup_stripAuto {n : Name} {s : ISet Name} (h : ISet.Nodup s) : ISet.Nodup (stripAuto n s) := by
  unfold stripAuto
  simp only
  split <;> split <;> first | exact h | exact ISet.nodup_remove h _ | exact ISet.nodup_remove (ISet.nodup_remove h _) _

theorem mem_stripAuto {n : Name} {s : ISet Name} (h : ISet.Nodup s) (q : Name) :
    q ∈ stripAuto n s ↔ q ∈ s ∧ ¬ IsAuto n q := by
  unfold stripAuto IsAuto
  simp only
  cases hp : n.parent? with
  | none =>
    cases ha : n.auto? with
    | none => simp
    | some a => simp only [ISet.mem_remove h]; simp [eq_comm]
  | some p =>
    cases ha : n.auto? with
    | none => simp only [ISet.mem_remove h]; simp [eq_comm]
    | some a =>
      simp only [ISet.mem_remove (ISet.nodup_remove h p), ISet.mem_remove h]
      simp [eq_comm]
      tauto

theorem autoPartofs_eq {β : Type} {names : IMap Name β} (h : IMap.Nodup names) :
    autoPartofs names = names.map (fun p => (p.1, autoPartofOf names p.1)) := by
  unfold autoPartofs
  have := IMap.collect_of_nodup (l := names.map (fun p => (p.1, autoPartofOf names p.1))) (by
    unfold IMap.Nodup at *
    simpa [Function.comp_def] using h)
  unfold IMap.collect at this
  rw [List.foldl_map] at this
  exact this

theorem sortNames_perm (l : ISet Name) : (sortNames l).Perm l := sortOn_perm _ _

theorem nodup_keyStr {l : ISet Name} (h : ISet.Nodup l) : (l.map Name.keyStr).Nodup := by
  unfold ISet.Nodup at h
  have : l.map Name.keyStr = (l.map key).map Prod.snd := by
    rw [List.map_map]; rfl
  rw [this]
  refine List.Nodup.map_on ?_ h
  intro x hx y hy e
  obtain ⟨a, _, rfl⟩ := List.mem_map.1 hx
  obtain ⟨b, _, rfl⟩ := List.mem_map.1 hy
  exact Name.key_eq_iff.2 e

theorem nodup_of_keyStr {l : ISet Name} (h : (l.map Name.keyStr).Nodup) : ISet.Nodup l := by
  unfold ISet.Nodup
  have : l.map Name.keyStr = (l.map key).map Prod.snd := by
    rw [List.map_map]; rfl
  rw [this] at h
  exact List.Nodup.of_map _ h

theorem sortNames_eq_of_perm {l l' : ISet Name} (h : l.Perm l') (hn : ISet.Nodup l) :
    sortNames l = sortNames l' :=
  sortOn_eq_of_perm _ h (nodup_map_inj (nodup_keyStr hn))

theorem nodup_sortNames {l : ISet Name} (h : ISet.Nodup l) : ISet.Nodup (sortNames l) :=
  (ISet.nodup_perm (sortNames_perm l)).2 h

theorem ISet.nodup_toList {α κ : Type _} [HasKey α κ] {l : ISet α} (h : ISet.Nodup l) : List.Nodup l :=
  List.Nodup.of_map _ h

end Art
