import Verif.Lemmas.Join

/-!
# Property C10: no code location is silently lost or invented
-/

namespace Art.Spec

/-- Two scanned locations claim the same artifact or the same subname of the same artifact (ignoring case). -/
def SameSlot (x y : Loc) : Prop :=
  key x.2.1 = key y.2.1 ∧ x.2.2.map key = y.2.2.map key

/-- What the joined result gives as the location of an artifact or of one of its subnames. -/
def lookup (m : IMap Name ImplCode) (n : Name) (s : Option SubName) : Option CodeLoc :=
  match IMap.get? m n with
  | none => none
  | some c => match s with
    | none => c.primary
    | some s => IMap.get? c.secondary s

/-- A lint that says that slot `NAME` or `NAME.sub` is claimed twice, located at `loc`. -/
def dupLint (loc : CodeLoc) (y : Loc) : Lint :=
  ⟨.error, some loc.file, some loc.line, .parseCodeImplementations, c!"duplicate detected: " ++ y.2.1.full y.2.2⟩

end Art.Spec

namespace Art
open Spec

instance (x y : Loc) : Decidable (SameSlot x y) := by unfold SameSlot; infer_instance

theorem sameSlot_iff {x y : Loc} : SameSlot x y ↔ slotKey x.2.1 x.2.2 = slotKey y.2.1 y.2.2 := by
  unfold SameSlot slotKey; exact Prod.mk_inj.symm

theorem lookup_join (l : List Loc) (n : Name) (s : Option SubName) :
    lookup (joinLocations l).1 n s = lastLoc l (slotKey n s) := by
  obtain ⟨wf, hl⟩ := join_fold l
  rw [← hl]
  unfold lookup
  rw [(joinLocations_get l).2]
  cases s with
  | none =>
    simp only [JoinSt.look]
    cases IMap.get? (l.foldl joinStep ⟨[], [], []⟩).primary n <;>
      cases IMap.get? (l.foldl joinStep ⟨[], [], []⟩).secondary n <;> rfl
  | some s =>
    simp only [JoinSt.look]
    cases IMap.get? (l.foldl joinStep ⟨[], [], []⟩).primary n <;>
      cases IMap.get? (l.foldl joinStep ⟨[], [], []⟩).secondary n <;> rfl

theorem lastLoc_iff (l : List Loc) (y : Loc) (loc : CodeLoc) : lastLoc l (slotKey y.2.1 y.2.2) = some loc ↔
    ∃ pre x post, l = pre ++ x :: post ∧ SameSlot x y ∧ x.1 = loc ∧ ∀ z ∈ post, ¬ SameSlot z y := by
  unfold lastLoc
  rw [Option.map_eq_some_iff]
  constructor
  · rintro ⟨x, hx, rfl⟩
    rw [List.find?_eq_some_iff_append] at hx
    obtain ⟨h1, as, bs, e, h2⟩ := hx
    have e' : l = bs.reverse ++ x :: as.reverse := by
      have := congrArg List.reverse e
      simpa using this
    refine ⟨bs.reverse, x, as.reverse, e', sameSlot_iff.2 (by simpa using h1), rfl, ?_⟩
    intro z hz
    have := h2 z (by simpa using hz)
    rw [sameSlot_iff]
    simpa using this
  · rintro ⟨pre, x, post, rfl, h1, rfl, h2⟩
    refine ⟨x, ?_, rfl⟩
    rw [List.find?_eq_some_iff_append]
    refine ⟨by simpa using sameSlot_iff.1 h1, post.reverse, pre.reverse, by simp, ?_⟩
    intro z hz
    have := h2 z (by simpa using hz)
    rw [sameSlot_iff] at this
    simpa using this

theorem lastLoc_eq_none (l : List Loc) (y : Loc) : lastLoc l (slotKey y.2.1 y.2.2) = none ↔ ∀ x ∈ l, ¬ SameSlot x y := by
  unfold lastLoc
  rw [Option.map_eq_none_iff, List.find?_eq_none]
  simp [sameSlot_iff]

/-- For every artifact and subname the joined result holds the location that was scanned last for it, and nothing if none was
scanned: no location is invented, and none is lost unless a later one claims the same slot. -/
theorem C10_lookup (locs : List Loc) (n : Name) (s : Option SubName) (loc : CodeLoc) :
    lookup (joinLocations locs).1 n s = some loc ↔
      ∃ pre x post, locs = pre ++ x :: post ∧ SameSlot x (loc, n, s) ∧ x.1 = loc ∧ ∀ z ∈ post, ¬ SameSlot z (loc, n, s) := by
  rw [lookup_join]
  exact lastLoc_iff locs (loc, n, s) loc

/-- The error lints are exactly: for every claim of a slot and the next claim of the same slot, one lint at each of the two
locations, both naming the slot. -/
theorem C10_lints (locs : List Loc) (l : Lint) : l ∈ (joinLocations locs).2 ↔
    ∃ a x b y c, locs = a ++ x :: (b ++ y :: c) ∧ SameSlot x y ∧ (∀ z ∈ b, ¬ SameSlot z y) ∧
      (l = dupLint x.1 y ∨ l = dupLint y.1 y) := by
  have e : (joinLocations locs).2 = (locs.foldl joinStep ⟨[], [], []⟩).lints := rfl
  rw [e]
  clear e
  induction locs using List.reverseRecOn with
  | nil => simp
  | append_singleton locs w ih =>
    rw [join_lints, List.mem_append]
    refine (or_congr_left ih).trans ?_
    constructor
    · rintro (⟨a, x, b, y, c, rfl, h1, h2, h3⟩ | h)
      · exact ⟨a, x, b, y, c ++ [w], by simp, h1, h2, h3⟩
      · unfold dupLints at h
        cases ho : lastLoc locs (slotKey w.2.1 w.2.2) with
        | none => rw [ho] at h; simp at h
        | some o =>
          rw [ho] at h
          obtain ⟨pre, x, post, rfl, h1, rfl, h2⟩ := (lastLoc_iff _ _ _).1 ho
          refine ⟨pre, x, post, w, [], by simp, h1, h2, ?_⟩
          simpa [duplicateDetected, dupLint] using h
    · rintro ⟨a, x, b, y, c, e, h1, h2, h3⟩
      rcases List.eq_nil_or_concat c with rfl | ⟨c', v, rfl⟩
      · have e' : locs ++ [w] = (a ++ x :: b) ++ [y] := by rw [e]; simp
        obtain ⟨rfl, e2⟩ := List.append_inj' e' rfl
        simp at e2; subst e2
        right
        have := (lastLoc_iff (a ++ x :: b) w x.1).2 ⟨a, x, b, rfl, h1, rfl, h2⟩
        rw [this]
        simpa [dupLints, duplicateDetected, dupLint] using h3
      · have e' : locs ++ [w] = (a ++ x :: (b ++ y :: c')) ++ [v] := by rw [e]; simp
        obtain ⟨rfl, _⟩ := List.append_inj' e' rfl
        exact Or.inl ⟨a, x, b, y, c', rfl, h1, h2, h3⟩

/-- A duplicate error is reported exactly when some slot is claimed at least twice. -/
theorem C10_error_iff (locs : List Loc) :
    (joinLocations locs).2 ≠ [] ↔ ¬ locs.Pairwise (fun x y => ¬ SameSlot x y) := by
  have e : (joinLocations locs).2 = (locs.foldl joinStep ⟨[], [], []⟩).lints := rfl
  rw [e, not_iff_not]
  clear e
  induction locs using List.reverseRecOn with
  | nil => simp
  | append_singleton l w ih =>
    rw [join_lints, List.append_eq_nil_iff, ih, List.pairwise_append]
    have : dupLints (lastLoc l (slotKey w.2.1 w.2.2)) w = [] ↔ ∀ x ∈ l, ¬ SameSlot x w := by
      rw [← lastLoc_eq_none]
      unfold dupLints
      cases lastLoc l (slotKey w.2.1 w.2.2) <;> simp
    rw [this]
    simp

/-- Without duplicate errors nothing is lost and nothing invented: a location is retrievable exactly when it was scanned. -/
theorem C10_exact (locs : List Loc) (h : (joinLocations locs).2 = []) (n : Name) (s : Option SubName) (loc : CodeLoc) :
    lookup (joinLocations locs).1 n s = some loc ↔ ∃ x ∈ locs, SameSlot x (loc, n, s) ∧ x.1 = loc := by
  have hp : locs.Pairwise (fun x y => ¬ SameSlot x y) := by
    by_contra hne
    exact (C10_error_iff locs).2 hne h
  rw [C10_lookup]
  constructor
  · rintro ⟨pre, x, post, rfl, h1, h2, _⟩; exact ⟨x, by simp, h1, h2⟩
  · rintro ⟨x, hx, h1, h2⟩
    obtain ⟨pre, post, rfl⟩ := List.append_of_mem hx
    refine ⟨pre, x, post, rfl, h1, h2, ?_⟩
    intro z hz hs
    have := (List.pairwise_append.1 hp).2.1
    rw [List.pairwise_cons] at this
    refine this.1 z hz ?_
    unfold SameSlot at *
    exact ⟨h1.1.trans hs.1.symm, h1.2.trans hs.2.symm⟩

/-- Every entry of the result has at least one location, so an artifact never counts as implemented in code without one; entries are
distinct. -/
theorem C10_no_empty (locs : List Loc) : IMap.Nodup (joinLocations locs).1 ∧
    ∀ n c, (n, c) ∈ (joinLocations locs).1 → (c.primary.isSome = true ∨ c.secondary ≠ []) ∧ IMap.Nodup c.secondary := by
  obtain ⟨h1, h2⟩ := joinLocations_get locs
  refine ⟨h1, ?_⟩
  intro n c hc
  have hg := IMap.get?_of_mem h1 hc
  rw [h2] at hg
  obtain ⟨wf, _⟩ := join_fold locs
  have hsec : ∀ s, IMap.get? (locs.foldl joinStep ⟨[], [], []⟩).secondary n = some s → IMap.Nodup s ∧ s ≠ [] := by
    intro s hs
    obtain ⟨a, _, hm⟩ := (IMap.get?_eq_some_iff wf.s).1 hs
    exact wf.e _ hm
  split at hg
  · simp at hg; subst hg
    refine ⟨Or.inl rfl, ?_⟩
    cases hs : IMap.get? (locs.foldl joinStep ⟨[], [], []⟩).secondary n with
    | none => simp [IMap.Nodup]
    | some s => simpa using (hsec s hs).1
  · rename_i s _ hs
    simp at hg; subst hg
    exact ⟨Or.inr (hsec s hs).2, (hsec s hs).1⟩
  · cases hg

/-! Concrete: one duplicate subname, a subname before its artifact, an artifact without primary location. -/
def exLocs : List Loc :=
  [(⟨c!"/a", 1⟩, Name.lit c!"SPC-a", some ⟨c!".x"⟩), (⟨c!"/a", 2⟩, Name.lit c!"SPC-A", none),
   (⟨c!"/b", 3⟩, Name.lit c!"spc-a", some ⟨c!".X"⟩), (⟨c!"/b", 4⟩, Name.lit c!"TST-b", some ⟨c!".y"⟩)]

example : (joinLocations exLocs).2.map (fun l => (l.line, l.msg)) =
    [(some 1, c!"duplicate detected: spc-a.X"), (some 3, c!"duplicate detected: spc-a.X")] := by decide
example : lookup (joinLocations exLocs).1 (Name.lit c!"SPC-a") none = some ⟨c!"/a", 2⟩ := by decide
example : lookup (joinLocations exLocs).1 (Name.lit c!"SPC-a") (some ⟨c!".x"⟩) = some ⟨c!"/b", 3⟩ := by decide
example : (joinLocations (exLocs.drop 1)).2 = [] := by decide
example : lookup (joinLocations (exLocs.drop 1)).1 (Name.lit c!"TST-b") (some ⟨c!".y"⟩) = some ⟨c!"/b", 4⟩ := by decide

end Art
