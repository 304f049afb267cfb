import Verif.Props.Depends
import Verif.Props.Read

/-!
# Cases: what completion depends on
The theorems of `Props/Depends.lean` applied to projects read from concrete disks.
-/

namespace Art.Depends
open Spec

/-- `SameOwn`, computed. -/
def ownNow (a a' : Artifact) : Bool :=
  match a.impl, a'.impl with
  | .done _, .done _ => true
  | .code c, .code c' => c.primary.isSome == c'.primary.isSome && decide ((marks c a.subnames).Perm (marks c' a'.subnames))
  | .notImpl, .notImpl => a.subnames.length == a'.subnames.length
  | _, _ => false

/-- `InBoth`, computed. -/
def bothNow (as' : List Artifact) (a : Artifact) : Bool :=
  as'.any fun a' => decide (key a'.name = key a.name) && ownNow a a' && decide (a.partof.map key = a'.partof.map key)

theorem ownNow_own {a a' : Artifact} (h : ownNow a a' = true) : SameOwn a a' := by
  unfold ownNow at h
  split at h
  · rename_i d d' e e'; exact .inl ⟨_, _, e, e'⟩
  · rename_i c c' e e'
    simp only [Bool.and_eq_true, beq_iff_eq, decide_eq_true_eq] at h
    exact .inr (.inl ⟨_, _, e, e', h.1, h.2⟩)
  · rename_i e e'
    exact .inr (.inr ⟨e, e', by simpa using h⟩)
  · cases h

theorem bothNow_both {as' : List Artifact} {a : Artifact} (h : bothNow as' a = true) : InBoth as' a := by
  obtain ⟨a', ha', h⟩ := List.any_eq_true.1 h
  simp only [Bool.and_eq_true, decide_eq_true_eq] at h
  refine ⟨a', ha', h.1.1, ownNow_own h.1.2, fun n => ?_⟩
  have e : ∀ b : Artifact, PartOf b n ↔ key n ∈ b.partof.map key := by
    intro b
    unfold PartOf
    rw [List.mem_map]
  rw [e, e, h.2]

/-- Nothing named `x` is below artifacts with names in `K`. -/
def closedNow (as : List Artifact) (K : List (Ty × Str)) : Bool := as.all fun b => as.all fun a => !decide (PartOf b a.name) || !K.contains (key a.name) || K.contains (key b.name)

theorem closedNow_below {as : List Artifact} {K : List (Ty × Str)} (h : closedNow as K = true) {a b : Artifact} (ha : key a.name ∈ K) (hb : Below as b a) : key b.name ∈ K := by
  induction hb using Relation.ReflTransGen.head_induction_on with
  | refl => exact ha
  | head hd _ ih =>
    have := List.all_eq_true.1 (List.all_eq_true.1 h _ hd.1) _ hd.2.1
    simp only [Bool.or_eq_true, Bool.not_eq_true', decide_eq_false_iff_not, List.contains_eq_mem, decide_eq_true_eq] at this
    rcases this with (h1 | h1) | h1
    · exact absurd hd.2.2 h1
    · exact absurd ih h1
    · exact h1

/-- The artifacts of a project that was read. -/
def artsNow (fs : FS) : List Artifact := match (exRun fs false).now exLibs exHash exS with
  | .ok r => artsOf r.2.artifacts
  | _ => []

/-- Whether it can be read. -/
def okNow (fs : FS) : Bool := ((exRun fs false).now exLibs exHash exS).isOk

theorem artsNow_reads (a b x y : Str) (hc : (walkCode (exFs a b x y) exS).countP (fun f => (codeSent exLibs (exFs a b x y) f).dead) < 4)
    (ha : (walkArtifacts (exFs a b x y) exS).countP (fun f => (artSent exLibs exS.pre (exFs a b x y) f).dead) < 4) (ho : okNow (exFs a b x y) = true) :
    ∃ c p, ReadsProject exLibs (fun _ => some exRaw) exHash 4 (exFs a b x y) c!"/p" (.ok (c, p)) ∧ artsNow (exFs a b x y) = artsOf p.artifacts := by
  have h := exRun_reads a b x y false hc ha
  unfold okNow at ho
  unfold artsNow
  generalize (exRun (exFs a b x y) false).now exLibs exHash exS = o at h ho ⊢
  cases o with
  | ok r => exact ⟨r.1, r.2, h, rfl⟩
  | err => cases ho
  | panic => cases ho

/-- The project `exGood` with one specification in another file, other texts and another subname, and its implementation elsewhere. -/
def movedFs : FS := exFs c!"# REQ-a\nother words\n" c!"# SPC-b\nless\n# SPC-a\n[[.Y]] new\n" c!"// #SPC-b" c!"// #SPC-a.y\n\n// #SPC-a"

/-- The project `exGood` without the implementation of one specification. -/
def undoneFs : FS := exFs c!"# REQ-a\nwhat\n# SPC-a\nhow [[.x]]\n" c!"# SPC-b\nmore\n" c!"// #SPC-a\n// #SPC-a.x" c!""

theorem good_reads : ∃ c p, ReadsProject exLibs (fun _ => some exRaw) exHash 4 exGood c!"/p" (.ok (c, p)) ∧ artsNow exGood = artsOf p.artifacts :=
  artsNow_reads _ _ _ _ (by decide +kernel) (by decide +kernel) (by decide +kernel)

theorem moved_reads : ∃ c p, ReadsProject exLibs (fun _ => some exRaw) exHash 4 movedFs c!"/p" (.ok (c, p)) ∧ artsNow movedFs = artsOf p.artifacts :=
  artsNow_reads _ _ _ _ (by decide +kernel) (by decide +kernel) (by decide +kernel)

theorem undone_reads : ∃ c p, ReadsProject exLibs (fun _ => some exRaw) exHash 4 undoneFs c!"/p" (.ok (c, p)) ∧ artsNow undoneFs = artsOf p.artifacts :=
  artsNow_reads _ _ _ _ (by decide +kernel) (by decide +kernel) (by decide +kernel)

/-- The hypotheses of `C79_moved`. -/
theorem moved_both : (∀ b ∈ artsNow exGood, InBoth (artsNow movedFs) b) ∧ ∀ b ∈ artsNow movedFs, InBoth (artsNow exGood) b := by
  have h1 : (artsNow exGood).all (bothNow (artsNow movedFs)) = true := by decide +kernel
  have h2 : (artsNow movedFs).all (bothNow (artsNow exGood)) = true := by decide +kernel
  exact ⟨fun b hb => bothNow_both (List.all_eq_true.1 h1 b hb), fun b hb => bothNow_both (List.all_eq_true.1 h2 b hb)⟩

/-- `C79_moved`: every artifact has the same completion in both. -/
example : ∀ a ∈ artsNow exGood, ∀ a' ∈ artsNow movedFs, key a.name = key a'.name → a.completed = a'.completed := by
  obtain ⟨c, p, h, e⟩ := good_reads
  obtain ⟨c', p', h', e'⟩ := moved_reads
  have hb := moved_both
  rw [e, e'] at hb ⊢
  intro a ha a' ha' ek
  exact C79_moved h h' hb.1 hb.2 ha ha' ek

/-- These are three artifacts, in other files. -/
example : (artsNow exGood).map (fun a => (a.name.raw, a.file)) = [(c!"REQ-a", c!"/p/design/a.md"), (c!"SPC-a", c!"/p/design/a.md"), (c!"SPC-b", c!"/p/design/b.md")] ∧
    (artsNow movedFs).map (fun a => (a.name.raw, a.file)) = [(c!"REQ-a", c!"/p/design/a.md"), (c!"SPC-a", c!"/p/design/b.md"), (c!"SPC-b", c!"/p/design/b.md")] := by decide +kernel

/-- The projects have no cycles: something in them is done. -/
theorem good_acyclic : ¬ Cyclic (artsNow exGood) ∧ ¬ Cyclic (artsNow undoneFs) := by
  have h1 : (artsNow exGood).any (fun a => decide (a.completed ≠ ⟨0, 0⟩)) = true := by decide +kernel
  have h2 : (artsNow undoneFs).any (fun a => decide (a.completed ≠ ⟨0, 0⟩)) = true := by decide +kernel
  obtain ⟨c, p, h, e⟩ := good_reads
  obtain ⟨c', p', h', e'⟩ := undone_reads
  rw [e] at h1 ⊢
  rw [e'] at h2 ⊢
  obtain ⟨a, ha, hn⟩ := List.any_eq_true.1 h1
  obtain ⟨a', ha', hn'⟩ := List.any_eq_true.1 h2
  exact ⟨fun hc => of_decide_eq_true hn (C79_cycle h hc a ha), fun hc => of_decide_eq_true hn' (C79_cycle h' hc a' ha')⟩

/-- `C79_one` and `C79_local`: without the implementation of `SPC-b` the completion of `REQ-a` is the same, that of `SPC-b` is not. -/
example : (∀ a ∈ artsNow exGood, ∀ a' ∈ artsNow undoneFs, key a.name = key a'.name → key a.name = key (Name.lit c!"REQ-a") → a.completed = a'.completed) ∧
    ∃ a ∈ artsNow exGood, ∃ a' ∈ artsNow undoneFs, key a.name = key a'.name ∧ a.completed ≠ a'.completed := by
  constructor
  · obtain ⟨c, p, h, e⟩ := good_reads
    obtain ⟨c', p', h', e'⟩ := undone_reads
    have hcyc := good_acyclic
    have h1 : (artsNow exGood).all (fun b => decide (key b.name = key (Name.lit c!"SPC-b")) || bothNow (artsNow undoneFs) b) = true := by decide +kernel
    have h2 : (artsNow undoneFs).all (fun b => decide (key b.name = key (Name.lit c!"SPC-b")) || bothNow (artsNow exGood) b) = true := by decide +kernel
    have k1 : closedNow (artsNow exGood) [key (Name.lit c!"REQ-a"), key (Name.lit c!"SPC-a")] = true := by decide +kernel
    have k2 : closedNow (artsNow undoneFs) [key (Name.lit c!"REQ-a"), key (Name.lit c!"SPC-a")] = true := by decide +kernel
    have hne : ∀ k ∈ [key (Name.lit c!"REQ-a"), key (Name.lit c!"SPC-a")], k ≠ key (Name.lit c!"SPC-b") := by decide +kernel
    rw [e, e'] at hcyc ⊢
    rw [e, e'] at h1
    rw [e', e] at h2
    rw [e] at k1
    rw [e'] at k2
    intro a ha a' ha' ek er
    refine C79_one h h' hcyc.1 hcyc.2 (Name.lit c!"SPC-b") (fun b hb hn => ?_) (fun b hb hn => ?_) ha ha' ek
      (fun b hb => hne _ (closedNow_below k1 (by rw [er]; simp) hb)) (fun b hb => hne _ (closedNow_below k2 (by rw [← ek, er]; simp) hb))
    · have := List.all_eq_true.1 h1 b hb
      simp only [Bool.or_eq_true, decide_eq_true_eq] at this
      exact bothNow_both (this.resolve_left hn)
    · have := List.all_eq_true.1 h2 b hb
      simp only [Bool.or_eq_true, decide_eq_true_eq] at this
      exact bothNow_both (this.resolve_left hn)
  · have h : (artsNow exGood).any (fun a => (artsNow undoneFs).any fun a' => decide (key a.name = key a'.name) && decide (a.completed ≠ a'.completed)) = true := by decide +kernel
    obtain ⟨a, ha, h⟩ := List.any_eq_true.1 h
    obtain ⟨a', ha', h⟩ := List.any_eq_true.1 h
    simp only [Bool.and_eq_true, decide_eq_true_eq] at h
    exact ⟨a, ha, a', ha', h⟩

/-- `Pairs` for a list of pairs of names, computed. -/
def pairsNow (as as' : List Artifact) (K : List ((Ty × Str) × (Ty × Str))) : Bool :=
  as.all fun a => as'.all fun a' => !K.contains (key a.name, key a'.name) ||
    (decide (a.name.ty = a'.name.ty) && ownNow a a' && decide ((partsIn as a.name).length = (partsIn as' a'.name).length) &&
      ((partsIn as a.name).zip (partsIn as' a'.name)).all fun x => K.contains (key x.1.name, key x.2.name))

theorem pairsNow_pairs {as as' : List Artifact} {K : List ((Ty × Str) × (Ty × Str))} (h : pairsNow as as' K = true) :
    Pairs as as' fun a a' => a ∈ as ∧ a' ∈ as' ∧ (key a.name, key a'.name) ∈ K := by
  rintro a a' ⟨ha, ha', hk⟩
  have := List.all_eq_true.1 (List.all_eq_true.1 h a ha) a' ha'
  simp only [Bool.or_eq_true, Bool.not_eq_true', Bool.and_eq_true, decide_eq_true_eq, List.contains_eq_mem, decide_eq_false_iff_not, List.all_eq_true] at this
  obtain ⟨⟨⟨h1, h2⟩, h3⟩, h4⟩ := this.resolve_left (fun hn => hn hk)
  refine ⟨ha, ha', h1, ownNow_own h2, _, .refl _, List.forall₂_iff_zip.2 ⟨h3, ?_⟩⟩
  intro x y hxy
  have hm := List.of_mem_zip hxy
  exact ⟨(List.mem_filter.1 hm.1).1, (List.mem_filter.1 hm.2).1, h4 _ hxy⟩

/-- A project that says something else and is built alike. -/
def otherFs : FS := exFs c!"# REQ-speed\nfast\n# SPC-speed\nbe [[.quick]]\n" c!"" c!"// #SPC-speed.quick\n" c!"// #SPC-speed"

theorem other_reads : ∃ c p, ReadsProject exLibs (fun _ => some exRaw) exHash 4 otherFs c!"/p" (.ok (c, p)) ∧ artsNow otherFs = artsOf p.artifacts :=
  artsNow_reads _ _ _ _ (by decide +kernel) (by decide +kernel) (by decide +kernel)

/-- `C79_pairs` and `C79_rule`: the requirements of both projects have the same completion, under another name. -/
example : ∀ a ∈ artsNow exGood, ∀ a' ∈ artsNow otherFs, a.name.raw = c!"REQ-a" → a'.name.raw = c!"REQ-speed" → a.completed = a'.completed := by
  have hp : pairsNow (artsNow exGood) (artsNow otherFs) [(key (Name.lit c!"REQ-a"), key (Name.lit c!"REQ-speed")), (key (Name.lit c!"SPC-a"), key (Name.lit c!"SPC-speed"))] = true := by
    decide +kernel
  have h2 : (artsNow otherFs).any (fun a => decide (a.completed ≠ ⟨0, 0⟩)) = true := by decide +kernel
  obtain ⟨c, p, h, e⟩ := good_reads
  obtain ⟨c', p', h', e'⟩ := other_reads
  have hcyc := good_acyclic.1
  rw [e, e'] at hp ⊢
  rw [e] at hcyc
  rw [e'] at h2
  have hcyc' : ¬ Cyclic (artsOf p'.artifacts) := fun hc => by
    obtain ⟨a, ha, hn⟩ := List.any_eq_true.1 h2
    exact of_decide_eq_true hn (C79_cycle h' hc a ha)
  intro a ha a' ha' e1 e2
  refine C79_pairs h h' hcyc hcyc' (pairsNow_pairs hp) ⟨ha, ha', ?_⟩
  have k : ∀ {n m : Name}, n.raw = m.raw → key n = key m := fun {n m} e => by rw [Name.key_eq_iff, Name.keyStr_eq, Name.keyStr_eq, e]
  have k1 : key a.name = key (Name.lit c!"REQ-a") := k (e1.trans (by decide +kernel))
  have k2 : key a'.name = key (Name.lit c!"REQ-speed") := k (e2.trans (by decide +kernel))
  rw [k1, k2]
  exact List.mem_cons_self ..

end Art.Depends
