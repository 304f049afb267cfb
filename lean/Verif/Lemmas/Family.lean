import Verif.Lemmas.Name

/-! Helper lemmas about parents and automatic links. -/

namespace Art

theorem beforeLastDash_none {y : Str} (h : '-' ∉ y) : beforeLastDash y = none := by
  induction y with
  | nil => rfl
  | cons c y ih =>
    simp only [List.mem_cons, not_or] at h
    simp only [beforeLastDash, ih h.2]
    rw [if_neg (fun e => h.1 e.symm)]

theorem beforeLastDash_append {x y : Str} (h : '-' ∉ y) : beforeLastDash (x ++ '-' :: y) = some x := by
  induction x with
  | nil => simp [beforeLastDash, beforeLastDash_none h]
  | cons c x ih => simp [beforeLastDash, ih]

theorem byteLen_append (x y : Str) : byteLen (x ++ y) = byteLen x + byteLen y := by simp [byteLen]

theorem length_le_byteLen (x : Str) : x.length ≤ byteLen x := by
  induction x with
  | nil => simp [byteLen]
  | cons c x ih =>
    have := utf8Len_pos c
    simp only [byteLen, List.map_cons, List.sum_cons, List.length_cons] at *
    omega

theorem byteLen_ascii {x : Str} (h : ∀ c ∈ x, c.toNat < 128) : byteLen x = x.length := by
  induction x with
  | nil => rfl
  | cons c x ih =>
    have h1 := utf8Len_ascii (h c (by simp))
    have h2 := ih (fun d hd => h d (by simp [hd]))
    simp only [byteLen, List.map_cons, List.sum_cons, List.length_cons] at *
    omega

theorem Name.parent_spec {n : Name} {t p segs} (h : Shape t p segs n.raw) :
    (segs.length = 1 ∧ n.parent = .ok none) ∨
    (∃ m : Name, n.parent = .ok (some m) ∧ Shape t p segs.dropLast m.raw ∧ m.ty = t ∧
      2 ≤ segs.length) := by
  obtain ⟨init, y, rfl⟩ : ∃ init y, segs = init ++ [y] :=
    ⟨segs.dropLast, segs.getLast h.ne, (List.dropLast_append_getLast h.ne).symm⟩
  have hy : '-' ∉ y := segI_no_dash (h.seg y (by simp))
  have e : beforeLastDash n.raw = some (p ++ dashed init) := by
    rw [h.eq, dashed_append, dashed_cons, dashed_nil, List.append_nil, ← List.append_assoc]
    exact beforeLastDash_append hy
  have hp : byteLen p = 3 := by rw [byteLen_ascii (tyOf_ascii h.ty), h.len]
  unfold Name.parent
  rw [e]
  simp only
  cases init with
  | nil =>
    left
    refine ⟨rfl, ?_⟩
    rw [if_pos]
    simpa [byteLen_append] using hp
  | cons g init =>
    right
    have hne : ¬ byteLen (p ++ dashed (g :: init)) = 3 := by
      have h1 := length_le_byteLen (dashed (g :: init))
      simp only [dashed_cons, List.length_cons] at h1
      rw [byteLen_append, hp, dashed_cons]
      omega
    rw [if_neg hne]
    have sh : Shape t p (g :: init) (p ++ dashed (g :: init)) :=
      ⟨h.ty, by simp, fun x hx => h.seg x (List.mem_append_left _ hx), rfl⟩
    obtain ⟨m, hm, hty, hraw⟩ := Name.exists_of_shape sh
    rw [hm]
    refine ⟨m, rfl, ?_, hty, by simp⟩
    rw [hraw, List.dropLast_concat]
    exact sh

/-- The type an automatic link goes to. -/
def Ty.above : Ty → Option Ty
  | .REQ => none
  | .SPC => some .REQ
  | .TST => some .SPC

theorem byteSplit3_shape {t p segs s} (h : Shape t p segs s) : byteSplit 3 s = some (p, dashed segs) := by
  obtain ⟨a, b, c, rfl⟩ := length3 h.len
  have hasc := tyOf_ascii h.ty
  rw [h.eq]
  exact byteSplit3 (hasc a (by simp)) (hasc b (by simp)) (hasc c (by simp)) _

theorem tyOf_asStr (t : Ty) : tyOf t.asStr = some t := by cases t <;> decide

theorem Name.autoPartof_spec {n : Name} {t p segs} (h : Shape t p segs n.raw) :
    (t.above = none ∧ n.autoPartof = .ok none) ∨
    (∃ t' m, t.above = some t' ∧ n.autoPartof = .ok (some m) ∧ Shape t' t'.asStr segs m.raw ∧
      Name.ty m = t') := by
  have ht : n.ty = t := by
    obtain ⟨p', segs', h'⟩ := n.shape
    exact (h'.unique h).1
  have go : ∀ t' : Ty, ∃ m, Name.fromStr (t'.asStr ++ dashed segs) = .ok m ∧
      Shape t' t'.asStr segs m.raw ∧ m.ty = t' := by
    intro t'
    have sh : Shape t' t'.asStr segs (t'.asStr ++ dashed segs) := ⟨tyOf_asStr t', h.ne, h.seg, rfl⟩
    obtain ⟨m, hm, hty, hraw⟩ := Name.exists_of_shape sh
    exact ⟨m, hm, by rw [hraw]; exact sh, hty⟩
  unfold Name.autoPartof
  rw [ht, byteSplit3_shape h]
  cases t with
  | REQ => exact Or.inl ⟨rfl, rfl⟩
  | SPC =>
    obtain ⟨m, hm, hs, hty⟩ := go .REQ
    exact Or.inr ⟨.REQ, m, rfl, by simp [hm], hs, hty⟩
  | TST =>
    obtain ⟨m, hm, hs, hty⟩ := go .SPC
    exact Or.inr ⟨.SPC, m, rfl, by simp [hm], hs, hty⟩

end Art
