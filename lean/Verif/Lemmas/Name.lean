import Verif.Model.Name
import Verif.Lemmas.Regex
import Verif.Lemmas.Chars

/-! Helper lemmas about names: the shape of accepted strings. -/

namespace Art

/-- `-a-b-c` for `[a, b, c]`. -/
def dashed (segs : List Str) : Str := segs.flatMap (fun g => '-' :: g)

/-- A segment as accepted by the regex. -/
def SegI (g : Str) : Prop := g ≠ [] ∧ ∀ c ∈ g, nameCharI c = true

/-- The first three characters, up to Unicode case. -/
def TyFold (p : Str) : Prop :=
  p.map foldC = c!"req" ∨ p.map foldC = c!"spc" ∨ p.map foldC = c!"tst"

@[simp] theorem dashed_nil : dashed [] = [] := rfl
@[simp] theorem dashed_cons (g : Str) (l : List Str) : dashed (g :: l) = '-' :: (g ++ dashed l) := by
  simp [dashed]
@[simp] theorem dashed_append (l l' : List Str) : dashed (l ++ l') = dashed l ++ dashed l' := by
  simp [dashed]

theorem lang_dash {s : Str} : Re.Lang (.litI c!"-") s ↔ s = c!"-" := by
  rw [Re.lang_litI]
  constructor
  · intro h
    match s with
    | [] => simp at h
    | _ :: _ :: _ => simp at h
    | [c] =>
      simp only [List.map_cons, List.map_nil, List.cons.injEq, and_true] at h
      rw [char_eq, foldC_toNat, foldC_toNat] at h
      have h' : ('-' : Char).toNat = 45 := rfl
      rw [h'] at h
      have : c = '-' := by rw [char_eq, h']; split_ifs at h <;> omega
      rw [this]
  · rintro rfl; rfl

theorem lang_plus_nameCh {s : Str} : Re.Lang (.plus nameCh) s ↔ SegI s := Re.lang_plus_ch

theorem lang_segs {s : Str} :
    Re.Lang (.seq (.star true (.seq (.plus nameCh) (.litI c!"-"))) (.plus nameCh)) s ↔
      ∃ segs : List Str, segs ≠ [] ∧ (∀ g ∈ segs, SegI g) ∧ '-' :: s = dashed segs := by
  constructor
  · rintro ⟨x, y, ⟨l, hl, rfl⟩, hy, rfl⟩
    rw [lang_plus_nameCh] at hy
    have : ∃ segs : List Str, (∀ g ∈ segs, SegI g) ∧ l.flatten = segs.flatMap (fun g => g ++ ['-']) := by
      induction l with
      | nil => exact ⟨[], by simp, rfl⟩
      | cons a l ih =>
        obtain ⟨segs, h1, h2⟩ := ih (fun x hx => hl x (by simp [hx]))
        obtain ⟨g, d, hg, hd, rfl⟩ := hl a (by simp)
        rw [lang_plus_nameCh] at hg
        rw [lang_dash] at hd
        subst hd
        refine ⟨g :: segs, ?_, by simp [h2]⟩
        intro g' hg'
        rcases List.mem_cons.1 hg' with rfl | h
        · exact hg
        · exact h1 _ h
    obtain ⟨segs, h1, h2⟩ := this
    refine ⟨segs ++ [y], by simp, ?_, ?_⟩
    · intro g hg
      rcases List.mem_append.1 hg with h | h
      · exact h1 g h
      · simp at h; subst h; exact hy
    · rw [h2]
      clear h2 h1 hl hy
      induction segs with
      | nil => simp
      | cons g segs ih =>
        simp only [List.cons_append, dashed_cons, List.flatMap_cons, List.append_assoc, List.nil_append]
        rw [← ih]
  · rintro ⟨segs, hne, hs, he⟩
    obtain ⟨init, y, rfl⟩ : ∃ init y, segs = init ++ [y] :=
      ⟨segs.dropLast, segs.getLast hne, (List.dropLast_append_getLast hne).symm⟩
    refine ⟨init.flatMap (fun g => g ++ ['-']), y, ⟨init.map (fun g => g ++ ['-']), ?_, by simp [List.flatMap]⟩,
      lang_plus_nameCh.2 (hs y (by simp)), ?_⟩
    · intro x hx
      obtain ⟨g, hg, rfl⟩ := List.mem_map.1 hx
      exact ⟨g, ['-'], lang_plus_nameCh.2 (hs g (by simp [hg])), lang_dash.2 rfl, rfl⟩
    · have : '-' :: (init.flatMap (fun g => g ++ ['-']) ++ y) = dashed (init ++ [y]) := by
        clear he hs hne
        induction init with
        | nil => simp
        | cons g init ih =>
          simp only [List.cons_append, dashed_cons, List.flatMap_cons, List.append_assoc, List.nil_append]
          rw [← ih]
      rw [← this] at he
      exact (List.cons.inj he).2

theorem lang_nameRe {s : Str} : Re.Lang nameRe s ↔
    ∃ p segs, TyFold p ∧ segs ≠ [] ∧ (∀ g ∈ segs, SegI g) ∧ s = p ++ dashed segs := by
  unfold nameRe
  constructor
  · rintro ⟨p, y, hp, ⟨d, z, hd, hz, rfl⟩, rfl⟩
    rw [lang_dash] at hd; subst hd
    obtain ⟨segs, h1, h2, h3⟩ := lang_segs.1 hz
    refine ⟨p, segs, ?_, h1, h2, by rw [← h3]; rfl⟩
    rcases hp with h | h | h <;> rw [Re.lang_litI] at h
    · exact Or.inl (h.trans (by decide))
    · exact Or.inr (Or.inl (h.trans (by decide)))
    · exact Or.inr (Or.inr (h.trans (by decide)))
  · rintro ⟨p, segs, hp, h1, h2, rfl⟩
    obtain ⟨z, hz⟩ : ∃ z, dashed segs = '-' :: z := by
      cases segs with
      | nil => exact absurd rfl h1
      | cons g l => exact ⟨_, dashed_cons g l⟩
    refine ⟨p, dashed segs, ?_, ⟨c!"-", z, lang_dash.2 rfl, ?_, by rw [hz]; rfl⟩, rfl⟩
    · rcases hp with h | h | h
      · exact Or.inl (Re.lang_litI.2 (h.trans (by decide)))
      · exact Or.inr (Or.inl (Re.lang_litI.2 (h.trans (by decide))))
      · exact Or.inr (Or.inr (Re.lang_litI.2 (h.trans (by decide))))
    · exact lang_segs.2 ⟨segs, h1, h2, hz.symm⟩

theorem tyFold_length {p : Str} (h : TyFold p) : p.length = 3 := by
  rcases h with h | h | h <;> simpa using congrArg List.length h

/-- Characters folding to one of the type letters. -/
theorem tyFold_chars {p : Str} (h : TyFold p) : ∀ c ∈ p, c.toNat < 128 ∨ c = longS := by
  have aux : ∀ c : Char, (foldC c).toNat < 107 ∨ 107 < (foldC c).toNat → (foldC c).toNat < 128 →
      c.toNat < 128 ∨ c = longS := by
    intro c h1 h2
    rw [char_eq, show longS.toNat = 0x17F from rfl]
    rw [foldC_toNat] at h1 h2
    split_ifs at h1 h2 <;> omega
  intro c hc
  have hmem : foldC c ∈ p.map foldC := List.mem_map_of_mem hc
  apply aux
  all_goals
    rcases h with h | h | h <;> rw [h] at hmem <;>
      simp only [List.mem_cons, List.not_mem_nil, or_false] at hmem <;>
      rcases hmem with e | e | e <;> rw [e] <;> decide

theorem nameCharI_ne_dash {c : Char} (h : nameCharI c = true) : c ≠ '-' := by
  rintro rfl; revert h; decide

theorem segI_no_dash {g : Str} (h : SegI g) : '-' ∉ g := fun hm => nameCharI_ne_dash (h.2 _ hm) rfl

theorem tyFold_no_dash {p : Str} (h : TyFold p) : '-' ∉ p := by
  intro hm
  have hmem : foldC '-' ∈ p.map foldC := List.mem_map_of_mem hm
  rcases h with h | h | h <;> rw [h] at hmem <;> revert hmem <;> decide

/-- Strings separated by dashes can be recovered. -/
theorem dashed_inj {l l' : List Str} (h : ∀ g ∈ l, '-' ∉ g) (h' : ∀ g ∈ l', '-' ∉ g)
    (e : dashed l = dashed l') : l = l' := by
  have pre : ∀ (g g' r r' : Str), '-' ∉ g → '-' ∉ g' → (r = [] ∨ ∃ t, r = '-' :: t) →
      (r' = [] ∨ ∃ t, r' = '-' :: t) → g ++ r = g' ++ r' → g = g' ∧ r = r' := by
    intro g
    induction g with
    | nil =>
      intro g' r r' _ hg' hr hr' e
      cases g' with
      | nil => exact ⟨rfl, e⟩
      | cons c g' =>
        simp only [List.nil_append, List.cons_append] at e
        rcases hr with rfl | ⟨t, rfl⟩
        · simp at e
        · injection e with e1 e2
          subst e1; simp at hg'
    | cons c g ih =>
      intro g' r r' hg hg' hr hr' e
      cases g' with
      | nil =>
        simp only [List.nil_append, List.cons_append] at e
        rcases hr' with rfl | ⟨t, rfl⟩
        · simp at e
        · injection e with e1 e2
          subst e1; simp at hg
      | cons c' g' =>
        simp only [List.cons_append] at e
        injection e with e1 e2
        subst e1
        obtain ⟨h1, h2⟩ := ih g' r r' (by simp at hg; exact hg.2) (by simp at hg'; exact hg'.2) hr hr' e2
        exact ⟨by rw [h1], h2⟩
  have dc : ∀ l : List Str, dashed l = [] ∨ ∃ t, dashed l = '-' :: t := by
    intro l; cases l with
    | nil => exact Or.inl rfl
    | cons g l => exact Or.inr ⟨_, dashed_cons g l⟩
  induction l generalizing l' with
  | nil =>
    cases l' with
    | nil => rfl
    | cons g l' => simp at e
  | cons g l ih =>
    cases l' with
    | nil => simp at e
    | cons g' l' =>
      simp only [dashed_cons] at e
      injection e with _ e
      obtain ⟨h1, h2⟩ := pre g g' _ _ (h g (by simp)) (h' g' (by simp)) (dc l) (dc l') e
      rw [h1, ih (fun x hx => h x (by simp [hx])) (fun x hx => h' x (by simp [hx])) h2]

/-- The byte split at 3 of an upper-cased name: if the type letters are ASCII, it cuts after them. -/
theorem byteSplit3 {a b c : Char} (ha : a.toNat < 128) (hb : b.toNat < 128) (hc : c.toNat < 128) (s : Str) :
    byteSplit 3 (a :: b :: c :: s) = some ([a, b, c], s) := by
  simp [byteSplit, utf8Len_ascii, ha, hb, hc]

theorem length3 {p : Str} (h : p.length = 3) : ∃ a b c, p = [a, b, c] := by
  match p, h with
  | [a, b, c], _ => exact ⟨a, b, c, rfl⟩

theorem upperC_lt {c : Char} (h : c.toNat < 128) : (upperC c).toNat < 128 := by
  rw [upperC_toNat]; split_ifs <;> omega

/-- ASCII characters with the same folding have the same upper case. -/
theorem upperC_eq_of_foldC {a b : Char} (ha : a.toNat < 128) (hb : b.toNat < 128)
    (h : foldC a = foldC b) : upperC a = upperC b := by
  rw [char_eq, foldC_toNat, foldC_toNat] at h
  rw [char_eq, upperC_toNat, upperC_toNat]
  split_ifs at h ⊢ <;> omega

theorem foldC_eq_of_upperC {a b : Char} (h : upperC a = upperC b) : foldC a = foldC b := by
  rw [← foldC_upperC a, h, foldC_upperC]

/-- The type recognised by a three character prefix, ignoring ASCII case. -/
def tyOf (p : Str) : Option Ty :=
  if upper p = c!"REQ" then some .REQ else if upper p = c!"SPC" then some .SPC
  else if upper p = c!"TST" then some .TST else none

theorem tyOf_iff {p : Str} {t : Ty} : tyOf p = some t ↔ upper p = t.asStr := by
  unfold tyOf
  constructor
  · intro h
    split_ifs at h with h1 h2 h3 <;> cases h <;> assumption
  · intro h
    cases t <;> rw [h] <;> decide

theorem tyFold_of_tyOf {p : Str} {t : Ty} (h : tyOf p = some t) : TyFold p := by
  rw [tyOf_iff] at h
  have : p.map foldC = (upper p).map foldC := by simp [upper, foldC_upperC]
  unfold TyFold
  rw [this, h]
  cases t <;> decide

theorem upperC_ascii_rev {c : Char} (h : (upperC c).toNat < 128) : c.toNat < 128 := by
  rw [upperC_toNat] at h; split_ifs at h <;> omega

theorem tyOf_ascii {p : Str} {t : Ty} (h : tyOf p = some t) : ∀ c ∈ p, c.toNat < 128 := by
  rw [tyOf_iff] at h
  intro c hc
  have : upperC c ∈ t.asStr := by rw [← h]; exact List.mem_map_of_mem hc
  apply upperC_ascii_rev
  cases t <;> simp only [Ty.asStr, List.mem_cons, List.not_mem_nil, or_false] at this <;>
    rcases this with e | e | e <;> rw [e] <;> decide

theorem tyOf_of_ascii {p : Str} (h : TyFold p) (ha : ∀ c ∈ p, c.toNat < 128) : ∃ t, tyOf p = some t := by
  have key : ∀ (p q : Str), p.map foldC = q.map foldC → (∀ c ∈ p, c.toNat < 128) →
      (∀ c ∈ q, c.toNat < 128) → upper p = upper q := by
    intro p
    induction p with
    | nil => intro q h _ _; cases q with
      | nil => rfl
      | cons => simp at h
    | cons a p ih => intro q h h1 h2; cases q with
      | nil => simp at h
      | cons b q =>
        simp only [List.map_cons, List.cons.injEq] at h
        simp only [upper_cons]
        rw [upperC_eq_of_foldC (h1 a (by simp)) (h2 b (by simp)) h.1,
          ih q h.2 (fun c hc => h1 c (by simp [hc])) (fun c hc => h2 c (by simp [hc]))]
  rcases h with h | h | h
  · refine ⟨.REQ, tyOf_iff.2 ?_⟩
    rw [key p c!"req" (by rw [h]; decide) ha (by decide)]; decide
  · refine ⟨.SPC, tyOf_iff.2 ?_⟩
    rw [key p c!"spc" (by rw [h]; decide) ha (by decide)]; decide
  · refine ⟨.TST, tyOf_iff.2 ?_⟩
    rw [key p c!"tst" (by rw [h]; decide) ha (by decide)]; decide

/-- `p` and `segs` spell `s`, with `s` a name as accepted by the code. -/
structure Shape (t : Ty) (p : Str) (segs : List Str) (s : Str) : Prop where
  ty : tyOf p = some t
  ne : segs ≠ []
  seg : ∀ g ∈ segs, SegI g
  eq : s = p ++ dashed segs

theorem Shape.len {t p segs s} (h : Shape t p segs s) : p.length = 3 := tyFold_length (tyFold_of_tyOf h.ty)

theorem fromStr_of_shape {t p segs s} (h : Shape t p segs s) :
    InternalName.fromStr s = .ok ⟨t, upper s, s⟩ := by
  have hl : Re.Lang nameRe s := lang_nameRe.2 ⟨p, segs, tyFold_of_tyOf h.ty, h.ne, h.seg, h.eq⟩
  have hm := (Re.isFull_iff nameRe s).2 hl
  unfold InternalName.fromStr
  rw [hm]
  simp only [Bool.not_true, Bool.false_eq_true, if_false]
  obtain ⟨a, b, c, rfl⟩ := length3 h.len
  have hasc := tyOf_ascii h.ty
  have hty := tyOf_iff.1 h.ty
  have e : upper s = upperC a :: upperC b :: upperC c :: upper (dashed segs) := by rw [h.eq]; simp
  have hsp : byteSplit 3 (upper s) = some ([upperC a, upperC b, upperC c], upper (dashed segs)) := by
    rw [e]
    exact byteSplit3 (upperC_lt (hasc a (by simp))) (upperC_lt (hasc b (by simp)))
      (upperC_lt (hasc c (by simp))) _
  rw [hsp]
  have : ([upperC a, upperC b, upperC c] : Str) = t.asStr := hty
  simp only [this]
  cases t <;> simp [Ty.asStr]

theorem shape_of_fromStr {s : Str} {i : InternalName} (h : InternalName.fromStr s = .ok i) :
    ∃ p segs, Shape i.ty p segs s ∧ i.key = upper s ∧ i.raw = s := by
  have hraw := Name.fromStr_raw h
  unfold InternalName.fromStr at h
  split at h
  · simp at h
  · rename_i hm
    have hl := (Re.isFull_iff nameRe s).1 (by simpa using hm)
    obtain ⟨p, segs, hp, hne, hseg, rfl⟩ := lang_nameRe.1 hl
    simp only at h
    by_cases hasc : ∀ c ∈ p, c.toNat < 128
    · obtain ⟨t, ht⟩ := tyOf_of_ascii hp hasc
      have sh : Shape t p segs (p ++ dashed segs) := ⟨ht, hne, hseg, rfl⟩
      have h' := fromStr_of_shape sh
      unfold InternalName.fromStr at h'
      rw [if_neg hm] at h'
      simp only at h'
      rw [h'] at h
      cases h
      exact ⟨p, segs, sh, rfl, rfl⟩
    · exfalso
      obtain ⟨a, b, c, rfl⟩ := length3 (tyFold_length hp)
      push Not at hasc
      obtain ⟨x, hx, hx'⟩ := hasc
      have hx2 : x = longS := (tyFold_chars hp x hx).resolve_left (by omega)
      subst hx2
      have hup : upperC longS = longS := by decide
      -- the first three bytes contain the two byte character
      have hb : ∀ t r, byteSplit 3 (upper ([a, b, c] ++ dashed segs)) = some (t, r) →
          t ≠ c!"REQ" ∧ t ≠ c!"SPC" ∧ t ≠ c!"TST" := by
        intro t r hs
        have hpre : ∃ r', upper ([a, b, c] ++ dashed segs) = t ++ r' ∧ byteLen t = 3 := by
          clear h hm hl hp hne hseg hraw hx hx'
          revert hs
          generalize upper ([a, b, c] ++ dashed segs) = u
          have gen : ∀ (u : Str) (n : Nat) t r, byteSplit n u = some (t, r) → u = t ++ r ∧ byteLen t = n := by
            intro u
            induction u with
            | nil =>
              intro n t r h
              cases n with
              | zero => simp [byteSplit] at h; obtain ⟨rfl, rfl⟩ := h; simp [byteLen]
              | succ n => simp [byteSplit] at h
            | cons d u ih =>
              intro n t r h
              cases n with
              | zero => simp [byteSplit] at h; obtain ⟨rfl, rfl⟩ := h; simp [byteLen]
              | succ n =>
                simp only [byteSplit] at h
                split at h
                · cases h' : byteSplit (n + 1 - utf8Len d) u with
                  | none => simp [h'] at h
                  | some q =>
                    obtain ⟨t', r'⟩ := q
                    simp [h'] at h
                    obtain ⟨rfl, rfl⟩ := h
                    obtain ⟨e1, e2⟩ := ih _ _ _ h'
                    refine ⟨by rw [e1]; rfl, ?_⟩
                    simp only [byteLen, List.map_cons, List.sum_cons] at e2 ⊢
                    omega
                · simp at h
          intro hs
          exact ⟨r, gen _ _ _ _ hs⟩
        obtain ⟨r', he, hlen⟩ := hpre
        have key : ∀ q : Str, q.length = 3 → (∀ c ∈ q, c ≠ longS) → t ≠ q := by
          rintro q hq hall rfl
          obtain ⟨x1, x2, x3, rfl⟩ := length3 hq
          simp only [List.cons_append, List.nil_append, upper_cons] at he
          injection he with e1 he
          injection he with e2 he
          injection he with e3 he
          simp only [List.mem_cons, List.not_mem_nil, or_false] at hx
          rcases hx with e | e | e
          · apply hall x1 (by simp); rw [← e1, ← e, hup]
          · apply hall x2 (by simp); rw [← e2, ← e, hup]
          · apply hall x3 (by simp); rw [← e3, ← e, hup]
        exact ⟨key _ rfl (by decide), key _ rfl (by decide), key _ rfl (by decide)⟩
      split at h
      · simp at h
      · rename_i t r hs
        obtain ⟨h1, h2, h3⟩ := hb t r hs
        simp [h1, h2, h3] at h

theorem Name.fromStr_ok {s : Str} {n : Name} (h : Name.fromStr s = .ok n) :
    InternalName.fromStr s = .ok n.inner := by
  unfold Name.fromStr at h
  split at h
  · rename_i i hi; rw [hi]; injection h with h; subst h; rfl
  · simp at h
  · simp at h

theorem Name.fromStr_eq_ok {s : Str} {n : Name} : Name.fromStr s = .ok n ↔ InternalName.fromStr s = .ok n.inner := by
  refine ⟨Name.fromStr_ok, fun h => ?_⟩
  unfold Name.fromStr
  split
  · rename_i i hi
    rw [hi] at h
    injection h with h
    congr 1
    exact Name.ext' h
  · rename_i e hi; rw [hi] at h; simp at h
  · rename_i hi; rw [hi] at h; simp at h

theorem Name.fromStr_eq_panic {s : Str} : Name.fromStr s = .panic ↔ InternalName.fromStr s = .panic := by
  unfold Name.fromStr
  split <;> simp_all

theorem Name.fromStr_eq_err {s : Str} {e : NameErr} : Name.fromStr s = .err e ↔ InternalName.fromStr s = .err e := by
  unfold Name.fromStr
  split <;> simp_all

theorem Name.fromStr_raw_self (n : Name) : Name.fromStr n.raw = .ok n :=
  Name.fromStr_eq_ok.2 n.valid

theorem Name.raw_of_fromStr {s : Str} {n : Name} (h : Name.fromStr s = .ok n) : n.raw = s :=
  Name.fromStr_raw (Name.fromStr_ok h)

/-- Every name has a shape. -/
theorem Name.shape (n : Name) : ∃ p segs, Shape n.ty p segs n.raw := by
  obtain ⟨p, segs, h, _, _⟩ := shape_of_fromStr n.valid
  exact ⟨p, segs, h⟩

theorem Name.keyStr_eq (n : Name) : n.keyStr = upper n.raw := by
  obtain ⟨p, segs, _, h, _⟩ := shape_of_fromStr n.valid
  exact h

theorem Name.exists_of_shape {t p segs s} (h : Shape t p segs s) :
    ∃ n : Name, Name.fromStr s = .ok n ∧ n.ty = t ∧ n.raw = s := by
  have h' := fromStr_of_shape h
  refine ⟨⟨⟨t, upper s, s⟩, h'⟩, Name.fromStr_eq_ok.2 h', rfl, rfl⟩

theorem Shape.unique {t p segs t' p' segs' s} (h : Shape t p segs s) (h' : Shape t' p' segs' s) :
    t = t' ∧ p = p' ∧ segs = segs' := by
  have e := h.eq.symm.trans h'.eq
  obtain ⟨e1, e2⟩ := List.append_inj e (by rw [h.len, h'.len])
  subst e1
  have := h.ty.symm.trans h'.ty
  refine ⟨Option.some.inj this, rfl, dashed_inj (fun g hg => segI_no_dash (h.seg g hg))
    (fun g hg => segI_no_dash (h'.seg g hg)) e2⟩

theorem upper_dashed (l : List Str) : upper (dashed l) = dashed (l.map upper) := by
  induction l with
  | nil => rfl
  | cons g l ih => simp [ih]; decide

theorem segI_upper {g : Str} (h : SegI g) : SegI (upper g) := by
  refine ⟨by cases g <;> simp_all [SegI], ?_⟩
  intro c hc
  obtain ⟨d, hd, rfl⟩ := List.mem_map.1 hc
  rw [nameCharI_upperC]; exact h.2 d hd

/-- The type is determined by the key. -/
theorem Name.ty_of_key {a b : Name} (h : a.keyStr = b.keyStr) : a.ty = b.ty := by
  obtain ⟨p, segs, ha⟩ := a.shape
  obtain ⟨p', segs', hb⟩ := b.shape
  rw [Name.keyStr_eq, Name.keyStr_eq, ha.eq, hb.eq, upper_append, upper_append] at h
  obtain ⟨e1, _⟩ := List.append_inj h (by rw [length_upper, length_upper, ha.len, hb.len])
  have h1 := tyOf_iff.1 ha.ty
  have h2 := tyOf_iff.1 hb.ty
  rw [e1, h2] at h1
  revert h1
  cases a.ty <;> cases b.ty <;> decide

theorem Name.key_eq_iff {a b : Name} : key a = key b ↔ a.keyStr = b.keyStr := by
  constructor
  · intro h; exact (Prod.mk.inj h).2
  · intro h; exact Prod.ext (Name.ty_of_key h) h

end Art
