import Verif.Lemmas.Family

/-!
# Properties C01 – C04: names, subnames and the automatic family

The specification part below does not mention the regular expressions or the parser.
-/

namespace Art.Spec

/-- Letters, digits and underscore (ASCII). -/
def NameChar (c : Char) : Prop :=
  ('A' ≤ c ∧ c ≤ 'Z') ∨ ('a' ≤ c ∧ c ≤ 'z') ∨ ('0' ≤ c ∧ c ≤ '9') ∨ c = '_'

/-- What the code accepts as a name character: two non-ASCII characters in addition. -/
def NameCharU (c : Char) : Prop := NameChar c ∨ c = longS ∨ c = kelvin

/-- Non-empty words over `P` joined by single dashes. -/
inductive Words (P : Char → Prop) : Str → Prop
  | one (g : Str) : g ≠ [] → (∀ c ∈ g, P c) → Words P g
  | more (g r : Str) : g ≠ [] → (∀ c ∈ g, P c) → Words P r → Words P (g ++ '-' :: r)

/-- `TYPE-word-word…` with the type in any (ASCII) case. -/
def IsName (P : Char → Prop) (s : Str) : Prop :=
  ∃ t r, s = t ++ '-' :: r ∧ (upper t = c!"REQ" ∨ upper t = c!"SPC" ∨ upper t = c!"TST") ∧ Words P r

/-- Replace the long s by an ordinary one. -/
def unlong (s : Str) : Str := s.map (fun c => if c = longS then 'S' else c)

/-- `.word` or `.tst-word` with `tst` in any case. -/
def IsSub (P T : Char → Prop) (s : Str) : Prop :=
  ∃ w, w ≠ [] ∧ (∀ c ∈ w, P c) ∧
    (s = '.' :: w ∨ ∃ a b c, T b ∧ (a = 't' ∨ a = 'T') ∧ (c = 't' ∨ c = 'T') ∧ s = '.' :: a :: b :: c :: '-' :: w)

end Art.Spec

namespace Art
open Spec

/-! Bridging lemmas between the specification and the lemma library. -/

theorem nameCharI_iff {c : Char} : nameCharI c = true ↔ NameCharU c := by
  rw [nameCharI_toNat]
  unfold NameCharU NameChar
  simp only [char_le, char_eq]
  have h1 : 'A'.toNat = 65 := rfl
  have h2 : 'Z'.toNat = 90 := rfl
  have h3 : 'a'.toNat = 97 := rfl
  have h4 : 'z'.toNat = 122 := rfl
  have h5 : '0'.toNat = 48 := rfl
  have h6 : '9'.toNat = 57 := rfl
  have h7 : '_'.toNat = 95 := rfl
  have h8 : longS.toNat = 0x17F := rfl
  have h9 : kelvin.toNat = 0x212A := rfl
  rw [h1, h2, h3, h4, h5, h6, h7, h8, h9]
  omega

theorem words_iff {P : Char → Prop} {r : Str} :
    Words P r ↔ ∃ segs : List Str, segs ≠ [] ∧ (∀ g ∈ segs, g ≠ [] ∧ ∀ c ∈ g, P c) ∧
      '-' :: r = dashed segs := by
  constructor
  · intro h
    induction h with
    | one g h1 h2 => exact ⟨[g], by simp, by simpa using ⟨h1, h2⟩, by simp⟩
    | more g r h1 h2 _ ih =>
      obtain ⟨segs, _, hs, e⟩ := ih
      refine ⟨g :: segs, by simp, ?_, by simp [e]⟩
      intro g' hg'
      rcases List.mem_cons.1 hg' with rfl | h
      · exact ⟨h1, h2⟩
      · exact hs g' h
  · rintro ⟨segs, hne, hs, e⟩
    induction segs generalizing r with
    | nil => exact absurd rfl hne
    | cons g segs ih =>
      have hg := hs g (by simp)
      cases segs with
      | nil =>
        simp at e
        rw [e]
        exact .one g hg.1 hg.2
      | cons g' segs =>
        rw [dashed_cons] at e
        injection e with _ e
        rw [e, dashed_cons]
        exact .more g _ hg.1 hg.2 (ih (by simp) (fun x hx => hs x (by simp [hx])) (by simp))

theorem words_mono {P Q : Char → Prop} (h : ∀ c, P c → Q c) {r : Str} (hw : Words P r) : Words Q r := by
  induction hw with
  | one g h1 h2 => exact .one g h1 (fun c hc => h c (h2 c hc))
  | more g r h1 h2 _ ih => exact .more g r h1 (fun c hc => h c (h2 c hc)) ih

theorem shape_iff_isName {s : Str} : (∃ t p segs, Shape t p segs s) ↔ IsName NameCharU s := by
  constructor
  · rintro ⟨t, p, segs, h⟩
    obtain ⟨z, hz⟩ : ∃ z, dashed segs = '-' :: z := by
      cases hs : segs with
      | nil => exact absurd hs h.ne
      | cons g l => exact ⟨_, dashed_cons g l⟩
    refine ⟨p, z, by rw [h.eq, hz], ?_, words_iff.2 ⟨segs, h.ne, fun g hg => ?_, hz.symm⟩⟩
    · have := tyOf_iff.1 h.ty
      cases t
      · exact Or.inl this
      · exact Or.inr (Or.inl this)
      · exact Or.inr (Or.inr this)
    · exact ⟨(h.seg g hg).1, fun c hc => nameCharI_iff.1 ((h.seg g hg).2 c hc)⟩
  · rintro ⟨p, r, rfl, hp, hr⟩
    obtain ⟨segs, h1, h2, h3⟩ := words_iff.1 hr
    have hseg : ∀ g ∈ segs, SegI g := fun g hg => ⟨(h2 g hg).1, fun c hc => nameCharI_iff.2 ((h2 g hg).2 c hc)⟩
    rw [h3]
    rcases hp with h | h | h
    · exact ⟨.REQ, p, segs, tyOf_iff.2 h, h1, hseg, rfl⟩
    · exact ⟨.SPC, p, segs, tyOf_iff.2 h, h1, hseg, rfl⟩
    · exact ⟨.TST, p, segs, tyOf_iff.2 h, h1, hseg, rfl⟩

/-! ## C01 -/

/-- Exactly which strings are accepted as names, for every string. -/
theorem C01_accepted_iff (s : Str) : (∃ n, Name.fromStr s = .ok n) ↔ IsName NameCharU s := by
  rw [← shape_iff_isName]
  constructor
  · rintro ⟨n, h⟩
    obtain ⟨p, segs, hs, _, _⟩ := shape_of_fromStr (Name.fromStr_ok h)
    exact ⟨_, p, segs, hs⟩
  · rintro ⟨t, p, segs, h⟩
    obtain ⟨n, hn, _⟩ := Name.exists_of_shape h
    exact ⟨n, hn⟩

example : IsName NameCharU c!"spc-Read_2-x" :=
  ⟨c!"spc", c!"Read_2-x", rfl, by decide,
    .more c!"Read_2" c!"x" (by decide) (by intro c hc; exact nameCharI_iff.1 (by revert c; decide))
      (.one c!"x" (by decide) (by intro c hc; exact nameCharI_iff.1 (by revert c; decide)))⟩
example : ∃ n, Name.fromStr c!"spc-Read_2-x" = .ok n := ⟨Name.lit c!"spc-Read_2-x", by decide⟩
example : ¬ ∃ n, Name.fromStr c!"SPC-" = .ok n := by
  have : Name.fromStr c!"SPC-" = .err .invalidName := by decide
  rintro ⟨n, h⟩; rw [this] at h; simp at h

/-- Exactly which strings make the parser panic: those that spell a type with a long s. -/
theorem C01_panic_iff (s : Str) : Name.fromStr s = .panic ↔
    ∃ t r, s = t ++ '-' :: r ∧ Words NameCharU r ∧ longS ∈ t ∧
      (upper (unlong t) = c!"REQ" ∨ upper (unlong t) = c!"SPC" ∨ upper (unlong t) = c!"TST") := by
  have hfold' : ∀ t : Str, t.map foldC = (upper (unlong t)).map foldC := by
    intro t
    simp only [unlong, upper, List.map_map]
    apply List.map_congr_left
    intro c _
    simp only [Function.comp, foldC_upperC]
    split
    · rename_i h; rw [h]; decide
    · rfl
  rw [Name.fromStr_eq_panic]
  constructor
  · intro h
    have hlang : Re.Lang nameRe s := by
      rw [← Re.isFull_iff]
      unfold InternalName.fromStr at h
      split at h
      · simp at h
      · rename_i hm; simpa using hm
    obtain ⟨p, segs, hp, hne, hseg, rfl⟩ := lang_nameRe.1 hlang
    obtain ⟨z, hz⟩ : ∃ z, dashed segs = '-' :: z := by
      cases hs : segs with
      | nil => exact absurd hs hne
      | cons g l => exact ⟨_, dashed_cons g l⟩
    have hnot : ¬ ∀ c ∈ p, c.toNat < 128 := by
      intro hasc
      obtain ⟨t, ht⟩ := tyOf_of_ascii hp hasc
      rw [fromStr_of_shape ⟨ht, hne, hseg, rfl⟩] at h
      simp at h
    push Not at hnot
    obtain ⟨c, hc, hc'⟩ := hnot
    have hl : c = longS := (tyFold_chars hp c hc).resolve_left (by omega)
    subst hl
    refine ⟨p, z, by rw [hz], words_iff.2 ⟨segs, hne, fun g hg =>
      ⟨(hseg g hg).1, fun c hc => nameCharI_iff.1 ((hseg g hg).2 c hc)⟩, hz.symm⟩, hc, ?_⟩
    have hasc : ∀ c ∈ unlong p, c.toNat < 128 := by
      intro c hc
      obtain ⟨d, hd, rfl⟩ := List.mem_map.1 hc
      split
      · decide
      · rename_i hne'
        exact (tyFold_chars hp d hd).resolve_right hne'
    have htf : TyFold (unlong p) := by
      have e : (unlong p).map foldC = p.map foldC := by
        rw [hfold' p]; simp [upper, foldC_upperC]
      unfold TyFold; rw [e]; exact hp
    obtain ⟨t, ht⟩ := tyOf_of_ascii htf hasc
    have := tyOf_iff.1 ht
    cases t
    · exact Or.inl this
    · exact Or.inr (Or.inl this)
    · exact Or.inr (Or.inr this)
  · rintro ⟨t, r, rfl, hw, hl, ht⟩
    obtain ⟨segs, h1, h2, h3⟩ := words_iff.1 hw
    have hseg : ∀ g ∈ segs, SegI g := fun g hg => ⟨(h2 g hg).1, fun c hc => nameCharI_iff.2 ((h2 g hg).2 c hc)⟩
    have htf : TyFold t := by
      unfold TyFold
      rw [hfold' t]
      rcases ht with h | h | h <;> rw [h] <;> decide
    have hlang : Re.Lang nameRe (t ++ '-' :: r) := lang_nameRe.2 ⟨t, segs, htf, h1, hseg, by rw [h3]⟩
    cases hres : InternalName.fromStr (t ++ '-' :: r) with
    | panic => rfl
    | err e =>
      unfold InternalName.fromStr at hres
      rw [(Re.isFull_iff _ _).2 hlang] at hres
      simp only [Bool.not_true, Bool.false_eq_true, if_false] at hres
      split at hres
      · simp at hres
      · split_ifs at hres
    | ok i =>
      exfalso
      obtain ⟨p, segs', sh, _, _⟩ := shape_of_fromStr hres
      have e := sh.eq
      rw [h3] at e
      obtain ⟨e1, _⟩ := List.append_inj e (by rw [sh.len, tyFold_length htf])
      subst e1
      have := tyOf_ascii sh.ty longS hl
      revert this; decide

/-- C01 is false as stated: a string exists on which parsing panics. -/
theorem C01_no_panic_false : ¬ ∀ s : Str, Name.fromStr s ≠ .panic := by
  intro h
  exact h [longS, 'P', 'C', '-', 'f', 'o', 'o'] (by decide)

/-- What holds: on every ASCII string parsing never panics and accepts exactly the documented language.
Missing for the full statement: strings containing U+017F (panic or accepted), U+212A (accepted). -/
theorem C01_ascii_partial (s : Str) (h : ∀ c ∈ s, c.toNat < 128) :
    Name.fromStr s ≠ .panic ∧ ((∃ n, Name.fromStr s = .ok n) ↔ IsName NameChar s) ∧
    ((¬ ∃ n, Name.fromStr s = .ok n) ↔ Name.fromStr s = .err .invalidName) := by
  have hnp : Name.fromStr s ≠ .panic := by
    intro hp
    obtain ⟨t, r, rfl, _, hl, _⟩ := (C01_panic_iff s).1 hp
    have := h longS (by simp [hl])
    revert this; decide
  refine ⟨hnp, ?_, ?_⟩
  · rw [C01_accepted_iff]
    constructor
    · rintro ⟨t, r, rfl, ht, hw⟩
      refine ⟨t, r, rfl, ht, ?_⟩
      have hr : ∀ c ∈ r, c.toNat < 128 := fun c hc => h c (by simp [hc])
      clear h hnp ht
      have aux : ∀ c, c.toNat < 128 → NameCharU c → NameChar c := by
        rintro c hc (h | rfl | rfl)
        · exact h
        · exact absurd hc (by decide)
        · exact absurd hc (by decide)
      induction hw with
      | one g h1 h2 => exact .one g h1 (fun c hc => aux c (hr c hc) (h2 c hc))
      | more g r h1 h2 _ ih =>
        exact .more g r h1 (fun c hc => aux c (hr c (by simp [hc])) (h2 c hc))
          (ih (fun c hc => hr c (by simp [hc])))
    · rintro ⟨t, r, rfl, ht, hw⟩
      exact ⟨t, r, rfl, ht, words_mono (fun c hc => Or.inl hc) hw⟩
  · constructor
    · intro hno
      cases hr : Name.fromStr s with
      | ok n => exact absurd ⟨n, hr⟩ hno
      | panic => exact absurd hr hnp
      | err e =>
        rw [Name.fromStr_eq_err] at hr
        unfold InternalName.fromStr at hr
        split at hr
        · simp at hr; rw [← hr]
        · simp only at hr
          split at hr
          · simp at hr
          · split_ifs at hr
    · rintro h ⟨n, hn⟩; rw [h] at hn; simp at hn

example : (∀ c ∈ c!"REQ-foo-bar_1", c.toNat < 128) ∧ ∃ n, Name.fromStr c!"REQ-foo-bar_1" = .ok n :=
  ⟨by decide, Name.lit c!"REQ-foo-bar_1", by decide⟩

/-! ## C02 -/

/-- Equality of names is equality of the texts up to ASCII case. -/
theorem C02_eq_iff (a b : Name) : Name.beq a b = true ↔ upper a.raw = upper b.raw := by
  unfold Name.beq
  rw [Bool.and_eq_true, beq_iff_eq, beq_iff_eq, ← Name.keyStr_eq, ← Name.keyStr_eq]
  exact ⟨fun h => h.2, fun h => ⟨Name.ty_of_key h, h⟩⟩

/-- Equality, ordering and everything that may be hashed agree. -/
theorem C02_coherent (a b : Name) :
    (Name.beq a b = true ↔ Name.le a b ∧ Name.le b a) ∧
    (Name.beq a b = true ↔ key a = key b) ∧
    (Name.beq a b = true → a.ty = b.ty) ∧
    (Name.le a b ∨ Name.le b a) ∧
    (∀ c, Name.le a b → Name.le b c → Name.le a c) := by
  have h1 : Name.beq a b = true ↔ a.keyStr = b.keyStr := by
    rw [C02_eq_iff, ← Name.keyStr_eq, ← Name.keyStr_eq]
  refine ⟨?_, ?_, fun h => Name.ty_of_key (h1.1 h), le_total _ _, fun c => le_trans⟩
  · rw [h1]
    exact ⟨fun h => ⟨h.le, h.ge⟩, fun h => le_antisymm h.1 h.2⟩
  · rw [h1, Name.key_eq_iff]

/-- Printing and parsing round trip, and the printed text is the text the user gave. -/
theorem C02_roundtrip : (∀ n : Name, Name.fromStr n.raw = .ok n) ∧
    (∀ s n, Name.fromStr s = .ok n → n.raw = s) :=
  ⟨Name.fromStr_raw_self, fun _ _ => Name.raw_of_fromStr⟩

example : Name.beq (Name.lit c!"SPC-key") (Name.lit c!"sPc-KeY") = true := by decide
example : Name.lit c!"SPC-key" ≠ Name.lit c!"sPc-KeY" := by decide

/-! ## C03 -/

theorem foldC_eq_lower {c d : Char} (hd : foldC d = d) (hd1 : d.toNat < 128) (hs : d.toNat ≠ 115) (hk : d.toNat ≠ 107) :
    foldC c = foldC d ↔ upperC c = upperC d := by
  rw [char_eq, char_eq, foldC_toNat, foldC_toNat, upperC_toNat, upperC_toNat]
  rw [char_eq, foldC_toNat] at hd
  split_ifs at hd ⊢ <;> omega

theorem lang_subRe {s : Str} : Re.Lang subRe s ↔
    IsSub NameCharU (fun b => b = 's' ∨ b = 'S' ∨ b = longS) s := by
  have hdot : ∀ {x : Str}, Re.Lang (.litI c!".") x ↔ x = c!"." := by
    intro x
    rw [Re.lang_litI]
    constructor
    · intro h
      match x with
      | [] => simp at h
      | _ :: _ :: _ => simp at h
      | [c] =>
        simp only [List.map_cons, List.map_nil, List.cons.injEq, and_true] at h
        rw [char_eq, foldC_toNat, foldC_toNat] at h
        have h' : ('.' : Char).toNat = 46 := rfl
        rw [h'] at h
        have : c = '.' := by rw [char_eq, h']; split_ifs at h <;> omega
        rw [this]
    · rintro rfl; rfl
  have ht : ∀ a : Char, foldC a = foldC 't' ↔ a = 't' ∨ a = 'T' := by
    intro a
    rw [char_eq, char_eq, char_eq, foldC_toNat, foldC_toNat,
      show 't'.toNat = 116 from rfl, show 'T'.toNat = 84 from rfl]
    split_ifs <;> omega
  have hs : ∀ a : Char, foldC a = foldC 's' ↔ a = 's' ∨ a = 'S' ∨ a = longS := by
    intro a
    rw [char_eq, char_eq, char_eq, char_eq, foldC_toNat, foldC_toNat,
      show 's'.toNat = 115 from rfl, show 'S'.toNat = 83 from rfl, show longS.toNat = 0x17F from rfl]
    split_ifs <;> omega
  have hd : ∀ a : Char, foldC a = foldC '-' ↔ a = '-' := by
    intro a
    rw [char_eq, char_eq, foldC_toNat, foldC_toNat, show '-'.toNat = 45 from rfl]
    split_ifs <;> omega
  have htst : ∀ {x : Str}, Re.Lang (.litI c!"tst-") x ↔ ∃ a b c : Char, (b = 's' ∨ b = 'S' ∨ b = longS) ∧
      (a = 't' ∨ a = 'T') ∧ (c = 't' ∨ c = 'T') ∧ x = [a, b, c, '-'] := by
    intro x
    rw [Re.lang_litI]
    constructor
    · intro h
      have hl := congrArg List.length h
      simp only [List.length_map, List.length_cons, List.length_nil] at hl
      match x, hl with
      | [a, b, c, d], _ =>
        simp only [List.map_cons, List.map_nil, List.cons.injEq, and_true] at h
        obtain ⟨h1, h2, h3, h4⟩ := h
        rw [(hd d).1 h4]
        exact ⟨a, b, c, (hs b).1 h2, (ht a).1 h1, (ht c).1 h3, rfl⟩
    · rintro ⟨a, b, c, h1, h2, h3, rfl⟩
      simp only [List.map_cons, List.map_nil, List.cons.injEq, and_true]
      exact ⟨(ht a).2 h2, (hs b).2 h1, (ht c).2 h3⟩
  unfold subRe IsSub
  constructor
  · rintro ⟨x, y, hx, ⟨u, w, hu, hw, rfl⟩, rfl⟩
    rw [hdot] at hx; subst hx
    rw [lang_plus_nameCh] at hw
    refine ⟨w, hw.1, fun c hc => nameCharI_iff.1 (hw.2 c hc), ?_⟩
    rcases hu with hu | hu
    · obtain ⟨a, b, c, h1, h2, h3, rfl⟩ := htst.1 hu
      exact Or.inr ⟨a, b, c, h1, h2, h3, rfl⟩
    · have hu' : u = [] := hu
      subst hu'
      exact Or.inl rfl
  · rintro ⟨w, h1, h2, h3⟩
    have hw : Re.Lang (.plus nameCh) w := lang_plus_nameCh.2 ⟨h1, fun c hc => nameCharI_iff.2 (h2 c hc)⟩
    rcases h3 with rfl | ⟨a, b, c, hb, ha, hc, rfl⟩
    · exact ⟨c!".", w, hdot.2 rfl, ⟨[], w, Or.inr rfl, hw, rfl⟩, rfl⟩
    · exact ⟨c!".", [a, b, c, '-'] ++ w, hdot.2 rfl,
        ⟨[a, b, c, '-'], w, Or.inl (htst.2 ⟨a, b, c, hb, ha, hc, rfl⟩), hw, rfl⟩, rfl⟩

/-- Exactly which strings are accepted as subnames; parsing never panics. -/
theorem C03_sub_accepted_iff (s : Str) :
    (SubName.fromStr s = .ok ⟨s⟩ ↔ IsSub NameCharU (fun b => b = 's' ∨ b = 'S' ∨ b = longS) s) ∧
    (SubName.fromStr s = .ok ⟨s⟩ ∨ SubName.fromStr s = .err .invalidSubName) := by
  rw [← lang_subRe, ← Re.isFull_iff]
  unfold SubName.fromStr
  cases Re.isFull subRe s <;> simp

example : SubName.fromStr c!".tst-foo" = .ok ⟨c!".tst-foo"⟩ := by decide
example : SubName.fromStr c!".foo-bar" = .err .invalidSubName := by decide

/-- For ASCII strings this is the documented language. -/
theorem C03_sub_ascii (s : Str) (h : ∀ c ∈ s, c.toNat < 128) :
    SubName.fromStr s = .ok ⟨s⟩ ↔ IsSub NameChar (fun b => b = 's' ∨ b = 'S') s := by
  rw [(C03_sub_accepted_iff s).1]
  have aux : ∀ c, c.toNat < 128 → NameCharU c → NameChar c := by
    rintro c hc (h | rfl | rfl)
    · exact h
    · exact absurd hc (by decide)
    · exact absurd hc (by decide)
  constructor
  · rintro ⟨w, h1, h2, h3⟩
    rcases h3 with rfl | ⟨a, b, c, hb, ha, hc, rfl⟩
    · exact ⟨w, h1, fun c hc => aux c (h c (by simp [hc])) (h2 c hc), Or.inl rfl⟩
    · refine ⟨w, h1, fun c hc => aux c (h c (by simp [hc])) (h2 c hc), Or.inr ⟨a, b, c, ?_, ha, hc, rfl⟩⟩
      rcases hb with hb | hb | rfl
      · exact Or.inl hb
      · exact Or.inr hb
      · have := h longS (by simp); revert this; decide
  · rintro ⟨w, h1, h2, h3⟩
    refine ⟨w, h1, fun c hc => Or.inl (h2 c hc), ?_⟩
    rcases h3 with rfl | ⟨a, b, c, hb, ha, hc, rfl⟩
    · exact Or.inl rfl
    · exact Or.inr ⟨a, b, c, by tauto, ha, hc, rfl⟩

/-- Subname identity is ASCII-case-insensitive equality of the text. -/
theorem C03_sub_eq_iff (a b : SubName) : key a = key b ↔ upper a.raw = upper b.raw := Iff.rfl

theorem Name.no_dot (n : Name) : '.' ∉ n.raw := by
  obtain ⟨p, segs, h⟩ := n.shape
  rw [h.eq]
  intro hm
  have key : ∀ c ∈ p ++ dashed segs, c ≠ '.' := by
    intro c hc
    rcases List.mem_append.1 hc with hc | hc
    · have := tyOf_iff.1 h.ty
      have h2 : upperC c ∈ n.ty.asStr := by rw [← this]; exact List.mem_map_of_mem hc
      rintro rfl
      revert h2; cases n.ty <;> decide
    · unfold dashed at hc
      obtain ⟨g, hg, hc⟩ := List.mem_flatMap.1 hc
      rcases List.mem_cons.1 hc with rfl | hc
      · decide
      · have := (h.seg g hg).2 c hc
        rintro rfl
        revert this; decide
  exact key _ hm rfl

/-- A printed reference `NAME` or `NAME.sub` determines name and subname (for well formed subnames). -/
theorem C03_full_injective (n n' : Name) (s s' : Option SubName)
    (hs : ∀ x ∈ s, SubName.fromStr x.raw = .ok x) (hs' : ∀ x ∈ s', SubName.fromStr x.raw = .ok x)
    (h : n.full s = n'.full s') : n = n' ∧ s = s' := by
  have dotHead : ∀ x : SubName, SubName.fromStr x.raw = .ok x → ∃ t, x.raw = '.' :: t := by
    rintro ⟨x⟩ hx
    obtain ⟨w, _, _, h3⟩ := (C03_sub_accepted_iff x).1.1 hx
    rcases h3 with h | ⟨a, b, c, _, _, _, h⟩
    · exact ⟨_, h⟩
    · exact ⟨_, h⟩
  have key : ∀ (a b x y : Str), '.' ∉ a → '.' ∉ b → (x = [] ∨ ∃ t, x = '.' :: t) →
      (y = [] ∨ ∃ t, y = '.' :: t) → a ++ x = b ++ y → a = b ∧ x = y := by
    intro a
    induction a with
    | nil =>
      intro b x y _ hb hx hy e
      cases b with
      | nil => exact ⟨rfl, e⟩
      | cons c b =>
        simp only [List.nil_append, List.cons_append] at e
        rcases hx with rfl | ⟨t, rfl⟩
        · simp at e
        · injection e with e1 _; subst e1; simp at hb
    | cons c a ih =>
      intro b x y ha hb hx hy e
      cases b with
      | nil =>
        simp only [List.nil_append, List.cons_append] at e
        rcases hy with rfl | ⟨t, rfl⟩
        · simp at e
        · injection e with e1 _; subst e1; simp at ha
      | cons c' b =>
        simp only [List.cons_append] at e
        injection e with e1 e2
        subst e1
        simp only [List.mem_cons, not_or] at ha hb
        obtain ⟨h1, h2⟩ := ih b x y ha.2 hb.2 hx hy e2
        exact ⟨by rw [h1], h2⟩
  have full_eq : ∀ (m : Name) (o : Option SubName), m.full o = m.raw ++ (match o with | some z => z.raw | none => []) := by
    intro m o; cases o <;> simp [Name.full]
  rw [full_eq, full_eq] at h
  have mk : ∀ o : Option SubName, (∀ x ∈ o, SubName.fromStr x.raw = .ok x) →
      ((match o with | some z => z.raw | none => []) = [] ∨ ∃ t, (match o with | some z => z.raw | none => []) = '.' :: t) := by
    intro o ho
    cases o with
    | none => exact Or.inl rfl
    | some z => exact Or.inr (dotHead z (ho z rfl))
  obtain ⟨h1, h2⟩ := key _ _ _ _ n.no_dot n'.no_dot (mk s hs) (mk s' hs') h
  refine ⟨Name.ext_raw h1, ?_⟩
  cases s with
  | none =>
    cases s' with
    | none => rfl
    | some z =>
      obtain ⟨t, ht⟩ := dotHead z (hs' z rfl)
      simp only [ht] at h2; simp at h2
  | some z =>
    cases s' with
    | none =>
      obtain ⟨t, ht⟩ := dotHead z (hs z rfl)
      simp only [ht] at h2; simp at h2
    | some z' =>
      cases z; cases z'; simp only at h2; rw [h2]

example : (Name.lit c!"REQ-foo").full (some ⟨c!".sub"⟩) = c!"REQ-foo.sub" ∧
    SubName.fromStr c!".sub" = .ok ⟨c!".sub"⟩ := by decide

/-! ## C04 -/

/-- Number of dashes, i.e. of elements after the type. -/
def dashes (s : Str) : Nat := s.count '-'

/-- Parent and automatic link are total, and related to the text of the name as documented. -/
theorem C04_parent (n : Name) :
    (dashes n.raw = 1 ∧ n.parent = .ok none) ∨
    (2 ≤ dashes n.raw ∧ ∃ m : Name, ∃ w : Str, n.parent = .ok (some m) ∧ '-' ∉ w ∧ w ≠ [] ∧
      n.raw = m.raw ++ '-' :: w ∧ m.ty = n.ty ∧ dashes m.raw + 1 = dashes n.raw) := by
  obtain ⟨p, segs, h⟩ := n.shape
  have hcount : ∀ {q : Str} {l : List Str}, '-' ∉ q → (∀ g ∈ l, '-' ∉ g) → dashes (q ++ dashed l) = l.length := by
    intro q l hq hl
    unfold dashes
    rw [List.count_append, List.count_eq_zero_of_not_mem hq, Nat.zero_add]
    induction l with
    | nil => rfl
    | cons g l ih =>
      rw [dashed_cons, List.count_cons_self, List.count_append,
        List.count_eq_zero_of_not_mem (hl g (by simp)), Nat.zero_add,
        ih (fun x hx => hl x (by simp [hx]))]
      rfl
  have hq := tyFold_no_dash (tyFold_of_tyOf h.ty)
  have hn : dashes n.raw = segs.length := by rw [h.eq]; exact hcount hq (fun g hg => segI_no_dash (h.seg g hg))
  rcases Name.parent_spec h with ⟨h1, h2⟩ | ⟨m, h1, h2, h3, h4⟩
  · exact Or.inl ⟨by rw [hn, h1], h2⟩
  · right
    have hm : dashes m.raw = segs.dropLast.length := by
      rw [h2.eq]; exact hcount hq (fun g hg => segI_no_dash (h2.seg g hg))
    obtain ⟨init, y, rfl⟩ : ∃ init y, segs = init ++ [y] :=
      ⟨segs.dropLast, segs.getLast h.ne, (List.dropLast_append_getLast h.ne).symm⟩
    have hy := h.seg y (by simp)
    refine ⟨by omega, m, y, h1, segI_no_dash hy, hy.1, ?_, h3, ?_⟩
    · rw [h2.eq, h.eq]; simp
    · rw [hm, hn]; simp

/-- The automatic link replaces the type by the one above it and keeps the rest of the text. -/
theorem C04_autoPartof (n : Name) :
    (n.ty = .REQ ∧ n.autoPartof = .ok none) ∨
    (∃ m : Name, n.autoPartof = .ok (some m) ∧ m.raw.drop 3 = n.raw.drop 3 ∧
      ((n.ty = .SPC ∧ m.ty = .REQ ∧ m.raw.take 3 = c!"REQ") ∨
       (n.ty = .TST ∧ m.ty = .SPC ∧ m.raw.take 3 = c!"SPC"))) := by
  obtain ⟨p, segs, h⟩ := n.shape
  rcases Name.autoPartof_spec h with ⟨h1, h2⟩ | ⟨t', m, h1, h2, h3, h4⟩
  · left
    refine ⟨?_, h2⟩
    revert h1; cases n.ty <;> decide
  · right
    have hlen : t'.asStr.length = 3 := h3.len
    have hdrop : m.raw.drop 3 = n.raw.drop 3 := by
      rw [h3.eq, h.eq, List.drop_append_of_le_length (by omega), List.drop_append_of_le_length (by rw [h.len]),
        List.drop_of_length_le (by omega), List.drop_of_length_le (by rw [h.len])]
    have htake : m.raw.take 3 = t'.asStr := by
      rw [h3.eq, List.take_append_of_le_length (by omega), List.take_of_length_le (by omega)]
    refine ⟨m, h2, hdrop, ?_⟩
    cases hn : n.ty with
    | REQ => rw [hn] at h1; simp [Ty.above] at h1
    | SPC => rw [hn] at h1; simp only [Ty.above, Option.some.injEq] at h1; subst h1; exact Or.inl ⟨rfl, h4, htake⟩
    | TST => rw [hn] at h1; simp only [Ty.above, Option.some.injEq] at h1; subst h1; exact Or.inr ⟨rfl, h4, htake⟩

/-- One automatic step (parent or automatic link). -/
inductive AutoStep : Name → Name → Prop
  | parent {n m : Name} : n.parent = .ok (some m) → AutoStep n m
  | auto {n m : Name} : n.autoPartof = .ok (some m) → AutoStep n m

/-- Following automatic links never returns to a name with the same identity. -/
theorem C04_acyclic (n m : Name) (h : Relation.TransGen AutoStep n m) : key n ≠ key m := by
  let rank : Ty → Nat := fun t => match t with | .REQ => 0 | .SPC => 1 | .TST => 2
  let μ : Name → Nat := fun n => rank n.ty + n.raw.length
  have step : ∀ a b : Name, AutoStep a b → μ b < μ a := by
    intro a b hab
    cases hab with
    | parent h =>
      rcases C04_parent a with ⟨_, h2⟩ | ⟨_, m, w, h2, _, _, h3, h4, _⟩
      · rw [h] at h2; simp at h2
      · rw [h] at h2; injection h2 with h2; injection h2 with h2; subst h2
        simp only [μ, h4]
        rw [h3, List.length_append, List.length_cons]
        omega
    | auto h =>
      rcases C04_autoPartof a with ⟨_, h2⟩ | ⟨m, h2, h3, h4⟩
      · rw [h] at h2; simp at h2
      · rw [h] at h2; injection h2 with h2; injection h2 with h2; subst h2
        have hl : b.raw.length = a.raw.length := by
          have e1 : 3 ≤ a.raw.length := by
            obtain ⟨p, segs, hs⟩ := a.shape
            rw [hs.eq, List.length_append, hs.len]; omega
          have e2 : 3 ≤ b.raw.length := by
            obtain ⟨p, segs, hs⟩ := b.shape
            rw [hs.eq, List.length_append, hs.len]; omega
          have := congrArg List.length h3
          simp only [List.length_drop] at this
          omega
        simp only [μ, hl]
        rcases h4 with ⟨h5, h6, _⟩ | ⟨h5, h6, _⟩ <;> rw [h5, h6] <;> simp [rank]
  have lt : μ m < μ n := by
    induction h with
    | single h => exact step _ _ h
    | tail _ h ih => exact lt_trans (step _ _ h) ih
  intro e
  have e1 := Name.key_eq_iff.1 e
  have e2 := Name.ty_of_key e1
  rw [Name.keyStr_eq, Name.keyStr_eq] at e1
  have e3 := congrArg List.length e1
  rw [length_upper, length_upper] at e3
  simp only [μ, e2, e3] at lt
  omega

/-- Both functions respect name identity. -/
theorem C04_congr (a b : Name) (h : key a = key b) :
    (∀ m, a.parent = .ok (some m) → ∃ m', b.parent = .ok (some m') ∧ key m = key m') ∧
    (∀ m, a.autoPartof = .ok (some m) → ∃ m', b.autoPartof = .ok (some m') ∧ key m = key m') := by
  obtain ⟨p, segs, ha⟩ := a.shape
  obtain ⟨p', segs', hb⟩ := b.shape
  have hk := Name.key_eq_iff.1 h
  have hty := Name.ty_of_key hk
  rw [Name.keyStr_eq, Name.keyStr_eq, ha.eq, hb.eq, upper_append, upper_append] at hk
  obtain ⟨e1, e2⟩ := List.append_inj hk (by rw [length_upper, length_upper, ha.len, hb.len])
  rw [upper_dashed, upper_dashed] at e2
  have e3 : segs.map upper = segs'.map upper := by
    refine dashed_inj ?_ ?_ e2
    · intro g hg; obtain ⟨x, hx, rfl⟩ := List.mem_map.1 hg; exact segI_no_dash (segI_upper (ha.seg x hx))
    · intro g hg; obtain ⟨x, hx, rfl⟩ := List.mem_map.1 hg; exact segI_no_dash (segI_upper (hb.seg x hx))
  have elen : segs.length = segs'.length := by simpa using congrArg List.length e3
  constructor
  · intro m hm
    rcases Name.parent_spec ha with ⟨_, h2⟩ | ⟨m1, h1, h2, h3, h4⟩
    · rw [h2] at hm; simp at hm
    · rw [hm] at h1; injection h1 with h1; injection h1 with h1; subst h1
      rcases Name.parent_spec hb with ⟨h5, _⟩ | ⟨m', h5, h6, _, _⟩
      · omega
      · refine ⟨m', h5, Name.key_eq_iff.2 ?_⟩
        rw [Name.keyStr_eq, Name.keyStr_eq, h2.eq, h6.eq, upper_append, upper_append, e1, upper_dashed,
          upper_dashed, List.map_dropLast, List.map_dropLast, e3]
  · intro m hm
    rcases Name.autoPartof_spec ha with ⟨_, h2⟩ | ⟨t1, m1, h1, h2, h3, h4⟩
    · rw [h2] at hm; simp at hm
    · rw [hm] at h2; injection h2 with h2; injection h2 with h2; subst h2
      rcases Name.autoPartof_spec hb with ⟨h5, _⟩ | ⟨t2, m', h5, h6, h7, _⟩
      · rw [← hty, h1] at h5; simp at h5
      · rw [← hty, h1] at h5; injection h5 with h5; subst h5
        refine ⟨m', h6, Name.key_eq_iff.2 ?_⟩
        rw [Name.keyStr_eq, Name.keyStr_eq, h3.eq, h7.eq, upper_append, upper_append, upper_dashed,
          upper_dashed, e3]

example : (Name.lit c!"tst-Foo-bar").parent = .ok (some (Name.lit c!"tst-Foo")) := by decide
example : (Name.lit c!"tst-Foo-bar").autoPartof = .ok (some (Name.lit c!"SPC-Foo-bar")) := by decide
example : Relation.TransGen AutoStep (Name.lit c!"TST-a-b") (Name.lit c!"REQ-a") :=
  .tail (.tail (.single (.auto (m := Name.lit c!"SPC-a-b") (by decide)))
    (.auto (m := Name.lit c!"REQ-a-b") (by decide))) (.parent (by decide))

end Art
