import Verif.Lemmas.Pattern
import Verif.Lemmas.Chars
import Verif.Lemmas.MdRegex

namespace Art
open Spec

/-! ## characters and classes -/

section
variable {U : CharData} {fold : Char → Char}

theorem inClass_litI (h : CharsOk U fold) (c x : Char) : inClass U true false [.range c c] x = (fold x == fold c) := by
  rw [Bool.eq_iff_iff]
  simp only [inClass, if_true, List.any_cons, List.any_nil, Bool.or_false, Item.has, bne_iff_ne, ne_eq, Bool.not_eq_false, List.any_eq_true, Bool.and_eq_true,
    decide_eq_true_eq, beq_iff_eq]
  constructor
  · rintro ⟨d, hd, h1, h2⟩
    have : c = d := by rw [char_eq]; rw [char_le] at h1 h2; omega
    subst this
    exact ((h.same x c).mp hd).symm
  · intro e
    exact ⟨c, (h.same x c).mpr e.symm, le_refl _, le_refl _⟩

theorem inClass_ascii (h : CharsOk U fold) {c : Char} (hc : c.toNat < 128) (x : Char) : inClass U true false [.range c c] x = (foldC x == foldC c) := by
  rw [inClass_litI h, Bool.eq_iff_iff, beq_iff_eq, beq_iff_eq]
  exact h.ascii x c hc

theorem inClass_lit (c x : Char) : inClass U false false [.range c c] x = (x == c) := by
  rw [Bool.eq_iff_iff]
  simp only [inClass, List.any_cons, List.any_nil, Bool.or_false, Item.has, bne_iff_ne, ne_eq, Bool.not_eq_false, Bool.and_eq_true,
    decide_eq_true_eq, beq_iff_eq, Bool.false_eq_true, if_false]
  rw [char_le, char_le, char_eq]
  omega

theorem inClass_space (x : Char) : inClass U false false [.perl .space false] x = isWS x := by
  simp [inClass, Item.has, CharData.perl]

theorem inClass_digit (x : Char) : inClass U false false [.perl .digit false] x = U.digit x := by
  simp [inClass, Item.has, CharData.perl]

theorem inClass_any (h : CharsOk U fold) (x : Char) : inClass U true false [.perl .space false, .perl .space true] x = true := by
  have : x ∈ U.same x := (h.same x x).mpr rfl
  simp only [inClass, if_true, bne_iff_ne, ne_eq, Bool.not_eq_false, List.any_eq_true]
  refine ⟨x, this, ?_⟩
  cases hw : isWS x
  · exact ⟨.perl .space true, by simp, by simp [Item.has, CharData.perl, hw]⟩
  · exact ⟨.perl .space false, by simp, by simp [Item.has, CharData.perl, hw]⟩

/-- The class of the characters of names. -/
def nameItems : List Item := [.range 'A' 'Z', .range '0' '9', .range '_' '_']

theorem nameCharI_of_fold {c d : Char} (h : foldC c = foldC d) : nameCharI c = nameCharI d := by
  unfold nameCharI
  rw [h]

theorem inClass_name (h : CharsOk U fold) (x : Char) : inClass U true false nameItems x = nameCharI x := by
  rw [Bool.eq_iff_iff]
  simp only [inClass, nameItems, if_true, List.any_cons, List.any_nil, Bool.or_false, Item.has, bne_iff_ne, ne_eq, Bool.not_eq_false, List.any_eq_true, Bool.and_eq_true,
    decide_eq_true_eq, Bool.or_eq_true]
  constructor
  · rintro ⟨d, hd, hr⟩
    have hr' : (65 ≤ d.toNat ∧ d.toNat ≤ 90) ∨ (48 ≤ d.toNat ∧ d.toNat ≤ 57) ∨ (95 ≤ d.toNat ∧ d.toNat ≤ 95) := hr
    have ha : d.toNat < 128 := by omega
    have e := (h.ascii x d ha).mp ((h.same x d).mp hd).symm
    rw [nameCharI_of_fold e, nameCharI_toNat]
    omega
  · intro hx
    have key : ∀ d : Char, foldC d = foldC x → (65 ≤ d.toNat ∧ d.toNat ≤ 90) ∨ (48 ≤ d.toNat ∧ d.toNat ≤ 57) ∨ (95 ≤ d.toNat ∧ d.toNat ≤ 95) →
        ∃ d, d ∈ U.same x ∧ ('A' ≤ d ∧ d ≤ 'Z' ∨ '0' ≤ d ∧ d ≤ '9' ∨ '_' ≤ d ∧ d ≤ '_') := by
      intro d e hr
      exact ⟨d, (h.same x d).mpr ((h.ascii x d (by omega)).mpr e.symm).symm, hr⟩
    rw [nameCharI_toNat] at hx
    rcases hx with hx | hx | hx | hx | hx | hx
    · exact key x rfl (.inl hx)
    · exact key (upperC x) (foldC_upperC x) (by rw [upperC_toNat, if_pos hx]; omega)
    · exact key x rfl (.inr (.inl hx))
    · exact key x rfl (by omega)
    · exact key 'S' (by rw [char_eq, foldC_toNat, foldC_toNat, hx]; decide) (by decide)
    · exact key 'K' (by rw [char_eq, foldC_toNat, foldC_toNat, hx]; decide) (by decide)

/-! ## the trees -/

/-- A literal. -/
def litsP (i : Bool) (s : Str) : Pat := s.foldr (fun c r => .seq (litPat i c) r) .eps

theorem free_litsP (i : Bool) (s : Str) : (litsP i s).free = true := by
  induction s with
  | nil => rfl
  | cons c s ih => exact ih

theorem toRe_litsF (h : CharsOk U fold) (s : Str) : (litsP true s).toRe U = litF fold s := by
  induction s with
  | nil => rfl
  | cons c s ih =>
    have : (litsP true (c :: s)).toRe U = .seq (.ch (inClass U true false [.range c c])) ((litsP true s).toRe U) := rfl
    rw [this, ih, funext (inClass_litI h c)]
    rfl

theorem toRe_litsI (h : CharsOk U fold) {s : Str} (hs : s.all (fun c => decide (c.toNat < 128)) = true) : (litsP true s).toRe U = .litI s := by
  induction s with
  | nil => rfl
  | cons c s ih =>
    simp only [List.all_cons, Bool.and_eq_true, decide_eq_true_eq] at hs
    have : (litsP true (c :: s)).toRe U = .seq (.ch (inClass U true false [.range c c])) ((litsP true s).toRe U) := rfl
    rw [this, ih hs.2, funext (inClass_ascii h hs.1)]
    rfl

theorem toRe_lits (s : Str) : (litsP false s).toRe U = .lit s := by
  induction s with
  | nil => rfl
  | cons c s ih =>
    have : (litsP false (c :: s)).toRe U = .seq (.ch (inClass U false false [.range c c])) ((litsP false s).toRe U) := rfl
    rw [this, ih, funext (inClass_lit c)]
    rfl

/-- `r+` -/
def plusP (a : Pat) : Pat := .seq a (.star true a)
/-- `r?` -/
def optP (a : Pat) : Pat := .alt a .eps
/-- `\s` -/
def spaceP : Pat := .cls false false [.perl .space false]
/-- `[A-Z0-9_]` -/
def nameChP : Pat := .cls true false nameItems

def nameP : Pat :=
  .seq (.alt (litsP true c!"REQ") (.alt (litsP true c!"SPC") (litsP true c!"TST")))
    (.seq (litsP true c!"-") (.seq (.star true (.seq (plusP nameChP) (litsP true c!"-"))) (plusP nameChP)))
def subP : Pat := .seq (litsP true c!".") (.seq (optP (litsP true c!"tst-")) (plusP nameChP))
def textSubP (n : Nat) : Pat := .seq (litsP true c!"[[") (.seq (.cap n subP) (litsP true c!"]]"))
def textRefP (n k : Nat) : Pat := .seq (litsP true c!"[[") (.seq (.cap n nameP) (.seq (optP (.cap k subP)) (litsP true c!"]]")))
def srcP : Pat :=
  .alt (.seq (litsP true c!"#") (.seq (.cap 1 nameP) (optP (.cap 2 subP)))) (.alt (.cap 3 (litsP true c!"#ART-SKIP")) (.cap 4 (litsP true c!"#ART-DONE")))
def nameUrlP : Pat := .seq (optP (litsP true c!"artifacts/")) (.cap 1 nameP)
def editUrlP : Pat := .seq (litsP true c!"edit/") (.cap 1 (plusP (.cls false false [.perl .digit false])))
def attrsEndP : Pat := .seq (litsP false c!"##") (.seq (plusP (litPat false '#')) (.star true spaceP))
def codeEndP : Pat := .seq (litsP false c!"``") (.seq (plusP (litPat false '`')) (.star true spaceP))
def attrsCodeP : Pat :=
  .seq (litsP false c!"```") (.seq (.alt (.star true spaceP) (.seq (.star false (.dot false)) (plusP spaceP)))
    (.seq (litsP false c!"ar") (.seq (plusP (litPat false 't')) (.star true spaceP))))
def subnameTstP : Pat := .seq (litsP true c!".tst-") (.star true (.dot false))
def nameLineP : Pat := .seq (litsP true c!"#") (.seq (.star true spaceP) (.seq (.cap 1 nameP) (.star true spaceP)))
/-- `[\s\S]` -/
def anyP : Pat := .cls true false [.perl .space false, .perl .space true]
def dotP (n : Nat) : Pat :=
  .seq (.cap n (.seq (litsP true c!"```dot") (.star true spaceP))) (.seq (litsP true c!"\n")
    (.seq (.cap (n + 1) (.seq (.seq anyP (.star false anyP)) (litsP true c!"\n"))) (.cap (n + 2) (litsP true c!"```"))))

theorem toRe_spaceP : spaceP.toRe U = .ch isWS := by
  show Re.ch (inClass U false false [.perl .space false]) = _
  rw [funext inClass_space]

theorem toRe_nameChP (h : CharsOk U fold) : nameChP.toRe U = nameCh := by
  show Re.ch (inClass U true false nameItems) = _
  rw [funext (inClass_name h)]
  rfl

theorem toRe_plusP (a : Pat) : (plusP a).toRe U = .plus (a.toRe U) := rfl
theorem toRe_optP (a : Pat) : (optP a).toRe U = .opt (a.toRe U) := rfl

theorem toRe_nameP (h : CharsOk U fold) : nameP.toRe U = nameRe := by
  simp only [nameP, Pat.toRe, toRe_plusP, toRe_nameChP h, toRe_litsI h (s := c!"REQ") (by decide), toRe_litsI h (s := c!"SPC") (by decide),
    toRe_litsI h (s := c!"TST") (by decide), toRe_litsI h (s := c!"-") (by decide)]
  rfl

theorem toRe_subP (h : CharsOk U fold) : subP.toRe U = subRe := by
  simp only [subP, Pat.toRe, toRe_plusP, toRe_optP, toRe_nameChP h, toRe_litsI h (s := c!".") (by decide), toRe_litsI h (s := c!"tst-") (by decide)]
  rfl

theorem toRe_textSubP (h : CharsOk U fold) : (textSubP 1).toRe U = textSubRe := by
  simp only [textSubP, Pat.toRe, toRe_subP h, toRe_litsI h (s := c!"[[") (by decide), toRe_litsI h (s := c!"]]") (by decide)]
  rfl

theorem toRe_textRefP (h : CharsOk U fold) : (textRefP 1 2).toRe U = textRefRe := by
  simp only [textRefP, Pat.toRe, toRe_optP, toRe_nameP h, toRe_subP h, toRe_litsI h (s := c!"[[") (by decide), toRe_litsI h (s := c!"]]") (by decide)]
  rfl

theorem toRe_srcP (h : CharsOk U fold) : srcP.toRe U = srcRe := by
  simp only [srcP, Pat.toRe, toRe_optP, toRe_nameP h, toRe_subP h, toRe_litsI h (s := c!"#") (by decide), toRe_litsI h (s := c!"#ART-SKIP") (by decide),
    toRe_litsI h (s := c!"#ART-DONE") (by decide)]
  rfl

theorem toRe_nameUrlP (h : CharsOk U fold) : nameUrlP.toRe U = nameUrlRe := by
  simp only [nameUrlP, Pat.toRe, toRe_optP, toRe_nameP h, toRe_litsI h (s := c!"artifacts/") (by decide)]
  rfl

theorem toRe_editUrlP (h : CharsOk U fold) {nd : Char → Bool} (hd : U.digit = digitU nd) : editUrlP.toRe U = editUrlRe nd := by
  simp only [editUrlP, Pat.toRe, toRe_plusP, toRe_litsI h (s := c!"edit/") (by decide), funext inClass_digit, hd]
  rfl

theorem toRe_litPat (c : Char) : (litPat false c).toRe U = .ch (fun x => x == c) := by
  show Re.ch (inClass U false false [.range c c]) = _
  rw [funext (inClass_lit c)]

theorem toRe_attrsEndP : attrsEndP.toRe U = attrsEndRe := by
  simp only [attrsEndP, Pat.toRe, toRe_plusP, toRe_lits, toRe_litPat, toRe_spaceP]
  rfl

theorem toRe_codeEndP : codeEndP.toRe U = codeEndRe := by
  simp only [codeEndP, Pat.toRe, toRe_plusP, toRe_lits, toRe_litPat, toRe_spaceP]
  rfl

theorem toRe_attrsCodeP : attrsCodeP.toRe U = attrsCodeRe := by
  simp only [attrsCodeP, Pat.toRe, toRe_plusP, toRe_lits, toRe_litPat, toRe_spaceP, Bool.false_or]
  rfl

theorem toRe_subnameTstP (h : CharsOk U fold) : subnameTstP.toRe U = subnameTstRe := by
  have e : (fun c : Char => c != '\n') = fun c => decide (c ≠ '\n') := by
    funext c
    by_cases hc : c = '\n' <;> simp [hc]
  simp only [subnameTstP, Pat.toRe, toRe_litsI h (s := c!".tst-") (by decide), Bool.false_or, e]
  rfl

theorem toRe_nameLineP (h : CharsOk U fold) : nameLineP.toRe U = .seq (.litI c!"#") (.seq .ws (.seq (.cap 1 nameRe) .ws)) := by
  simp only [nameLineP, Pat.toRe, toRe_nameP h, toRe_litsI h (s := c!"#") (by decide), toRe_spaceP]
  rfl

theorem litI_eq_lit {s : Str} (h : ∀ c ∈ s, ∀ x, foldC x = foldC c ↔ x = c) : Re.litI s = .lit s := by
  induction s with
  | nil => rfl
  | cons c s ih =>
    have e : (fun x => foldC x == foldC c) = fun x => x == c := by
      funext x
      rw [Bool.eq_iff_iff, beq_iff_eq, beq_iff_eq]
      exact h c (by simp) x
    show Re.seq (.ch _) (Re.litI s) = Re.seq (.ch _) (Re.lit s)
    rw [e, ih fun d hd => h d (by simp [hd])]

theorem toRe_anyP (h : CharsOk U fold) : anyP.toRe U = anyCh := by
  show Re.ch (inClass U true false _) = _
  rw [funext (inClass_any h)]
  rfl

theorem toRe_dotP (h : CharsOk U fold) : (dotP 1).toRe U = dotRe := by
  have hp : ∀ d : Char, d.toNat = 10 ∨ d.toNat = 96 → ∀ x, foldC x = foldC d ↔ x = d := by
    intro d hd x
    rw [char_eq, char_eq, foldC_toNat, foldC_toNat]
    split_ifs <;> omega
  have e1 : Re.litI c!"\n" = .lit c!"\n" := litI_eq_lit fun d hd => hp d (by simp at hd; subst hd; decide)
  have e2 : Re.litI c!"```" = .lit c!"```" := litI_eq_lit fun d hd => hp d (by simp at hd; subst hd; decide)
  simp only [dotP, Pat.toRe, toRe_anyP h, toRe_spaceP, toRe_litsI h (s := c!"```dot") (by decide), toRe_litsI h (s := c!"\n") (by decide),
    toRe_litsI h (s := c!"```") (by decide), e1, e2]
  rfl

end

/-! ## the texts -/

section
variable {U : CharData}

theorem anchored_of {t : Str} {a : Pat} {ns : List (Str × Nat)}
    (h : (Rx.parse t).map (fun r => (r.pat.norm, r.names)) = some ((Pat.seq (.bol false) (.seq a (.eol false))).norm, ns)) (hf : a.free = true) :
    ∃ r, Rx.parse t = some r ∧ r.names = ns ∧ ∀ s, r.captures U s = ((a.toRe U).full s).map fun c => (s, [], c) := by
  cases hr : Rx.parse t with
  | none => rw [hr] at h; cases h
  | some r =>
    rw [hr] at h
    simp only [Option.map_some, Option.some.injEq, Prod.mk.injEq] at h
    refine ⟨r, rfl, h.2, fun s => ?_⟩
    rw [Rx.captures, (Pat.eqv_of_norm h.1).find, Pat.find_full hf]

theorem floating_of {t : Str} {a : Pat} {ns : List (Str × Nat)} (h : (Rx.parse t).map (fun r => (r.pat.norm, r.names)) = some (a.norm, ns)) (hf : a.free = true) :
    ∃ r, Rx.parse t = some r ∧ r.names = ns ∧ ∀ s, r.captures U s = (a.toRe U).find s ∧ r.capturesIter U s = (a.toRe U).findIter s := by
  cases hr : Rx.parse t with
  | none => rw [hr] at h; cases h
  | some r =>
    rw [hr] at h
    simp only [Option.map_some, Option.some.injEq, Prod.mk.injEq] at h
    refine ⟨r, rfl, h.2, fun s => ⟨?_, ?_⟩⟩
    · rw [Rx.captures, (Pat.eqv_of_norm h.1).find, Pat.find_free hf]
    · rw [Rx.capturesIter, (Pat.eqv_of_norm h.1).iterFrom, Pat.iterFrom_free hf]
      rfl

set_option maxRecDepth 4000 in
theorem norm_nameText : (Rx.parse nameText).map (fun r => (r.pat.norm, r.names)) = some ((Pat.seq (.bol false) (.seq nameP (.eol false))).norm, []) := by decide +kernel
set_option maxRecDepth 4000 in
theorem norm_subNameText : (Rx.parse subNameText).map (fun r => (r.pat.norm, r.names)) = some ((Pat.seq (.bol false) (.seq subP (.eol false))).norm, []) := by decide +kernel
set_option maxRecDepth 4000 in
theorem norm_textSubText : (Rx.parse textSubText).map (fun r => (r.pat.norm, r.names)) = some ((textSubP 1).norm, [(c!"sub", 1)]) := by decide +kernel
set_option maxRecDepth 4000 in
theorem norm_textRefText : (Rx.parse textRefText).map (fun r => (r.pat.norm, r.names)) = some ((textRefP 1 2).norm, [(c!"name", 1), (c!"name_sub", 2)]) := by decide +kernel
set_option maxRecDepth 4000 in
theorem norm_srcText : (Rx.parse srcText).map (fun r => (r.pat.norm, r.names)) = some (srcP.norm, [(c!"skip", 3), (c!"done", 4)]) := by decide +kernel
set_option maxRecDepth 4000 in
theorem norm_nameUrlText : (Rx.parse nameUrlText).map (fun r => (r.pat.norm, r.names)) = some (nameUrlP.norm, []) := by decide +kernel
set_option maxRecDepth 4000 in
theorem norm_editUrlText : (Rx.parse editUrlText).map (fun r => (r.pat.norm, r.names)) = some (editUrlP.norm, []) := by decide +kernel
set_option maxRecDepth 4000 in
theorem norm_attrsEndText : (Rx.parse attrsEndText).map (fun r => (r.pat.norm, r.names)) = some ((Pat.seq (.bol false) (.seq attrsEndP (.eol false))).norm, []) := by decide +kernel
set_option maxRecDepth 4000 in
theorem norm_codeEndText : (Rx.parse codeEndText).map (fun r => (r.pat.norm, r.names)) = some ((Pat.seq (.bol false) (.seq codeEndP (.eol false))).norm, []) := by decide +kernel
set_option maxRecDepth 4000 in
theorem norm_attrsCodeText : (Rx.parse attrsCodeText).map (fun r => (r.pat.strip.norm, r.names)) = some ((Pat.seq (.bol false) (.seq attrsCodeP (.eol false))).norm, []) := by decide +kernel
set_option maxRecDepth 4000 in
theorem norm_subnameTstText : (Rx.parse subnameTstText).map (fun r => (r.pat.norm, r.names)) = some ((Pat.seq (.bol false) (.seq subnameTstP (.eol false))).norm, []) := by decide +kernel
set_option maxRecDepth 8000 in
theorem norm_replaceText : (Rx.parse replaceText).map (fun r => (r.pat.norm, r.names)) =
    some ((Pat.alt (.cap 1 (textSubP 2)) (.alt (.cap 3 (textRefP 4 5)) (.cap 6 (.seq (.bol true) (.seq (dotP 7) (.eol true)))))).norm,
      [(c!"sub", 2), (c!"name", 4), (c!"name_sub", 5), (c!"dot_pre", 7), (c!"dot", 8), (c!"dot_post", 9)]) := by decide +kernel

end
end Art
