import Verif.Spec.Pattern
import Verif.Lemmas.Regex
import Verif.Lemmas.RegexOrder

namespace Art
open Spec

/-! ## matching -/

theorem after_nil (p : Option Char) : after p [] = p := rfl

theorem after_append (p : Option Char) (m m' : Str) : after p (m ++ m') = after (after p m) m' := by
  unfold after
  rw [List.getLast?_append]
  cases m'.getLast? <;> simp

namespace Pat
variable {U : CharData}

/-- The same matches in the same order. -/
def Eqv (U : CharData) (a b : Pat) : Prop := ∀ p s, ms U a p s = ms U b p s

theorem Eqv.refl (a : Pat) : Eqv U a a := fun _ _ => rfl
theorem Eqv.symm {a b : Pat} (h : Eqv U a b) : Eqv U b a := fun p s => (h p s).symm
theorem Eqv.trans {a b c : Pat} (h : Eqv U a b) (h' : Eqv U b c) : Eqv U a c := fun p s => (h p s).trans (h' p s)

theorem eqv_seq {a a' b b' : Pat} (h : Eqv U a a') (h' : Eqv U b b') : Eqv U (.seq a b) (.seq a' b') := by
  intro p s
  simp only [ms, h p s]
  congr 1
  funext x
  simp only [h' _ _]

theorem eqv_alt {a a' b b' : Pat} (h : Eqv U a a') (h' : Eqv U b b') : Eqv U (.alt a b) (.alt a' b') := by
  intro p s
  simp only [ms, h p s, h' p s]

theorem eqv_cap {a a' : Pat} {n : Nat} (h : Eqv U a a') : Eqv U (.cap n a) (.cap n a') := by
  intro p s
  simp only [ms, h p s]

theorem eqv_star {a a' : Pat} {g : Bool} (h : Eqv U a a') : Eqv U (.star g a) (.star g a') := by
  intro p s
  have : ms U a = ms U a' := by funext p s; exact h p s
  simp only [ms, this]

theorem eqv_assoc (a b c : Pat) : Eqv U (.seq (.seq a b) c) (.seq a (.seq b c)) := by
  intro p s
  simp only [ms, List.flatMap_assoc, List.map_flatMap, List.flatMap_map, List.map_map]
  congr 1
  funext x
  congr 1
  funext y
  rw [after_append]
  congr 1
  funext z
  simp [List.append_assoc]

theorem eqv_eps_seq (a : Pat) : Eqv U (.seq .eps a) a := by
  intro p s
  simp [ms, after_nil]

theorem eqv_seq_eps (a : Pat) : Eqv U (.seq a .eps) a := by
  intro p s
  simp [ms]

theorem eqv_alt_assoc (a b c : Pat) : Eqv U (.alt (.alt a b) c) (.alt a (.alt b c)) := by
  intro p s
  simp [ms]

/-- One after the other, with all brackets on the right. -/
def app : Pat → Pat → Pat
  | .eps, c => c
  | .seq a b, c => .seq a (app b c)
  | a, .eps => a
  | a, c => .seq a c

theorem eqv_app (a b : Pat) : Eqv U (app a b) (.seq a b) := by
  induction a with
  | eps => exact (eqv_eps_seq b).symm
  | seq x y _ ih => exact (eqv_seq (Eqv.refl x) ih).trans (eqv_assoc x y b).symm
  | _ => cases b <;> first | exact (eqv_seq_eps _).symm | exact Eqv.refl _

/-- The same expression with all brackets on the right and no empty pieces. -/
def norm : Pat → Pat
  | .seq a b => app (norm a) (norm b)
  | .alt a b => .alt (norm a) (norm b)
  | .star g a => .star g (norm a)
  | .cap n a => .cap n (norm a)
  | a => a

theorem eqv_norm (a : Pat) : Eqv U (norm a) a := by
  induction a with
  | seq a b ha hb => exact (eqv_app _ _).trans (eqv_seq ha hb)
  | alt a b ha hb => exact eqv_alt ha hb
  | star g a ha => exact eqv_star ha
  | cap n a ha => exact eqv_cap ha
  | _ => exact Eqv.refl _

theorem eqv_of_norm {a b : Pat} (h : norm a = norm b) : Eqv U a b := (eqv_norm a).symm.trans (h ▸ eqv_norm b)

theorem Eqv.here {a b : Pat} (h : Eqv U a b) (p : Option Char) (s : Str) : Pat.here U a p s = Pat.here U b p s := by
  unfold Pat.here
  rw [h]

theorem Eqv.find {a b : Pat} (h : Eqv U a b) (p : Option Char) (s : Str) : Pat.find U a p s = Pat.find U b p s := by
  induction s generalizing p with
  | nil => exact h.here p []
  | cons c s ih => simp only [Pat.find, h.here, ih]

theorem Eqv.iterFrom {a b : Pat} (h : Eqv U a b) (n : Nat) (p : Option Char) (s : Str) : Pat.iterFrom U a n p s = Pat.iterFrom U b n p s := by
  induction n generalizing p s with
  | zero => rfl
  | succ n ih => simp only [Pat.iterFrom, h.here, ih]

theorem Eqv.replaceFrom {a b : Pat} (h : Eqv U a b) (f : Match → Res Unit Str) (n : Nat) (p : Option Char) (s : Str) :
    Pat.replaceFrom U a f n p s = Pat.replaceFrom U b f n p s := by
  induction n generalizing p s with
  | zero => rfl
  | succ n ih => simp only [Pat.replaceFrom, h.here, ih]

/-! ## without anchors -/

/-- There is no anchor. -/
def free : Pat → Bool
  | .bol _ | .eol _ => false
  | .seq a b | .alt a b => free a && free b
  | .star _ a | .cap _ a => free a
  | _ => true

/-- The tree without anchors. -/
def toRe (U : CharData) : Pat → Re
  | .eps | .bol _ | .eol _ => .eps
  | .cls i neg l => .ch (inClass U i neg l)
  | .dot nl => .ch (fun c => nl || c != '\n')
  | .seq a b => .seq (toRe U a) (toRe U b)
  | .alt a b => .alt (toRe U a) (toRe U b)
  | .star g a => .star g (toRe U a)
  | .cap n a => .cap n (toRe U a)

theorem iter_free {g : Bool} {f : Option Char → Str → List Match} {f' : Str → List Match} (h : ∀ p s, f p s = f' s) (n : Nat) (p : Option Char) (s : Str) :
    iter g f n p s = Re.iter g f' n s := by
  induction n generalizing p s with
  | zero => rfl
  | succ n ih => simp only [iter, Re.iter, h, ih]

theorem ms_free {a : Pat} (h : free a = true) (p : Option Char) (s : Str) : ms U a p s = Re.ms (toRe U a) s := by
  induction a generalizing p s with
  | eps => rfl
  | cls i neg l => cases s <;> rfl
  | dot nl => cases s <;> rfl
  | bol m => cases h
  | eol m => cases h
  | seq a b ha hb =>
    simp only [free, Bool.and_eq_true] at h
    simp only [ms, toRe, Re.ms, ha h.1, hb h.2]
  | alt a b ha hb =>
    simp only [free, Bool.and_eq_true] at h
    simp only [ms, toRe, Re.ms, ha h.1, hb h.2]
  | star g a ha => exact iter_free (fun p s => ha h p s) _ _ _
  | cap n a ha => simp only [ms, toRe, Re.ms, ha h]

theorem here_free {a : Pat} (h : free a = true) (p : Option Char) (s : Str) : here U a p s = (toRe U a).here s := by
  unfold here Re.here
  rw [ms_free h]

theorem find_free {a : Pat} (h : free a = true) (p : Option Char) (s : Str) : find U a p s = (toRe U a).find s := by
  induction s generalizing p with
  | nil => exact here_free h p []
  | cons c s ih => simp only [find, Re.find, here_free h, ih]

theorem iterFrom_free {a : Pat} (h : free a = true) (n : Nat) (p : Option Char) (s : Str) : iterFrom U a n p s = Re.iterFrom (toRe U a) n s := by
  induction n generalizing p s with
  | zero => rfl
  | succ n ih =>
    simp only [iterFrom, Re.iterFrom, here_free h, ih]
    cases (toRe U a).here s with
    | none => cases s <;> rfl
    | some m => rfl

/-! ## with anchors at both ends -/

theorem head?_filter_find? {α : Type} (f : α → Bool) (l : List α) : (l.filter f).head? = l.find? f := by
  induction l with
  | nil => rfl
  | cons a l ih => by_cases h : f a <;> simp [h, ih]

theorem ms_eol {a : Pat} {b : Bool} (p : Option Char) (s : Str) : ms U (.seq a (.eol b)) p s = (ms U a p s).filter fun m => atEnd b m.2.1 := by
  simp only [ms]
  induction ms U a p s with
  | nil => rfl
  | cons x l ih =>
    obtain ⟨m, r, c⟩ := x
    by_cases h : atEnd b r <;> simp [h, ih]

theorem ms_bol {a : Pat} {b : Bool} (p : Option Char) (s : Str) : ms U (.seq (.bol b) a) p s = if atBol b p then ms U a p s else [] := by
  by_cases h : atBol b p <;> simp [ms, h, after_nil]

theorem find_bol {a : Pat} (c : Char) (s : Str) : find U (.seq (.bol false) a) (some c) s = none := by
  have key : ∀ (c : Char) s, here U (.seq (.bol false) a) (some c) s = none := fun c s => by simp [here, ms_bol, atBol]
  induction s generalizing c with
  | nil => exact key _ _
  | cons d s ih => simp [find, key, ih]

theorem find_full {a : Pat} (h : free a = true) (s : Str) :
    find U (.seq (.bol false) (.seq a (.eol false))) none s = ((toRe U a).full s).map fun c => (s, [], c) := by
  have e : find U (.seq (.bol false) (.seq a (.eol false))) none s = here U (.seq (.bol false) (.seq a (.eol false))) none s := by
    cases s with
    | nil => rfl
    | cons c s => simp [find, find_bol]
  rw [e]
  have e2 : here U (.seq (.bol false) (.seq a (.eol false))) none s = ((toRe U a).ms s).find? (fun m => m.2.1 = []) := by
    unfold here
    rw [ms_bol, if_pos (by rfl), ms_eol, head?_filter_find?, ms_free h]
    congr 1
    funext m
    cases h : m.2.1 <;> simp [atEnd]
  rw [e2]
  unfold Re.full
  cases hf : ((toRe U a).ms s).find? (fun m => decide (m.2.1 = [])) with
  | none => rfl
  | some m =>
    obtain ⟨m, r, c⟩ := m
    have hr := List.find?_some hf
    simp only [decide_eq_true_eq] at hr
    obtain ⟨hs, _⟩ := Re.ms_sound _ _ _ _ _ (List.mem_of_find?_eq_some hf)
    subst hr
    simp [hs]

/-! ## without groups -/

/-- The expression without groups. -/
def strip : Pat → Pat
  | .seq a b => .seq (strip a) (strip b)
  | .alt a b => .alt (strip a) (strip b)
  | .star g a => .star g (strip a)
  | .cap _ a => strip a
  | a => a

/-- A match without the groups. -/
def bare (m : Match) : Str × Str := (m.1, m.2.1)

theorem iter_strip {g : Bool} {f f' : Option Char → Str → List Match} (h : ∀ p s, (f p s).map bare = (f' p s).map bare) (n : Nat) (p : Option Char) (s : Str) :
    (iter g f n p s).map bare = (iter g f' n p s).map bare := by
  induction n generalizing p s with
  | zero => rfl
  | succ n ih =>
    have key : ∀ l : List Match, (l.flatMap fun (m, r, c) => if m = [] then [] else (iter g f n (after p m) r).map fun (m', r', c') => (m ++ m', r', c ++ c')).map bare =
        (l.map bare).flatMap fun (m, r) => if m = [] then [] else ((iter g f n (after p m) r).map bare).map fun (m', r') => (m ++ m', r') := by
      intro l
      rw [List.map_flatMap, List.flatMap_map]
      congr 1
      funext x
      obtain ⟨m, r, c⟩ := x
      by_cases hm : m = [] <;> simp [hm, bare, Function.comp_def]
    have key' : ∀ l : List Match, (l.flatMap fun (m, r, c) => if m = [] then [] else (iter g f' n (after p m) r).map fun (m', r', c') => (m ++ m', r', c ++ c')).map bare =
        (l.map bare).flatMap fun (m, r) => if m = [] then [] else ((iter g f' n (after p m) r).map bare).map fun (m', r') => (m ++ m', r') := by
      intro l
      rw [List.map_flatMap, List.flatMap_map]
      congr 1
      funext x
      obtain ⟨m, r, c⟩ := x
      by_cases hm : m = [] <;> simp [hm, bare, Function.comp_def]
    simp only [iter]
    cases g <;> simp [key, key', h, ih]

theorem ms_strip (a : Pat) (p : Option Char) (s : Str) : (ms U (strip a) p s).map bare = (ms U a p s).map bare := by
  induction a generalizing p s with
  | seq a b ha hb =>
    have key : ∀ (b : Pat) (l : List Match), (l.flatMap fun (m, r, c) => (ms U b (after p m) r).map fun (m', r', c') => (m ++ m', r', c ++ c')).map bare =
        (l.map bare).flatMap fun (m, r) => ((ms U b (after p m) r).map bare).map fun (m', r') => (m ++ m', r') := by
      intro b l
      rw [List.map_flatMap, List.flatMap_map]
      congr 1
      funext x
      simp [bare, Function.comp_def]
    simp only [strip, ms]
    rw [key, key, ha]
    congr 1
    funext x
    obtain ⟨m, r⟩ := x
    simp only [hb]
  | alt a b ha hb => simp only [strip, ms, List.map_append, ha, hb]
  | star g a ha => exact iter_strip (fun p s => ha p s) _ _ _
  | cap n a ha =>
    simp only [strip, ms, List.map_map, ha]
    rfl
  | _ => rfl

theorem find_strip (a : Pat) (p : Option Char) (s : Str) : (find U (strip a) p s).isSome = (find U a p s).isSome := by
  have key : ∀ p s, (here U (strip a) p s).isSome = (here U a p s).isSome := by
    intro p s
    have := congrArg List.length (ms_strip (U := U) a p s)
    simp only [List.length_map] at this
    unfold here
    cases h1 : ms U (strip a) p s <;> cases h2 : ms U a p s <;> simp_all
  induction s generalizing p with
  | nil => exact key _ _
  | cons c s ih => simp [find, key, ih]

end Pat
end Art
