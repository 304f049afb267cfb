import Verif.Props.Places
import Verif.Cases.Better

/-! # Property C99: concrete cases -/

namespace Art.Places
open Spec Depends Better

/-- Three specifications. -/
def specs : Str := c!"# SPC-a\nhow [[.x]]\n# SPC-b\n# SPC-c\n"
/-- A reference to the first and, after a region that is skipped, to its subname. -/
def codeX : Str := c!"\n// #SPC-a\n#art-skip #SPC-c\n#art-done #spc-A.x"
/-- A reference to the second, one with a letter that only looks like `s`, and one to the third. -/
def codeY : Str := c!"#SPC-b #" ++ longS :: c!"PC-b #SPC-c"

def placeFs : FS := exFs specs [] codeX codeY

/-- The hypotheses of `C99_shown` are met by three artifacts that are not done: the first has code for itself and its subname, the second for itself. For the third the only reference
outside of a region that is skipped comes after one that ended the thread, so it is shown as not implemented. -/
theorem place_case : ∃ c p, ReadsProject exLibs (fun _ => some exRaw) exId 4 placeFs c!"/p" (.ok (c, p)) ∧
    p.artifacts.map (fun x => (x.1, place x.2.impl none)) =
      [(Name.lit c!"SPC-a", some ⟨c!"/p/src/x.rs", 1⟩), (Name.lit c!"SPC-b", some ⟨c!"/p/src/y.rs", 0⟩), (Name.lit c!"SPC-c", none)] ∧
    p.artifacts.map (fun x => place x.2.impl (some ⟨c!".X"⟩)) = [some ⟨c!"/p/src/x.rs", 3⟩, none, none] ∧
    p.artifacts.map (fun x => decide (x.2.impl = .notImpl)) = [false, false, true] ∧
    ∀ x ∈ p.artifacts, ∀ d, x.2.impl ≠ .done d := by
  have hs : SettingsOf (fun _ => some exRaw) placeFs c!"/p" exS := ⟨_, _, (exFs_settings _ _ _ _).1, (exFs_settings [] [] [] []).2⟩
  have r := readNow_reads (L := exLibs) (hash := exId) (ncpu := 4) hs (by decide +kernel) (by decide +kernel)
  have k1 : ((readNow exLibs exId placeFs exS).toOption.map fun r => r.2.artifacts.map (fun x => (x.1, place x.2.impl none))) =
      some [(Name.lit c!"SPC-a", some ⟨c!"/p/src/x.rs", 1⟩), (Name.lit c!"SPC-b", some ⟨c!"/p/src/y.rs", 0⟩), (Name.lit c!"SPC-c", none)] := by decide +kernel
  have k2 : ((readNow exLibs exId placeFs exS).toOption.map fun r => r.2.artifacts.map (fun x => place x.2.impl (some ⟨c!".X"⟩))) =
      some [some ⟨c!"/p/src/x.rs", 3⟩, none, none] := by decide +kernel
  have k3 : ((readNow exLibs exId placeFs exS).toOption.map fun r => r.2.artifacts.map (fun x => decide (x.2.impl = .notImpl))) = some [false, false, true] := by decide +kernel
  have k4 : ((readNow exLibs exId placeFs exS).toOption.map fun r => r.2.artifacts.all (fun x => match x.2.impl with | .done _ => false | _ => true)) = some true := by decide +kernel
  generalize readNow exLibs exId placeFs exS = o at r k1 k2 k3 k4
  cases o with
  | ok x =>
    simp only [Res.toOption, Option.map_some, Option.some.injEq] at k1 k2 k3 k4
    refine ⟨x.1, x.2, r, k1, k2, k3, fun y hy d e => ?_⟩
    have := List.all_eq_true.1 k4 y hy
    rw [e] at this
    cases this
  | err => cases k1
  | panic => cases k1

/-- `C99_places` and `C99_once` applied: the two references to the first specification and its subname are there, and nowhere else. -/
theorem refs_case : ∃ s : Settings, RefAt placeFs s (Name.lit c!"SPC-a") none ⟨c!"/p/src/x.rs", 1⟩ ∧ RefAt placeFs s (Name.lit c!"SPC-a") (some ⟨c!".X"⟩) ⟨c!"/p/src/x.rs", 3⟩ ∧
    (∀ loc, RefAt placeFs s (Name.lit c!"SPC-a") none loc → loc = ⟨c!"/p/src/x.rs", 1⟩) ∧ ∀ sub loc, ¬ RefAt placeFs s (Name.lit c!"SPC-c") sub loc := by
  obtain ⟨c, p, h, k1, k2, k3, k4⟩ := place_case
  obtain ⟨x, hx, ex⟩ := List.mem_map.1 (k1 ▸ List.mem_cons_self : (Name.lit c!"SPC-a", some ⟨c!"/p/src/x.rs", 1⟩) ∈ p.artifacts.map fun x => (x.1, place x.2.impl none))
  cases hp : p.artifacts with
  | nil => rw [hp] at hx; cases hx
  | cons x l => cases l with
    | nil => rw [hp] at k2; simp at k2
    | cons y l => cases l with
      | nil => rw [hp] at k2; simp at k2
      | cons z l =>
        rw [hp] at k1 k2 k3
        simp only [List.map_cons, List.cons.injEq, Prod.mk.injEq, decide_eq_true_eq] at k1 k2 k3
        have hx := C99_shown h (x := x) (by rw [hp]; simp) (k4 x (by rw [hp]; simp))
        have hz := C99_shown h (x := z) (by rw [hp]; simp) (k4 z (by rw [hp]; simp))
        rw [k1.1.1] at hx
        rw [k1.2.2.1.1] at hz
        have h1 := (hx.1 none _).1 k1.1.2
        exact ⟨p.settings, h1, (hx.1 _ _).1 k2.1, fun loc hl => C99_once h hl h1, hz.2.1 k3.2.2.1⟩

end Art.Places
