import Verif.Props.Warned
import Verif.Cases.Places

/-! # Property C100: concrete cases -/

namespace Art.Places
open Spec Depends Better Reports
open Spec.Export (arts)

/-- A specification with a subname and one that is done; references to both, to a third that is not there, and in another file to a subname that is not there. -/
def warnFs : FS := exFs c!"# SPC-a\nhow [[.x]]\n" c!"# SPC-b\ndone: yes\n###\nmore\n" c!"#SPC-a #SPC-a.x #SPC-b\n#SPC-c" c!"\n#spc-A.z"

/-- The hypotheses of `C100_only` are met by three warnings. In the last one the name is spelled as in the other file. -/
theorem warn_case : ∃ c p, ReadsProject doneLibs (fun _ => some exRaw) exId 4 warnFs c!"/p" (.ok (c, p)) ∧
    c.other.map (fun l => (l.path, l.line)) = [(some c!"/p/src/x.rs", some 0), (some c!"/p/src/x.rs", some 1), (some c!"/p/src/y.rs", some 1)] ∧
    c.other.map (fun l => l.msg) = [c!"Invalid code impl #SPC-b. Artifact's done field is set", c!"Invalid code impl #SPC-c. Artifact SPC-c does not exist",
      c!"Invalid code impl #SPC-a.z. Subname [[.z]] does not exist in artifact's text"] ∧
    ∀ l ∈ c.other, l.category = .implCode := by
  have hs : SettingsOf (fun _ => some exRaw) warnFs c!"/p" exS := ⟨_, _, (exFs_settings _ _ _ _).1, (exFs_settings [] [] [] []).2⟩
  have r := readNow_reads (L := doneLibs) (hash := exId) (ncpu := 4) hs (by decide +kernel) (by decide +kernel)
  have k1 : ((readNow doneLibs exId warnFs exS).toOption.map fun r => r.1.other.map (fun l => (l.path, l.line))) =
      some [(some c!"/p/src/x.rs", some 0), (some c!"/p/src/x.rs", some 1), (some c!"/p/src/y.rs", some 1)] := by decide +kernel
  have k2 : ((readNow doneLibs exId warnFs exS).toOption.map fun r => r.1.other.map (fun l => l.msg)) =
      some [c!"Invalid code impl #SPC-b. Artifact's done field is set", c!"Invalid code impl #SPC-c. Artifact SPC-c does not exist",
        c!"Invalid code impl #SPC-a.z. Subname [[.z]] does not exist in artifact's text"] := by decide +kernel
  have k3 : ((readNow doneLibs exId warnFs exS).toOption.map fun r => r.1.other.all (fun l => decide (l.category = .implCode))) = some true := by decide +kernel
  generalize readNow doneLibs exId warnFs exS = o at r k1 k2 k3
  cases o with
  | ok x =>
    simp only [Res.toOption, Option.map_some, Option.some.injEq] at k1 k2 k3
    exact ⟨x.1, x.2, r, k1, k2, fun l hl => of_decide_eq_true (List.all_eq_true.1 k3 l hl)⟩
  | err => cases k1
  | panic => cases k1

/-- The hypotheses of `C100_all` are met: a reference that is wrong. -/
theorem wrong_case : ∃ c p, ReadsProject doneLibs (fun _ => some exRaw) exId 4 warnFs c!"/p" (.ok (c, p)) ∧
    ∃ n sub loc w, RefAt warnFs p.settings n sub loc ∧ Wrong (arts p) n sub w := by
  obtain ⟨c, p, h, k1, _, k3⟩ := warn_case
  cases ho : c.other with
  | nil => rw [ho] at k1; simp at k1
  | cons l ls =>
    obtain ⟨n, sub, loc, w, h1, h2, _⟩ := C100_only h (l := l) (by rw [ho]; simp) (k3 l (by rw [ho]; simp))
    exact ⟨c, p, h, n, sub, loc, w, h1, h2⟩

/-- `C99_exported` applied: the subname of the first specification is implemented where the code refers to it, in another spelling. -/
theorem exported_case : ∃ c p, ReadsProject exLibs (fun _ => some exRaw) exId 4 placeFs c!"/p" (.ok (c, p)) ∧ Spec.Export.Implemented p c!"spc-a" c!".x" ⟨c!"/p/src/x.rs", 3⟩ := by
  obtain ⟨c, p, h, k1, k2, _, k4⟩ := place_case
  refine ⟨c, p, h, (C99_exported h _ _ _).2 ⟨Name.lit c!"SPC-a", by decide +kernel, ?_⟩⟩
  cases hp : p.artifacts with
  | nil => rw [hp] at k2; simp at k2
  | cons x l =>
    rw [hp] at k1 k2
    simp only [List.map_cons, List.cons.injEq, Prod.mk.injEq] at k1 k2
    have hx := (C99_shown h (x := x) (by rw [hp]; simp) (k4 x (by rw [hp]; simp))).1 (some ⟨c!".x"⟩) ⟨c!"/p/src/x.rs", 3⟩
    rw [k1.1.1] at hx
    refine hx.1 (Eq.trans ?_ k2.1)
    cases x.2.impl with
    | code k => exact IMap.get?_congr _ (by decide +kernel)
    | _ => rfl

/-- `C100_clean` applied in both directions: the references of `placeFs`, of which there are some, are all right; not so those of `warnFs`. -/
theorem clean_case : (∃ c p, ReadsProject exLibs (fun _ => some exRaw) exId 4 placeFs c!"/p" (.ok (c, p)) ∧ ∀ n sub loc, RefAt placeFs p.settings n sub loc → RightRef (arts p) n sub) ∧
    ∃ c p, ReadsProject doneLibs (fun _ => some exRaw) exId 4 warnFs c!"/p" (.ok (c, p)) ∧ ¬ ∀ n sub loc, RefAt warnFs p.settings n sub loc → RightRef (arts p) n sub := by
  constructor
  · have hs : SettingsOf (fun _ => some exRaw) placeFs c!"/p" exS := ⟨_, _, (exFs_settings _ _ _ _).1, (exFs_settings [] [] [] []).2⟩
    have r := readNow_reads (L := exLibs) (hash := exId) (ncpu := 4) hs (by decide +kernel) (by decide +kernel)
    have k : ((readNow exLibs exId placeFs exS).toOption.map fun r => r.1.other.all (fun l => decide (l.category ≠ .implCode))) = some true := by decide +kernel
    generalize readNow exLibs exId placeFs exS = o at r k
    cases o with
    | ok x =>
      simp only [Res.toOption, Option.map_some, Option.some.injEq] at k
      exact ⟨x.1, x.2, r, (C100_clean r).1 fun l hl => of_decide_eq_true (List.all_eq_true.1 k l hl)⟩
    | err => cases k
    | panic => cases k
  · obtain ⟨c, p, h, n, sub, loc, w, h1, h2⟩ := wrong_case
    exact ⟨c, p, h, fun H => right_iff.1 (H n sub loc h1) w h2⟩

end Art.Places
