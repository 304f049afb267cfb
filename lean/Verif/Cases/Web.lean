import Verif.Props.Chan
import Verif.Props.ChanSave
import Verif.Props.Page
import Verif.Props.Paint

/-!
# Cases: channels and the page
The theorems of `Props/Chan.lean`, `Props/ChanSave.lean`, `Props/Frontend.lean`, `Props/Page.lean` and `Props/Paint.lean` applied to concrete cases that meet their
hypotheses. (Those of `Props/Whole.lean` are in `Props/WholeEx.lean`.)
-/

namespace Art
open Spec

namespace Chan

/-- After the first step, which sends the path of the only artifact file. -/
theorem caseSent : ∃ t, Reach (readNet exLibs 4 exFive exS) t ∧ t.queue .artPath = [.path c!"/p/design/a.md"] :=
  ⟨_, .tail .refl (Step.send _ .artWalk .artPath (.path c!"/p/design/a.md") [] (by rfl) rfl ⟨.main, rfl⟩ (by decide)), by rfl⟩

example : ∃ t t', Reach (readNet exLibs 4 exFive exS) t ∧ t.queue .artPath = [.path c!"/p/design/a.md"] ∧
    Relation.ReflTransGen (Step (readNet exLibs 4 exFive exS)) t t' ∧ t'.Over := by
  obtain ⟨t, h, hq⟩ := caseSent
  obtain ⟨t', h1, h2, _⟩ := C65_finishes h
  exact ⟨t, t', h, hq, h1, h2⟩

/-- One worker dies, the others do its share. -/
def caseOne : FS := exFs c!"# SPC-a\n" c!"" ['#', longS, 'P', 'C', '-', 'x'] c!"// #SPC-a"

example : ∃ t, Reach (readNet exLibs 4 caseOne exS) t ∧ t.Over ∧
    ((walkCode caseOne exS).countP (fun f => (codeSent exLibs caseOne f).dead) = 1) ∧
    ∀ out, (runOf t).Gives exLibs exId exS out → ReadsWith exLibs exId 4 caseOne exS out := by
  obtain ⟨t, _, h1, h2⟩ := C65_finishes (n := 4) (L := exLibs) (fs := caseOne) (s := exS) .refl
  have e : ((walkCode caseOne exS).countP (fun f => (codeSent exLibs caseOne f).dead) = 1) ∧
    (walkArtifacts caseOne exS).countP (fun f => (artSent exLibs exS.pre caseOne f).dead) < 4 := by decide +kernel
  exact ⟨t, h2, h1, e.1, fun out hg => C65_reads h2 h1 (by omega) e.2 hg⟩

example : ∃ t, Reach (readNet exLibs 4 caseOne exS) t ∧ t.Over ∧
    ∀ t', Reach (readNet exLibs 4 caseOne exS) t' → t'.Over → (runOf t).locs.Perm (runOf t').locs := by
  obtain ⟨t, _, h1, h2⟩ := C65_finishes (n := 4) (L := exLibs) (fs := caseOne) (s := exS) .refl
  exact ⟨t, h2, h1, fun t' h h' => (C65_same h2 h1 h h').1⟩

/-- Three files that cannot be written. -/
def caseNoSpace (k : Nat) : List (FilePath × Option Lint) := List.replicate k (c!"/a", some (Lint.loadError c!"/a" c!"no"))

example : ∃ t, Reach (saveNet 1 1 (caseNoSpace 3)) t ∧ (t.th .main).closed = true ∧ (lintsOf (t.th .main).got).length = 3 := by
  obtain ⟨t, h1, h2⟩ := (C66_save_returns_iff (by decide) (by decide)).2 (C66_save_safe (.inl (by simp [caseNoSpace])) : ¬ Blocks 1 1 (fun x : FilePath × Option Lint => x.2.isSome) (caseNoSpace 3))
  exact ⟨t, h1, h2, by rw [(C66_save_all (by decide) h1 h2).2.2.length_eq]; rfl⟩

example : ∃ t, Step (saveNet 1 1 (caseNoSpace 3)) (saveNet 1 1 (caseNoSpace 3)).init t :=
  C66_save_never_stuck (by decide) (by decide) .refl (C66_save_safe (.inl (by simp [caseNoSpace]))) (fun h => absurd (h .main) (by decide))

example : ∃ t, Reach (saveNet 1 1 (caseNoSpace 4)) t ∧ (t.th .main).fate = .live ∧ ∀ t', ¬ Step (saveNet 1 1 (caseNoSpace 4)) t t' := by
  obtain ⟨-, -, -, t, h1, h2, h3⟩ := C66_save_stuck (q := 1) (n := 1) (files := caseNoSpace 4) (by decide) .refl (C66_full_disk_blocks (by simp [caseNoSpace]) (by simp [caseNoSpace]))
  exact ⟨t, h1, h2, h3⟩

example : ∃ t, Step (backupNet 2 exFound) (backupNet 2 exFound).init t := C66_backup_never_stuck .refl (fun h => absurd (h .main) (by decide))

end Chan

namespace Web

example := C37_busy (nd := exNd) (lim := 1000) exSavedW.ui rfl (.sendUpdate [1]) (.inl ⟨_, rfl⟩)
example := C37_close_panics_iff (nd := exNd) (lim := 1000) exSavedW.ui (by unfold IMap.Nodup; decide)
example : exSavedW.ui.editing.get? 1 = some exEdit ∧ ∀ tr w e, Runs exNd 1000 exSavedW tr w → NotTyped 1 tr → w.ui.editing.get? 1 = some e → e = exEdit :=
  ⟨rfl, fun _ _ _ h hn he => C37_content exSaved_runs rfl h hn he⟩
example : exSavedW.outstanding.length + exSavedW.arrived.length ≤ 1 := (C37_one_in_flight exSaved_runs).1
example : exSavedW.ui.infos = [] := C37_infos_empty exSaved_runs
example : exSavedW.ui.update exNd 1000 (.setView .graph) ≠ .panic := C37_others_never_panic _ _ (.inl ⟨_, rfl⟩)
example := C37_save (nd := exNd) (lim := 1000) { exSavedW.ui with fetching := false } [1] rfl
  (by intro id h; cases List.mem_singleton.1 h; exact ⟨exEdit, rfl, ⟨nm "REQ-a", rfl⟩, by simp [exEdit]⟩)
example := C37_static_sends (nd := exNd) (lim := 1000) { exSavedW.ui with fetching := false } 1 exEdit rfl rfl ⟨⟨nm "REQ-a", rfl⟩, by simp [exEdit]⟩
example : ({ exSavedW.ui with fetching := false, editing := [(4, Edit.new)] } : UI).update exNd 1000 (.sendUpdate [4]) = .panic := C37_save_new_panics _ 4 rfl rfl

example := C59_close exQ4_reached exQ5_step
example := C59_exact (K := exK) exQ4_reached exQ5_step (by rintro q m ⟨⟩) (by rintro e r ⟨⟩) (by rintro e ids ⟨⟩)
example := C59_open exP0_reached (by decide) exP1_step
example := C59_picture exQ4_reached
example : ∃ ex v tr, Runs exNd 1000 (World.init ex v) tr exP2.world ∧ exP2.world.batch = [] := C59_refines exP2_reached

/-- The link to the other artifact is followed. -/
theorem caseFollow : PStep exK exNd 1000 exP0 (.used (.link c!"SPC-b" c!"SPC-b" c!"blue") (.go c!"SPC-b")) (exUse exP0 (.go c!"SPC-b")) :=
  exUse_step 9 rfl (.link _ _ _) (by rfl)

example := C59_follow exP0_reached (by decide) caseFollow

example (t : Str) (ht : longS ∉ t) : Unshowable exF exProject c!"REQ-a" t ↔ Homeless exF exProject c!"REQ-a" t := C60_typed exF exProject (by decide) ht
example := C60_controls exG1_reached exG1_text.choose_spec.1 exG1_text.choose_spec.2

end Web
end Art
