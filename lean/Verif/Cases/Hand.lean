import Verif.Cases.Pair
import Verif.Props.Hand

/-!
# Concrete cases for C89
-/

namespace Art.Hand
open Spec Cli Whole Bytes Undo Split Pair

/-- The files before they are edited by hand: `exGood` with another text of SPC-b. -/
def unedited : FS := exFs c!"# REQ-a\nwhat\n# SPC-a\nhow [[.x]]\n" c!"# SPC-b\nold\n" c!"// #SPC-a\n// #SPC-a.x" c!"// #SPC-b"

/-- SPC-b before it is edited by hand. -/
def oldB : ArtifactIm := { exImB with text := c!"old" }

/-- Someone who has seen SPC-b before it was edited changes it. -/
def mine : List ArtifactOp := [.update { exImB with text := c!"mine" } (exId oldB)]

theorem unedited_now : Alive unedited ∧ findRepo unedited c!"/p/src" = some c!"/p" ∧
    (match readNow keptLibs exId unedited exS with | .ok (_, p) => some (editable p) | _ => none) = some [exReqA, exImA, oldB] := by
  refine ⟨⟨?_, ?_⟩, ?_, ?_⟩ <;> decide +kernel

theorem wires : Res.mapM' (WireOp.read false) (exOther.map wireOp) = .ok exOther ∧ Res.mapM' (WireOp.read false) (mine.map wireOp) = .ok mine := by
  refine ⟨?_, ?_⟩ <;> decide +kernel

/-- The server starts, then SPC-b is edited by hand. The server shows the old text when it is asked for the project. -/
theorem edited : ∃ s0 t0 t1 v p, Starts (exEnv keptLibs) unedited c!"/p/src" c!"/p" s0 ∧ Art.Step (exEnv keptLibs) s0 .edit t0 ∧ Holds (exEnv keptLibs) c!"/p" exS t0.disk p ∧
    editable p = [exReqA, exImA, exImB] ∧ t0.disk = exGood ∧ t0.value.project.settings.base = c!"/p" ∧ Art.Runs (exEnv keptLibs) t0 (asks 0 (.read none) (.success v)) t1 ∧
    editable v.project = [exReqA, exImA, oldB] ∧ t1.disk = exGood ∧ t1.value = v ∧ t1.alive = true ∧ t1.holder = none ∧ t1.poisoned = false ∧ t1.threads 1 = .idle := by
  obtain ⟨al, hf, hn⟩ := unedited_now
  have r0 := readNow_reads (L := keptLibs) (hash := exId) (ncpu := 4) (fs := unedited) (base := c!"/p") ⟨_, _, exFs_settings _ _ _ _⟩ al.1 al.2
  obtain ⟨c1, p1, r1⟩ := exGood_kept_reads
  have H := life_holds r1
  have hed := exGood_editable r1
  generalize unedited = g0 at hf hn r0 ⊢
  generalize hg : exGood = g at H
  cases hx : readNow keptLibs exId g0 exS with
  | err e => rw [hx] at hn; cases hn
  | panic => rw [hx] at hn; cases hn
  | ok x =>
    obtain ⟨c, p⟩ := x
    rw [hx] at hn r0
    have hed0 : editable p = [exReqA, exImA, oldB] := Option.some.inj hn
    have hb : p.settings.base = c!"/p" := base_of_read (E := exEnv keptLibs) r0
    obtain ⟨u, a1, a2, a3, a4, a5, a6, a7⟩ := Runs.request (E := exEnv keptLibs) (s := { Server.init g0 ⟨p, c⟩ with disk := g }) (i := 0) (r := .read none) rfl rfl rfl rfl
      (Handles.read (Or.inl rfl))
    exact ⟨_, _, u, ⟨p, c⟩, p1, .start hf r0, .edit rfl, H, hed, rfl, hb, a1, hed0, a2, a3, a4, a5, a6 (by simp), a7 1 (by simp)⟩

/-- C89: while files are edited by hand the server shows what is not in the files: SPC-b with its old text, as if nothing had happened. -/
theorem C89_unseen : ∃ s0 t0 t1 v p, Starts (exEnv keptLibs) unedited c!"/p/src" c!"/p" s0 ∧ Art.Step (exEnv keptLibs) s0 .edit t0 ∧ Holds (exEnv keptLibs) c!"/p" exS t0.disk p ∧
    Art.Runs (exEnv keptLibs) t0 (asks 0 (.read none) (.success v)) t1 ∧ Holds (exEnv keptLibs) c!"/p" exS t1.disk p ∧ ¬ editable v.project ⊆ editable p := by
  obtain ⟨s0, t0, t1, v, p, h1, h2, h3, h4, h5, h6, h7, h8, h9, -⟩ := edited
  refine ⟨s0, t0, t1, v, p, h1, h2, h3, h7, by rw [h9, ← h5]; exact h3, ?_⟩
  rw [h4, h8]
  decide +kernel

/-- The case of C89: then the server is asked to create another artifact. It does, the text that was written by hand is kept, and from then on the server shows it. -/
theorem hand_case : ∃ t0 t hist p w, Holds (exEnv keptLibs) c!"/p" exS t0.disk p ∧ t0.value.project.settings.base = c!"/p" ∧ Art.Runs (exEnv keptLibs) t0 hist t ∧
    (∀ e ∈ hist, Cli.Clean (exEnv keptLibs) exS e) ∧ (∃ e ∈ hist, Looks e) ∧ foldCase t0.value.project ≠ foldCase p ∧ editable p = [exReqA, exImA, exImB] ∧
    t.value = w ∧ editable w.project = [exReqA, exImA, exImB, exD1] := by
  obtain ⟨s0, t0, t1, v, p, h1, h2, h3, h4, h5, h6, h7, h8, h9, h10, h11, h12, h13, h14⟩ := edited
  obtain ⟨c, q, fs', m1, m2, m3, m4, -⟩ := first other_now.1 (by decide)
  have hv0 : t0.value = v := by
    obtain ⟨_, _, _, _, k⟩ := C89_kept h3 sess_apart h6 h7 (asks_clean trivial)
    refine ((k ?_).1.symm.trans h10)
    intro e he
    simp only [asks, List.mem_cons, List.not_mem_nil, or_false] at he
    rcases he with rfl | rfl | rfl | rfl <;> exact fun h => h
  obtain ⟨u, a1, a2, a3, -⟩ := Runs.request (E := exEnv keptLibs) (s := t1) (i := 1) h11 h12 h13 h14
    (Handles.modify wires.1 (by rw [h9, h10, ← hv0, h6]; exact m2))
  refine ⟨t0, u, _, p, ⟨q, c⟩, h3, h6, h7.append a1, ?_, ⟨_, List.mem_append_right _ (List.mem_cons_of_mem _ (List.mem_cons_of_mem _ List.mem_cons_self)), trivial⟩, ?_, h4, a3, m4⟩
  · intro e he
    rcases List.mem_append.1 he with he | he
    · exact asks_clean (E := exEnv keptLibs) (s := exS) (i := 0) (r := .read none) (a := .success v) trivial e he
    · refine asks_clean (E := exEnv keptLibs) (s := exS) (i := 1) (r := .modify (some (some (exOther.map wireOp)))) (a := .success ⟨q, c⟩) ⟨m3, ?_⟩ e he
      intro ops' ho
      rw [show (exEnv keptLibs).strict = false from rfl, wires.1] at ho
      cases ho
      exact (exPlain_ops (ops := exOther) (by decide +kernel)).2
  · intro h
    have := editable_foldCase h
    rw [hv0, h8, h4] at this
    exact absurd this (by decide +kernel)

/-- What the theorem says of it. -/
example : ∃ (t : Server) (w : ProjectResult) (q : Project), t.value = w ∧ exImB ∈ editable w.project ∧ exD1 ∈ editable w.project ∧ Holds (exEnv keptLibs) c!"/p" exS t.disk q ∧ foldCase w.project = foldCase q := by
  obtain ⟨t0, t, hist, p, w, h1, h2, h3, h4, h5, -, -, h8, h9⟩ := hand_case
  obtain ⟨q, k1, -, k3, -⟩ := C89_kept h1 sess_apart h2 h3 h4
  exact ⟨t, w, q, h8, by rw [h9]; simp, by rw [h9]; simp, k1, by rw [← h8]; exact k3 h5⟩

theorem mine_now : (match readNow keptLibs exId exGood exS with
    | .ok (c, p) => (match planNow keptLibs exId (fun _ => []) c p mine with | .err e => some e.kind | _ => none)
    | _ => none) = some .hashMismatch := by decide +kernel

theorem mine_modifies : ∃ e : ModifyError, e.kind = .hashMismatch ∧ Modifies keptLibs (fun _ => some exRaw) exId (fun _ => []) 4 exGood c!"/p" mine (some (.err e)) exGood := by
  have hr := readNow_reads (L := keptLibs) (hash := exId) (ncpu := 4) exGood_settings exGood_kept.1 exGood_kept.2
  have h := mine_now
  generalize exGood = g at hr h ⊢
  split at h
  · rename_i c p he
    rw [he] at hr
    split at h
    · rename_i e hp
      have hpl : PlansRead keptLibs exId (fun _ => []) mine (.ok (c, p)) (.err e) := by
        have := C23_total keptLibs exId (fun _ => []) c p mine
        rw [hp] at this
        exact this
      exact ⟨e, Option.some.inj h, .refused hr hpl (fun x hx => by cases hx)⟩
    · cases h
  · cases h

/-- The case of `C89_refused`: SPC-b was edited by hand since it was seen, and who changes it is refused. -/
theorem refused_case : ∃ t u p a, Holds (exEnv keptLibs) c!"/p" exS t.disk p ∧ t.value.project.settings.base = c!"/p" ∧
    Art.Step (exEnv keptLibs) t (.finish 1 (.modify (some (some (mine.map wireOp)))) a) u ∧ HasId exId t.value.project (exId oldB) ∧ ¬ HasId exId p (exId oldB) ∧
    ((∀ w, a ≠ .success w) ∧ u.disk = t.disk ∧ u.value = t.value) := by
  obtain ⟨s0, t0, t1, v, p, h1, h2, h3, h4, h5, h6, h7, h8, h9, h10, h11, h12, h13, h14⟩ := edited
  obtain ⟨e, -, hm⟩ := mine_modifies
  have hb : t1.value.project.settings.base = c!"/p" := (runs_base h7).trans h6
  have H1 : Holds (exEnv keptLibs) c!"/p" exS t1.disk p := by rw [h9, ← h5]; exact h3
  have hgone : ¬ HasId exId p (exId oldB) := by
    rintro ⟨a, ha, hk⟩
    rw [h4] at ha
    exact absurd hk ((by decide +kernel : ∀ a ∈ [exReqA, exImA, exImB], exId a ≠ exId oldB) a ha)
  have st : Art.Step (exEnv keptLibs) { t1.set 1 (.working (.modify (some (some (mine.map wireOp))))) with holder := some (.thread 1) }
      (.finish 1 (.modify (some (some (mine.map wireOp)))) (modifyWith t1.value (.err e)).1) _ :=
    .work (out := modifyWith t1.value (.err e)) h11 (by simp [Server.set]) rfl (.modify wires.2 (by
      show Modifies keptLibs (fun _ => some exRaw) exId (fun _ => []) 4 t1.disk t1.value.project.settings.base mine (some (.err e)) exGood
      rw [hb, h9]
      exact hm))
  refine ⟨{ t1.set 1 (.working (.modify (some (some (mine.map wireOp))))) with holder := some (.thread 1) }, _, p, _, H1, hb, st, ⟨oldB, ?_, rfl⟩, hgone, ?_⟩
  · show oldB ∈ editable t1.value.project
    rw [h10, h8]
    simp
  · refine C89_refused (E := exEnv keptLibs) H1 hb wires.2 (List.mem_singleton.2 rfl) (presents_update.2 rfl) hgone ?_ st
    rintro ⟨⟨a, ha⟩, -⟩
    injection ha with h1 h2
    rw [← h1] at h2
    exact absurd h2 (by decide +kernel)

end Art.Hand
