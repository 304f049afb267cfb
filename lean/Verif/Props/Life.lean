import Verif.Spec.Life
import Verif.Props.Session

/-!
# C74: the life of a project
-/

namespace Art
namespace Cli
open Spec

variable {E : Env} {base : FilePath} {s : Settings} {fs fs' : FS} {p q : Project} {ops : List ArtifactOp} {c : Categorized}

theorem Holds.same (h : Holds E base s fs p) (e : foldCase q = foldCase p) : Holds E base s fs q :=
  ⟨h.tree, h.settings, h.safe, fun n out ho => by
    obtain ⟨c2, q2, e1, e2⟩ := h.reads n out ho
    exact ⟨c2, q2, e1, e2.trans e.symm⟩⟩

/-- What was read is what the disk holds. -/
theorem C74_read (w : FS.WF fs) (hs : SettingsOf E.readToml fs base s) (hsafe : Safe fs s) {n : Nat} (hr : ReadsProject E.L E.readToml E.hash n fs base (.ok (c, p))) :
    Holds E base s fs p := by
  refine ⟨w, hs, hsafe, fun m out ho => ?_⟩
  rcases C20_same_but_spelling E.readToml (List.Perm.refl fs) w base hr ho with ⟨_, _, h, _⟩ | ⟨h, _⟩ | ⟨_, _, c2, q2, h, h', hf⟩
  · cases h
  · cases h
  · cases h
    exact ⟨c2, q2, h', hf.symm⟩

/-- After a modification that succeeds the disk holds the project of its answer, if that can be stored. -/
theorem C74_modify (H : Holds E base s fs p) (ap : Apart s) (hl : LinkSets ops) (once : ∀ op ∈ ops, ∀ a, Brings op a → ReadOnce s a.file) {n : Nat}
    (h : Modifies E.L E.readToml E.hash E.dbg n fs base ops (some (.ok (c, q))) fs') (hq : Storable E.L s q) : Holds E base s fs' q := by
  obtain ⟨w, hs, hsafe, -⟩ := H
  obtain ⟨c1, p1, c1', p1', files, cfg, a1, a2, a3, a4, a5, e0, e⟩ := modifies_done h
  obtain ⟨w', hs', hroots, hall, hwalk⟩ := disk_after w hs hsafe ap hl a1 a2 a3 a4 a5 once
  obtain ⟨e1, e2, -⟩ := accepted_settings w hs hl ⟨_, _, a1, a2⟩
  obtain ⟨-, f2, f3⟩ := projectFiles_spec e2 a3
  rw [e0] at w' hs' hroots hall hwalk
  have hp := editable_sort (plans_nodup a2)
  have e : q = p1'.sort := e
  rw [← e] at hp
  have hart : ∀ f, ArtifactFile fs' s f → ∃ a ∈ editable q, a.file = f := by
    intro f hf
    have hf : f ∈ walkArtifacts fs' s := (C29_mem w' s f).2 hf
    obtain ⟨x, hx, rfl⟩ := List.mem_map.1 (hwalk.mem_iff.1 hf)
    obtain ⟨a, ha⟩ := List.exists_mem_of_ne_nil _ (f3 x hx).1
    obtain ⟨ha, ea⟩ := mem_inFile.1 ha
    exact ⟨a, hp.mem_iff.2 ha, ea⟩
  refine ⟨w', hs', ⟨?_, ?_⟩, fun m out ho => ?_⟩
  · intro r hr' hf
    obtain ⟨x, hx⟩ := w'.isFile_iff.1 hf
    rw [hroots r hr'] at hx
    cases hx
  · intro x y hx hy hxy
    obtain ⟨a, ha, rfl⟩ := hart x hx
    obtain ⟨b, hb, rfl⟩ := hart y hy
    exact hq.stems a ha b hb hxy
  · rcases C46_reload w hs hsafe ap hl once h hq.survives ho with ⟨h1, _⟩ | ⟨_, h2⟩
    · exact absurd h1 hq.parses
    · exact h2

theorem clean_success {i : Nat} {ops : List WireOp} {w : ProjectResult} (h : Clean E s (.finish i (.modify (some (some ops))) (.success w))) : Storable E.L s w.project ∧
    ∀ ops', Res.mapM' (WireOp.read E.strict) ops = .ok ops' → ∀ op ∈ ops', ∀ a, Brings op a → ReadOnce s a.file := h

theorem clean_leaves {e : Art.Event} (h : Clean E s e) (hne : ∀ i ops w, e ≠ .finish i (.modify (some (some ops))) (.success w)) : LeavesDisk e := by
  unfold Clean at h
  split at h
  · exact absurd rfl (hne _ _ _)
  · exact h

/-- One step of a server keeps disk and server together. -/
theorem step_holds {t u : Server} {e : Art.Event} (st : Art.Step E t e u) (hc : Clean E s e) (ap : Apart s) (hb : t.value.project.settings.base = base)
    (H : Holds E base s t.disk t.value.project) : Holds E base s u.disk u.value.project := by
  by_cases hne : ∀ i ops w, e ≠ .finish i (.modify (some (some ops))) (.success w)
  · have hd := C36_disk_unchanged st (clean_leaves hc hne)
    rw [hd]
    cases st with
    | @work i r out fs' a1 a2 a3 hh =>
      cases hh with
      | @reload o hr =>
        cases o with
        | ok x =>
          rw [hb] at hr
          obtain ⟨c2, q2, e1, e2⟩ := H.reads _ _ hr
          cases e1
          exact H.same e2
        | err => exact H
        | panic => exact H
      | @modify ops ops' o fs' h1 h2 =>
        cases o with
        | ok x => exact absurd rfl (hne _ _ _)
        | err => exact H
        | panic => exact H
      | _ => exact H
    | _ => exact H
  · push Not at hne
    obtain ⟨i, ops, w, rfl⟩ := hne
    obtain ⟨h1, h2⟩ := clean_success hc
    generalize ha : Reply.success w = a at st
    cases st with
    | poisoned => cases ha
    | @work _ _ o d _ _ _ hm =>
      cases hm with
      | modifyBad h => cases ha
      | modifyUnread => cases ha
      | modifyPanic => cases ha
      | @modify _ opsr o d hread hm =>
        cases o with
        | err e => cases ha
        | panic => cases ha
        | ok x =>
          cases ha
          rw [hb] at hm
          exact C74_modify H ap (wire_sets hread) (h2 _ hread) hm h1

/-- At every time the disk holds what the server shows: who stops the server and reads the project, in whatever way, gets the project of the server. -/
theorem C74_served {dir : FilePath} {s0 t : Server} {hist : List Art.Event} (H : Holds E base s fs p) (ap : Apart s) (hst : Starts E fs dir base s0) (hr : Art.Runs E s0 hist t)
    (hc : ∀ e ∈ hist, Clean E s e) : Holds E base s t.disk t.value.project := by
  have hb0 : s0.value.project.settings.base = base := by
    cases hst with
    | start _ h => exact base_of_read h
  have h0 : Holds E base s s0.disk s0.value.project := by
    cases hst with
    | start _ h =>
      obtain ⟨_, _, e1, e2⟩ := H.reads _ _ h
      cases e1
      exact H.same e2
  induction hr with
  | nil => exact h0
  | snoc hr st ih => exact step_holds st (hc _ (by simp)) ap ((runs_base hr).trans hb0) (ih fun e he => hc e (List.mem_append_left _ he))

/-- A server that is started afterwards shows what the first one showed last. -/
theorem C74_restart {dir dir' : FilePath} {s0 s1 t : Server} {hist : List Art.Event} (H : Holds E base s fs p) (ap : Apart s) (hst : Starts E fs dir base s0)
    (hr : Art.Runs E s0 hist t) (hc : ∀ e ∈ hist, Clean E s e) (hst' : Starts E t.disk dir' base s1) : foldCase s1.value.project = foldCase t.value.project := by
  cases hst' with
  | start _ h =>
    obtain ⟨_, _, e1, e2⟩ := (C74_served H ap hst hr hc).reads _ _ h
    cases e1
    exact e2

/-- Every answer with a project is the project on the disk at that time. -/
theorem C74_answer {dir : FilePath} {s0 t u : Server} {hist : List Art.Event} {i : Nat} {r : Request} {w : ProjectResult} (H : Holds E base s fs p) (ap : Apart s)
    (hst : Starts E fs dir base s0) (hr : Art.Runs E s0 hist t) (hc : ∀ e ∈ hist, Clean E s e) (st : Art.Step E t (.finish i r (.success w)) u)
    (hw : Clean E s (.finish i r (.success w))) : Holds E base s u.disk w.project := by
  have h := C74_served H ap hst (hr.snoc st) (fun e he => by
    rcases List.mem_append.1 he with he | he
    · exact hc e he
    · rw [List.mem_singleton.1 he]; exact hw)
  have : u.value = w := by
    generalize ha : Reply.success w = a at st
    cases st with
    | poisoned => cases ha
    | reject => cases ha
    | @work _ _ o d _ _ _ hm =>
      cases hm with
      | read _ => exact (Reply.success.inj ha).symm
      | readBad => cases ha
      | @reload o _ => cases o <;> cases ha; rfl
      | modifyBad _ => cases ha
      | modifyUnread _ => cases ha
      | modifyPanic _ => cases ha
      | @modify _ _ o _ _ _ => cases o <;> cases ha; rfl
  rw [← this]
  exact h

variable {S : Setup}

/-- Whatever happens in the life of a project, the disk holds what was saved last. -/
theorem C74_life (hi : GoodSite S.site) (H : Holds S.E base s fs p) (ap : Apart s) (h : Life S base s fs p fs' q) : Holds S.E base s fs' q := by
  have same : ∀ {fs1 fs2 : FS} {q : Project}, Holds S.E base s fs1 q → FS.WF fs2 → (∀ x, InProject s x → IMap.get? fs2 x = IMap.get? fs1 x) → Holds S.E base s fs2 q := by
    rintro fs1 fs2 q ⟨h1, h2, h3, h4⟩ w2 h
    exact ⟨w2, settingsOf_same w2 h2 h, safe_same h1 w2 h h3, fun m out ho => h4 m out ((C72_local h1 w2 h2 h out).2 ho)⟩
  induction h with
  | start => exact H
  | command _ he hc ht ih => exact same ih (C72_tree ih.tree hi he hc) (command_same ih.tree hi he hc ht)
  | others _ w2 h ih => exact same ih w2 h
  | serve _ hst hr hc ih => exact C74_served ih ap hst hr hc
  | @format fs1 fs2 q cwd d v w ty _ hw hf he hcol hq ih =>
    obtain ⟨h1, h2, h3, h4⟩ := ih
    obtain ⟨res, hm⟩ := fmt_modifies hw hf he
    obtain ⟨c1, p1, _, _, _, _, a1, _⟩ := modifies_done hm
    obtain ⟨_, _, e, hfold⟩ := h4 _ _ a1
    cases e
    have hed := editable_foldCase hfold
    have hcol1 : NoCollision S.E.hash p1 [] := by unfold NoCollision at hcol ⊢; rw [hed]; exact hcol
    have kept1 : ∀ a ∈ editable p1, Survives S.E.L s a.file ((editable p1).filter (fun b => decide (b.file = a.file))) := by rw [hed]; exact hq
    obtain ⟨k1, k2, k3, -, -⟩ := C57_in_order h1 h2 h3 ap a1 hcol1 hm
    refine ⟨k1, k2, k3, fun m out ho => ?_⟩
    obtain ⟨c2, q2, e, hf2⟩ := C46_fmt h1 h2 h3 ap a1 hcol1 kept1 hm ho
    exact ⟨c2, q2, e, hf2.trans hfold⟩

end Cli
end Art
