import Verif.Spec.Hand
import Verif.Props.Life
import Verif.Props.Whole

/-!
# C89: files that are edited by hand while the server runs
-/

namespace Art.Hand
open Spec Cli Whole

variable {E : Env} {base : FilePath} {s : Settings} {p : Project}

theorem OnlyAsked.refl (E : Env) (hist : List Art.Event) (p : Project) : OnlyAsked E hist p p := ⟨fun a ha => Or.inl ⟨a, ha, rfl⟩, fun _ hb => Or.inl hb⟩

theorem OnlyAsked.trans {h1 h2 : List Art.Event} {p q r : Project} (a : OnlyAsked E h1 p q) (b : OnlyAsked E h2 q r) : OnlyAsked E (h1 ++ h2) p r := by
  refine ⟨fun x hx => ?_, fun x hx => ?_⟩
  · rcases a.kept x hx with ⟨y, hy, e⟩ | ⟨e, he, op, h⟩
    · rcases b.kept y hy with h | ⟨e', he, op, h⟩
      · exact Or.inl (e ▸ h)
      · exact Or.inr ⟨e', List.mem_append_right _ he, op, e ▸ h⟩
    · exact Or.inr ⟨e, List.mem_append_left _ he, op, h⟩
  · rcases b.new x hx with h | ⟨e, he, op, h⟩
    · rcases a.new x h with h | ⟨e, he, op, h⟩
      · exact Or.inl h
      · exact Or.inr ⟨e, List.mem_append_left _ he, op, h⟩
    · exact Or.inr ⟨e, List.mem_append_right _ he, op, h⟩

/-- A batch does what it is asked for to what is in the files, whatever the server knows. -/
theorem modified_asked {n : Nat} {fs fs' : FS} {ops : List ArtifactOp} {c : Categorized} {q : Project} (H : Holds E base s fs p) (hl : LinkSets ops)
    (h : Modifies E.L E.readToml E.hash E.dbg n fs base ops (some (.ok (c, q))) fs') :
    (∀ a ∈ editable p, HasId E.hash q (E.hash a) ∨ ∃ op ∈ ops, Presents op (E.hash a)) ∧ ∀ b ∈ editable q, b ∈ editable p ∨ ∃ op ∈ ops, Brings op.clean b := by
  obtain ⟨c1, p1, c1', p1', files, cfg, a1, a2, -, -, -, -, e⟩ := modifies_done h
  obtain ⟨c2, p2, e2, hf⟩ := H.reads _ _ a1
  cases e2
  have hed := editable_foldCase hf
  have hsets := C25_read_sets a1
  have e : q = p1'.sort := e
  have hp : (editable q).Perm (editable p1') := e ▸ editable_sort (plans_nodup a2)
  obtain ⟨-, -, -, A, -⟩ := C25_ids hsets hl a2
  refine ⟨fun a ha => ?_, fun b hb => ?_⟩
  · by_cases hx : ∃ b ∈ editable p1', E.hash b = E.hash a
    · obtain ⟨b, hb, hk⟩ := hx
      exact Or.inl ⟨b, hp.mem_iff.2 hb, hk⟩
    · exact Or.inr (C24_only_presented hsets hl a2 (hed ▸ ha) fun b hb hk => hx ⟨b, hb, hk⟩)
  · rw [← hed]
    exact A b (hp.mem_iff.1 hb)

/-- One step: what is in the files, and what the server knows. -/
theorem step_asked {t u : Server} {e : Art.Event} (st : Art.Step E t e u) (hc : Cli.Clean E s e) (ap : Apart s) (hb : t.value.project.settings.base = base)
    (H : Holds E base s t.disk p) : ∃ q, Holds E base s u.disk q ∧ OnlyAsked E [e] p q ∧ (Looks e → foldCase u.value.project = foldCase q) ∧
      (¬ Looks e → u.value = t.value ∧ q = p) := by
  by_cases hne : ∀ i ops w, e ≠ .finish i (.modify (some (some ops))) (.success w)
  · have hd := C36_disk_unchanged st (clean_leaves hc hne)
    refine ⟨p, by rw [hd]; exact H, .refl _ _ _, ?_, ?_⟩
    · intro hlook
      cases st with
      | @work i r out fs' a1 a2 a3 hh =>
        cases hh with
        | @reload o hr =>
          cases o with
          | ok x =>
            rw [hb] at hr
            obtain ⟨c2, q2, e1, e2⟩ := H.reads _ _ hr
            cases e1
            exact e2
          | err => exact hlook.elim
          | panic => exact hlook.elim
        | read h => rcases h with rfl | rfl <;> exact hlook.elim
        | readBad => exact hlook.elim
        | modifyBad => exact hlook.elim
        | modifyUnread => exact hlook.elim
        | modifyPanic => exact hlook.elim
        | @modify ops ops' o fs' h1 h2 =>
          cases o with
          | ok x => exact absurd rfl (hne _ _ _)
          | err => exact hlook.elim
          | panic => exact hlook.elim
      | reject => exact hlook.elim
      | @poisoned i r a1 a2 a3 =>
        exfalso
        unfold Looks at hlook
        split at hlook
        · rename_i h; cases h
        · rename_i h; cases h
        · exact hlook
      | arrive => exact hlook.elim
      | lock => exact hlook.elim
      | send => exact hlook.elim
      | edit => exact hlook.elim
      | quit => exact hlook.elim
      | kill => exact hlook.elim
      | die => exact hlook.elim
    · intro hlook
      refine ⟨?_, rfl⟩
      cases st with
      | @work i r out fs' a1 a2 a3 hh =>
        cases hh with
        | @reload o hr =>
          cases o with
          | ok x => exact absurd trivial hlook
          | err => rfl
          | panic => rfl
        | @modify ops ops' o fs' h1 h2 =>
          cases o with
          | ok x => exact absurd rfl (hne _ _ _)
          | err => rfl
          | panic => rfl
        | _ => rfl
      | _ => rfl
  · push Not at hne
    obtain ⟨i, ops, w, rfl⟩ := hne
    obtain ⟨h1, h2⟩ := clean_success hc
    generalize ha : Reply.success w = a at st
    cases st with
    | poisoned => cases ha
    | @work _ _ o d _ _ _ hm =>
      cases hm with
      | modifyBad h => cases ha
      | modifyUnread => cases ha
      | modifyPanic => cases ha
      | @modify _ opsr o d hread hm =>
        cases o with
        | err e => cases ha
        | panic => cases ha
        | ok x =>
          cases ha
          rw [hb] at hm
          obtain ⟨k1, k2⟩ := modified_asked H (wire_sets hread) hm
          refine ⟨_, C74_modify H ap (wire_sets hread) (h2 _ hread) hm h1, ⟨fun a ha => ?_, fun b hb => ?_⟩, fun _ => rfl, fun h => absurd trivial h⟩
          · exact (k1 a ha).imp_right fun ⟨op, ho, h⟩ => ⟨_, List.mem_singleton.2 rfl, op, ⟨_, _, _, _, rfl, hread, ho⟩, h⟩
          · exact (k2 b hb).imp_right fun ⟨op, ho, h⟩ => ⟨_, List.mem_singleton.2 rfl, op, ⟨_, _, _, _, rfl, hread, ho⟩, h⟩

/-- C89: the files of a running server were edited by hand, so that they hold `p`; the server may know something else. Whatever is asked of it then, the files hold what was in them except for
what was asked. The server goes on with what it knew until it answers a request to reload or to modify; from then on it knows what is in the files. -/
theorem C89_kept {t0 t : Server} {hist : List Art.Event} (H : Holds E base s t0.disk p) (ap : Apart s) (hb : t0.value.project.settings.base = base)
    (hr : Art.Runs E t0 hist t) (hc : ∀ e ∈ hist, Cli.Clean E s e) :
    ∃ q, Holds E base s t.disk q ∧ OnlyAsked E hist p q ∧ ((∃ e ∈ hist, Looks e) → foldCase t.value.project = foldCase q) ∧
      ((∀ e ∈ hist, ¬ Looks e) → t.value = t0.value ∧ q = p) := by
  induction hr with
  | nil => exact ⟨p, H, .refl _ _ _, fun ⟨e, he, _⟩ => absurd he List.not_mem_nil, fun _ => ⟨rfl, rfl⟩⟩
  | @snoc h t1 e u hr st ih =>
    obtain ⟨q, h1, h2, h3, h4⟩ := ih fun e he => hc e (List.mem_append_left _ he)
    obtain ⟨q', k1, k2, k3, k4⟩ := step_asked st (hc _ (by simp)) ap ((runs_base hr).trans hb) h1
    refine ⟨q', k1, h2.trans k2, ?_, ?_⟩
    · rintro ⟨e', he', hl⟩
      by_cases hle : Looks e
      · exact k3 hle
      · obtain ⟨x1, rfl⟩ := k4 hle
        rw [x1]
        refine h3 ⟨e', ?_, hl⟩
        rcases List.mem_append.1 he' with h | h
        · exact h
        · exact absurd (List.mem_singleton.1 h ▸ hl) hle
    · intro hno
      obtain ⟨x1, rfl⟩ := k4 (hno e (by simp))
      obtain ⟨x2, rfl⟩ := h4 fun e he => hno e (List.mem_append_left _ he)
      exact ⟨x1.trans x2, rfl⟩

theorem stale_refused {n : Nat} {fs fs' : FS} {ops : List ArtifactOp} {out : Res ModifyError (Categorized × Project)} {op : ArtifactOp} {id : HashIm} (H : Holds E base s fs p)
    (ho : op ∈ ops) (hp : Presents op id) (gone : ¬ HasId E.hash p id) (hx : ¬ (Idle E.hash op.clean ∧ BroughtIn E.hash (ops.map ArtifactOp.clean) id))
    (h : Modifies E.L E.readToml E.hash E.dbg n fs base ops (some out) fs') : (∃ e, out = .err e) ∧ fs' = fs := by
  have main : ∀ {read : Res Categorized (Categorized × Project)} {out : Res ModifyError (Categorized × Project)}, ReadsProject E.L E.readToml E.hash n fs base read →
      PlansRead E.L E.hash E.dbg ops read out → ∃ e, out = .err e := by
    intro read out hr hpl
    obtain ⟨c, q, rfl, hf⟩ := H.reads _ _ hr
    have hed := editable_foldCase hf
    obtain ⟨e, h1, -⟩ := C24_stale (out := out) hpl ho hp (fun a ha hk => gone ⟨a, hed ▸ ha, hk⟩) hx
    exact ⟨e, h1⟩
  cases h with
  | refused h1 h2 => exact ⟨main h1 h2, rfl⟩
  | failed h1 h2 => obtain ⟨e, he⟩ := main h1 h2; cases he
  | done h1 h2 => obtain ⟨e, he⟩ := main h1 h2; cases he

/-- C89: who changes or deletes what was edited by hand since they saw it is refused, and the files stay as they are. -/
theorem C89_refused {t u : Server} {i : Nat} {ops : List WireOp} {ops' : List ArtifactOp} {a : Reply} {op : ArtifactOp} {id : HashIm} (H : Holds E base s t.disk p)
    (hb : t.value.project.settings.base = base) (hops : Res.mapM' (WireOp.read E.strict) ops = .ok ops') (ho : op ∈ ops') (hp : Presents op id)
    (gone : ¬ HasId E.hash p id) (hx : ¬ (Idle E.hash op.clean ∧ BroughtIn E.hash (ops'.map ArtifactOp.clean) id))
    (st : Art.Step E t (.finish i (.modify (some (some ops))) a) u) : (∀ w, a ≠ .success w) ∧ u.disk = t.disk ∧ u.value = t.value := by
  have key : ∀ {o : Reply × ProjectResult} {d : FS}, Handles E t.disk t.value (.modify (some (some ops))) o d → (∀ w, o.1 ≠ .success w) ∧ d = t.disk ∧ o.2 = t.value := by
    intro o d hh
    cases hh with
    | modifyBad h => rcases h with h | h <;> cases h
    | modifyUnread h => rw [hops] at h; cases h
    | modifyPanic h => rw [hops] at h; cases h
    | @modify _ ops2 out _ h1 h2 =>
      rw [hops] at h1
      cases h1
      rw [hb] at h2
      obtain ⟨⟨e, rfl⟩, rfl⟩ := stale_refused H ho hp gone hx h2
      exact ⟨fun w h => (by cases h), rfl, rfl⟩
  cases st with
  | poisoned => exact ⟨fun w h => (by cases h), rfl, rfl⟩
  | work _ _ _ hh => exact key hh

end Art.Hand
