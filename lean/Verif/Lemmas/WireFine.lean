import Verif.Lemmas.Wire

/-! Lemmas for C63: what is written can be read. -/

namespace Art
open Spec

theorem showNat_head {n : Nat} (h : 0 < n) : (showNat n).head? ≠ some '0' := by
  induction n using Nat.strongRecOn with
  | _ n ih =>
    unfold showNat
    rw [Nat.toDigits_eq_if (by decide)]
    split
    · rename_i h10
      intro e
      have e : Nat.digitChar n = '0' := by simpa using e
      have : ∀ n < 10, 0 < n → Nat.digitChar n ≠ '0' := by decide
      exact this n h10 h e
    · rename_i h10
      have := ih (n / 10) (by omega) (by omega)
      unfold showNat at this
      have hne : Nat.toDigits 10 (n / 10) ≠ [] := showNat_ne_nil _
      cases hd : Nat.toDigits 10 (n / 10) with
      | nil => exact absurd hd hne
      | cons a t => rw [hd] at this; simpa using this

theorem jsonInt_showNat (n : Nat) : JsonInt (showNat n) := by
  rcases Nat.eq_zero_or_pos n with rfl | h
  · exact .inl (by decide)
  · exact .inr ⟨⟨showNat_ne_nil n, fun c hc => (isDig_iff c).1 (showNat_digit hc)⟩, showNat_head h⟩

theorem jsonNum_showNat (n : Nat) : JsonNum (showNat n) := by
  refine ⟨[], showNat n, [], [], .inl rfl, jsonInt_showNat n, .inl rfl, .inl rfl, by simp⟩

theorem fine_ofNat (d n : Nat) : Fine d (.ofNat n) := fine_num d (jsonNum_showNat n)

theorem fine_option {α : Type} {d : Nat} {f : α → Json} {o : Option α} (h : ∀ a, o = some a → Fine d (f a)) : Fine d (.ofOption f o) := by
  cases o with
  | none => exact fine_null d
  | some a => exact h a rfl

theorem fine_strs (d : Nat) (l : List Str) : Fine (d + 1) (.arr (l.map .str)) := by
  refine fine_arr fun v hv => ?_
  obtain ⟨s, _, rfl⟩ := List.mem_map.1 hv
  exact fine_str d s

theorem fine_names (d : Nat) (l : List Name) : Fine (d + 1) (.arr (l.map Name.toJson)) := by
  refine fine_arr fun v hv => ?_
  obtain ⟨s, _, rfl⟩ := List.mem_map.1 hv
  exact fine_str d s.raw

theorem fine_map {α β κ : Type} [HasKey α κ] [DecidableEq κ] {d : Nat} {raw : α → Str} {enc : β → Json} {l : List (α × β)} (hn : IMap.Nodup l)
    (hr : ∀ a b, raw a = raw b → key a = key b) (h : ∀ x ∈ l, Fine d (enc x.2)) : Fine (d + 1) (.obj (l.map fun x => (raw x.1, enc x.2))) := by
  refine fine_obj ?_ ?_
  · rw [List.map_map]
    have : (l.map fun x => key x.1).Nodup := hn
    refine List.Nodup.of_map (f := fun s => s) ?_
    rw [List.map_map]
    refine (List.nodup_map_iff_inj_on (List.Nodup.of_map _ this)).2 ?_
    intro x hx y hy e
    exact nodup_map_inj this x hx y hy (hr _ _ e)
  · intro e he
    obtain ⟨x, hx, rfl⟩ := List.mem_map.1 he
    exact h x hx

theorem fine_codeLoc (d : Nat) (c : CodeLoc) : Fine (d + 1) c.toJson := by
  refine fine_obj (by simp) ?_
  simp only [List.forall_mem_cons, List.not_mem_nil, IsEmpty.forall_iff, implies_true, and_true]
  exact ⟨fine_str _ _, fine_ofNat _ _⟩

theorem fine_implCode (d : Nat) {c : ImplCode} (hc : CodeSound c) : Fine (d + 3) c.toJson := by
  refine fine_obj (by simp) ?_
  simp only [List.forall_mem_cons, List.not_mem_nil, IsEmpty.forall_iff, implies_true, and_true]
  refine ⟨fine_option fun a _ => (fine_codeLoc (d + 1) a), fine_map hc.nodup ?_ fun x _ => fine_codeLoc d x.2⟩
  intro a b e
  show a.keyStr = b.keyStr
  unfold SubName.keyStr
  rw [e]

theorem fine_impl (d : Nat) {i : Impl} (hi : ∀ c, i = .code c → CodeSound c) : Fine (d + 4) i.toJson := by
  cases i with
  | done s =>
    refine fine_obj (by simp) ?_
    simp only [List.forall_mem_cons, List.not_mem_nil, IsEmpty.forall_iff, implies_true, and_true]
    exact ⟨fine_str _ _, fine_str _ _⟩
  | notImpl =>
    refine fine_obj (by simp) ?_
    simp only [List.forall_mem_cons, List.not_mem_nil, IsEmpty.forall_iff, implies_true, and_true]
    exact fine_str _ _
  | code c =>
    refine fine_obj (by simp) ?_
    simp only [List.forall_mem_cons, List.not_mem_nil, IsEmpty.forall_iff, implies_true, and_true]
    exact ⟨fine_str _ _, fine_implCode d (hi c rfl)⟩

theorem fine_completed (d : Nat) {w : ℚ → Str} {read : Str → Option ℚ} {c : Completed} (h1 : NumberBack w read c.spc) (h2 : NumberBack w read c.tst) :
    Fine (d + 1) (c.toJson w) := by
  refine fine_obj (by simp) ?_
  simp only [List.forall_mem_cons, List.not_mem_nil, IsEmpty.forall_iff, implies_true, and_true]
  exact ⟨fine_num _ h1.1, fine_num _ h2.1⟩

theorem fine_artifact (d : Nat) {w : ℚ → Str} {read : Str → Option ℚ} {a : Artifact} (ha : ArtSound a) (h1 : NumberBack w read a.completed.spc)
    (h2 : NumberBack w read a.completed.tst) : Fine (d + 5) (a.toJson w) := by
  refine fine_obj (by simp) ?_
  simp only [List.forall_mem_cons, List.not_mem_nil, IsEmpty.forall_iff, implies_true, and_true]
  refine ⟨fine_str _ _, fine_str _ _, fine_str _ _, fine_names _ _, fine_names _ _, fine_completed _ h1 h2, fine_str _ _, fine_impl _ ha.code, fine_arr fun v hv => ?_⟩
  obtain ⟨s, _, rfl⟩ := List.mem_map.1 hv
  exact fine_str _ s.raw

theorem fine_mdName (d : Nat) (n : MdName) : Fine (d + 1) n.toJson := by
  cases n <;>
  · refine fine_obj (by simp) ?_
    simp only [List.forall_mem_cons, List.not_mem_nil, IsEmpty.forall_iff, implies_true, and_true]
    simp only [fine_str, and_true]

theorem fine_mdAttrs (d : Nat) (n : MdAttrs) : Fine (d + 1) n.toJson := by
  cases n <;>
  · refine fine_obj (by simp) ?_
    simp only [List.forall_mem_cons, List.not_mem_nil, IsEmpty.forall_iff, implies_true, and_true]
    simp only [fine_str, true_and, fine_option fun a _ => fine_str d a]

theorem fine_mdFamily (d : Nat) (n : MdFamily) : Fine (d + 1) n.toJson := by
  cases n <;>
  · refine fine_obj (by simp) ?_
    simp only [List.forall_mem_cons, List.not_mem_nil, IsEmpty.forall_iff, implies_true, and_true]
    simp only [fine_str]

theorem fine_mdDot (d : Nat) (n : MdDot) : Fine (d + 1) n.toJson := by
  cases n <;>
  · refine fine_obj (by simp) ?_
    simp only [List.forall_mem_cons, List.not_mem_nil, IsEmpty.forall_iff, implies_true, and_true]
    simp only [fine_str, and_true]

theorem fine_export (d : Nat) (x : WireExport) : Fine (d + 2) x.toJson := by
  refine fine_obj (by simp) ?_
  simp only [List.forall_mem_cons, List.not_mem_nil, IsEmpty.forall_iff, implies_true, and_true]
  exact ⟨fine_option fun a _ => fine_str _ a, fine_bool _ _, fine_mdFamily _ _, fine_mdDot _ _, fine_mdName _ _⟩

theorem fine_only (d : Nat) {k : Str} {v : Json} (h : Fine d v) : Fine (d + 1) (.obj [(k, v)]) := by
  refine fine_obj (by simp) ?_
  simp only [List.forall_mem_cons, List.not_mem_nil, IsEmpty.forall_iff, implies_true, and_true]
  exact h

theorem fine_settings (d : Nat) (x : WireExport) (s : Settings) : Fine (d + 3) (s.toJson x) := by
  refine fine_obj (by simp) ?_
  simp only [List.forall_mem_cons, List.not_mem_nil, IsEmpty.forall_iff, implies_true, and_true]
  exact ⟨fine_str _ _, fine_str _ _, fine_strs _ _, fine_strs _ _, fine_strs _ _, fine_strs _ _, fine_option fun a _ => fine_str _ a, fine_only _ (fine_mdName _ _),
    fine_only _ (fine_mdAttrs _ _), fine_export _ _⟩

theorem name_of_raw {a b : Name} (h : a.raw = b.raw) : a = b := by
  have h1 := Whole.wireName_raw a
  rw [h, Whole.wireName_raw b] at h1
  cases h1
  rfl

theorem fine_project (d : Nat) {w : ℚ → Str} {read : Str → Option ℚ} (x : WireExport) {p : Project} (hp : ProjectSound p) (hr : RatiosBack w read p) :
    Fine (d + 7) (p.toJson w x) := by
  refine fine_obj (by simp) ?_
  simp only [List.forall_mem_cons, List.not_mem_nil, IsEmpty.forall_iff, implies_true, and_true]
  refine ⟨fine_settings _ _ _, fine_map hp.codes (fun a b e => by rw [name_of_raw e]) fun y hy => fine_implCode _ (hp.code y hy),
    fine_map hp.arts (fun a b e => by rw [name_of_raw e]) fun y hy => fine_artifact _ (hp.art y hy) (hr y hy).1 (hr y hy).2⟩

theorem fine_lint (d : Nat) (l : Lint) : Fine (d + 1) l.toJson := by
  obtain ⟨level, path, line, category, msg⟩ := l
  cases path <;> cases line <;>
  · refine fine_obj (by simp [Option.toList]) ?_
    simp only [Option.toList, List.map_cons, List.map_nil, List.append_nil, List.cons_append, List.nil_append, List.forall_mem_cons, List.not_mem_nil, IsEmpty.forall_iff,
      implies_true, and_true]
    simp only [fine_str, fine_ofNat, and_true]

theorem fine_lints (d : Nat) (l : List Lint) : Fine (d + 2) (.arr (l.map Lint.toJson)) := by
  refine fine_arr fun v hv => ?_
  obtain ⟨s, _, rfl⟩ := List.mem_map.1 hv
  exact fine_lint d s

theorem fine_categorized (d : Nat) (c : Categorized) : Fine (d + 3) c.toJson := by
  refine fine_obj (by simp) ?_
  simp only [List.forall_mem_cons, List.not_mem_nil, IsEmpty.forall_iff, implies_true, and_true]
  exact ⟨fine_lints _ _, fine_lints _ _⟩

theorem fine_result (d : Nat) {w : ℚ → Str} {read : Str → Option ℚ} (x : WireExport) {r : ProjectResult} (hp : ProjectSound r.project) (hr : RatiosBack w read r.project) :
    Fine (d + 8) (r.toJson w x) := by
  refine fine_obj (by simp) ?_
  simp only [List.forall_mem_cons, List.not_mem_nil, IsEmpty.forall_iff, implies_true, and_true]
  exact ⟨fine_project d x hp hr, (fine_categorized (d + 4) _)⟩

theorem fine_initial (d : Nat) {w : ℚ → Str} {read : Str → Option ℚ} (x : WireExport) {p : Option Project} (t : Web.WebType)
    (hp : ∀ q, p = some q → ProjectSound q ∧ RatiosBack w read q) : Fine (d + 8) (initialJson w x p t) := by
  refine fine_obj (by simp) ?_
  simp only [List.forall_mem_cons, List.not_mem_nil, IsEmpty.forall_iff, implies_true, and_true]
  exact ⟨fine_option fun q hq => fine_project d x (hp q hq).1 (hp q hq).2, fine_str _ _⟩

theorem fine_im (d : Nat) (a : WireIm) : Fine (d + 2) a.toJson := by
  refine fine_obj (by simp) ?_
  simp only [List.forall_mem_cons, List.not_mem_nil, IsEmpty.forall_iff, implies_true, and_true]
  exact ⟨fine_str _ _, fine_str _ _, fine_strs _ _, fine_option fun a _ => fine_str _ a, fine_str _ _⟩

theorem fine_op (d : Nat) (op : WireOp) : Fine (d + 3) op.toJson := by
  cases op <;>
  · refine fine_obj (by simp) ?_
    simp only [List.forall_mem_cons, List.not_mem_nil, IsEmpty.forall_iff, implies_true, and_true]
    simp only [fine_str, fine_im, and_true]

theorem fine_call (d : Nat) (jid : Nat) (m : Str) {v : Json} (hv : Fine d v) : Fine (d + 1) (callJson jid m v) := by
  refine fine_obj (by simp) ?_
  simp only [List.forall_mem_cons, List.not_mem_nil, IsEmpty.forall_iff, implies_true, and_true]
  exact ⟨fine_str _ _, fine_str _ _, hv, fine_ofNat _ _⟩

theorem fine_ops (d : Nat) (ops : List WireOp) : Fine (d + 4) (.arr (ops.map WireOp.toJson)) := by
  refine fine_arr fun v hv => ?_
  obtain ⟨s, _, rfl⟩ := List.mem_map.1 hv
  exact fine_op d s

end Art
