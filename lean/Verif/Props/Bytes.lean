import Verif.Spec.Bytes
import Verif.Props.Split

/-!
# C84: the bytes on the disk after edits
-/

namespace Art.Bytes
open Spec Cli Undo Split

variable {E : Env} {base : FilePath} {s : Settings} {fs fs0 fs1 fs2 fs' fs'' : FS} {p q p1 p2 q1 q2 : Project}

/-- What one saved batch leaves. -/
structure Left (L : Libs) (s : Settings) (fs fs' : FS) (q : Project) : Prop where
  wf : FS.WF fs'
  dirs : ∀ x, IMap.get? fs' x = some .dir ↔ IMap.get? fs x = some .dir
  keep : ∀ x, ¬ MayHold s x → ¬ IsBackup x → IMap.get? fs' x = IMap.get? fs x
  files : ∃ p' files, (editable q).Perm (editable p') ∧ p'.settings = s ∧ NamesDistinct p' ∧ projectFiles L p' = .ok files ∧
    ∀ x, MayHold s x → ∀ n, IMap.get? fs' x = some (.file n) ↔ ∃ t, n = .text t ∧ (x, t) ∈ files

theorem walk_hold {fs : FS} (w : FS.WF fs) (hr : ∀ r ∈ s.artifactPaths, ¬ IsFile fs r) {x : FilePath} : x ∈ walkArtifacts fs s ↔ IsFile fs x ∧ MayHold s x := by
  rw [C29_mem w]
  constructor
  · rintro ⟨r, h1, h2⟩
    obtain ⟨h3, h4⟩ := (finds_reaching (hr r h1) h2.1).1 h2
    exact ⟨h2.1, h3, r, h1, h4⟩
  · rintro ⟨h, h3, r, h1, h4⟩
    exact ⟨r, h1, (finds_reaching (hr r h1) h).2 ⟨h3, h4⟩⟩

theorem edit_left (H : Holds E base s fs p) (ap : Apart s) (h : Edit E base s fs fs' q) : Left E.L s fs fs' q := by
  obtain ⟨⟨n, ops, c, hl, once, h⟩, hq⟩ := h
  obtain ⟨w, hs, hsafe, -⟩ := H
  obtain ⟨c1, p1, c1', p1', files, cfg, a1, a2, a3, a4, a5, rfl, e⟩ := modifies_done h
  have e : q = p1'.sort := e
  have hp := editable_sort (plans_nodup a2)
  rw [← e] at hp
  obtain ⟨w', hs', hroots, hall, hwalk⟩ := disk_after w hs hsafe ap hl a1 a2 a3 a4 a5 once
  obtain ⟨e1, e2, -⟩ := accepted_settings w hs hl ⟨_, _, a1, a2⟩
  have fr := frame_reaches a4
  have hnf : ∀ r ∈ s.artifactPaths, ¬ IsFile cfg.fs r := by
    intro r hr hf
    obtain ⟨c, hc⟩ := w'.isFile_iff.1 hf
    rw [hroots r hr] at hc
    cases hc
  refine ⟨w', fr.dirs, fun x hx hb => ?_, p1', files, hp, e1, e2, a3, fun x hx n => ⟨fun h => ?_, ?_⟩⟩
  · by_contra hne
    have : Allowed fs p1'.settings files x := by
      by_contra hna
      exact hne (fr.same x hna)
    rw [e1] at this
    rcases this with hm | ⟨f, hf, rfl⟩ | ⟨y, hy, rfl⟩ | ⟨r, hr, hu, hext⟩
    · exact hx ((walk_hold w hsafe.roots).1 hm).2
    · exact hb ⟨_, rfl⟩
    · exact hx ((walk_hold w' hnf).1 (hwalk.mem_iff.2 (List.mem_map.2 ⟨y, hy, rfl⟩))).2
    · exact hb (isBackup_ext (changed_file w w' fr.dirs hne) hext)
  · have := hwalk.mem_iff.1 ((walk_hold w' hnf).2 ⟨w'.isFile_iff.2 ⟨_, h⟩, hx⟩)
    obtain ⟨y, hy, rfl⟩ := List.mem_map.1 this
    rw [hall y hy] at h
    cases h
    exact ⟨_, rfl, hy⟩
  · rintro ⟨t, rfl, ht⟩
    exact hall _ ht

theorem edits_left (H : Holds E base s fs p) (ap : Apart s) (h : Edits E base s fs fs' q) : Left E.L s fs fs' q ∧ Holds E base s fs' q := by
  induction h with
  | one h =>
    refine ⟨edit_left H ap h, ?_⟩
    obtain ⟨⟨n, ops, c, hl, once, h⟩, hq⟩ := h
    exact C74_modify H ap hl once h hq
  | more _ h ih =>
    obtain ⟨l, H1⟩ := ih
    have l' := edit_left H1 ap h
    refine ⟨⟨l'.wf, fun x => (l'.dirs x).trans (l.dirs x), fun x h1 h2 => (l'.keep x h1 h2).trans (l.keep x h1 h2), l'.files⟩, ?_⟩
    obtain ⟨⟨n, ops, c, hl, once, h⟩, hq⟩ := h
    exact C74_modify H1 ap hl once h hq

theorem edits_trans (h : Edits E base s fs fs1 q1) (h' : Edits E base s fs1 fs2 q2) : Edits E base s fs fs2 q2 := by
  induction h' with
  | one h' => exact .more h h'
  | more _ h' ih => exact .more ih h'

/-- C84: the bytes on the disk depend only on the artifacts. Two series of saved batches, of whatever lengths and by whatever ways, that begin with the same disk and end with the same artifacts
leave the same files with the same bytes, and the same directories. -/
theorem C84_histories (H : Holds E base s fs p) (ap : Apart s) (h1 : Edits E base s fs fs1 q1) (h2 : Edits E base s fs fs2 q2) (hp : (editable q1).Perm (editable q2)) :
    SameDisk fs1 fs2 := by
  obtain ⟨l1, -⟩ := edits_left H ap h1
  obtain ⟨l2, -⟩ := edits_left H ap h2
  obtain ⟨p1, files1, a1, a2, a3, a4, a5⟩ := l1.files
  obtain ⟨p2, files2, b1, b2, b3, b4, b5⟩ := l2.files
  have hsame : (editable p1).Perm (editable p2) := a1.symm.trans (hp.trans b1)
  have hsub : ∀ x ∈ files1, x ∈ files2 := fun x hx => projectFiles_perm (a2.trans b2.symm) hsame a3 a4 b4 hx
  have hsub' : ∀ x ∈ files2, x ∈ files1 := fun x hx => projectFiles_perm (b2.trans a2.symm) hsame.symm b3 b4 a4 hx
  intro x hb
  by_cases hx : MayHold s x
  · have hf : ∀ n, IMap.get? fs1 x = some (.file n) ↔ IMap.get? fs2 x = some (.file n) := by
      intro n
      rw [a5 x hx, b5 x hx]
      exact ⟨fun ⟨t, e, h⟩ => ⟨t, e, hsub _ h⟩, fun ⟨t, e, h⟩ => ⟨t, e, hsub' _ h⟩⟩
    have hd := (l1.dirs x).trans (l2.dirs x).symm
    cases e1 : IMap.get? fs1 x with
    | some n =>
      cases n with
      | dir => exact (hd.1 e1).symm
      | file c => exact ((hf c).1 e1).symm
    | none =>
      cases e2 : IMap.get? fs2 x with
      | none => rfl
      | some n =>
        cases n with
        | dir => rw [hd.2 e2] at e1; cases e1
        | file c => rw [(hf c).2 e2] at e1; cases e1
  · exact (l1.keep x hx hb).trans (l2.keep x hx hb).symm

/-- C84: after the first saved batch, coming back to the same artifacts brings back the same bytes, whatever happened in between. -/
theorem C84_return (H : Holds E base s fs0 p) (ap : Apart s) (h0 : Edits E base s fs0 fs q) (h : Edits E base s fs fs' q') (hp : (editable q').Perm (editable q)) : SameDisk fs' fs :=
  C84_histories H ap (edits_trans h0 h) h0 hp

theorem storable_folded {L : Libs} (h : foldCase q = foldCase p) (hp : Storable L s p) : Storable L s q := by
  have hed : editable q = editable p := editable_foldCase h
  refine ⟨by rw [hed]; exact hp.survives, by rw [hed]; exact hp.stems, ?_⟩
  rw [crashing_folded, h, ← crashing_folded]
  exact hp.parses

theorem back_ops {ops ops' : List ArtifactOp} {n : Nat} {c : Categorized} (H : Holds E base s fs p)
    (h : Modifies E.L E.readToml E.hash E.dbg n fs base ops (some (.ok (c, q))) fs') (hb : TakesBack E.hash p ops ops') :
    LinkSets ops' ∧ ∀ op ∈ ops', ∀ a, Brings op a → ReadOnce s a.file := by
  obtain ⟨w, hs, hsafe, hreads⟩ := H
  obtain ⟨c1, p1, -, -, -, -, a1, -⟩ := modifies_done h
  obtain ⟨_, _, e1, hfold⟩ := hreads _ _ a1
  cases e1
  have hed := editable_foldCase hfold
  have sets := C25_read_sets a1
  have key : ∀ op ∈ ops', ∀ a, Brings op a → a ∈ editable p1 := by
    intro op ho a ha
    obtain ⟨l, f, hperm⟩ := hb
    obtain ⟨x, _, hx⟩ := forall₂_mem_right f (hperm.mem_iff.1 ho)
    cases hx with
    | create => exact absurd ha brings_delete
    | delete h => rw [brings_create.1 ha, hed]; exact h
    | update h => rw [brings_update.1 ha, hed]; exact h
  exact ⟨fun op ho a ha => (editable_clean sets (key op ho a ha)).2, fun op ho a ha => (read_file w hs hsafe a1 (key op ho a ha)).1⟩

/-- C84: a batch that is taken back leaves no trace in a project that was written by artifact: the disk is the same as before, byte for byte. -/
theorem C84_back (H : Holds E base s fs0 p0) (ap : Apart s) (h0 : Edits E base s fs0 fs p) (inc : RootsIncluded s) (hl : LinkSets ops)
    (once : ∀ op ∈ ops, ∀ a, Brings op a → ReadOnce s a.file)
    (hcol : NoCollision E.hash p (ops.map ArtifactOp.clean)) (hu : Unchained E.hash (ops.map ArtifactOp.clean)) (hme : NoMerge E.hash p ops)
    (h : Modifies E.L E.readToml E.hash E.dbg n fs base ops (some (.ok (c, q))) fs') (hq : Storable E.L s q) (hb : TakesBack E.hash p ops ops')
    (h2 : Modifies E.L E.readToml E.hash E.dbg n2 fs' base ops' (some out) fs'') : DiskFailed out ∨ SameDisk fs'' fs := by
  have H1 := (edits_left H ap h0).2
  have hst : Storable E.L s p := by cases h0 with | one h => exact h.storable | more _ h => exact h.storable
  obtain ⟨hl', once'⟩ := back_ops H1 h hb
  rcases C80_back H1 ap inc hl once hcol hu hme h hq hb h2 with ⟨c2, q2, rfl, hf, -⟩ | ⟨e, rfl, he⟩
  · have hed : editable q2 = editable p := editable_foldCase hf
    exact .inr (C84_return H ap h0 (.more (.one ⟨⟨_, _, _, hl, once, h⟩, hq⟩) ⟨⟨_, _, _, hl', once', h2⟩, storable_folded hf hst⟩) (by rw [hed]))
  · exact .inl ⟨e, rfl, he⟩

/-- C84: two saved batches about different artifacts leave the same bytes in either order. -/
theorem C84_order (H : Holds E base s fs p) (ap : Apart s) (hl : LinkSets (ops1 ++ ops2)) (once : ∀ op ∈ ops1 ++ ops2, ∀ a, Brings op a → ReadOnce s a.file)
    (hno : NoOverlap E.hash ((ops1 ++ ops2).map ArtifactOp.clean)) (hcol : NoCollision E.hash p ((ops1 ++ ops2).map ArtifactOp.clean))
    (hu : Unchained E.hash ((ops1 ++ ops2).map ArtifactOp.clean))
    (h1 : Modifies E.L E.readToml E.hash E.dbg n1 fs base ops1 (some (.ok (c1, p1))) fs1) (hq1 : Storable E.L s p1)
    (h12 : Modifies E.L E.readToml E.hash E.dbg n3 fs1 base ops2 (some (.ok (c12, p12))) fs') (hq12 : Storable E.L s p12)
    (h2 : Modifies E.L E.readToml E.hash E.dbg n2 fs base ops2 (some (.ok (c2, p2))) fs2) (hq2 : Storable E.L s p2)
    (h21 : Modifies E.L E.readToml E.hash E.dbg n4 fs2 base ops1 (some (.ok (c21, p21))) fs'') : SameDisk fs' fs'' := by
  have hl1 : LinkSets ops1 := fun x hx => hl x (List.mem_append_left _ hx)
  have hl2 : LinkSets ops2 := fun x hx => hl x (List.mem_append_right _ hx)
  have once1 : ∀ op ∈ ops1, ∀ a, Brings op a → ReadOnce s a.file := fun x hx => once x (List.mem_append_left _ hx)
  have once2 : ∀ op ∈ ops2, ∀ a, Brings op a → ReadOnce s a.file := fun x hx => once x (List.mem_append_right _ hx)
  rcases C81_order H ap hl once hno hcol hu h1 hq1 h12 h2 hq2 h21 with ⟨_, h, _⟩ | ⟨_, h, _⟩ | ⟨h, -⟩
  · cases h
  · cases h
  rcases h with ⟨_, _, _, _, e1, e2, hf⟩ | ⟨_, _, e1, _⟩
  · cases e1; cases e2
    refine C84_histories H ap (.more (.one ⟨⟨_, _, _, hl1, once1, h1⟩, hq1⟩) ⟨⟨_, _, _, hl2, once2, h12⟩, hq12⟩)
      (.more (.one ⟨⟨_, _, _, hl2, once2, h2⟩, hq2⟩) ⟨⟨_, _, _, hl1, once1, h21⟩, storable_folded hf.symm hq12⟩) ?_
    rw [editable_foldCase hf]
  · cases e1

/-- C84: two batches about different artifacts leave the same bytes as both in one. -/
theorem C84_split (H : Holds E base s fs p) (ap : Apart s) (hl : LinkSets (ops1 ++ ops2)) (once : ∀ op ∈ ops1 ++ ops2, ∀ a, Brings op a → ReadOnce s a.file)
    (hno : NoOverlap E.hash ((ops1 ++ ops2).map ArtifactOp.clean)) (hcol : NoCollision E.hash p ((ops1 ++ ops2).map ArtifactOp.clean))
    (hu : Unchained E.hash ((ops1 ++ ops2).map ArtifactOp.clean))
    (h1 : Modifies E.L E.readToml E.hash E.dbg n1 fs base ops1 (some (.ok (c1, p1))) fs1) (hq1 : Storable E.L s p1)
    (h2 : Modifies E.L E.readToml E.hash E.dbg n2 fs1 base ops2 (some (.ok (c2, p2))) fs2) (hq2 : Storable E.L s p2)
    (h3 : Modifies E.L E.readToml E.hash E.dbg n3 fs base (ops1 ++ ops2) (some (.ok (c3, p3))) fs3) : SameDisk fs2 fs3 := by
  have hl1 : LinkSets ops1 := fun x hx => hl x (List.mem_append_left _ hx)
  have hl2 : LinkSets ops2 := fun x hx => hl x (List.mem_append_right _ hx)
  have once1 : ∀ op ∈ ops1, ∀ a, Brings op a → ReadOnce s a.file := fun x hx => once x (List.mem_append_left _ hx)
  have once2 : ∀ op ∈ ops2, ∀ a, Brings op a → ReadOnce s a.file := fun x hx => once x (List.mem_append_right _ hx)
  rcases C81_split H ap hl1 once1 hno hcol hu h1 hq1 h2 h3 with ⟨_, h, _⟩ | ⟨_, h, _⟩ | h
  · cases h
  · cases h
  rcases h with ⟨_, _, _, _, e1, e2, hf⟩ | ⟨_, _, e1, _⟩
  · cases e1; cases e2
    refine C84_histories H ap (.more (.one ⟨⟨_, _, _, hl1, once1, h1⟩, hq1⟩) ⟨⟨_, _, _, hl2, once2, h2⟩, hq2⟩)
      (.one ⟨⟨_, _, _, hl, once, h3⟩, storable_folded hf.symm hq2⟩) ?_
    rw [editable_foldCase hf]
  · cases e1

end Art.Bytes
