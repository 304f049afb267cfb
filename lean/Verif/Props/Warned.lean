import Verif.Spec.Warned
import Verif.Props.Places
import Verif.Props.Reports

/-!
# Property C100: the warnings about the code are those about the references that are wrong
-/

namespace Art.Places
open Spec Reports
open Spec.Export (arts)

variable {L : Libs} {readToml : Str → Option SettingsRaw} {hash : ArtifactIm → HashIm} {ncpu : Nat} {fs : FS} {base : FilePath}
  {c : Categorized} {p : Project}

theorem lookup_recorded {code : IMap Name ImplCode} (hn : IMap.Nodup code) (hs : ∀ n c, (n, c) ∈ code → IMap.Nodup c.secondary) (n : Name) (sub : Option SubName) (loc : CodeLoc) :
    lookup code n sub = some loc ↔ ∃ n' sub', key n' = key n ∧ sub'.map key = sub.map key ∧ Recorded code n' sub' loc := by
  unfold lookup
  constructor
  · intro h
    cases hg : IMap.get? code n with
    | none => rw [hg] at h; cases h
    | some k =>
      rw [hg] at h
      obtain ⟨n', hk, hm⟩ := IMap.mem_of_get? hg
      cases sub with
      | none => exact ⟨n', none, hk, rfl, k, hm, h⟩
      | some s =>
        obtain ⟨s', hk', hm'⟩ := IMap.mem_of_get? (h : IMap.get? k.secondary s = some loc)
        exact ⟨n', some s', hk, congrArg some hk', k, hm, hm'⟩
  · rintro ⟨n', sub', hk, hk', k, hm, h⟩
    rw [(IMap.get?_eq_some_iff hn).2 ⟨n', hk, hm⟩]
    cases sub with
    | none => cases sub' with
      | none => exact h
      | some s' => cases hk'
    | some s => cases sub' with
      | none => cases hk'
      | some s' => exact (IMap.get?_eq_some_iff (hs n' k hm)).2 ⟨s', Option.some.inj hk', h⟩

theorem read_code_nodup (h : ReadsProject L readToml hash ncpu fs base (.ok (c, p))) : IMap.Nodup p.codeImpls ∧ ∀ n k, (n, k) ∈ p.codeImpls → IMap.Nodup k.secondary := by
  obtain ⟨raw, path, s, r, as, ls, _, _, ha, he, hl, _, rfl, _⟩ := reads_parts h
  obtain ⟨hn1, hn2⟩ := C10_no_empty r.locs
  constructor
  · have : IMap.Nodup (sortOn (fun x => x.1.keyStr) (joinLocations r.locs).1) := (IMap.nodup_perm (sortOn_perm _ _)).2 hn1
    unfold IMap.Nodup at this ⊢
    show (((sortOn (fun x => x.1.keyStr) (joinLocations r.locs).1).map (fun x => (x.1, x.2.sort))).map _).Nodup
    rw [List.map_map]
    exact this
  · intro n k hm
    obtain ⟨y, hy, e⟩ := List.mem_map.1 (hm : (n, k) ∈ (sortOn (fun x => x.1.keyStr) (joinLocations r.locs).1).map (fun x => (x.1, x.2.sort)))
    cases e
    exact (IMap.nodup_perm (sortOn_perm _ _)).2 (hn2 y.1 y.2 ((mem_sortOn _).1 hy)).2

/-- The places of the project and the references in the code. -/
theorem recorded_ref (h : ReadsProject L readToml hash ncpu fs base (.ok (c, p))) (n : Name) (sub : Option SubName) (loc : CodeLoc) :
    RefAt fs p.settings n sub loc ↔ ∃ n' sub', key n' = key n ∧ sub'.map key = sub.map key ∧ Recorded p.codeImpls n' sub' loc := by
  obtain ⟨h1, h2⟩ := read_code_nodup h
  rw [← C99_places h, lookup_recorded h1 h2]

/-- **In an exported document a subname is shown with the place at which the code refers to it**, and as not implemented (C55) if there is none. -/
theorem C99_exported (h : ReadsProject L readToml hash ncpu fs base (.ok (c, p))) (parent sub : Str) (loc : CodeLoc) :
    Spec.Export.Implemented p parent sub loc ↔ ∃ n : Name, n.keyStr = upper parent ∧ RefAt fs p.settings n (some ⟨sub⟩) loc := by
  constructor
  · rintro ⟨n, t, h1, h2, h3⟩
    exact ⟨n, h2, (recorded_ref h _ _ _).2 ⟨n, some t, rfl, congrArg some h3, h1⟩⟩
  · rintro ⟨n, h2, hr⟩
    obtain ⟨n', sub', e1, e2, h1⟩ := (recorded_ref h _ _ _).1 hr
    cases sub' with
    | none => cases e2
    | some t => exact ⟨n', t, h1, (congrArg Prod.snd e1).trans h2, Option.some.inj e2⟩

theorem wrong_congr {as : List Artifact} {n n' : Name} {sub sub' : Option SubName} (hn : key n' = key n) (hs : sub'.map key = sub.map key) {w : Why} (h : Wrong as n sub w) :
    Wrong as n' sub' (respell sub' w) := by
  cases w with
  | missing => exact fun b hb => hn ▸ h b hb
  | done =>
    obtain ⟨b, hb, hk, hd⟩ := h
    exact ⟨b, hb, hk.trans hn.symm, hd⟩
  | noSub s =>
    obtain ⟨b, hb, hk, hd, rfl, hno⟩ := h
    cases sub' with
    | none => cases hs
    | some s' =>
      refine ⟨b, hb, hk.trans hn.symm, hd, rfl, ?_⟩
      rintro ⟨pre, t, post, e1, e2, e3⟩
      exact hno ⟨pre, t, post, e1, e2, e3.trans (Option.some.inj hs)⟩

theorem right_iff {as : List Artifact} {n : Name} {sub : Option SubName} : RightRef as n sub ↔ ∀ w, ¬ Wrong as n sub w := by
  constructor
  · rintro ⟨⟨b, hb, hk⟩, H⟩ w hw
    cases w with
    | missing => exact hw b hb hk
    | done =>
      obtain ⟨b, hb, hk, hd⟩ := hw
      exact (H b hb hk).1 hd
    | noSub s =>
      obtain ⟨b, hb, hk, _, hs, hno⟩ := hw
      exact hno ((H b hb hk).2 s hs)
  · intro H
    refine ⟨?_, fun b hb hk => ?_⟩
    · by_contra hno
      exact H .missing fun b hb hk => hno ⟨b, hb, hk⟩
    · have hd : ¬ Done b := fun hd => H .done ⟨b, hb, hk, hd⟩
      refine ⟨hd, fun s hs => ?_⟩
      by_contra hno
      exact H (.noSub s) ⟨b, hb, hk, hd, hs, hno⟩

/-- **Each warning about the code is about a reference in a source file that is wrong**, at its file and line. -/
theorem C100_only (h : ReadsProject L readToml hash ncpu fs base (.ok (c, p))) {l : Lint} (hl : l ∈ c.other) (hc : l.category = .implCode) :
    ∃ n sub loc w, RefAt fs p.settings n sub loc ∧ Wrong (arts p) n sub w ∧ l = placeLint n sub loc w := by
  obtain ⟨hl, -⟩ := ((C83_complete h).2.1 l).1 hl
  cases hl with
  | place h1 h2 => exact ⟨_, _, _, _, (recorded_ref h _ _ _).2 ⟨_, _, rfl, rfl, h1⟩, h2, rfl⟩
  | _ => cases hc

/-- **Each reference that is wrong is warned about**, at its place and for its reason; name and subname may be spelled as in another reference to the same. -/
theorem C100_all (h : ReadsProject L readToml hash ncpu fs base (.ok (c, p))) {n : Name} {sub : Option SubName} {loc : CodeLoc} {w : Why}
    (hr : RefAt fs p.settings n sub loc) (hw : Wrong (arts p) n sub w) :
    ∃ n' sub', key n' = key n ∧ sub'.map key = sub.map key ∧ placeLint n' sub' loc (respell sub' w) ∈ c.other := by
  obtain ⟨n', sub', h1, h2, h3⟩ := (recorded_ref h _ _ _).1 hr
  exact ⟨n', sub', h1, h2, ((C83_complete h).2.1 _).2 ⟨.place h3 (wrong_congr h1 h2 hw), rfl⟩⟩

/-- **There is no warning about the code exactly if all references in it are right.** -/
theorem C100_clean (h : ReadsProject L readToml hash ncpu fs base (.ok (c, p))) :
    (∀ l ∈ c.other, l.category ≠ .implCode) ↔ ∀ n sub loc, RefAt fs p.settings n sub loc → RightRef (arts p) n sub := by
  constructor
  · intro H n sub loc hr
    rw [right_iff]
    intro w hw
    obtain ⟨n', sub', -, -, hm⟩ := C100_all h hr hw
    exact H _ hm rfl
  · intro H l hl hc
    obtain ⟨n, sub, loc, w, hr, hw, -⟩ := C100_only h hl hc
    exact right_iff.1 (H n sub loc hr) w hw

end Art.Places
