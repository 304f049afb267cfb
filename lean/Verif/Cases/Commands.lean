import Verif.Props.Fs
import Verif.Props.Hash
import Verif.Props.Lint
import Verif.Props.Check
import Verif.Props.Ls
import Verif.Props.Listing
import Verif.Props.View

/-!
# Cases: paths, ids, lints and listings
The theorems of `Props/Fs.lean`, `Props/Hash.lean`, `Props/Lint.lean`, `Props/Check.lean`, `Props/Ls.lean`, `Props/Listing.lean` and `Props/View.lean` applied to
concrete cases that meet their hypotheses.
-/

namespace Art
open Spec

/-! ## paths -/

instance (q p : FilePath) : Decidable (Under q p) := decidable_of_iff _ startsWith_iff

/-- Listed itself and excluded: it is read, and not accepted for writing. -/
example : checkPath (exPaths [c!"/p/design/old/b.toml"] [c!"/p/design/old"]) c!"/p/design/old/b.toml" = some .excluded :=
  C28_inverted exTree_wf _ (e := c!"/p/design/old") (exTree_wf.isFile_iff.2 ⟨.text c!"y", by decide +kernel⟩) (by decide) (by decide +kernel)
    ((supported_iff (.inr ⟨_, rfl⟩)).1 (by decide +kernel)) (by decide +kernel)

example : checkPath (exPaths [c!"/p/design"] [c!"/p/design/old"]) c!"/p/design/a.md" = none :=
  (C28_partial exTree_wf _ (p := c!"/p/design/a.md") (exTree_wf.isFile_iff.2 ⟨.text c!"x", by decide +kernel⟩) (by decide +kernel)).2
    ⟨(supported_iff (.inr ⟨_, rfl⟩)).1 (by decide +kernel), by decide +kernel⟩

example : Supported c!"/p/design/a.md" := ((checkPath_none_iff (exPaths [c!"/p/design"] [c!"/p/design/old"]) (p := c!"/p/design/a.md") (.inr ⟨_, rfl⟩)).1 (by decide)).1

open Classical in
/-- A file inside two configured paths is found twice. -/
example : [c!"/p/design/old", c!"/p/design/old/keep"].countP (fun r => decide (Finds exTree [] Supported r c!"/p/design/old/keep/c.json")) = 2 := by
  have h := C29_artifacts exTree_wf (exPaths [c!"/p/design/old", c!"/p/design/old/keep"] []) c!"/p/design/old/keep/c.json"
  rw [show (walkArtifacts exTree (exPaths [c!"/p/design/old", c!"/p/design/old/keep"] [])).count c!"/p/design/old/keep/c.json" = 2 by decide +kernel] at h
  exact h.symm

open Classical in
example : 1 = [c!"/p"].countP (fun r => decide (Finds exTree [c!"/p/design"] (fun _ => True) r c!"/p/notes.txt")) := by
  have h := C29_code exTree_wf (exPaths [] [c!"/p/design"]) c!"/p/notes.txt"
  rw [show (walkCode exTree (exPaths [] [c!"/p/design"])).count c!"/p/notes.txt" = 1 by decide +kernel] at h
  exact h

example : (walkArtifacts exTree (exPaths [c!"/p/design/old", c!"/p/nope"] [])).Nodup := C29_once exTree_wf _ (by decide) (by decide +kernel)

example : resolveRawPath c!"/home/p" c!"{repo}/src/a" = .ok c!"/home/p/src/a" :=
  (C51_spellings (l := [c!"home", c!"p"]) (c := c!"src") (cs := [c!"a"]) (by decide) (by unfold PlainName; decide)).2.2

/-! ## ids -/

theorem caseShort : ShortParts exImB.file ∧ ShortParts exImB'.file ∧ ¬ nuls <+: exImB.text ∧ ¬ nuls <+: exImB'.text := by
  unfold ShortParts
  decide +kernel

example : ¬ SameContent exImB exImB' := fun h => absurd ((C30_identifies caseShort.1 caseShort.2.1 caseShort.2.2.1 caseShort.2.2.2).2 h) (by decide +kernel)

example : ¬ (SameContent exImB exImB' ∨ Confusable exImB exImB' ∨ Confusable exImB' exImB) :=
  fun h => absurd ((C30_stream_iff caseShort.1 caseShort.2.1).2 h) (by decide +kernel)

example : ∃ i, HashIm.de false c!"__79BAUGBwgJCgsMDQ4PEA" = .ok i := (C31_accepts (by unfold UrlSafe; decide +kernel)).1 (by decide) (by decide)
example : HashIm.de false c!"__79BAUGBwgJCgsMDQ4PEAAA" = .panic := (C31_accepts (by unfold UrlSafe; decide +kernel)).2 (by decide) (by decide)

/-! ## lints and `art check` -/

example : ((Categorized.categorize ⟨[], []⟩ [exL1, exL2]).categorize [exL2]).sort = ((Categorized.categorize ⟨[], []⟩ [exL2]).categorize [exL1]).sort :=
  C32_canonical _ _ _ _ (by intro l; simp; tauto)

theorem caseChecks : Checks exLibs (fun _ => some exRaw) exHash 4 exGood c!"/p/src/deep" 0 := by
  have h := exFs_checks c!"# REQ-a\nwhat\n# SPC-a\nhow [[.x]]\n" c!"# SPC-b\nmore\n" c!"// #SPC-a\n// #SPC-a.x" c!"// #SPC-b" (by decide +kernel) (by decide +kernel)
  have e : exitStatus (checkResult ((exRun exGood false).now exLibs exHash exS)) = 0 := by decide +kernel
  exact e ▸ h

example : ∃ repo p, findRepo exGood c!"/p/src/deep" = some repo ∧ ReadsProject exLibs (fun _ => some exRaw) exHash 4 exGood repo (.ok (⟨[], []⟩, p)) ∧ Tidy exLibs p :=
  C33_clean caseChecks

/-! ## `art ls` -/

/-- The pattern `SPC-b` in the name: the artifacts shown are exactly those that match. -/
example : ∃ as, lsShown exCompile (exLs c!"N") (.ok (⟨[], []⟩, exProject)) = .ok as ∧
    (∀ a, a ∈ as ↔ a ∈ artsOf exProject.artifacts ∧ Hit (fun t => c!"(?i)" ++ t == c!"(?i)SPC-b") { Flags.empty with name := true } a) ∧
    as.Pairwise (fun a b => a.name.keyStr < b.name.keyStr) :=
  C34_exact exProject_read (compile := exCompile) (cmd := exLs c!"N") (pat := c!"SPC-b") (f := { Flags.empty with name := true }) rfl rfl (by decide) rfl (.inl rfl)

example : lsShown exCompile (exLsAll false) (.ok (⟨[], []⟩, exProject)) = .ok (artsOf exProject.artifacts) :=
  C34_no_pattern exProject_read (f := { Flags.empty with name := true }) rfl (by decide) rfl (.inl rfl)

example : ∀ as, lsShown exCompile (exLs c!"nt") (.ok (⟨[], []⟩, exProject)) ≠ .ok as := fun as h => by
  obtain ⟨⟨f, hf, -⟩, -⟩ := (C34_refused exProject_read (compile := exCompile) (cmd := exLs c!"nt")).2.1 ⟨as, h⟩
  rw [show Flags.fromStr (exLs c!"nt").fields = .err .unknown by decide] at hf
  cases hf

example : ∃ as, lsShown exCompile (exLs c!"S") (.ok (⟨[], []⟩, exProject)) = .ok as ∧ ∀ a, a ∈ as ↔ a ∈ artsOf exProject.artifacts :=
  C34_subnames_ignored exProject_read (pat := c!"SPC-b") (m := fun t => c!"(?i)" ++ t == c!"(?i)SPC-b") rfl rfl (.inl rfl) rfl

/-! ## what `art ls` prints -/

/-- No place in the code and no subname has a line end in it. -/
theorem implShown_noNl {i : Impl} (hd : ∀ d, i = .done d → '\n' ∉ d)
    (hc : ∀ c, i = .code c → (∀ l, c.primary = some l → '\n' ∉ l.file) ∧ ∀ x ∈ c.secondary, '\n' ∉ x.1.raw ∧ '\n' ∉ x.2.file) :
    ∀ t, ImplShown i t → '\n' ∉ t := by
  have dig : ∀ (d : Str) n, Spells d n → '\n' ∉ d := fun d n h hm => absurd ((spells_iff.1 h).2.1 _ hm) (by decide)
  have loc : ∀ l t, '\n' ∉ l.file → LocShown l t → '\n' ∉ t := by
    rintro l t hl ⟨d, h, rfl⟩
    simp only [List.mem_append, not_or]
    exact ⟨⟨⟨hl, by decide⟩, dig d _ h⟩, by decide⟩
  intro t ht
  cases i with
  | done d => exact (show t = d from ht) ▸ hd d rfl
  | notImpl => rw [show t = _ from ht]; decide
  | code c =>
    obtain ⟨pre, sec, rfl, h1, h2, h3, h4⟩ := ht
    obtain ⟨k1, k2⟩ := hc c rfl
    simp only [List.mem_append, not_or]
    constructor
    · cases hp : c.primary with
      | none => rw [h1 hp]; simp
      | some l => exact loc l _ (k1 l hp) (h2 l hp)
    · by_cases hs : c.secondary = []
      · rw [h3 hs]; simp
      · obtain ⟨items, rfl, hi⟩ := h4 hs
        have hit : ∀ y ∈ items, '\n' ∉ y := by
          intro y hy
          obtain ⟨x, hx, u, hu, rfl⟩ := forall₂_mem_right hi hy
          simp only [List.mem_append, not_or]
          exact ⟨⟨⟨by decide, (k2 x hx).1⟩, by decide⟩, loc _ _ (k2 x hx).2 hu⟩
        have hint : ∀ l : List Str, (∀ y ∈ l, '\n' ∉ y) → '\n' ∉ List.intercalate c!", " l := by
          intro l
          induction l with
          | nil => intro _ h; cases h
          | cons y l ih =>
            intro hl
            cases l with
            | nil => simpa [List.intercalate] using hl y (by simp)
            | cons z l =>
              have h1 := hl y (by simp)
              have h2 := ih fun w hw => hl w (List.mem_cons_of_mem _ hw)
              simp only [List.intercalate, List.intersperse_cons_cons, List.flatten_cons, List.mem_append, not_or] at h2 ⊢
              exact ⟨h1, by decide, h2⟩
        simp only [List.mem_append, not_or]
        exact ⟨⟨by decide, hint items hit⟩, by decide⟩

theorem caseShown (long : Bool) : lsShown exCompile (exLsAll long) (.ok (⟨[], []⟩, exProject)) = .ok (artsOf exProject.artifacts) :=
  C34_no_pattern exProject_read (f := { Flags.empty with name := true }) rfl (by decide +revert) rfl (.inl rfl)

example := C61_table exProject_read (caseShown false) rfl (by decide)
example := C61_long exProject_read (caseShown true) rfl (by decide)
example := C61_total exProject_read exCompile (exLsAll true) false

example : ∃ rows, lsPrint exCompile (exLsAll false) false (.ok (⟨[], []⟩, exProject)) = .ok (.table rows) ∧ ∀ row ∈ rows, ∀ cell ∈ row, ∀ s ∈ cell, '\n' ∉ s.text := by
  obtain ⟨rows, hr, -⟩ := C61_table exProject_read (caseShown false) rfl (by decide)
  refine ⟨rows, hr, C61_one_line exProject_read (caseShown false) hr fun a ha => ⟨?_, implShown_noNl ?_ ?_⟩⟩
  · revert a; decide +kernel
  · intro d hd
    exact absurd hd (by have : ∀ a ∈ artsOf exProject.artifacts, (match a.impl with | .done _ => false | _ => true) = true := by decide +kernel
                        have := this a ha
                        intro h; rw [h] at this; cases this)
  · have : ∀ a ∈ artsOf exProject.artifacts, (match a.impl with
        | .code c => (c.primary.all fun l => !l.file.contains '\n') && c.secondary.all fun x => !x.1.raw.contains '\n' && !x.2.file.contains '\n'
        | _ => true) = true := by decide +kernel
    have := this a ha
    intro c hc
    rw [hc] at this
    simpa [Option.all_eq_true] using this

/-- Subnames of a finished artifact are red, and a line end in its `done` tears the row. -/
example : ∃ a : Artifact, a.impl = .done c!"by\nhand" ∧ (∀ r, Joined (SubnameShown a) [⟨c!".x"⟩, ⟨c!".y"⟩] r → ∀ s ∈ r, s.color = some .red ∨ s = ⟨c!", ", none, false, false⟩) ∧
    ∀ cell, CellShown [a] a .impl cell → ∃ s ∈ cell, '\n' ∈ s.text :=
  ⟨⟨⟨Vector.replicate 16 0⟩, Name.lit c!"SPC-A", c!"/a.md", [], [], ⟨1, 1⟩, c!"x", .done c!"by\nhand", [⟨c!".x"⟩, ⟨c!".y"⟩]⟩, rfl,
    fun _ hj => C61_done_red rfl hj, fun _ hc => C61_torn rfl (by decide) hc⟩

/-! ## addresses of the page -/

example : View.fromHash (fun _ => true) 4294967295 c!"#artifacts/REQ-foo" ≠ .panic := C47_ascii _ _ _ (by decide)

end Art
