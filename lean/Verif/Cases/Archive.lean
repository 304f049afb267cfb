import Verif.Props.Archive
import Verif.Cases.Art

/-!
# Concrete cases for C73
-/

namespace Art
namespace Archive
open Spec Cli

/-- A page with a style sheet and a picture. -/
def caseTree : Tree :=
  .file c!"index.html" (strBytes c!"<html></html>") (.dir c!"css" (.file c!"é.css" (strBytes c!"body {}") (.dir c!"img" (.file c!"a.png" [137, 80, 0, 255] .nil) .nil))
    (.file c!"initial.json" [] .nil))

theorem caseTree_wf : caseTree.WF := by
  have ok : ∀ n ∈ [c!"index.html", c!"css", c!"é.css", c!"img", c!"a.png", c!"initial.json"], NameOk n := fun n hn => by
    have : ∀ n ∈ [c!"index.html", c!"css", c!"é.css", c!"img", c!"a.png", c!"initial.json"], n ≠ [] ∧ '/' ∉ n ∧ '\x00' ∉ n ∧ n ≠ c!"." ∧ n ≠ c!".." := by decide
    obtain ⟨a, b, c, d, e⟩ := this n hn
    exact ⟨a, b, c, d, e⟩
  refine .file (ok _ (by decide)) ?_ (by decide) (.dir (ok _ (by decide)) ?_ (.file (ok _ (by decide)) ?_ (by decide)
    (.dir (ok _ (by decide)) nofun (.file (ok _ (by decide)) nofun (by decide) .nil) .nil)) (.file (ok _ (by decide)) nofun (by decide) .nil))
  · rintro (_ | _ | _ | h)
    rcases h with _ | h
    cases h
  · rintro (_ | h)
    cases h
  · rintro (_ | _ | _ | h)
    cases h

/-- Its files as they come out of the archive. -/
def caseFiles : List (List Bytes × Bytes) := [([strBytes c!"index.html"], strBytes c!"<html></html>"), ([strBytes c!"css", strBytes c!"é.css"], strBytes c!"body {}"),
  ([strBytes c!"css", strBytes c!"img", strBytes c!"a.png"], [137, 80, 0, 255]), ([strBytes c!"initial.json"], [])]

/-- The archive has four headers, three blocks, and the end. -/
theorem caseTree_packs : (tarFrontend caseTree).map List.length = some (512 * 7 + 1024) ∧
    (tarFrontend caseTree).bind unpackTar = some caseFiles := by
  decide +kernel

theorem caseTree_short : ∀ p c, caseTree.Has p c → ¬ Long p := by
  intro p c h
  have hs : ∀ p ∈ [[c!"index.html"], [c!"css", c!"é.css"], [c!"css", c!"img", c!"a.png"], [c!"initial.json"]], ¬ 100 < (strBytes (pathText p)).length := by decide +kernel
  refine hs p ?_
  cases h with
  | here => simp
  | file h =>
    cases h with
    | sub h =>
      cases h with
      | here => simp
      | file h =>
        cases h with
        | sub h =>
          cases h with
          | here => simp
          | file h => cases h
        | dir h => cases h
    | dir h =>
      cases h with
      | here => simp
      | file h => cases h

/-- The theorems apply to it. -/
example : ∃ b l, tarFrontend caseTree = some b ∧ unpackTar b = some l ∧ ∀ p c, caseTree.Has p c → (p.map strBytes, c) ∈ l := (C73_complete_iff caseTree_wf).2 caseTree_short
example : tarFrontend caseTree ≠ none := fun h => by
  obtain ⟨n, c, h1, h2⟩ := (C73_fails_iff caseTree).1 h
  exact caseTree_short _ _ h1 h2
example : tarFrontend (.file (List.replicate 101 'x') [] .nil) = none := (C73_fails_iff _).2 ⟨_, [], .here, by unfold Long; decide +kernel⟩

example : ∃ b l, unpackTar b = some l ∧ (l.map (·.1)).Nodup := by
  obtain ⟨b, _, h, -⟩ := (C73_complete_iff caseTree_wf).2 caseTree_short
  obtain ⟨l, h1, h2, -⟩ := C73_unpacks caseTree_wf h
  exact ⟨b, l, h1, h2⟩

/-- `C73_damage`: another byte at the beginning of the second header, in place of the `i` of `initial.json`. -/
example (y : UInt8) (hy : y ≠ 105) : ∃ v r, unpackTar ((tarDir [] (.file c!"index.html" (strBytes c!"<html></html>") .nil)).1 ++ (([] ++ 105 :: v) ++ r)) =
      some [([strBytes c!"index.html"], strBytes c!"<html></html>"), ([strBytes c!"initial.json"], [])] ∧
    unpackTar ((tarDir [] (.file c!"index.html" (strBytes c!"<html></html>") .nil)).1 ++ (([] ++ y :: v) ++ r)) = none := by
  have h : unpackTar ((tarDir [] (.file c!"index.html" (strBytes c!"<html></html>") .nil)).1 ++ (([] ++ 105 :: ((header [c!"initial.json"] 0).getD []).tail) ++ List.replicate 1024 0)) =
      some [([strBytes c!"index.html"], strBytes c!"<html></html>"), ([strBytes c!"initial.json"], [])] := by decide +kernel
  refine ⟨_, _, h, C73_damage (.file ?_ (fun h => by cases h) (by decide +kernel) .nil) (by decide +kernel) (.inl (by decide)) (Ne.symm hy) (by rw [h]; simp)⟩
  cases caseTree_wf with
  | file a _ _ _ => exact a

/-- `C73_unnoticed`: other bytes in a file. -/
example : ∃ head, unpackTar (head ++ strBytes c!"<html>" ++ padding 6 ++ List.replicate 1024 0) = some [([strBytes c!"index.html"], strBytes c!"<html>")] ∧
    unpackTar (head ++ strBytes c!"<htnl>" ++ padding 6 ++ List.replicate 1024 0) = some [([strBytes c!"index.html"], strBytes c!"<htnl>")] := by
  have h : unpackTar ((header [c!"index.html"] 6).getD [] ++ strBytes c!"<html>" ++ padding 6 ++ List.replicate 1024 0) = some [([strBytes c!"index.html"], strBytes c!"<html>")] := by decide +kernel
  have hn : NameOk c!"index.html" := by
    cases caseTree_wf with
    | file a _ _ _ => exact a
  exact ⟨_, h, C73_unnoticed (path := [c!"index.html"]) (c := strBytes c!"<html>") (by simp) (fun n hm => by rw [List.mem_singleton.1 hm]; exact hn) (by decide +kernel) (by decide +kernel)
    (by decide +kernel) h⟩

/-- On a disk. -/
example (initial : Str) : ∃ site, Ready exGood c!"/p/out" site ∧
    IMap.get? (exportHtml site exGood c!"/p/out" initial).2 (c!"/p/out" ++ Path [c!"css", c!"img", c!"a.png"]) = some (.file (.binary [] 4)) := by
  obtain ⟨b, l, h1, h2, -⟩ := (C73_complete_iff caseTree_wf).2 caseTree_short
  have hl : l = caseFiles := by
    have := caseTree_packs.2
    rw [h1, Option.bind_some, h2] at this
    exact Option.some.inj this
  subst hl
  have hs : SiteOf (fun b => .binary [] b.length) caseFiles [([c!"index.html"], .binary [] 13), ([c!"css", c!"é.css"], .binary [] 7), ([c!"css", c!"img", c!"a.png"], .binary [] 4),
      ([c!"initial.json"], .binary [] 0)] := ⟨by decide +kernel, by decide +kernel⟩
  have hi : ∃ c, caseTree.Has [c!"initial.json"] c := ⟨[], .file (.dir .here)⟩
  have hr := C71_fresh exGood_wf (C73_good caseTree_wf h1 h2 hs hi) (dest := c!"/p/out") (by decide +kernel) (by decide +kernel)
  obtain ⟨p1, p2, -⟩ := C73_page caseTree_wf h1 h2 hs hi caseTree_short exGood c!"/p/out" initial
  exact ⟨_, hr, p2 (p1.2 hr) _ [137, 80, 0, 255] (.file (.sub (.file (.sub .here)))) (by decide)⟩

/-- A page with a path that does not fit into a header: 60 letters, a slash and 50 letters. -/
def lostTree : Tree := .dir (List.replicate 60 'd') (.file (List.replicate 50 'f') [1] (.file c!"a.css" [2] .nil)) (.file c!"initial.json" [] .nil)

/-- The build succeeds, and the file is not in the program; neither is the style sheet beside it, whose path fits. -/
theorem C73_lost : ∃ t b l, tarFrontend t = some b ∧ unpackTar b = some l ∧ t.WF ∧ ∃ p c, t.Has p c ∧ ¬ Long p ∧ ∀ d, (p.map strBytes, d) ∉ l := by
  have ok : ∀ n ∈ [List.replicate 60 'd', List.replicate 50 'f', c!"a.css", c!"initial.json"], NameOk n := fun n hn => by
    have : ∀ n ∈ [List.replicate 60 'd', List.replicate 50 'f', c!"a.css", c!"initial.json"], n ≠ [] ∧ '/' ∉ n ∧ '\x00' ∉ n ∧ n ≠ c!"." ∧ n ≠ c!".." := by decide +kernel
    obtain ⟨a, b, c, d, e⟩ := this n hn
    exact ⟨a, b, c, d, e⟩
  have w : lostTree.WF := by
    refine .dir (ok _ (by simp)) ?_ (.file (ok _ (by simp)) ?_ (by decide) (.file (ok _ (by simp)) nofun (by decide) .nil)) (.file (ok _ (by simp)) nofun (by decide) .nil)
    · intro h
      have : ∀ n, Tree.Named (.file c!"initial.json" [] .nil) n → n = c!"initial.json" := by
        rintro n (_ | h)
        · rfl
        · cases h
      exact absurd (this _ h) (by decide +kernel)
    · intro h
      have : ∀ n, Tree.Named (.file c!"a.css" [2] .nil) n → n = c!"a.css" := by
        rintro n (_ | h)
        · rfl
        · cases h
      exact absurd (this _ h) (by decide +kernel)
  have hu : (tarFrontend lostTree).bind unpackTar = some [([strBytes c!"initial.json"], [])] := by decide +kernel
  obtain ⟨b, hb, hl⟩ := Option.bind_eq_some_iff.1 hu
  refine ⟨lostTree, b, _, hb, hl, w, [List.replicate 60 'd', c!"a.css"], [2], .sub (.file .here), ?_, ?_⟩
  · unfold Long
    decide +kernel
  · intro d hd
    simp only [List.mem_singleton, Prod.mk.injEq] at hd
    exact absurd hd.1 (by decide +kernel)

end Archive
end Art
