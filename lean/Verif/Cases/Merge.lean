import Verif.Props.Merge
import Verif.Cases.Grammar

/-! # Property C93: concrete cases -/

namespace Art.Merge
open Spec Grammar

def partA : Str := c!"# REQ-a\ndone: yes\n###\nwhy\n"
def partB : Str := c!"# SPC-b\nhow\n```art\ndone: yes\n```\nmore\n# SPC-c\nwhat\n"
def partC : Str := c!"# TST-d\n"

theorem head_of {fold : Char → Char} {l n w w' : Str} (e : l = '#' :: (w ++ (n ++ w'))) (hw : AllBlank w) (hn : Re.Lang nameRe n) (hw' : AllBlank w') :
    HeadLine fold [] l n := ⟨[], w, w', by simpa using e, rfl, hw, hn, hw'⟩

theorem partA_part : IsPart oneDoc.fold [] partA := by
  refine ⟨⟨c!"# REQ-a\ndone: yes\n###\nwhy", by decide⟩, ⟨c!"# REQ-a", [c!"done: yes", c!"###", c!"why"], c!"REQ-a", by decide, ?_⟩,
    [.head c!"REQ-a", .text c!"done: yes", .hashes, .text c!"why"], ?_, by intro o lost h; simp at h⟩
  · exact head_of (w := c!" ") (w' := []) (by decide) (by unfold AllBlank; decide) (nm "REQ-a").lang (by unfold AllBlank; decide)
  · have e : lines partA = [c!"# REQ-a", c!"done: yes", c!"###", c!"why"] := by decide
    rw [e]
    refine .head (head_of (w := c!" ") (w' := []) (by decide) (by unfold AllBlank; decide) (nm "REQ-a").lang (by unfold AllBlank; decide)) ?_
    refine .text (textLine_of (by decide +kernel)) (.hashes ?_ (endLine_iff.1 (by decide +kernel)) (.text (textLine_of (by decide +kernel)) .nil))
    rw [← nameLine_iff]; decide +kernel

theorem partB_part : IsPart oneDoc.fold [] partB := by
  refine ⟨⟨c!"# SPC-b\nhow\n```art\ndone: yes\n```\nmore\n# SPC-c\nwhat", by decide⟩,
    ⟨c!"# SPC-b", [c!"how", c!"```art", c!"done: yes", c!"```", c!"more", c!"# SPC-c", c!"what"], c!"SPC-b", by decide, ?_⟩,
    [.head c!"SPC-b", .text c!"how", .block [c!"done: yes"], .text c!"more", .head c!"SPC-c", .text c!"what"], ?_, by intro o lost h; simp at h⟩
  · exact head_of (w := c!" ") (w' := []) (by decide) (by unfold AllBlank; decide) (nm "SPC-b").lang (by unfold AllBlank; decide)
  · have e : lines partB = c!"# SPC-b" :: c!"how" :: c!"```art" :: ([c!"done: yes"] ++ c!"```" :: [c!"more", c!"# SPC-c", c!"what"]) := by decide
    rw [e]
    refine .head (head_of (w := c!" ") (w' := []) (by decide) (by unfold AllBlank; decide) (nm "SPC-b").lang (by unfold AllBlank; decide)) ?_
    refine .text (textLine_of (by decide +kernel)) (.block ?_ (fenceLine_iff.1 (by decide +kernel)) ?_ (closeLine_iff.1 (by decide +kernel)) ?_)
    · rw [← nameLine_iff]; decide +kernel
    · intro l hl
      obtain rfl := List.mem_singleton.1 hl
      rw [← closeLine_iff]; decide +kernel
    · refine .text (textLine_of (by decide +kernel)) (.head ?_ (.text (textLine_of (by decide +kernel)) .nil))
      exact head_of (w := c!" ") (w' := []) (by decide) (by unfold AllBlank; decide) (nm "SPC-c").lang (by unfold AllBlank; decide)

theorem partC_part : IsPart oneDoc.fold [] partC := by
  have hl : HeadLine oneDoc.fold [] c!"# TST-d" c!"TST-d" :=
    head_of (w := c!" ") (w' := []) (by decide) (by unfold AllBlank; decide) (nm "TST-d").lang (by unfold AllBlank; decide)
  have e : lines partC = [c!"# TST-d"] := by decide
  exact ⟨⟨c!"# TST-d", by decide⟩, ⟨_, [], _, e, hl⟩, [.head c!"TST-d"], by rw [e]; exact .head hl .nil, by intro o lost h; simp at h⟩

/-- The hypotheses of the theorems are met: three parts with four artifacts, in one file, are read; so they are in the other order. -/
theorem reorder_case : (∀ s ∈ [partA, partB, partC], IsPart oneDoc.fold [] s) ∧
    (∃ out, fromMarkdown oneDoc [] [partA, partB, partC].flatten = .ok out ∧ out.length = 4 ∧
      ∃ out', fromMarkdown oneDoc [] [partC, partB, partA].flatten = .ok out' ∧ out.Perm out' ∧ out ≠ out') := by
  have hp : ∀ s ∈ [partA, partB, partC], IsPart oneDoc.fold [] s := by
    intro s hs
    simp only [List.mem_cons, List.not_mem_nil, or_false] at hs
    rcases hs with rfl | rfl | rfl
    exacts [partA_part, partB_part, partC_part]
  have h1 : fromMarkdown oneDoc [] [partA, partB, partC].flatten = .ok [(nm "REQ-a", ⟨some c!"yes", none, some c!"why"⟩),
      (nm "SPC-b", ⟨some c!"yes", none, some c!"how\nmore\n"⟩), (nm "SPC-c", ⟨none, none, some c!"what"⟩), (nm "TST-d", ⟨none, none, none⟩)] := by decide +kernel
  obtain ⟨out', h2, h3⟩ := C93_reorder oneDoc [] hp (parts' := [partC, partB, partA])
    (List.reverse_perm [partA, partB, partC]).symm h1
  refine ⟨hp, _, h1, rfl, out', h2, h3, fun e => ?_⟩
  rw [← e] at h2
  revert h2
  decide +kernel

/-- The hypotheses of `C93_move` are met: `SPC-b` and `SPC-c` go from the first file to the second. -/
theorem move_case : ∃ o p o' p', fromMarkdown oneDoc [] [partA, partB].flatten = .ok o ∧ fromMarkdown oneDoc [] [partC].flatten = .ok p ∧
    fromMarkdown oneDoc [] [partA].flatten = .ok o' ∧ fromMarkdown oneDoc [] [partB, partC].flatten = .ok p' ∧ NoneShared o' p' ∧
    (o ++ p).Perm (o' ++ p') ∧ o.length = 3 := by
  have h1 : fromMarkdown oneDoc [] [partA, partB].flatten = .ok [(nm "REQ-a", ⟨some c!"yes", none, some c!"why"⟩),
      (nm "SPC-b", ⟨some c!"yes", none, some c!"how\nmore\n"⟩), (nm "SPC-c", ⟨none, none, some c!"what"⟩)] := by decide +kernel
  have h2 : fromMarkdown oneDoc [] [partC].flatten = .ok [(nm "TST-d", ⟨none, none, none⟩)] := by decide +kernel
  obtain ⟨o', p', h3, h4, h5, h6⟩ := C93_move oneDoc [] (f := [partA, partB]) (g := [partC]) (f' := [partA]) (g' := [partB, partC])
    (reorder_case.1) (.refl _) h1 h2 (by unfold NoneShared; decide +kernel)
  exact ⟨_, _, o', p', h1, h2, h3, h4, h5, h6, rfl⟩

/-- The first condition of `C93_join` is needed: both files are read, but when they are joined the second one is lost without an error. -/
theorem C93_needs_closed : fromMarkdown oneDoc [] c!"# REQ-a\nwhy\n```art\n" = .ok [(nm "REQ-a", ⟨none, none, some c!"why\n```art\n"⟩)] ∧
    fromMarkdown oneDoc [] c!"# REQ-b\nwhat\n" = .ok [(nm "REQ-b", ⟨none, none, some c!"what"⟩)] ∧
    fromMarkdown oneDoc [] c!"# REQ-a\nwhy\n```art\n# REQ-b\nwhat\n" = .ok [(nm "REQ-a", ⟨none, none, some c!"why\n```art\n"⟩)] := by
  refine ⟨?_, ?_, ?_⟩ <;> decide +kernel

/-- And so is the second: a title of the second file becomes text of the last artifact of the first. -/
theorem C93_needs_start : fromMarkdown oneDoc [] c!"# REQ-a\nwhy\n" = .ok [(nm "REQ-a", ⟨none, none, some c!"why"⟩)] ∧
    fromMarkdown oneDoc [] c!"The design\n# REQ-b\nwhat\n" = .ok [(nm "REQ-b", ⟨none, none, some c!"what"⟩)] ∧
    fromMarkdown oneDoc [] c!"# REQ-a\nwhy\nThe design\n# REQ-b\nwhat\n" =
      .ok [(nm "REQ-a", ⟨none, none, some c!"why\nThe design\n"⟩), (nm "REQ-b", ⟨none, none, some c!"what"⟩)] := by
  refine ⟨?_, ?_, ?_⟩ <;> decide +kernel

end Art.Merge
