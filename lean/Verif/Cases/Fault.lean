import Verif.Props.Fault
import Verif.Cases.Merge

/-! # Property C94: concrete cases -/

namespace Art.Fault
open Spec Grammar Merge

/-- An artifact with attributes that cannot be read, and one with attributes given twice. -/
def faultA : Str := c!"# REQ-a\nnonsense\n###\nwhy\n"
def faultB : Str := c!"# REQ-b\ndone: yes\n###\n```art\ndone: yes\n```\n"

theorem faultA_read : fromMarkdown oneDoc [] faultA = .err .doc := by decide +kernel
theorem faultB_read : fromMarkdown oneDoc [] faultB = .err (.attrsTwice (nm "REQ-b")) := by decide +kernel

/-- The left side of `C94_reported` is met with an error in the second section, so the right side is. -/
theorem reported_case : ∃ ps, Cut oneDoc.fold [] (lines (partC ++ faultB)) ps ∧ ∃ (above : List Mark) (ss : Sections), ps = above ++ ss.marks ∧ Headless above ∧
    (∀ s ∈ ss, Headless s.2) ∧ FirstWrong oneDoc ss (some (.attrsTwice (nm "REQ-b"))) :=
  (C94_reported oneDoc [] _ (some (.attrsTwice (nm "REQ-b")))).1 (by unfold Failed; decide +kernel)

theorem starts_of {s l n w : Str} {rest : List Str} (e : lines s = l :: rest) (hl : l = '#' :: (w ++ (n ++ []))) (hw : AllBlank w) (hn : Re.Lang nameRe n) :
    Merge.Starts oneDoc.fold [] s := ⟨l, rest, n, e, head_of hl hw hn (by unfold AllBlank; decide)⟩

theorem faultB_starts : Merge.Starts oneDoc.fold [] faultB :=
  starts_of (l := c!"# REQ-b") (n := c!"REQ-b") (w := c!" ") (rest := [c!"done: yes", c!"###", c!"```art", c!"done: yes", c!"```"])
    (by decide) (by decide) (by unfold AllBlank; decide) (nm "REQ-b").lang

theorem faultA_closed : AllClosed oneDoc.fold [] (c!"# REQ-a\nnonsense\n###\nwhy" ++ ['\n']) := by
  refine ⟨[.head c!"REQ-a", .text c!"nonsense", .hashes, .text c!"why"], ?_, by intro o lost h; simp at h⟩
  have e : lines (c!"# REQ-a\nnonsense\n###\nwhy" ++ ['\n']) = [c!"# REQ-a", c!"nonsense", c!"###", c!"why"] := by decide
  rw [e]
  refine .head (head_of (w := c!" ") (w' := []) (by decide) (by unfold AllBlank; decide) (nm "REQ-a").lang (by unfold AllBlank; decide)) ?_
  refine .text (textLine_of (by decide +kernel)) (.hashes ?_ (endLine_iff.1 (by decide +kernel)) (.text (textLine_of (by decide +kernel)) .nil))
  rw [← nameLine_iff]; decide +kernel

/-- The hypotheses of `C94_first` are met: of two mistakes the first is reported. -/
theorem first_case : fromMarkdown oneDoc [] (faultA ++ faultB) = .err .doc :=
  C94_first (x := some .doc) oneDoc [] faultA_closed faultB_starts faultA_read

/-- The hypotheses of `C94_second` are met, and both of its alternatives happen: the mistake of the second text is reported when the names differ, and the name when
it is there before. -/
theorem second_case : (∃ o, fromMarkdown oneDoc [] partA = .ok o ∧ o.length = 1) ∧ AllClosed oneDoc.fold [] (c!"# REQ-a\ndone: yes\n###\nwhy" ++ ['\n']) ∧
    Merge.Starts oneDoc.fold [] faultB ∧ Failed (fromMarkdown oneDoc [] faultB) (some (.attrsTwice (nm "REQ-b"))) ∧
    fromMarkdown oneDoc [] (partA ++ faultB) = .err (.attrsTwice (nm "REQ-b")) ∧
    fromMarkdown oneDoc [] (partA ++ (c!"# req-A\nmore\n" ++ faultB)) = .err (.nameTwice (nm "req-A")) := by
  refine ⟨?_, partA_part.closed, faultB_starts, faultB_read, by decide +kernel, by decide +kernel⟩
  exact ⟨_, (by decide +kernel : fromMarkdown oneDoc [] partA = .ok [(nm "REQ-a", ⟨some c!"yes", none, some c!"why"⟩)]), rfl⟩

/-- Which of the mistakes of one section is reported: attributes given twice before attributes that cannot be read, and those before a name that has been there. -/
theorem within_case : fromMarkdown oneDoc [] c!"# REQ-a\n# REQ-a\nnonsense\n###\n```art\nnonsense\n```\n" = .err (.attrsTwice (nm "REQ-a")) ∧
    fromMarkdown oneDoc [] c!"# REQ-a\n# REQ-a\nnonsense\n###\n" = .err .doc ∧
    fromMarkdown oneDoc [] c!"# REQ-a\n# REQ-a\ndone: yes\n###\n" = .err (.nameTwice (nm "REQ-a")) := by
  refine ⟨?_, ?_, ?_⟩ <;> decide +kernel

end Art.Fault
