import Verif.Props.Links

/-!
# Cases: links within an exported document
The theorems of `Props/Links.lean` applied to the document of the example of C55.
-/

namespace Art.Links
open Spec Spec.Export

/-- The piece of a match. -/
def pieceOf : ReplMatch → Piece
  | .sub m => .sub ((Caps.get m.2.2 1).getD [])
  | .ref m => .ref ((Caps.get m.2.2 1).getD []) (Caps.get m.2.2 2)
  | .dot m => .graph ((Caps.get m.2.2 1).getD []) ((Caps.get m.2.2 2).getD [])

/-- The pieces of a text, computed. -/
def cutNow : Nat → Bool → Str → List Piece
  | 0, _, _ => []
  | n + 1, bol, s => match replHere bol s with
    | some m => pieceOf m :: cutNow n false m.rest
    | none => match s with
      | [] => []
      | c :: t => .plain c :: cutNow n (c == '\n') t

theorem pieceOf_of {x : Piece} {m : ReplMatch} (h : Of x m) : pieceOf m = x := by
  cases x <;> cases m <;> simp only [Of] at h
  · rw [pieceOf, h]; rfl
  · rw [pieceOf, h.1, h.2]; rfl
  · obtain ⟨r, rfl⟩ := h
    rfl

theorem cutNow_cut : ∀ (n : Nat) (bol : Bool) (s : Str), s.length ≤ n → Cut bol s (cutNow n bol s) := by
  intro n
  induction n with
  | zero =>
    intro bol s hn
    cases s with
    | nil => exact .nil
    | cons c s => simp at hn
  | succ n ih =>
    intro bol s hn
    unfold cutNow
    cases hm : replHere bol s with
    | some m =>
      obtain ⟨x, ho, hf⟩ := replHere_some hm
      simp only [pieceOf_of ho]
      exact Spec.Export.Cut.first hf (ih false m.rest (by have := first_length hf; omega))
    | none =>
      cases s with
      | nil => exact .nil
      | cons c t => exact .plain (replHere_none.1 hm) (ih _ t (by simp at hn; omega))

/-- The texts of the project of the example. -/
theorem exDoc_arts : (exDoc (some c!"http://x/")).toOption.map (fun r => ((arts r.2).map fun a => (a.name.raw, a.text), (exportParts exF exX r.2).all Res.isOk)) =
    some ([(c!"REQ-a", c!"see [[SPC-A.X]] and [[SPC-gone]]"), (c!"SPC-a", c!"how [[.x]] [[.y]]\n```dot\n[[REQ-a]] -> [[.y]]\n```\n")], true) := by decide +kernel

/-- The first artifact is referred to in the graph of the second. -/
theorem exDoc_drawn : ∃ c p, ReadsProject urlLibs (fun _ => some (exUrlRaw (some c!"http://x/"))) exId 4 exDocFs c!"/p" (.ok (c, p)) ∧
    (∀ loc, Addressed p loc → ¬ NoAddress exF (exporter exX p) loc) ∧ ∃ a, Drawn p c!"REQ-a" none a := by
  have r := exDoc_reads (some c!"http://x/")
  have e := exDoc_arts
  generalize exDoc (some c!"http://x/") = o at e r
  cases o with
  | ok x =>
    simp only [Res.toOption, Option.map_some, Option.some.injEq, Prod.mk.injEq] at e
    refine ⟨x.1, x.2, r, (C55_document r exX).1.1 e.2, ?_⟩
    obtain ⟨e, -⟩ := e
    obtain ⟨a, b, ha⟩ : ∃ a b, arts x.2 = [a, b] := List.length_eq_two.1 (by simpa using congrArg List.length e)
    · rw [ha] at e
      simp only [List.map_cons, List.map_nil, List.cons.injEq, Prod.mk.injEq, and_true] at e
      obtain ⟨⟨ea, -⟩, -, eb⟩ := e
      have hn : Name.fromStr c!"REQ-a" = .ok a.name := by rw [← ea]; exact a.name.fromStr_raw_self
      refine ⟨a, b, by rw [ha]; simp, cutNow 60 true b.text, c!"```dot", c!"[[REQ-a]] -> [[.y]]\n", cutNow 60 true c!"[[REQ-a]] -> [[.y]]\n", a.name,
        cutNow_cut _ _ _ (by rw [eb]; decide), by rw [eb]; decide +kernel, cutNow_cut _ _ _ (by decide), by decide +kernel, hn, ?_, by rw [ha]; simp, rfl⟩
      rintro (h | ⟨_, _, _, _, h, _⟩)
      · exact h a (by rw [ha]; simp) rfl
      · cases h
  | err => cases e
  | panic => cases e

/-- `C78_graph`, `C78_contents` and `C78_no_rule`: the table of contents and the graph. -/
example : ∃ c p a, ReadsProject urlLibs (fun _ => some (exUrlRaw (some c!"http://x/"))) exId 4 exDocFs c!"/p" (.ok (c, p)) ∧
    ∃ t t', LinkIn (written (exportParts exF exX p)) t ∧ NodeIn (written (exportParts exF exX p)) t' ∧ upper t = upper a.name.raw ∧ upper t' = upper a.name.raw ∧
      ∀ slug, ¬ (Leads slug t a ∧ Leads slug t' a) := by
  obtain ⟨c, p, h, hu, a, hd⟩ := exDoc_drawn
  exact ⟨c, p, a, h, C78_no_rule h exX hu hd (.inl rfl)⟩

/-- `C78_text`: the reference in the text of the first artifact. -/
example : ∃ p a t, LinkIn (written (exportParts exF exX p)) t ∧ LeadsOnly p upper t a ∧ LeadsNowhere p lower t := by
  have r := exDoc_reads (some c!"http://x/")
  have e := exDoc_arts
  generalize exDoc (some c!"http://x/") = o at e r
  cases o with
  | ok x =>
    simp only [Res.toOption, Option.map_some, Option.some.injEq, Prod.mk.injEq] at e
    refine ⟨x.2, ?_⟩
    have hu := (C55_document r exX).1.1 e.2
    obtain ⟨e, -⟩ := e
    obtain ⟨a, b, ha⟩ : ∃ a b, arts x.2 = [a, b] := List.length_eq_two.1 (by simpa using congrArg List.length e)
    · rw [ha] at e
      simp only [List.map_cons, List.map_nil, List.cons.injEq, Prod.mk.injEq, and_true] at e
      obtain ⟨⟨-, ea⟩, eb, et⟩ := e
      obtain ⟨name, hn⟩ : ∃ name, Name.fromStr c!"SPC-A" = .ok name := ⟨Name.lit c!"SPC-A", by decide⟩
      have hk : key b.name = key name := by
        rw [Name.key_eq_iff, Name.keyStr_eq, Name.keyStr_eq, eb, Name.raw_of_fromStr hn]; decide
      refine ⟨b, C78_text r exX hu (n := c!"SPC-A") (sub := some c!".X") ⟨a, by rw [ha]; simp, cutNow 60 true a.text, name, cutNow_cut _ _ _ (by rw [ea]; decide),
        by rw [ea]; decide +kernel, hn, ?_, by rw [ha]; simp, hk⟩⟩
      rw [ha]
      rintro (h | ⟨d, hd, hkd, s, hs, hns⟩)
      · exact h b (by simp) hk
      · cases hs
        have hdb : d = b := by
          rcases (by simpa using hd : d = a ∨ d = b) with rfl | rfl
          · exact same_name r (a := b) (b := d) (by rw [ha]; simp) (by rw [ha]; simp) (by rw [← Name.keyStr_eq, ← Name.keyStr_eq, Name.key_eq_iff.1 hk, Name.key_eq_iff.1 hkd])
          · rfl
        subst hdb
        exact hns ⟨c!"how ", c!".x", c!" [[.y]]\n```dot\n[[REQ-a]] -> [[.y]]\n```\n", et, subLike_iff.2 ((Re.isFull_iff _ _).1 (by decide +kernel)), by decide⟩
  | err => cases e
  | panic => cases e

end Art.Links
