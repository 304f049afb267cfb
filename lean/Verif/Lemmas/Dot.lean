import Verif.Spec.Dot
import Verif.Lemmas.Name
import Verif.Lemmas.Whole
import Verif.Props.App
import Verif.Props.View

/-! Lemmas for C54. -/

namespace Art
open Spec Spec.Dot

theorem rows_ne (s : Str) : rows s ≠ [] := by
  cases s with
  | nil => simp [rows]
  | cons c s => unfold rows; split <;> simp

theorem rows_cons (c : Char) (s : Str) (h : c ≠ '\n') : rows (c :: s) = (c :: (rows s).headI) :: (rows s).tail := by
  simp [rows, h]

theorem rows_append (a b : Str) : rows (a ++ '\n' :: b) = rows a ++ rows b := by
  induction a with
  | nil => simp [rows]
  | cons c a ih =>
    by_cases h : c = '\n'
    · subst h; simp [rows, ih]
    · rw [List.cons_append, rows_cons _ _ h, rows_cons _ _ h, ih]
      obtain ⟨r, rs, e⟩ := List.exists_cons_of_ne_nil (rows_ne a)
      simp [e]

theorem rows_line {a : Str} (h : '\n' ∉ a) : rows a = [a] := by
  induction a with
  | nil => rfl
  | cons c a ih =>
    simp only [List.mem_cons, not_or] at h
    rw [rows_cons _ _ (fun e => h.1 e.symm), ih h.2]; rfl

theorem items_append (a b : Str) : items (a ++ '\n' :: b) = items a ++ items b := by
  simp [items, rows_append]

theorem items_line {a : Str} (h : '\n' ∉ a) : items a = (item a).toList := by
  rw [items, rows_line h]
  cases e : item a <;> simp [e]

theorem items_space (s : Str) : items (' ' :: s) = items s := by
  unfold items
  rw [rows_cons _ _ (by decide)]
  obtain ⟨r, rs, e⟩ := List.exists_cons_of_ne_nil (rows_ne s)
  rw [e]
  simp only [List.headI_cons, List.tail_cons, List.filterMap_cons]
  have : item (' ' :: r) = item r := by simp [item]
  rw [this]

/-- A text that says `l`, whatever comes after it. -/
def Chunk (t : Str) (l : List Item) : Prop := ∀ s, items (t ++ s) = l ++ items s

theorem Chunk.nil : Chunk [] [] := fun _ => rfl

theorem Chunk.append {t t' : Str} {l l' : List Item} (h : Chunk t l) (h' : Chunk t' l') : Chunk (t ++ t') (l ++ l') := by
  intro s
  rw [List.append_assoc, h, h', List.append_assoc]

theorem Chunk.flatten {ts : List Str} {ls : List (List Item)} (h : List.Forall₂ Chunk ts ls) : Chunk ts.flatten ls.flatten := by
  induction h with
  | nil => exact Chunk.nil
  | cons h _ ih => exact h.append ih

/-- A row, with the mark at its end. -/
theorem Chunk.row {t : Str} (h : '\n' ∉ t) : Chunk (t ++ ['\n']) (item t).toList := by
  intro s
  rw [List.append_assoc, List.singleton_append, items_append, items_line h]

theorem Chunk.spaces (n : Nat) : Chunk (List.replicate n ' ') [] := by
  induction n with
  | zero => exact Chunk.nil
  | succ n ih => intro s; rw [List.replicate_succ, List.cons_append, items_space, ih]

theorem item_spaces (n : Nat) (s : Str) : item (List.replicate n ' ' ++ s) = item s := by
  induction n with
  | zero => rfl
  | succ n ih =>
    rw [List.replicate_succ, List.cons_append, ← ih]
    simp [item]

theorem till_append {q : Char} {k r : Str} (h : q ∉ k) : till q (k ++ q :: r) = k := by
  unfold till
  rw [List.takeWhile_append_of_pos (by intro c hc; simp; rintro rfl; exact h hc)]
  simp

theorem from_append {q : Char} {k r : Str} (h : q ∉ k) : from' q (k ++ q :: r) = q :: r := by
  unfold from'
  rw [List.dropWhile_append_of_pos (by intro c hc; simp; rintro rfl; exact h hc)]
  simp

/-- Text that is safe between quotation marks. -/
def Plain (k : Str) : Prop := '"' ∉ k ∧ '\n' ∉ k ∧ '<' ∉ k

theorem Plain.append {a b : Str} (ha : Plain a) (hb : Plain b) : Plain (a ++ b) := by
  simp only [Plain, List.mem_append, not_or] at *
  tauto

theorem plain_nil : Plain [] := by simp [Plain]

theorem plain_of {k : Str} (h : ∀ c ∈ k, nameCharI c = true ∨ c = '-' ∨ c = '.') : Plain k := by
  refine ⟨fun hm => ?_, fun hm => ?_, fun hm => ?_⟩ <;> exact absurd (h _ hm) (by decide)

theorem dot_name_chars (n : Name) : ∀ c ∈ n.raw, nameCharI c = true ∨ c = '-' := by
  intro c hc
  obtain ⟨p, segs, h⟩ := n.shape
  rw [h.eq] at hc
  rcases List.mem_append.1 hc with hc | hc
  · left
    have ht := tyOf_iff.1 h.ty
    have : upperC c ∈ upper p := List.mem_map_of_mem hc
    rw [ht] at this
    rw [← nameCharI_upperC]
    revert this
    generalize upperC c = d
    cases n.ty <;> simp only [Ty.asStr, List.mem_cons, List.not_mem_nil, or_false] <;> rintro (rfl | rfl | rfl) <;> decide
  · have hs := h.seg
    revert hc hs
    generalize segs = l
    intro hc hs
    induction l with
    | nil => simp at hc
    | cons g l ih =>
      simp only [dashed_cons, List.mem_cons, List.mem_append] at hc
      rcases hc with rfl | hc | hc
      · exact Or.inr rfl
      · exact Or.inl ((hs g (by simp)).2 c hc)
      · exact ih hc (fun g hg => hs g (by simp [hg]))

theorem plain_raw (n : Name) : Plain n.raw := plain_of fun c hc => (dot_name_chars n c hc).imp_right Or.inl

theorem plain_key (n : Name) : Plain n.keyStr := by
  rw [n.keyStr_eq]
  refine plain_of fun c hc => ?_
  obtain ⟨d, hd, rfl⟩ := List.mem_map.1 hc
  rcases dot_name_chars n d hd with h | rfl
  · left; rw [nameCharI_upperC]; exact h
  · right; left; decide

theorem item_of {n : Nat} {c : Char} {r : Str} (h : c ≠ ' ') : item (List.replicate n ' ' ++ c :: r) = itemOf (c :: r) := by
  rw [item_spaces]; simp [item, h]

theorem item_node {n : Nat} {k : Str} (h : '"' ∉ k) : item (List.replicate n ' ' ++ '"' :: (k ++ c!"\" [")) = some (.node k) := by
  rw [item_of (by decide)]
  simp only [itemOf, if_pos, quoted]
  rw [from_append h, if_pos rfl, till_append h]

theorem item_edge {n : Nat} {k k' : Str} (h : '"' ∉ k) (h' : '"' ∉ k') :
    item (List.replicate n ' ' ++ '"' :: (k ++ c!"\" -> \"" ++ k' ++ c!"\"")) = some (.edge k k') := by
  rw [item_of (by decide)]
  simp only [itemOf, if_pos, quoted, List.append_assoc, List.cons_append, List.nil_append]
  rw [from_append h, till_append h, if_neg (by simp), if_pos]
  · simp only [List.drop_succ_cons, List.drop_zero]; rw [till_append h']
  · refine ⟨rfl, ?_⟩
    simp only [List.drop_succ_cons, List.drop_zero]; rw [from_append h']

theorem item_href {n : Nat} {k : Str} (h : '"' ∉ k) : item (List.replicate n ' ' ++ 'h' :: (c!"ref=\"#" ++ k ++ c!"\";")) = some (.link k) := by
  rw [item_of (by decide)]
  simp only [itemOf, attr, List.cons_append, List.nil_append, List.take_succ_cons, List.take_zero, List.drop_succ_cons, List.drop_zero]
  rw [till_append h]
  simp

theorem item_label {n : Nat} {k : Str} (h : '"' ∉ k) : item (List.replicate n ' ' ++ 'l' :: (c!"abel=\"" ++ k ++ c!"\";")) = some (.label k) := by
  rw [item_of (by decide)]
  simp only [itemOf, attr, List.cons_append, List.nil_append, List.take_succ_cons, List.take_zero, List.drop_succ_cons, List.drop_zero]
  rw [till_append h]
  simp

theorem item_html {n : Nat} {k : Str} (h : '<' ∉ k) : item (List.replicate n ' ' ++ 'l' :: (c!"abel=<<b>" ++ k ++ c!"</b>>;")) = some (.label k) := by
  rw [item_of (by decide)]
  simp only [itemOf, attr, List.cons_append, List.nil_append, List.take_succ_cons, List.take_zero, List.drop_succ_cons, List.drop_zero]
  rw [till_append h]
  simp

theorem item_color {n : Nat} {k : Str} (h : '"' ∉ k) : item (List.replicate n ' ' ++ 'f' :: (c!"ontcolor=\"" ++ k ++ c!"\";")) = some (.color k) := by
  rw [item_of (by decide)]
  simp only [itemOf, attr, List.cons_append, List.nil_append, List.take_succ_cons, List.take_zero, List.drop_succ_cons, List.drop_zero]
  rw [till_append h]
  simp

/-- A row between two others. -/
theorem Chunk.of_item {t : Str} {o : Option Item} (h : item t = o) (hn : '\n' ∉ t) : Chunk (t ++ ['\n']) o.toList := h ▸ Chunk.row hn

theorem chunk_edge (a b : Name) : Chunk (connectDot a b) [.edge a.keyStr b.keyStr] := by
  have ha := plain_key a
  have hb := plain_key b
  have := Chunk.of_item (item_edge (n := 8) ha.1 hb.1) (by simp [ha.2.1, hb.2.1])
  have e : connectDot a b = List.replicate 8 ' ' ++ '"' :: (a.keyStr ++ c!"\" -> \"" ++ b.keyStr ++ c!"\"") ++ ['\n'] := by
    simp [connectDot, List.replicate]
  rw [e]; exact this

theorem chunk_none {t : Str} (h : item t = none) (hn : '\n' ∉ t) : Chunk (t ++ ['\n']) [] := Chunk.of_item h hn

/-- The text of an optional subname. -/
def subRaw (sub : Option SubName) : Str := (sub.map SubName.raw).getD []

/-- The key of an optional subname. -/
def subKey (sub : Option SubName) : Str := (sub.map SubName.keyStr).getD []

set_option maxRecDepth 4000 in
theorem chunk_dne (n : Name) (sub : Option SubName) (hs : Plain (subRaw sub)) (hk : Plain (subKey sub)) :
    Chunk (dneNameDot n sub) [.node (n.keyStr ++ subKey sub), .label (n.raw ++ subRaw sub), .missing] := by
  have pk := (plain_key n).append hk
  have pr := (plain_raw n).append hs
  have h1 := Chunk.of_item (item_node (n := 12) pk.1) (by simp only [List.mem_append, List.mem_replicate, List.mem_cons]; simp [(plain_key n).2.1, hk.2.1])
  have h2 := Chunk.of_item (item_html (n := 16) pr.2.2) (by simp only [List.mem_append, List.mem_replicate, List.mem_cons]; simp [(plain_raw n).2.1, hs.2.1])
  have h3 : Chunk (c!"                tooltip=\"Name not found\";" ++ ['\n']) [.missing] := Chunk.of_item (o := some .missing) (by decide) (by decide)
  have h := ((((((((chunk_none (t := []) rfl (by simp)).append (chunk_none (t := c!"        {") (by decide) (by decide))).append h1).append h2).append
    (chunk_none (t := c!"                fontcolor=black; style=filled; fillcolor=pink;") (by decide) (by decide))).append
    (chunk_none (t := c!"                fontsize=12; margin=0.01; shape=invhouse;") (by decide) (by decide))).append h3).append
    (chunk_none (t := c!"            ]") (by decide) (by decide))).append
    ((chunk_none (t := c!"        }") (by decide) (by decide)).append (Chunk.spaces 8))
  intro s
  have h' := h s
  simp only [Option.toList, List.nil_append, List.append_assoc, List.cons_append, List.append_nil] at h'
  simp only [dneNameDot, subRaw, subKey, List.replicate, List.append_assoc, List.cons_append, List.nil_append] at h' ⊢
  exact h'

set_option maxRecDepth 4000 in
theorem chunk_found (n : Name) (sub : Option SubName) (hs : Plain (subRaw sub)) (hk : Plain (subKey sub)) (focus : Bool) {color : Str} (hc : Plain color)
    (hl : Plain (lower n.keyStr)) :
    Chunk (foundNameDot n sub focus color) ([.node (n.keyStr ++ subKey sub), .label (n.raw ++ subRaw sub), .link (lower n.keyStr), .color color] ++
      if focus then [.strong] else []) := by
  have pk := (plain_key n).append hk
  have pr := (plain_raw n).append hs
  have h1 := Chunk.of_item (item_node (n := 12) pk.1) (by simp only [List.mem_append, List.mem_replicate, List.mem_cons]; simp [(plain_key n).2.1, hk.2.1])
  have h2 := Chunk.of_item (item_label (n := 16) pr.1) (by simp only [List.mem_append, List.mem_replicate, List.mem_cons]; simp [(plain_raw n).2.1, hs.2.1])
  have h3 := Chunk.of_item (item_href (n := 16) hl.1) (by simp only [List.mem_append, List.mem_replicate, List.mem_cons]; simp [hl.2.1])
  have h4 := Chunk.of_item (item_color (n := 16) hc.1) (by simp only [List.mem_append, List.mem_replicate, List.mem_cons]; simp [hc.2.1])
  have h5 : Chunk (c!"                fontsize=" ++ focusSize focus ++ c!"; margin=0.01;" ++ ['\n']) [] := by
    cases focus <;> exact chunk_none (by decide) (by decide)
  have h6 : Chunk (c!"                " ++ focusAttrs focus ++ ['\n']) (if focus then [.strong] else []) := by
    cases focus
    · exact chunk_none (by decide) (by decide)
    · exact Chunk.of_item (o := some .strong) (by decide) (by decide)
  have h := (((((((((chunk_none (t := []) rfl (by simp)).append (chunk_none (t := c!"        {") (by decide) (by decide))).append h1).append h2).append h3).append h4).append h5).append
    (chunk_none (t := c!"                shape=invhouse;") (by decide) (by decide))).append h6).append
    ((chunk_none (t := c!"            ]") (by decide) (by decide)).append
    ((chunk_none (t := c!"        }") (by decide) (by decide)).append (Chunk.spaces 8)))
  intro s
  have h' := h s
  simp only [Option.toList, List.nil_append, List.append_assoc, List.cons_append, List.append_nil] at h'
  simp only [foundNameDot, subRaw, subKey, List.replicate, List.append_assoc, List.cons_append, List.nil_append] at h' ⊢
  exact h'

set_option maxRecDepth 4000 in
theorem items_wrap {t : Str} {l : List Item} (h : Chunk t l) (lr : Bool) : items (wrapDot t lr) = l := by
  unfold wrapDot
  have hp : Chunk (c!"\n        digraph G {\n        graph [\n            margin=0.001; label=\"\";\n            " ++ (if lr then c!"randir=LR;" else []) ++
    c!"\n        ];\n\n        ////////////////////\n        // DOT INSERTED HERE\n\n        ") [] := by
    have := ((((((((((chunk_none (t := []) rfl (by simp)).append (chunk_none (t := c!"        digraph G {") (by decide) (by decide))).append
      (chunk_none (t := c!"        graph [") (by decide) (by decide))).append (chunk_none (t := c!"            margin=0.001; label=\"\";") (by decide) (by decide))).append
      (chunk_none (t := c!"            " ++ (if lr then c!"randir=LR;" else [])) (by cases lr <;> decide) (by cases lr <;> decide))).append
      (chunk_none (t := c!"        ];") (by decide) (by decide))).append (chunk_none (t := []) rfl (by simp))).append
      (chunk_none (t := c!"        ////////////////////") (by decide) (by decide))).append
      (chunk_none (t := c!"        // DOT INSERTED HERE") (by decide) (by decide))).append (chunk_none (t := []) rfl (by simp))).append (Chunk.spaces 8)
    intro s
    have h' := this s
    simp only [List.replicate, List.nil_append, List.append_assoc, List.cons_append] at h' ⊢
    exact h'
  rw [(hp.append h) _]
  have : items c!"\n\n        ///////////////////\n        // END INSERTED DOT\n\n        }\n        " = [] := by decide +kernel
  rw [this]; simp

/-- What is known about the links in a project. -/
structure Linked (p : Project) : Prop where
  nodup : IMap.Nodup p.artifacts
  names : ∀ x ∈ p.artifacts, x.2.name = x.1
  partof : ∀ x ∈ p.artifacts, ISet.Nodup x.2.partof
  partsNodup : ∀ x ∈ p.artifacts, ISet.Nodup x.2.parts
  parts : ∀ x ∈ p.artifacts, ∀ k, (∃ q ∈ x.2.parts, q.keyStr = k) ↔
    ∃ y ∈ p.artifacts, y.2.name.keyStr = k ∧ ∃ q ∈ y.2.partof, q.keyStr = x.2.name.keyStr

theorem linked_loads {hash : ArtifactIm → HashIm} {ims : IMap Name ArtifactIm} {code : IMap Name ImplCode} {defined : IMap Name FilePath} {arts : IMap Name Artifact}
    (inp : LoadInput ims defined) (h : Loads hash ims code defined arts) {p : Project} (hp : p.artifacts = arts) : Linked p := by
  subst hp
  have sp := h.spec inp
  have sp' : ∀ x ∈ p.artifacts, ∃ im, ArtSpec hash ims code (p.artifacts.map Prod.snd) x.2 im := fun x hx => sp.2.2.2.2.2.1 _ (List.mem_map.2 ⟨x, hx, rfl⟩)
  refine ⟨IMap.nodup_of_fst inp.dnodup sp.1, sp.2.1, fun x hx => ?_, fun x hx => ?_, fun x hx k => ?_⟩ <;> obtain ⟨im, as⟩ := sp' x hx
  · exact as.pnodup
  · exact as.partsNodup
  · constructor
    · rintro ⟨q, hq, rfl⟩
      obtain ⟨b, hb, e, q', hq', e'⟩ := (as.parts q).1 ⟨q, hq, rfl⟩
      obtain ⟨y, hy, rfl⟩ := List.mem_map.1 hb
      exact ⟨y, hy, Name.key_eq_iff.1 e, q', hq', Name.key_eq_iff.1 e'⟩
    · rintro ⟨y, hy, rfl, q', hq', e'⟩
      obtain ⟨q, hq, e⟩ := (as.parts y.2.name).2 ⟨y.2, List.mem_map.2 ⟨y, hy, rfl⟩, rfl, q', hq', Name.key_eq_iff.2 e'⟩
      exact ⟨q, hq, Name.key_eq_iff.1 e⟩

theorem linked_sort {p : Project} (h : Linked p) : Linked p.sort := by
  have hm : ∀ x, x ∈ p.sort.artifacts ↔ ∃ y ∈ p.artifacts, x = (y.1, y.2.sort) := by
    intro x
    constructor
    · intro hx
      obtain ⟨y, hy, rfl⟩ := List.mem_map.1 hx
      exact ⟨y, (mem_sortOn _).1 hy, rfl⟩
    · rintro ⟨y, hy, rfl⟩
      exact List.mem_map.2 ⟨y, (mem_sortOn _).2 hy, rfl⟩
  have hs : ∀ (l : ISet Name) (q : Name), q ∈ sortNames l ↔ q ∈ l := fun l q => (sortNames_perm l).mem_iff
  refine ⟨?_, ?_, ?_, ?_, ?_⟩
  · have := (IMap.nodup_perm (sortOn_perm (fun x : Name × Artifact => x.1.keyStr) p.artifacts)).2 h.nodup
    exact IMap.nodup_of_fst this (by show List.map _ (List.map _ _) = _; rw [List.map_map]; rfl)
  · intro x hx
    obtain ⟨y, hy, rfl⟩ := (hm x).1 hx
    exact h.names y hy
  · intro x hx
    obtain ⟨y, hy, rfl⟩ := (hm x).1 hx
    exact nodup_sortNames (h.partof y hy)
  · intro x hx
    obtain ⟨y, hy, rfl⟩ := (hm x).1 hx
    exact nodup_sortNames (h.partsNodup y hy)
  · intro x hx k
    obtain ⟨y, hy, rfl⟩ := (hm x).1 hx
    show (∃ q ∈ sortNames y.2.parts, q.keyStr = k) ↔ ∃ z ∈ p.sort.artifacts, z.2.name.keyStr = k ∧ ∃ q ∈ z.2.partof, q.keyStr = y.2.name.keyStr
    simp only [hs, h.parts y hy k]
    constructor
    · rintro ⟨z, hz, e, q, hq, e'⟩
      exact ⟨(z.1, z.2.sort), (hm _).2 ⟨z, hz, rfl⟩, e, q, (hs _ _).2 hq, e'⟩
    · rintro ⟨z, hz, e, q, hq, e'⟩
      obtain ⟨w, hw, rfl⟩ := (hm z).1 hz
      exact ⟨w, hw, e, q, (hs _ _).1 hq, e'⟩

theorem read_linked {L : Libs} {readToml : Str → Option SettingsRaw} {hash : ArtifactIm → HashIm} {ncpu : Nat} {fs : FS} {base : FilePath} {c : Categorized} {p : Project}
    (h : ReadsProject L readToml hash ncpu fs base (.ok (c, p))) : Linked p := by
  obtain ⟨raw, path, s, r, arts, ls, _, _, ha, he, hl, _, rfl, _⟩ := reads_parts h
  exact linked_sort (linked_loads (joinArtifacts_input _) hl rfl)

theorem lowerC_upperC (c : Char) : lowerC (upperC c) = lowerC c := by
  rw [char_eq, lowerC_toNat, lowerC_toNat, upperC_toNat]
  split_ifs <;> omega

theorem lower_upper (s : Str) : lower (upper s) = lower s := by
  simp [lower, upper, lowerC_upperC]

theorem lowerC_nameCharI {c : Char} (h : nameCharI c = true ∨ c = '-' ∨ c = '.') : nameCharI (lowerC c) = true ∨ lowerC c = '-' ∨ lowerC c = '.' := by
  rcases h with h | rfl | rfl
  · left
    rw [nameCharI_toNat] at h ⊢
    rw [lowerC_toNat]
    split_ifs <;> omega
  · right; left; decide
  · right; right; decide

theorem plain_lower (n : Name) : Plain (lower n.keyStr) := by
  rw [n.keyStr_eq, lower_upper]
  refine plain_of fun c hc => ?_
  obtain ⟨d, hd, rfl⟩ := List.mem_map.1 hc
  exact lowerC_nameCharI ((dot_name_chars n d hd).imp_right Or.inl)

end Art
