import Verif.Lemmas.Page

/-! Helper lemmas: the fields, links and buttons of a picture. -/

namespace Art
namespace Web

variable {X : Type} {K : Painter X} {nd : Char → Bool} {lim : Nat}

theorem fieldsOf_append (a b : List Elem) : fieldsOf (a ++ b) = fieldsOf a ++ fieldsOf b := List.filterMap_append
theorem linksOf_append (a b : List Elem) : linksOf (a ++ b) = linksOf a ++ linksOf b := List.filterMap_append
theorem fieldsOf_flatMap {α : Type} (f : α → List Elem) (l : List α) : fieldsOf (l.flatMap f) = l.flatMap (fun x => fieldsOf (f x)) := by
  induction l with
  | nil => rfl
  | cons a l ih => rw [List.flatMap_cons, List.flatMap_cons, fieldsOf_append, ih]
theorem linksOf_flatMap {α : Type} (f : α → List Elem) (l : List α) : linksOf (l.flatMap f) = l.flatMap (fun x => linksOf (f x)) := by
  induction l with
  | nil => rfl
  | cons a l ih => rw [List.flatMap_cons, List.flatMap_cons, linksOf_append, ih]

theorem errorLog_fields (y : Nat × Log) : fieldsOf (K.errorLog y) = [] := by
  unfold Painter.errorLog fieldsOf
  split <;> rfl
theorem errorLog_links (y : Nat × Log) : linksOf (K.errorLog y) = [] := by
  unfold Painter.errorLog linksOf
  split <;> rfl

theorem errorPane_fields (u : UI) : fieldsOf (K.errorPane u) = [] := by
  rw [errorPane_eq]
  split
  · rfl
  · show fieldsOf (u.errors.flatMap K.errorLog) = []
    rw [fieldsOf_flatMap]; simp [errorLog_fields]
theorem errorPane_links (u : UI) : linksOf (K.errorPane u) = [] := by
  rw [errorPane_eq]
  split
  · rfl
  · show linksOf (u.errors.flatMap K.errorLog) = []
    rw [linksOf_flatMap]; simp [errorLog_links]

theorem map_link_fields {α : Type} (f : α → Elem) (hf : ∀ a, ∃ h t c, f a = .link h t c) (l : List α) : fieldsOf (l.map f) = [] := by
  induction l with
  | nil => rfl
  | cons a l ih =>
    obtain ⟨h, t, c, e⟩ := hf a
    rw [List.map_cons, e]; exact ih

theorem editingPane_fields (u : UI) (n : Nav) : fieldsOf (K.editingPane u n) = if n.editingOn then [(c!"editing-search", n.editing)] else [] := by
  unfold Painter.editingPane
  split
  · show (_, _) :: fieldsOf _ = _
    congr 1
    split
    · exact map_link_fields _ (fun a => ⟨_, _, _, rfl⟩) _
    · rfl
  · rfl
theorem searchPane_fields (u : UI) (x : X) (n : Nav) : fieldsOf (K.searchPane u x n) = if n.searchOn then [(c!"search-input", n.search)] else [] := by
  unfold Painter.searchPane
  split
  · show (_, _) :: fieldsOf _ = _
    congr 1
    split
    · exact map_link_fields _ (fun a => ⟨_, _, _, rfl⟩) _
    · rfl
  · rfl

theorem map_link_links {α : Type} (h t c : α → Str) (l : List α) :
    linksOf (l.map (fun y => Elem.link (h y) (t y) (c y))) = l.map (fun y => (h y, t y, c y)) := by
  induction l with
  | nil => rfl
  | cons a l ih => exact congrArg (List.cons _) ih

theorem linksOf_input (i v : Str) (f : Str → Act) (l : List Elem) : linksOf (.input i v f :: l) = linksOf l := rfl

theorem editingPane_links (u : UI) (n : Nav) : linksOf (K.editingPane u n) = (listed n.editingOn (K.compile n.editing) (fun y => y.2.name) u.editing).map
    (fun y => (hashEdit y.1, if y.2.name = [] then c!"NOT YET NAMED" else y.2.name, [])) := by
  unfold Painter.editingPane listed
  split
  · rw [linksOf_input]
    cases K.compile n.editing with
    | ok re => exact map_link_links _ _ _ _
    | error e => rfl
  · rfl
theorem searchPane_links (u : UI) (x : X) (n : Nav) : linksOf (K.searchPane u x n) = (listed n.searchOn (K.compile n.search) (fun y => y.1.raw) u.shared).map
    (fun y => (y.1.raw, y.1.raw, K.color x u.shared y.1)) := by
  unfold Painter.searchPane listed
  split
  · rw [linksOf_input]
    cases K.compile n.search with
    | ok re =>
      simp only
      rw [List.filter_map, List.map_map]
      exact map_link_links _ _ _ _
    | error e => rfl
  · rfl

theorem form_fields (id : Nat) (e : Edit) (t : Str) : fieldsOf (formElems id e t) = formFields e := by
  unfold formElems formFields
  rw [fieldsOf_append, fieldsOf_append, fieldsOf_flatMap]
  have : (e.partof.zipIdx.flatMap fun x => fieldsOf (partofRow id x)) = e.partof.zipIdx.map (fun x => (c!"edit-partof-" ++ showNat x.2, x.1)) := by
    generalize e.partof.zipIdx = l
    induction l with
    | nil => rfl
    | cons a l ih => rw [List.flatMap_cons, ih]; rfl
  rw [this]
  rfl

theorem form_links (id : Nat) (e : Edit) (t : Str) : linksOf (formElems id e t) = [] := by
  unfold formElems
  rw [linksOf_append, linksOf_append, linksOf_flatMap]
  have : (e.partof.zipIdx.flatMap fun x => linksOf (partofRow id x)) = [] := by
    simp [partofRow, linksOf]
  rw [this]
  rfl

/-- The part of the picture that depends on the view. -/
theorem body_show {u : UI} {x : X} {n : Nav} {b : List Elem} (hb : K.body u x n = some b) :
    fieldsOf b = ((editOf u.view u.editing).map formFields).getD [] ∧ linksOf b = [] := by
  unfold Painter.body at hb
  unfold editOf
  split at hb
  · rename_i hv
    rw [hv]
    unfold Painter.graphPage at hb
    split at hb
    · cases hb; exact ⟨rfl, rfl⟩
    · obtain ⟨s, -, rfl⟩ := Option.map_eq_some_iff.1 hb; exact ⟨rfl, rfl⟩
  · rename_i m hv
    rw [hv]
    unfold Painter.artifactPage at hb
    split at hb
    · unfold Painter.existing at hb
      simp only [Option.bind_eq_bind, Option.bind_eq_some_iff, Option.pure_def, Option.some.injEq] at hb
      obtain ⟨g, -, t, -, rfl⟩ := hb
      exact ⟨rfl, rfl⟩
    · cases hb; exact ⟨rfl, rfl⟩
  · rename_i id hv
    rw [hv]
    unfold Painter.editPage at hb
    split at hb
    · rename_i h; cases hb; simp only [h]; exact ⟨rfl, rfl⟩
    · rename_i h
      obtain ⟨t, -, rfl⟩ := Option.map_eq_some_iff.1 hb
      simp only [h]
      exact ⟨form_fields _ _ _, form_links _ _ _⟩
  · rename_i hv
    rw [hv]
    cases hb; exact ⟨rfl, rfl⟩

theorem view_fields {u : UI} {x : X} {n : Nav} {l : List Elem} (h : K.view u x n = some l) : fieldsOf l = fieldsWanted u n := by
  obtain ⟨b, hb, rfl⟩ := view_some h
  simp only [fieldsOf_append, errorPane_fields, editingPane_fields, searchPane_fields, (body_show hb).1]
  unfold fieldsWanted navExtra
  have : fieldsOf navBar = [] := rfl
  rw [this]
  cases u.view <;> simp [fieldsOf]

theorem view_links {u : UI} {x : X} {n : Nav} {l : List Elem} (h : K.view u x n = some l) : linksOf l = linksWanted K u x n := by
  obtain ⟨b, hb, rfl⟩ := view_some h
  simp only [linksOf_append, errorPane_links, editingPane_links, searchPane_links, (body_show hb).2]
  unfold linksWanted navExtra
  have : linksOf navBar = [] := rfl
  rw [this]
  cases u.view <;> simp [linksOf]

theorem fieldsWanted_congr {u v : UI} (h : Alike u v) (n : Nav) : fieldsWanted u n = fieldsWanted v n := by
  unfold fieldsWanted; rw [h.view, h.editing]

theorem linksWanted_congr {u v : UI} (h : Alike u v) (x : X) (n : Nav) : linksWanted K u x n = linksWanted K v x n := by
  unfold linksWanted; rw [h.shared, h.editing]

/-! ## fields -/

/-- The fields of a picture and what they do. -/
inductive IsField (u : UI) (n : Nav) : Str → (Str → Act) → Prop
  | graph : u.view = .graph → IsField u n c!"graph-nav-filter" (fun v => .nav (.setGraph v))
  | editing : IsField u n c!"editing-search" (fun v => .nav (.setEditing v))
  | search : IsField u n c!"search-input" (fun v => .nav (.setSearch v))
  | name (id e) : u.view = .edit id → u.editing.get? id = some e → IsField u n c!"edit-name" (fun v => .msg (.editArtifact id (.name v)))
  | file (id e) : u.view = .edit id → u.editing.get? id = some e → IsField u n c!"edit-file" (fun v => .msg (.editArtifact id (.file v)))
  | done (id e) : u.view = .edit id → u.editing.get? id = some e → IsField u n c!"edit-done" (fun v => .msg (.editArtifact id (.done v)))
  | text (id e) : u.view = .edit id → u.editing.get? id = some e → IsField u n c!"edit-text" (fun v => .msg (.editArtifact id (.text v)))
  | partof (id e) (k : Nat) : u.view = .edit id → u.editing.get? id = some e → k < e.partof.length →
      IsField u n (c!"edit-partof-" ++ showNat k) (fun v => .msg (.editArtifact id (.partofUpdate k v)))

theorem IsField.alike {u v : UI} {n : Nav} {i : Str} {f : Str → Act} (h : Alike u v) (ha : IsField u n i f) : IsField v n i f := by
  cases ha with
  | graph h1 => exact .graph (h.view ▸ h1)
  | editing => exact .editing
  | search => exact .search
  | name id e h1 h2 => exact .name id e (h.view ▸ h1) (h.editing ▸ h2)
  | file id e h1 h2 => exact .file id e (h.view ▸ h1) (h.editing ▸ h2)
  | done id e h1 h2 => exact .done id e (h.view ▸ h1) (h.editing ▸ h2)
  | text id e h1 h2 => exact .text id e (h.view ▸ h1) (h.editing ▸ h2)
  | partof id e k h1 h2 h3 => exact .partof id e k (h.view ▸ h1) (h.editing ▸ h2) h3

theorem view_isField {u : UI} {x : X} {n : Nav} {l : List Elem} (h : K.view u x n = some l) {i v : Str} {f : Str → Act}
    (he : Elem.input i v f ∈ l) : IsField u n i f := by
  obtain ⟨b, hb, rfl⟩ := view_some h
  simp only [List.mem_append] at he
  rcases he with ((((he | he) | he) | he) | he) | he
  · simp [navBar] at he
  · unfold navExtra at he
    split at he
    · rename_i hv
      rw [List.mem_singleton] at he; cases he; exact .graph hv
    · simp at he
  · rw [errorPane_eq] at he
    split at he
    · simp at he
    · rcases List.mem_cons.1 he with he | he
      · cases he
      · obtain ⟨y, hy, he⟩ := List.mem_flatMap.1 he
        unfold Painter.errorLog at he
        simp only [List.mem_cons, List.not_mem_nil, or_false] at he
        rcases he with he | he
        · cases he
        · split at he <;> cases he
  · unfold Painter.editingPane at he
    split at he
    · rcases List.mem_cons.1 he with he | he
      · cases he; exact .editing
      · split at he
        · obtain ⟨y, hy, he⟩ := List.mem_map.1 he
          cases he
        · simp [badPattern] at he
    · simp at he
  · unfold Painter.searchPane at he
    split at he
    · rcases List.mem_cons.1 he with he | he
      · cases he; exact .search
      · split at he
        · obtain ⟨y, hy, he⟩ := List.mem_map.1 he
          cases he
        · simp [badPattern] at he
    · simp at he
  · unfold Painter.body at hb
    split at hb
    · unfold Painter.graphPage at hb
      split at hb
      · cases hb; simp [badPattern] at he
      · obtain ⟨s, -, rfl⟩ := Option.map_eq_some_iff.1 hb; simp at he
    · unfold Painter.artifactPage at hb
      split at hb
      · unfold Painter.existing at hb
        simp only [Option.bind_eq_bind, Option.bind_eq_some_iff, Option.pure_def, Option.some.injEq] at hb
        obtain ⟨g, -, t, -, rfl⟩ := hb
        simp at he
      · cases hb; simp at he
    · rename_i id hv
      unfold Painter.editPage at hb
      split at hb
      · cases hb; simp at he
      · rename_i ed hed
        obtain ⟨t, -, rfl⟩ := Option.map_eq_some_iff.1 hb
        unfold formElems at he
        simp only [List.mem_append, List.mem_cons, List.mem_flatMap, List.not_mem_nil, or_false] at he
        rcases he with ((he | he | he | he) | ⟨y, hy, he⟩) | he | he | he | he
        · cases he
        · cases he
        · cases he; exact .name id ed hv hed
        · cases he
        · unfold partofRow at he
          simp only [List.mem_cons, List.not_mem_nil, or_false] at he
          rcases he with he | he
          · cases he
          · cases he
            refine .partof id ed y.2 hv hed ?_
            obtain ⟨h1, h2, -⟩ := List.mem_zipIdx (x := y.1) (i := y.2) hy
            omega
        · cases he; exact .file id ed hv hed
        · cases he; exact .done id ed hv hed
        · cases he; exact .text id ed hv hed
        · cases he
    · cases hb; simp at he

theorem showNat_inj {i j : Nat} (h : showNat i = showNat j) : i = j := by
  have a := decVal_showNat i
  rw [h, decVal_showNat j] at a
  exact a.symm

theorem rows_set (l : List Str) (k : Nat) (v : Str) :
    (l.set k v).zipIdx.map (fun x => (c!"edit-partof-" ++ showNat x.2, x.1)) =
      typedInto (c!"edit-partof-" ++ showNat k) v (l.zipIdx.map (fun x => (c!"edit-partof-" ++ showNat x.2, x.1))) := by
  unfold typedInto
  apply List.ext_getElem
  · simp
  · intro i h1 h2
    simp only [List.getElem_map, List.getElem_zipIdx, List.getElem_set, Nat.zero_add, List.append_cancel_left_eq]
    by_cases e : k = i
    · subst e; simp
    · rw [if_neg e, if_neg (fun h => e (showNat_inj h).symm)]

theorem typedInto_append (i v : Str) (a b : List (Str × Str)) : typedInto i v (a ++ b) = typedInto i v a ++ typedInto i v b := List.map_append

theorem typedInto_cons (i v : Str) (y : Str × Str) (b : List (Str × Str)) :
    typedInto i v (y :: b) = (if y.1 = i then (y.1, v) else y) :: typedInto i v b := rfl

theorem typedInto_other {i v : Str} {a : List (Str × Str)} (h : ∀ y ∈ a, y.1 ≠ i) : typedInto i v a = a := by
  unfold typedInto
  conv_rhs => rw [← List.map_id a]
  exact List.map_congr_left (fun y hy => by rw [if_neg (h y hy)]; rfl)

theorem form_ids {e : Edit} {y : Str × Str} (h : y ∈ formFields e) : ∃ t, y.1 = c!"edit-" ++ t := by
  unfold formFields at h
  simp only [List.mem_append, List.mem_cons, List.mem_map, List.not_mem_nil, or_false] at h
  rcases h with (rfl | ⟨z, _, rfl⟩) | rfl | rfl | rfl
  · exact ⟨c!"name", rfl⟩
  · exact ⟨c!"partof-" ++ showNat z.2, rfl⟩
  · exact ⟨c!"file", rfl⟩
  · exact ⟨c!"done", rfl⟩
  · exact ⟨c!"text", rfl⟩

theorem rows_ids {l : List Str} {y : Str × Str} (h : y ∈ l.zipIdx.map (fun x => (c!"edit-partof-" ++ showNat x.2, x.1))) :
    ∃ t, y.1 = c!"edit-partof-" ++ t := by
  obtain ⟨z, _, rfl⟩ := List.mem_map.1 h
  exact ⟨_, rfl⟩

theorem form_set {e e' : Edit} {f : Field} {i v : Str} (h : e.set f = some e')
    (hf : (i = c!"edit-name" ∧ f = .name v) ∨ (i = c!"edit-file" ∧ f = .file v) ∨ (i = c!"edit-done" ∧ f = .done v) ∨
      (i = c!"edit-text" ∧ f = .text v) ∨ ∃ k, i = c!"edit-partof-" ++ showNat k ∧ f = .partofUpdate k v) :
    formFields e' = typedInto i v (formFields e) := by
  have rows : ∀ i : Str, (∀ t, c!"edit-partof-" ++ t ≠ i) →
      typedInto i v (e.partof.zipIdx.map (fun x => (c!"edit-partof-" ++ showNat x.2, x.1))) = e.partof.zipIdx.map (fun x => (c!"edit-partof-" ++ showNat x.2, x.1)) := by
    intro i hi
    refine typedInto_other (fun y hy => ?_)
    obtain ⟨t, ht⟩ := rows_ids hy
    rw [ht]; exact hi t
  rcases hf with ⟨rfl, rfl⟩ | ⟨rfl, rfl⟩ | ⟨rfl, rfl⟩ | ⟨rfl, rfl⟩ | ⟨k, rfl, rfl⟩
  · cases h
    unfold formFields
    rw [typedInto_append, typedInto_cons, rows _ (by intro t h; simp at h)]
    simp [typedInto]
  · cases h
    unfold formFields
    rw [typedInto_append, typedInto_cons, rows _ (by intro t h; simp at h)]
    simp [typedInto]
  · cases h
    unfold formFields
    rw [typedInto_append, typedInto_cons, rows _ (by intro t h; simp at h)]
    simp [typedInto]
  · cases h
    unfold formFields
    rw [typedInto_append, typedInto_cons, rows _ (by intro t h; simp at h)]
    simp [typedInto]
  · simp only [Edit.set] at h
    split at h
    · cases h
      unfold formFields
      rw [typedInto_append, typedInto_cons, rows_set]
      simp [typedInto]
    · cases h

/-! ## buttons -/

theorem hasButton_append (a b : List Elem) (id : Str) : HasButton (a ++ b) id ↔ HasButton a id ∨ HasButton b id := by
  simp only [HasButton, List.mem_append, exists_or]

theorem log_button {u : UI} {x : X} {n : Nav} {l : List Elem} (h : K.view u x n = some l) (i : Nat) (a : Act) :
    .button (c!"close-err-" ++ showNat i) a ∈ l ↔ (∃ y ∈ u.errors, y.1 = i) ∧ a = .msg (.clearLogs [i]) := by
  constructor
  · intro ha
    obtain ⟨b, hb, rfl⟩ := view_some h
    simp only [List.mem_append] at ha
    rcases ha with ((((he | he) | he) | he) | he) | he
    · simp [navBar] at he
    · unfold navExtra at he
      split at he <;> simp at he
    · rw [errorPane_eq] at he
      split at he
      · simp at he
      · rcases List.mem_cons.1 he with he | he
        · injection he with h1 _
          have h2 : showNat i = c!"all" := by simpa using h1
          have h3 : asciiDigit 'a' = true := showNat_digit (n := i) (by rw [h2]; simp)
          exact absurd h3 (by decide)
        · obtain ⟨y, hy, he⟩ := List.mem_flatMap.1 he
          unfold Painter.errorLog at he
          simp only [List.mem_cons, List.not_mem_nil, or_false] at he
          rcases he with he | he
          · injection he with h1 h2
            have e := showNat_inj (List.append_cancel_left h1)
            exact ⟨⟨y, hy, e.symm⟩, by rw [h2, e]⟩
          · split at he <;> cases he
    · unfold Painter.editingPane at he
      split at he
      · rcases List.mem_cons.1 he with he | he
        · cases he
        · split at he
          · obtain ⟨y, hy, he⟩ := List.mem_map.1 he; cases he
          · simp [badPattern] at he
      · simp at he
    · unfold Painter.searchPane at he
      split at he
      · rcases List.mem_cons.1 he with he | he
        · cases he
        · split at he
          · obtain ⟨y, hy, he⟩ := List.mem_map.1 he; cases he
          · simp [badPattern] at he
      · simp at he
    · unfold Painter.body at hb
      split at hb
      · unfold Painter.graphPage at hb
        split at hb
        · cases hb; simp [badPattern] at he
        · obtain ⟨s, -, rfl⟩ := Option.map_eq_some_iff.1 hb; simp at he
      · unfold Painter.artifactPage at hb
        split at hb
        · unfold Painter.existing at hb
          simp only [Option.bind_eq_bind, Option.bind_eq_some_iff, Option.pure_def, Option.some.injEq] at hb
          obtain ⟨g, -, t, -, rfl⟩ := hb
          simp at he
        · cases hb; simp at he
      · unfold Painter.editPage at hb
        split at hb
        · cases hb; simp at he
        · obtain ⟨t, -, rfl⟩ := Option.map_eq_some_iff.1 hb
          simp [formElems, partofRow] at he
      · cases hb; simp at he
  · rintro ⟨⟨y, hy, rfl⟩, rfl⟩
    obtain ⟨b, hb, rfl⟩ := view_some h
    simp only [List.mem_append]
    refine Or.inl (Or.inl (Or.inl (Or.inr ?_)))
    rw [errorPane_eq, if_neg (by rintro e; rw [e] at hy; simp at hy)]
    exact List.mem_cons_of_mem _ (List.mem_flatMap.2 ⟨y, hy, by simp [Painter.errorLog]⟩)

theorem shows_iff {u : UI} {x : X} {n : Nav} {l : List Elem} (h : K.view u x n = some l) (i : Nat) :
    ShowsLog l i ↔ ∃ y ∈ u.errors, y.1 = i :=
  ⟨fun ⟨a, ha⟩ => ((log_button h i a).1 ha).1, fun hy => ⟨_, (log_button h i _).2 ⟨hy, rfl⟩⟩⟩

/-- Buttons that are not in the panes. -/
theorem hasButton_body {u : UI} {x : X} {n : Nav} {l : List Elem} (h : K.view u x n = some l) {id : Str} (hid : ∃ t, id = c!"edit" ++ t)
    (hne : id ≠ c!"editing") : HasButton l id ↔ ∃ b, K.body u x n = some b ∧ HasButton b id := by
  obtain ⟨t, rfl⟩ := hid
  obtain ⟨b, hb, rfl⟩ := view_some h
  constructor
  · rintro ⟨a, ha⟩
    refine ⟨b, hb, a, ?_⟩
    simp only [List.mem_append] at ha
    rcases ha with ((((he | he) | he) | he) | he) | he
    · exfalso
      simp [navBar] at he
      exact hne (by rw [he.1]; rfl)
    · unfold navExtra at he
      split at he <;> simp at he
    · rw [errorPane_eq] at he
      split at he
      · simp at he
      · simp [Painter.errorLog] at he
        obtain ⟨_, _, _, he⟩ := he
        split at he <;> cases he
    · unfold Painter.editingPane at he
      split at he
      · rcases List.mem_cons.1 he with he | he
        · cases he
        · split at he
          · obtain ⟨y, hy, he⟩ := List.mem_map.1 he; cases he
          · simp [badPattern] at he
      · simp at he
    · unfold Painter.searchPane at he
      split at he
      · rcases List.mem_cons.1 he with he | he
        · cases he
        · split at he
          · obtain ⟨y, hy, he⟩ := List.mem_map.1 he; cases he
          · simp [badPattern] at he
      · simp at he
    · exact he
  · rintro ⟨b', hb', a, ha⟩
    rw [hb] at hb'; cases hb'
    exact ⟨a, List.mem_append_right _ ha⟩

theorem mem_linksOf {l : List Elem} {h t c : Str} : (h, t, c) ∈ linksOf l ↔ Elem.link h t c ∈ l := by
  unfold linksOf
  rw [List.mem_filterMap]
  constructor
  · rintro ⟨e, he, h⟩
    cases e <;> simp at h
    obtain ⟨rfl, rfl, rfl⟩ := h
    exact he
  · intro he
    exact ⟨_, he, rfl⟩

theorem mem_fieldsOf {l : List Elem} {i v : Str} : (i, v) ∈ fieldsOf l ↔ ∃ f, Elem.input i v f ∈ l := by
  unfold fieldsOf
  rw [List.mem_filterMap]
  constructor
  · rintro ⟨e, he, h⟩
    cases e <;> simp at h
    obtain ⟨rfl, rfl⟩ := h
    exact ⟨_, he⟩
  · rintro ⟨f, he⟩
    exact ⟨_, he, rfl⟩

/-! ## drawing -/

theorem view_none_iff (u : UI) (x : X) (n : Nav) : K.view u x n = none ↔ CannotDraw K u x n := by
  unfold Painter.view CannotDraw
  rw [Option.map_eq_none_iff]
  unfold Painter.body
  cases hv : u.view with
  | graph =>
    simp only [Painter.graphPage, true_and, reduceCtorEq, false_and, exists_false, or_false]
    cases hc : K.compile n.graph <;> simp
  | artifact m =>
    simp only [Painter.artifactPage, reduceCtorEq, false_and, View.artifact.injEq, false_or, exists_false, or_false]
    cases hg : u.shared.get? m with
    | none => simp [hg]
    | some a =>
      simp only [Painter.existing, Option.bind_eq_bind, Option.bind_eq_none_iff, Option.pure_def, reduceCtorEq]
      constructor
      · intro h
        refine ⟨m, a, rfl, hg, ?_⟩
        cases hp : K.part x u.shared a with
        | none => exact Or.inl rfl
        | some g =>
          right
          cases ht : K.text x u.shared a.name.raw a.text with
          | none => rfl
          | some t => exact absurd (h g hp t ht) id
      · rintro ⟨_, a', rfl, ha, h⟩ g hp t ht
        rw [hg] at ha; cases ha
        rcases h with h | h
        · rw [hp] at h; cases h
        · rw [ht] at h; cases h
  | edit id =>
    simp only [Painter.editPage, reduceCtorEq, false_and, View.edit.injEq, false_or, exists_false]
    cases hg : u.editing.get? id with
    | none => simp [hg]
    | some e =>
      simp only [Option.map_eq_none_iff]
      constructor
      · intro h; exact ⟨id, e, rfl, hg, h⟩
      · rintro ⟨_, e', rfl, he, h⟩
        rw [hg] at he; cases he; exact h
  | notFound => simp

theorem Draws.view {K : Painter X} (hd : Draws K) (u : UI) (x : X) (n : Nav) : ∃ l, K.view u x n = some l := by
  obtain ⟨h1, h2, h3⟩ := hd
  cases h : K.view u x n with
  | some l => exact ⟨l, rfl⟩
  | none =>
    rcases (view_none_iff u x n).1 h with ⟨_, re, _, h⟩ | ⟨m, a, _, _, h | h⟩ | ⟨_, e, _, _, h⟩
    · exact absurd h (h3 _ _ _)
    · exact absurd h (h2 _ _ _)
    · exact absurd h (h1 _ _ _ _)
    · exact absurd h (h1 _ _ _ _)

theorem Draws.paint {K : Painter X} (hd : Draws K) (w : World) (x : X) (n : Nav) : ∃ l, K.paint w x n = .ok ⟨w, x, n, l⟩ := by
  obtain ⟨l, h⟩ := hd.view w.ui x n
  exact ⟨l, by unfold Painter.paint; rw [h]⟩

theorem Draws.handle {K : Painter X} (hd : Draws K) (p : Page X) (x : X) (m : Msg) :
    K.handle nd lim p x m = .panic ↔ p.world.ui.update nd lim m = .panic := by
  unfold Painter.handle
  cases hu : p.world.ui.update nd lim m with
  | panic => simp
  | err e => exact e.elim
  | ok r =>
    simp only [Res.bind_ok, reduceCtorEq, iff_false]
    split
    · obtain ⟨l, h⟩ := hd.paint (p.world.after r) x p.nav
      rw [h]; simp
    · simp

end Web
end Art
