import Verif.Lemmas.Dot
import Verif.Props.Modify
import Verif.Props.SaveEx

/-! C54: what the graphs show. -/

namespace Art
namespace Spec.Dot

/-- How a name is drawn: an artifact in the colour of its state, with a link to its page, or a name that is not found. -/
def Drawn (p : Project) (strong : Bool) (n : Name) (l : List Item) : Prop :=
  (∃ x ∈ p.artifacts, upper x.2.name.raw = upper n.raw ∧ ∃ c, x.2.completed.termColor = .ok c ∧ l = drawnArt x.2 n (hex c) strong) ∨
  ((∀ x ∈ p.artifacts, upper x.2.name.raw ≠ upper n.raw) ∧ l = drawnMissing n)

/-- A text draws these names, the ones marked being highlighted, and then these arrows. -/
def Draws (p : Project) (s : Str) (ns : List (Name × Bool)) (es : List (Str × Str)) : Prop :=
  ∃ ls, items s = ls.flatten ++ es.map (fun e => .edge e.1 e.2) ∧ List.Forall₂ (fun n l => Drawn p n.2 n.1 l) ns ls

end Spec.Dot
open Spec Spec.Dot

/-- A text that draws these names, whatever comes after it. -/
def Shows (p : Project) (t : Str) (ns : List (Name × Bool)) : Prop := ∃ ls, Chunk t ls.flatten ∧ List.Forall₂ (fun n l => Drawn p n.2 n.1 l) ns ls

theorem Shows.append {p : Project} {t t' : Str} {ns ns' : List (Name × Bool)} (h : Shows p t ns) (h' : Shows p t' ns') : Shows p (t ++ t') (ns ++ ns') := by
  obtain ⟨ls, h1, h2⟩ := h
  obtain ⟨ls', h1', h2'⟩ := h'
  exact ⟨ls ++ ls', by rw [List.flatten_append]; exact h1.append h1', List.rel_append h2 h2'⟩

theorem Shows.nil {p : Project} : Shows p [] [] := ⟨[], Chunk.nil, .nil⟩

theorem plain_hex (c : TermColor) : Plain (hex c) := by
  cases c <;> exact ⟨by decide, by decide, by decide⟩

theorem shows_name {p : Project} (hn : ∀ x ∈ p.artifacts, x.2.name = x.1) (n : Name) (f : Bool) : ∃ t, p.nameDot n f = .ok t ∧ Shows p t [(n, f)] := by
  have hs : Plain (subRaw none) := plain_nil
  have hk : Plain (subKey none) := plain_nil
  unfold Project.nameDot Project.fullnameDot
  cases hg : p.artifacts.get? n with
  | none =>
    refine ⟨_, rfl, [drawnMissing n], ?_, .cons (Or.inr ⟨fun x hx e => ?_, rfl⟩) .nil⟩
    · have := chunk_dne n none hs hk
      simpa [subRaw, subKey, drawnMissing, n.keyStr_eq] using this
    · refine IMap.get?_eq_none.1 hg x hx ?_
      rw [← hn x hx]
      exact Name.key_eq_iff.2 (by rw [Name.keyStr_eq, Name.keyStr_eq]; exact e)
  | some a =>
    obtain ⟨m, hm, hx⟩ := IMap.mem_of_get? hg
    obtain ⟨c, h1, h2, _⟩ := C38_total a.completed
    have hu : upper a.name.raw = upper n.raw := by
      rw [← Name.keyStr_eq, ← Name.keyStr_eq, hn _ hx]; exact Name.key_eq_iff.1 hm
    refine ⟨foundNameDot n none f (hex c), ?_, [drawnArt a n (hex c) f], ?_, .cons (Or.inl ⟨_, hx, hu, c, h1, rfl⟩) .nil⟩
    · simp [Project.nameColor, hg, h2]
    · have := chunk_found n none hs hk f (plain_hex c) (plain_lower n)
      have hl : lower n.keyStr = lower a.name.raw := by rw [n.keyStr_eq, ← hu, lower_upper]
      rw [hl] at this
      simpa [subRaw, subKey, drawnArt, n.keyStr_eq] using this

theorem shows_names {p : Project} (hn : ∀ x ∈ p.artifacts, x.2.name = x.1) (l : List Name) (f : Bool) :
    ∃ ts, Res.mapM' (fun q => p.nameDot q f) l = .ok ts ∧ Shows p ts.flatten (l.map fun q => (q, f)) := by
  induction l with
  | nil => exact ⟨[], rfl, Shows.nil⟩
  | cons q l ih =>
    obtain ⟨ts, h1, h2⟩ := ih
    obtain ⟨t, h3, h4⟩ := shows_name hn q f
    exact ⟨t :: ts, by simp [Res.mapM', h1, h3], h4.append h2⟩

theorem chunk_edges (es : List (Name × Name)) : Chunk (es.map fun c => connectDot c.1 c.2).flatten (es.map fun e => Item.edge e.1.keyStr e.2.keyStr) := by
  induction es with
  | nil => exact Chunk.nil
  | cons e es ih => exact (chunk_edge e.1 e.2).append ih

theorem draws_of {p : Project} {t : Str} {ns : List (Name × Bool)} (h : Shows p t ns) (es : List (Name × Name)) (lr : Bool) :
    Draws p (wrapDot (t ++ (es.map fun c => connectDot c.1 c.2).flatten) lr) ns (es.map fun e => (e.1.keyStr, e.2.keyStr)) := by
  obtain ⟨ls, h1, h2⟩ := h
  refine ⟨ls, ?_, h2⟩
  rw [items_wrap (h1.append (chunk_edges es)), List.map_map]
  rfl

section
variable {p : Project}

theorem artifactDot_ok {a : Artifact} {t : Str} {ts us : List Str} (h1 : p.nameDot a.name true = .ok t) (h2 : Res.mapM' (fun q => p.nameDot q false) a.parts = .ok ts)
    (h3 : Res.mapM' (fun q => p.nameDot q false) a.partof = .ok us) :
    p.artifactDot a = .ok (wrapDot (t ++ ts.flatten ++ us.flatten ++ (a.connections.map fun c => connectDot c.1 c.2).flatten) true) := by
  unfold Project.artifactDot
  rw [h1, h2, h3]
  simp only [Res.bind_ok, Res.pure_def]

theorem isPart_iff {a b : Str} : IsPart p a b ↔ ∃ x ∈ p.artifacts, x.2.name.keyStr = b ∧ ∃ q ∈ x.2.partof, q.keyStr = a := by
  simp only [IsPart, Name.keyStr_eq]

theorem parts_iff (hl : Linked p) {x : Name × Artifact} (hx : x ∈ p.artifacts) {k : Str} : (∃ q ∈ x.2.parts, q.keyStr = k) ↔ IsPart p x.2.name.keyStr k := by
  rw [isPart_iff, hl.parts x hx]

theorem same_art (hl : Linked p) {x y : Name × Artifact} (hx : x ∈ p.artifacts) (hy : y ∈ p.artifacts) (e : x.2.name.keyStr = y.2.name.keyStr) : x = y := by
  have := hl.nodup
  refine nodup_map_inj this x hx y hy ?_
  show key x.1 = key y.1
  rw [← hl.names x hx, ← hl.names y hy]
  exact Name.key_eq_iff.2 e

theorem partof_iff (hl : Linked p) {x : Name × Artifact} (hx : x ∈ p.artifacts) {k : Str} : (∃ q ∈ x.2.partof, q.keyStr = k) ↔ IsPart p k x.2.name.keyStr := by
  rw [isPart_iff]
  constructor
  · rintro ⟨q, hq, e⟩; exact ⟨x, hx, rfl, q, hq, e⟩
  · rintro ⟨y, hy, e, q, hq, e'⟩
    rw [same_art hl hy hx e] at hq
    exact ⟨q, hq, e'⟩

end

/-- The nodes for one artifact in focus. -/
def focusNodes (focus : IMap Name Artifact) (x : Name × Artifact) : List (Name × Bool) :=
  (x.1, true) :: ((x.2.parts.filter fun q => !focus.contains q).map (fun q => (q, false)) ++ (x.2.partof.filter fun q => !focus.contains q).map (fun q => (q, false)))

theorem shows_focus {p : Project} (hn : ∀ x ∈ p.artifacts, x.2.name = x.1) (focus : IMap Name Artifact) (x : Name × Artifact) :
    ∃ t, p.focusDot focus x = .ok t ∧ Shows p t (focusNodes focus x) := by
  obtain ⟨t, h1, h2⟩ := shows_name hn x.1 true
  obtain ⟨ts, h3, h4⟩ := shows_names hn (x.2.parts.filter fun q => !focus.contains q) false
  obtain ⟨us, h5, h6⟩ := shows_names hn (x.2.partof.filter fun q => !focus.contains q) false
  refine ⟨t ++ ts.flatten ++ us.flatten, ?_, (h2.append h4).append h6⟩
  unfold Project.focusDot
  rw [h1, h3, h5]
  simp only [Res.bind_ok, Res.pure_def]

theorem shows_foci {p : Project} (hn : ∀ x ∈ p.artifacts, x.2.name = x.1) (focus l : IMap Name Artifact) :
    ∃ ts, Res.mapM' (p.focusDot focus) l = .ok ts ∧ Shows p ts.flatten (l.flatMap (focusNodes focus)) := by
  induction l with
  | nil => exact ⟨[], rfl, Shows.nil⟩
  | cons q l ih =>
    obtain ⟨ts, h1, h2⟩ := ih
    obtain ⟨t, h3, h4⟩ := shows_focus hn focus q
    exact ⟨t :: ts, by simp [Res.mapM', h1, h3], h4.append h2⟩

theorem sum_ones (l : List (Name × Artifact)) (k : Str) :
    (l.map fun x => if x.1.keyStr = k then 1 else 0).sum = (l.map fun x => x.1.keyStr).count k := by
  induction l with
  | nil => rfl
  | cons y l ih => simp only [List.map_cons, List.sum_cons, ih, List.count_cons, beq_iff_eq, Nat.add_comm]

theorem lower_dashed (l : List Str) : lower (dashed l) = dashed (l.map lower) := by
  induction l with
  | nil => rfl
  | cons g l ih => simp only [dashed_cons, List.map_cons, ← ih]; simp [lower]; decide

section
variable {L : Libs} {readToml : Str → Option SettingsRaw} {hash : ArtifactIm → HashIm} {ncpu : Nat} {fs : FS} {base : FilePath} {c : Categorized} {p : Project}

/-- The graph on the page of an artifact of a project that was read: it is drawn without panic, shows the artifact, highlighted, and exactly the artifacts it is a part
of and its parts, and has exactly the arrows between it and them. An arrow is drawn twice only if the artifact is a part of itself. -/
theorem C54_artifact (h : ReadsProject L readToml hash ncpu fs base (.ok (c, p))) {x : Name × Artifact} (hx : x ∈ p.artifacts) :
    ∃ s ns es, p.artifactDot x.2 = .ok s ∧ Draws p s ((x.2.name, true) :: ns) es ∧ (∀ n ∈ ns, n.2 = false) ∧
      (∀ k, k ∈ ns.map (fun n => upper n.1.raw) ↔ IsPart p k (upper x.2.name.raw) ∨ IsPart p (upper x.2.name.raw) k) ∧
      (∀ a b, (a, b) ∈ es ↔ IsPart p a b ∧ (a = upper x.2.name.raw ∨ b = upper x.2.name.raw)) ∧
      (es.Nodup ↔ ¬ IsPart p (upper x.2.name.raw) (upper x.2.name.raw)) := by
  have hl := read_linked h
  obtain ⟨t, h1, h2⟩ := shows_name hl.names x.2.name true
  obtain ⟨ts, h3, h4⟩ := shows_names hl.names x.2.parts false
  obtain ⟨us, h5, h6⟩ := shows_names hl.names x.2.partof false
  refine ⟨wrapDot (t ++ ts.flatten ++ us.flatten ++ (x.2.connections.map fun c => connectDot c.1 c.2).flatten) true,
    x.2.parts.map (fun q => (q, false)) ++ x.2.partof.map (fun q => (q, false)), _, artifactDot_ok h1 h3 h5,
    draws_of ((h2.append h4).append h6) _ _, ?_, ?_, ?_, ?_⟩
  · intro n hn
    simp only [List.mem_append, List.mem_map] at hn
    rcases hn with ⟨q, _, rfl⟩ | ⟨q, _, rfl⟩ <;> rfl
  · intro k
    rw [← Name.keyStr_eq, ← parts_iff hl hx, ← partof_iff hl hx]
    simp only [List.map_append, List.map_map, List.mem_append, List.mem_map, Function.comp, ← Name.keyStr_eq]
    exact or_comm
  · intro a b
    simp only [Artifact.connections, List.map_append, List.map_map, List.mem_append, List.mem_map, Function.comp, Prod.mk.injEq, ← Name.keyStr_eq]
    constructor
    · rintro (⟨q, hq, rfl, rfl⟩ | ⟨q, hq, rfl, rfl⟩)
      · exact ⟨(parts_iff hl hx).1 ⟨q, hq, rfl⟩, Or.inl rfl⟩
      · exact ⟨(partof_iff hl hx).1 ⟨q, hq, rfl⟩, Or.inr rfl⟩
    · rintro ⟨hp, rfl | rfl⟩
      · obtain ⟨q, hq, e⟩ := (parts_iff hl hx).2 hp
        exact Or.inl ⟨q, hq, rfl, e⟩
      · obtain ⟨q, hq, e⟩ := (partof_iff hl hx).2 hp
        exact Or.inr ⟨q, hq, e, rfl⟩
  · rw [← Name.keyStr_eq]
    simp only [Artifact.connections, List.map_append, List.map_map, List.nodup_append]
    have n1 : (x.2.parts.map ((fun e : Name × Name => (e.1.keyStr, e.2.keyStr)) ∘ fun q => (x.2.name, q))).Nodup := by
      have := List.Nodup.map (f := fun k => (x.2.name.keyStr, k)) (fun a b e => (Prod.mk.inj e).2) (nodup_keyStr (hl.partsNodup x hx))
      rwa [List.map_map] at this
    have n2 : (x.2.partof.map ((fun e : Name × Name => (e.1.keyStr, e.2.keyStr)) ∘ fun q => (q, x.2.name))).Nodup := by
      have := List.Nodup.map (f := fun k => (k, x.2.name.keyStr)) (fun a b e => (Prod.mk.inj e).1) (nodup_keyStr (hl.partof x hx))
      rwa [List.map_map] at this
    constructor
    · rintro ⟨_, _, h3⟩ hs
      obtain ⟨q, hq, e⟩ := (parts_iff hl hx).2 hs
      obtain ⟨q', hq', e'⟩ := (partof_iff hl hx).2 hs
      exact h3 _ (List.mem_map.2 ⟨q, hq, rfl⟩) _ (List.mem_map.2 ⟨q', hq', rfl⟩) (by simp [e, e'])
    · intro hs
      refine ⟨n1, n2, ?_⟩
      rintro a ha b hb rfl
      obtain ⟨q, hq, rfl⟩ := List.mem_map.1 ha
      obtain ⟨q', hq', e⟩ := List.mem_map.1 hb
      simp only [Function.comp, Prod.mk.injEq] at e
      exact hs ((parts_iff hl hx).1 ⟨q, hq, e.2.symm⟩)

/-- The graph of a search in a project that was read, whatever order the tables give: it is drawn without panic. It has exactly the arrows between a part and what it is a part
of of which the search selects one or both, each once. Exactly the artifacts selected and those at the other end of an arrow are shown, the former highlighted and once. -/
theorem C54_search (h : ReadsProject L readToml hash ncpu fs base (.ok (c, p))) {re : Str → Bool} {out : Res Unit Str} (hd : p.SearchDot re out) :
    ∃ s ns es, out = .ok s ∧ Draws p s ns es ∧ es.Nodup ∧
      (∀ a b, (a, b) ∈ es ↔ IsPart p a b ∧ (Selected p re a ∨ Selected p re b)) ∧
      (∀ n ∈ ns, n.2 = true ↔ Selected p re (upper n.1.raw)) ∧
      (∀ k, k ∈ ns.map (fun n => upper n.1.raw) ↔ Selected p re k ∨ ∃ k', Selected p re k' ∧ (IsPart p k k' ∨ IsPart p k' k)) ∧
      ∀ k, Selected p re k → (ns.map fun n => upper n.1.raw).count k = 1 := by
  have hl := read_linked h
  obtain ⟨focus, conns, hf, hc, rfl⟩ := hd
  obtain ⟨ts, h1, h2⟩ := shows_foci hl.names focus focus
  have hmem : ∀ x, x ∈ focus ↔ x ∈ p.artifacts ∧ re x.2.name.raw = true := by
    intro x
    rw [hf.mem_iff, List.mem_filter]
    constructor <;> rintro ⟨a, b⟩
    · exact ⟨a, by rw [hl.names x a]; exact b⟩
    · exact ⟨a, by rw [← hl.names x a]; exact b⟩
  have hsel : ∀ k, Selected p re k ↔ ∃ x ∈ focus, x.2.name.keyStr = k := by
    intro k
    simp only [Selected, hmem, Name.keyStr_eq]
    constructor
    · rintro ⟨x, a, b, c⟩; exact ⟨x, ⟨a, c⟩, b⟩
    · rintro ⟨x, ⟨a, c⟩, b⟩; exact ⟨x, a, b, c⟩
  have hcon : ∀ q : Name, focus.contains q = true ↔ Selected p re q.keyStr := by
    intro q
    rw [IMap.contains_iff, hsel]
    constructor
    · rintro ⟨x, hx, e⟩
      refine ⟨x, hx, ?_⟩
      rw [hl.names x ((hmem x).1 hx).1]; exact Name.key_eq_iff.1 e
    · rintro ⟨x, hx, e⟩
      refine ⟨x, hx, Name.key_eq_iff.2 ?_⟩
      rw [← hl.names x ((hmem x).1 hx).1]; exact e
  refine ⟨wrapDot (ts.flatten ++ (conns.map fun c => connectDot c.1 c.2).flatten) false, focus.flatMap (focusNodes focus), _, ?_, draws_of h2 _ _, ?_, ?_, ?_, ?_, ?_⟩
  · rw [h1]; simp only [Res.bind_ok, Res.pure_def]
  · exact (hc.map _).nodup_iff.2 (ISet.nodup_collect (focus.flatMap focusConnections))
  · intro a b
    have e : (a, b) ∈ conns.map (fun e => (e.1.keyStr, e.2.keyStr)) ↔ ∃ x ∈ focus.flatMap focusConnections, x.1.keyStr = a ∧ x.2.keyStr = b := by
      rw [(hc.map _).mem_iff, List.mem_map]
      constructor
      · rintro ⟨x, hx, e⟩
        obtain ⟨y, hy, e'⟩ := (ISet.contains_collect (focus.flatMap focusConnections) x).1 (ISet.contains_iff.2 ⟨x, hx, rfl⟩)
        have e2 := Prod.mk.inj (e'.trans e)
        exact ⟨y, hy, e2⟩
      · rintro ⟨y, hy, e1, e2⟩
        obtain ⟨x, hx, e'⟩ := ISet.contains_iff.1 ((ISet.contains_collect (focus.flatMap focusConnections) y).2 ⟨y, hy, rfl⟩)
        exact ⟨x, hx, Eq.trans e' (Prod.ext e1 e2)⟩
    rw [e]
    simp only [List.mem_flatMap, focusConnections, List.mem_append, List.mem_map]
    constructor
    · rintro ⟨_, ⟨x, hx, ⟨q, hq, rfl⟩ | ⟨q, hq, rfl⟩⟩, rfl, rfl⟩ <;> have hx' := ((hmem x).1 hx).1 <;> simp only [← hl.names x hx']
      · exact ⟨(parts_iff hl hx').1 ⟨q, hq, rfl⟩, Or.inl ((hsel _).2 ⟨x, hx, rfl⟩)⟩
      · exact ⟨(partof_iff hl hx').1 ⟨q, hq, rfl⟩, Or.inr ((hsel _).2 ⟨x, hx, rfl⟩)⟩
    · rintro ⟨hp, hs | hs⟩ <;> obtain ⟨x, hx, rfl⟩ := (hsel _).1 hs <;> have hx' := ((hmem x).1 hx).1
      · obtain ⟨q, hq, e⟩ := (parts_iff hl hx').2 hp
        exact ⟨_, ⟨x, hx, Or.inl ⟨q, hq, rfl⟩⟩, by rw [hl.names x hx'], e⟩
      · obtain ⟨q, hq, e⟩ := (partof_iff hl hx').2 hp
        exact ⟨_, ⟨x, hx, Or.inr ⟨q, hq, rfl⟩⟩, e, by rw [hl.names x hx']⟩
  · intro n hn
    rw [← Name.keyStr_eq]
    obtain ⟨x, hx, hn⟩ := List.mem_flatMap.1 hn
    simp only [focusNodes, List.mem_cons, List.mem_append, List.mem_map, List.mem_filter, Bool.not_eq_true'] at hn
    rcases hn with rfl | ⟨q, ⟨_, hq⟩, rfl⟩ | ⟨q, ⟨_, hq⟩, rfl⟩
    · simp only [true_iff]
      exact (hsel _).2 ⟨x, hx, by rw [hl.names x ((hmem x).1 hx).1]⟩
    all_goals
      simp only [Bool.false_eq_true, false_iff]
      intro hs
      rw [(hcon q).2 hs] at hq; cases hq
  · intro k
    simp only [List.mem_map, List.mem_flatMap, focusNodes, List.mem_cons, List.mem_append, List.mem_filter, Bool.not_eq_true', ← Name.keyStr_eq]
    constructor
    · rintro ⟨n, ⟨x, hx, rfl | ⟨q, ⟨hq, _⟩, rfl⟩ | ⟨q, ⟨hq, _⟩, rfl⟩⟩, rfl⟩ <;> have hx' := ((hmem x).1 hx).1
      · exact Or.inl ((hsel _).2 ⟨x, hx, by rw [hl.names x hx']⟩)
      · exact Or.inr ⟨_, (hsel _).2 ⟨x, hx, rfl⟩, Or.inr ((parts_iff hl hx').1 ⟨q, hq, rfl⟩)⟩
      · exact Or.inr ⟨_, (hsel _).2 ⟨x, hx, rfl⟩, Or.inl ((partof_iff hl hx').1 ⟨q, hq, rfl⟩)⟩
    · have self : ∀ k, Selected p re k → ∃ a : Name × Bool, (∃ b : Name × Artifact, b ∈ focus ∧ (a = (b.1, true) ∨ (∃ q, (q ∈ b.2.parts ∧ focus.contains q = false) ∧ (q, false) = a) ∨
          ∃ q, (q ∈ b.2.partof ∧ focus.contains q = false) ∧ (q, false) = a)) ∧ a.1.keyStr = k := by
        intro k hk
        obtain ⟨x, hx, rfl⟩ := (hsel k).1 hk
        exact ⟨_, ⟨x, hx, Or.inl rfl⟩, by rw [hl.names x ((hmem x).1 hx).1]⟩
      rintro (hk | ⟨k', hk, hp⟩)
      · exact self k hk
      · by_cases hs : Selected p re k
        · exact self k hs
        obtain ⟨x, hx, rfl⟩ := (hsel k').1 hk
        have hx' := ((hmem x).1 hx).1
        have hno : ∀ q : Name, q.keyStr = k → focus.contains q = false := by
          rintro q rfl
          rw [Bool.eq_false_iff]
          exact fun h => hs ((hcon q).1 h)
        rcases hp with hp | hp
        · obtain ⟨q, hq, e⟩ := (partof_iff hl hx').2 hp
          exact ⟨_, ⟨x, hx, Or.inr (Or.inr ⟨q, ⟨hq, hno q e⟩, rfl⟩)⟩, e⟩
        · obtain ⟨q, hq, e⟩ := (parts_iff hl hx').2 hp
          exact ⟨_, ⟨x, hx, Or.inr (Or.inl ⟨q, ⟨hq, hno q e⟩, rfl⟩)⟩, e⟩
  · intro k hk
    have hno : ∀ q : Name, focus.contains q = false → q.keyStr ≠ k := by
      rintro q hq rfl
      rw [(hcon q).2 hk] at hq; cases hq
    have hone : ∀ x : Name × Artifact, ((focusNodes focus x).map fun n => upper n.1.raw).count k = if x.1.keyStr = k then 1 else 0 := by
      intro x
      have z : ∀ l : List Name, ((l.filter fun q => !focus.contains q).map fun q => q.keyStr).count k = 0 := by
        intro l
        rw [List.count_eq_zero]
        intro hm
        obtain ⟨q, hq, e⟩ := List.mem_map.1 hm
        refine hno q ?_ e
        simpa using (List.mem_filter.1 hq).2
      simp only [focusNodes, List.map_cons, List.map_append, List.map_map, Function.comp_def, ← Name.keyStr_eq, List.count_cons, List.count_append, z, beq_iff_eq]
      simp
    rw [List.map_flatMap, List.count_flatMap]
    have : (List.count k ∘ fun x => (focusNodes focus x).map fun n => upper n.1.raw) = fun x : Name × Artifact => if x.1.keyStr = k then 1 else 0 := funext hone
    rw [this]
    obtain ⟨x, hx, rfl⟩ := (hsel k).1 hk
    have nd : (focus.map fun x => x.1.keyStr).Nodup := by
      have n1 : (p.artifacts.map fun x => x.1.keyStr).Nodup := by
        have := hl.nodup
        unfold IMap.Nodup at this
        rw [List.Nodup, List.pairwise_map] at this ⊢
        exact this.imp fun h e => h (Name.key_eq_iff.2 e)
      exact ((hf.map fun x => x.1.keyStr).nodup_iff).2 (n1.sublist ((List.filter_sublist).map _))
    have c1 := List.count_eq_one_of_mem nd (List.mem_map.2 ⟨x, hx, by rw [← hl.names x ((hmem x).1 hx).1]⟩ : x.2.name.keyStr ∈ _)
    rw [← sum_ones focus x.2.name.keyStr] at c1
    exact c1

/-- The link of a node opens the page of the artifact with its key. -/
theorem C54_link (nd : Char → Bool) (lim : Nat) (n : Name) :
    ∃ m : Name, View.fromHash nd lim (lower n.raw) = .ok (.artifact m) ∧ upper m.raw = upper n.raw := by
  obtain ⟨q, segs, hs⟩ := n.shape
  have hsh : Shape n.ty (lower q) (segs.map lower) (lower n.raw) := by
    have hu : ∀ s, upper (lower s) = upper s := fun s => by
      simp only [upper, lower, List.map_map]
      refine List.map_congr_left fun c _ => ?_
      rw [Function.comp, char_eq, upperC_toNat, upperC_toNat, lowerC_toNat]
      split_ifs <;> omega
    refine ⟨tyOf_iff.2 ?_, by simpa using hs.ne, ?_, ?_⟩
    · rw [hu]; exact tyOf_iff.1 hs.ty
    · intro g hg
      obtain ⟨g, hg', rfl⟩ := List.mem_map.1 hg
      refine ⟨by simpa [lower] using (hs.seg g hg').1, ?_⟩
      intro c hc
      obtain ⟨d, hd, rfl⟩ := List.mem_map.1 hc
      have := (hs.seg g hg').2 d hd
      rw [nameCharI_toNat] at this ⊢
      rw [lowerC_toNat]
      split_ifs <;> omega
    · rw [hs.eq, ← lower_dashed]
      simp [lower]
  obtain ⟨m, h1, h2, h3⟩ := Name.exists_of_shape hsh
  refine ⟨m, ?_, ?_⟩
  · rw [← h3]; exact (C47_artifact_link nd lim m).1
  · rw [h3]
    simp only [upper, lower, List.map_map]
    refine List.map_congr_left fun c _ => ?_
    rw [Function.comp, char_eq, upperC_toNat, upperC_toNat, lowerC_toNat]
    split_ifs <;> omega

example : lower c!"SPC-aB" = c!"spc-ab" ∧ View.fromHash (fun _ => false) 10 c!"spc-ab" = .ok (.artifact (nm "spc-ab")) := ⟨by decide, by rfl⟩

/-- The link drawn for an artifact opens its page: the name in the hash is the name of an artifact in the project. -/
theorem C54_click (h : ReadsProject L readToml hash ncpu fs base (.ok (c, p))) {strong : Bool} {n : Name} {l : List Item} (hd : Drawn p strong n l) {k : Str}
    (hk : Item.link k ∈ l) (nd : Char → Bool) (lim : Nat) :
    ∃ (m : Name) (x : Name × Artifact), View.fromHash nd lim k = .ok (.artifact m) ∧ x ∈ p.artifacts ∧ p.artifacts.get? m = some x.2 ∧ upper x.2.name.raw = upper n.raw := by
  have hl := read_linked h
  rcases hd with ⟨x, hx, e, c, _, rfl⟩ | ⟨_, rfl⟩
  · have hk' : k = lower x.2.name.raw := by
      unfold drawnArt at hk
      simp only [List.mem_append, List.mem_cons, reduceCtorEq, Item.link.injEq, List.not_mem_nil, false_or, or_false] at hk
      rcases hk with hk | hk
      · exact hk
      · split at hk <;> simp at hk
    subst hk'
    obtain ⟨m, h1, h2⟩ := C54_link nd lim x.2.name
    refine ⟨m, x, h1, hx, (IMap.get?_eq_some_iff hl.nodup).2 ⟨x.1, Name.key_eq_iff.2 ?_, hx⟩, e⟩
    rw [← hl.names x hx, Name.keyStr_eq, Name.keyStr_eq, h2]
  · simp [drawnMissing] at hk

end

/-! ## examples -/

/-- The search in the example project. -/
def exSearch (re : Str → Bool) : Res Unit Str :=
  let focus := exProject.artifacts.filter fun x => re x.1.raw
  do
    let nodes ← Res.mapM' (exProject.focusDot focus) focus
    pure (wrapDot (nodes.flatten ++ ((ISet.collect (focus.flatMap focusConnections)).map fun c => connectDot c.1 c.2).flatten) false)

/-- `C54_search` applies to the example; searching for `a` selects two artifacts and the arrow between them is drawn once. -/
example : exProject.SearchDot (fun s => s.contains 'a') (exSearch fun s => s.contains 'a') ∧
    (exSearch fun s => s.contains 'a').toOption.map items = some
      [.node c!"REQ-A", .label c!"REQ-a", .link c!"req-a", .color c!"#0074D9", .strong,
       .node c!"SPC-A", .label c!"SPC-a", .link c!"spc-a", .color c!"#0074D9", .strong, .edge c!"REQ-A" c!"SPC-A"] :=
  ⟨⟨_, _, List.Perm.refl _, List.Perm.refl _, rfl⟩, by decide +kernel⟩

/-- Searching for the requirement draws the specification too, but not highlighted. -/
example : (exSearch fun s => s = c!"REQ-a").toOption.map items = some
      [.node c!"REQ-A", .label c!"REQ-a", .link c!"req-a", .color c!"#0074D9", .strong,
       .node c!"SPC-A", .label c!"SPC-a", .link c!"spc-a", .color c!"#0074D9", .edge c!"REQ-A" c!"SPC-A"] := by decide +kernel

/-- Libraries for the example: two YAML texts can be read. -/
def loopLibs : Libs :=
  { exLibs with yamlRead := fun t => if t = c!"partof: SPC-a" then some (none, some (.str c!"SPC-a")) else
      if t = c!"partof: REQ-gone" then some (none, some (.str c!"REQ-gone")) else none }

/-- SPC-a is a part of itself, SPC-b is a part of something that does not exist. -/
def exLoop : FS := exFs c!"# SPC-a\npartof: SPC-a\n###\ntext\n" c!"# SPC-b\npartof: REQ-gone\n###\nmore\n" c!"" c!""

/-- What is drawn on the page of an artifact of `exLoop`. -/
def exLoopDot (n : Str) : Option (List Item) :=
  (readNow loopLibs exId exLoop exS).toOption.bind fun r => (r.2.artifacts.find? fun x => x.1.raw = n).bind fun x => (r.2.artifactDot x.2).toOption.map items

/-- The page of SPC-a has the arrow to itself twice; the page of SPC-b shows that what it is a part of is not found. -/
theorem exLoop_drawn : exLoopDot c!"SPC-a" = some
      [.node c!"SPC-A", .label c!"SPC-a", .link c!"spc-a", .color c!"#FF4136", .strong,
       .node c!"SPC-A", .label c!"SPC-a", .link c!"spc-a", .color c!"#FF4136",
       .node c!"SPC-A", .label c!"SPC-a", .link c!"spc-a", .color c!"#FF4136", .edge c!"SPC-A" c!"SPC-A", .edge c!"SPC-A" c!"SPC-A"] ∧
    exLoopDot c!"SPC-b" = some
      [.node c!"SPC-B", .label c!"SPC-b", .link c!"spc-b", .color c!"#FF4136", .strong,
       .node c!"REQ-GONE", .label c!"REQ-gone", .missing, .edge c!"REQ-GONE" c!"SPC-B"] := by decide +kernel

/-- The hypothesis of `C54_artifact` and `C54_click` holds for that project. -/
example : ∃ c p, ReadsProject loopLibs (fun _ => some exRaw) exId 4 exLoop c!"/p" (.ok (c, p)) ∧ p.artifacts.map (fun x => x.1.raw) = [c!"SPC-a", c!"SPC-b"] := by
  have f : (walkCode exLoop exS).countP (fun f => (codeSent loopLibs exLoop f).dead) < 4 ∧
    (walkArtifacts exLoop exS).countP (fun f => (artSent loopLibs exS.pre exLoop f).dead) < 4 := by decide +kernel
  have hs : SettingsOf (fun _ => some exRaw) exLoop c!"/p" exS := ⟨_, _, (exFs_settings _ _ _ _).1, (exFs_settings [] [] [] []).2⟩
  have e : (readNow loopLibs exId exLoop exS).toOption.map (fun r => r.2.artifacts.map (fun x => x.1.raw)) = some [c!"SPC-a", c!"SPC-b"] := by decide +kernel
  have r : ReadsProject loopLibs (fun _ => some exRaw) exId 4 exLoop c!"/p" (readNow loopLibs exId exLoop exS) := by
    generalize exLoop = g at f hs
    exact readNow_reads hs f.1 f.2
  generalize readNow loopLibs exId exLoop exS = o at e r
  cases o with
  | ok x =>
    simp only [Res.toOption, Option.map_some, Option.some.injEq] at e
    exact ⟨x.1, x.2, r, e⟩
  | err => cases e
  | panic => cases e

end Art
