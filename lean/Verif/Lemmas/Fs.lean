import Verif.Spec.Fs
import Verif.Lemmas.IMap
import Mathlib.Data.List.Induction

/-!
# Lemmas about paths and walks
-/

namespace Art
open Spec

theorem Spec.Under.refl (p : FilePath) : Under p p := Or.inl rfl

theorem Spec.Under.trans {a b c : FilePath} (h : Under a b) (h' : Under b c) : Under a c := by
  rcases h with rfl | ⟨r, rfl⟩
  · exact h'
  · rcases h' with rfl | ⟨r', rfl⟩
    · exact Or.inr ⟨r, rfl⟩
    · exact Or.inr ⟨r ++ '/' :: r', by simp⟩

theorem Spec.Under.length {a b : FilePath} (h : Under a b) : a.length ≤ b.length := by
  rcases h with rfl | ⟨r, rfl⟩ <;> simp

theorem Spec.Under.antisymm {a b : FilePath} (h : Under a b) (h' : Under b a) : a = b := by
  rcases h with rfl | ⟨r, rfl⟩
  · rfl
  · have := h'.length
    simp at this

theorem isPrefix_slash {q p : FilePath} : (q ++ ['/']).isPrefixOf p = true ↔ ∃ r, p = q ++ '/' :: r := by
  rw [List.isPrefixOf_iff_prefix]
  constructor
  · rintro ⟨t, rfl⟩
    exact ⟨t, by simp⟩
  · rintro ⟨r, rfl⟩
    exact ⟨r, by simp⟩

theorem startsWith_iff {p q : FilePath} : startsWith p q = true ↔ Under q p := by
  simp only [startsWith, Bool.or_eq_true, beq_iff_eq, isPrefix_slash, Under]

theorem isChild_iff {q p : FilePath} : isChild q p = true ↔ ∃ n, p = q ++ '/' :: n ∧ n ≠ [] ∧ '/' ∉ n := by
  simp only [isChild, Bool.and_eq_true, isPrefix_slash, Bool.not_eq_true', List.isEmpty_eq_false_iff]
  constructor
  · rintro ⟨⟨⟨r, rfl⟩, h1⟩, h2⟩
    have : (q ++ '/' :: r).drop (q.length + 1) = r := by simp [List.drop_append]
    rw [this] at h1 h2
    exact ⟨r, rfl, h1, by simpa using h2⟩
  · rintro ⟨n, rfl, h1, h2⟩
    have : (q ++ '/' :: n).drop (q.length + 1) = n := by simp [List.drop_append]
    rw [this]
    exact ⟨⟨⟨n, rfl⟩, h1⟩, by simpa using h2⟩

/-- Whatever contains `q/n` contains `q` or is `q/n` itself. -/
theorem Spec.Under.child {a q n : FilePath} (h : Under a (q ++ '/' :: n)) (hn : '/' ∉ n) :
    a = q ++ '/' :: n ∨ Under a q := by
  rcases h with h | ⟨r, h⟩
  · exact Or.inl h.symm
  · right
    rw [List.append_eq_append_iff] at h
    rcases h with ⟨t, h1, h2⟩ | ⟨t, h1, h2⟩
    · cases t with
      | nil => left; simpa using h1.symm
      | cons c t =>
        simp only [List.cons_append, List.cons.injEq] at h2
        exact absurd (by rw [h2.2]; simp) hn
    · cases t with
      | nil => left; simpa using h1
      | cons c t =>
        simp only [List.cons_append, List.cons.injEq] at h2
        obtain ⟨rfl, _⟩ := h2
        exact Or.inr ⟨t, h1⟩

/-- The paths above a path form a chain. -/
theorem Spec.Under.total {a b p : FilePath} (ha : Under a p) (hb : Under b p) : Under a b ∨ Under b a := by
  have key : ∀ {x y : FilePath} {r s : FilePath}, x ++ '/' :: r = y ++ '/' :: s → Under x y ∨ Under y x := by
    intro x y r s h
    rw [List.append_eq_append_iff] at h
    rcases h with ⟨t, h1, h2⟩ | ⟨t, h1, h2⟩
    · cases t with
      | nil => left; left; simpa using h1
      | cons c t =>
        simp only [List.cons_append, List.cons.injEq] at h2
        obtain ⟨rfl, _⟩ := h2
        exact Or.inl (Or.inr ⟨t, h1⟩)
    · cases t with
      | nil => left; left; simpa using h1.symm
      | cons c t =>
        simp only [List.cons_append, List.cons.injEq] at h2
        obtain ⟨rfl, _⟩ := h2
        exact Or.inr (Or.inr ⟨t, h1⟩)
  rcases ha with rfl | ⟨r, h⟩
  · exact Or.inr hb
  · rcases hb with rfl | ⟨s, h'⟩
    · exact Or.inl (Or.inr ⟨r, h⟩)
    · exact key (h.symm.trans h')

namespace FS.WF
variable {fs : FS} (w : FS.WF fs)
include w

theorem mem_iff {p : FilePath} {n : Node} : (p, n) ∈ fs ↔ IMap.get? fs p = some n := by
  rw [IMap.get?_eq_some_iff w.nodup]
  constructor
  · exact fun h => ⟨p, rfl, h⟩
  · rintro ⟨a, h1, h2⟩
    obtain rfl : a = p := h1
    exact h2

theorem isFile_iff {p : FilePath} : IsFile fs p ↔ ∃ c, IMap.get? fs p = some (.file c) := by
  simp only [IsFile, w.mem_iff]

/-- Everything strictly above an entry is a directory of the tree. -/
theorem above {p q : FilePath} {n : Node} (hp : IMap.get? fs p = some n) (hu : Under q p) (hne : q ≠ p) :
    IMap.get? fs q = some .dir := by
  induction hl : p.length using Nat.strong_induction_on generalizing p n with
  | _ l ih =>
    by_cases hp0 : p = []
    · subst hp0
      have := hu.length
      simp at this
      exact absurd this hne
    · obtain ⟨q', m, e, h1, h2, h3⟩ := w.parent _ (w.mem_iff.2 hp) hp0
      simp only at e
      subst e
      rcases hu.child h2 with rfl | hu'
      · exact absurd rfl hne
      · by_cases hq : q = q'
        · exact hq ▸ h3
        · exact ih q'.length (by subst hl; simp) h3 hu' hq rfl

/-- The entry of the directory `q` through which a path inside `q` is reached. -/
theorem via {p q : FilePath} {n : Node} (hp : IMap.get? fs p = some n) (hu : Under q p) (hne : q ≠ p) :
    ∃ c m, isChild q c = true ∧ IMap.get? fs c = some m ∧ Under c p := by
  induction hl : p.length using Nat.strong_induction_on generalizing p n with
  | _ l ih =>
    by_cases hp0 : p = []
    · subst hp0
      have := hu.length
      simp at this
      exact absurd this hne
    · obtain ⟨q', m, e, h1, h2, h3⟩ := w.parent _ (w.mem_iff.2 hp) hp0
      simp only at e
      subst e
      rcases hu.child h2 with rfl | hu'
      · exact absurd rfl hne
      · by_cases hq : q = q'
        · subst hq
          exact ⟨_, n, isChild_iff.2 ⟨m, rfl, h1, h2⟩, hp, Under.refl _⟩
        · obtain ⟨c, m', h4, h5, h6⟩ := ih q'.length (by subst hl; simp) h3 hu' hq rfl
          exact ⟨c, m', h4, h5, h6.trans (Or.inr ⟨m, rfl⟩)⟩

end FS.WF

theorem isChild_unique {q a b p : FilePath} (ha : isChild q a = true) (hb : isChild q b = true) (hpa : Under a p)
    (hpb : Under b p) : a = b := by
  have key : ∀ {x y : FilePath}, isChild q x = true → isChild q y = true → Under x y → x = y := by
    intro x y hx hy h
    obtain ⟨n, rfl, h1, h2⟩ := isChild_iff.1 hx
    obtain ⟨m, rfl, h3, h4⟩ := isChild_iff.1 hy
    rcases h.child h4 with h | h
    · exact h
    · have := h.length
      simp at this
  rcases hpa.total hpb with h | h
  · exact key ha hb h
  · exact (key hb ha h).symm

theorem mem_children {fs : FS} {q : FilePath} {e : FilePath × Node} :
    e ∈ children fs q ↔ e ∈ fs ∧ isChild q e.1 = true := by
  simp [children]

theorem foldr_max_le {l : List Nat} {x : Nat} (h : x ∈ l) : x ≤ l.foldr max 0 := by
  induction l with
  | nil => cases h
  | cons a l ih =>
    simp only [List.foldr_cons]
    rcases List.mem_cons.1 h with rfl | h
    · exact le_max_left _ _
    · exact (ih h).trans (le_max_right _ _)

theorem length_walkFuel {fs : FS} {e : FilePath × Node} (h : e ∈ fs) : e.1.length + 2 ≤ walkFuel fs := by
  unfold walkFuel
  have := foldr_max_le (List.mem_map_of_mem (f := fun e : FilePath × Node => e.1.length) h)
  omega

/-- What a walk sends. -/
theorem mem_walk {fs : FS} (w : FS.WF fs) (f : FilePath → Bool → Bool) (k : Nat) (q : FilePath) (n : Node)
    (hq : IMap.get? fs q = some n) (hk : walkFuel fs ≤ k + q.length) (p : FilePath) :
    p ∈ walk fs f k q n ↔
      IsFile fs p ∧ Under q p ∧ ∀ x m, IMap.get? fs x = some m → Under q x → Under x p → f x m.isDir = true := by
  induction k generalizing q n with
  | zero =>
    have := length_walkFuel (w.mem_iff.2 hq)
    simp only at this
    omega
  | succ k ih =>
    cases n with
    | file c =>
      simp only [walk, List.mem_ite_nil_right, List.mem_singleton]
      constructor
      · rintro ⟨hf, rfl⟩
        refine ⟨w.isFile_iff.2 ⟨c, hq⟩, Under.refl _, ?_⟩
        intro x m hx h1 h2
        obtain rfl := h1.antisymm h2
        rw [hq] at hx
        obtain rfl := Option.some.inj hx
        exact hf
      · rintro ⟨hp, hu, h⟩
        by_cases hne : q = p
        · subst hne
          exact ⟨h _ _ hq (Under.refl _) (Under.refl _), rfl⟩
        · obtain ⟨c', hp⟩ := w.isFile_iff.1 hp
          have := w.above hp hu hne
          rw [hq] at this
          cases this
    | dir =>
      simp only [walk, List.mem_ite_nil_right, List.mem_flatMap, mem_children]
      constructor
      · rintro ⟨hf, ⟨e, m⟩, ⟨he, hc⟩, h⟩
        obtain ⟨nm, rfl, h1, h2⟩ := isChild_iff.1 hc
        obtain ⟨hp, hu, h⟩ := (ih _ _ (w.mem_iff.1 he) (by simp; omega)).1 h
        have hqe : Under q (q ++ '/' :: nm) := Or.inr ⟨nm, rfl⟩
        refine ⟨hp, hqe.trans hu, ?_⟩
        intro x m' hx h3 h4
        by_cases hxe : Under (q ++ '/' :: nm) x
        · exact h x m' hx hxe h4
        · rcases hu.total h4 with h5 | h5
          · exact absurd h5 hxe
          · rcases h5.child h2 with rfl | h5
            · exact absurd (Under.refl _) hxe
            · obtain rfl := h3.antisymm h5
              rw [hq] at hx
              obtain rfl := Option.some.inj hx
              exact hf
      · rintro ⟨hp, hu, h⟩
        refine ⟨h q .dir hq (Under.refl _) hu, ?_⟩
        obtain ⟨c', hp'⟩ := w.isFile_iff.1 hp
        have hne : q ≠ p := by
          rintro rfl
          rw [hq] at hp'
          cases hp'
        obtain ⟨e, m, hc, he, h6⟩ := w.via hp' hu hne
        refine ⟨(e, m), ⟨w.mem_iff.2 he, hc⟩, ?_⟩
        obtain ⟨nm, rfl, h1, h2⟩ := isChild_iff.1 hc
        refine (ih _ _ he (by simp; omega)).2 ⟨hp, h6, ?_⟩
        intro x m' hx h7 h8
        exact h x m' hx (Under.trans (Or.inr ⟨nm, rfl⟩) h7) h8

/-- A walk sends no file twice. -/
theorem walk_nodup {fs : FS} (w : FS.WF fs) (f : FilePath → Bool → Bool) (k : Nat) (q : FilePath) (n : Node)
    (hq : IMap.get? fs q = some n) (hk : walkFuel fs ≤ k + q.length) : (walk fs f k q n).Nodup := by
  induction k generalizing q n with
  | zero => simp [walk]
  | succ k ih =>
    cases n with
    | file c => simp only [walk]; split <;> simp
    | dir =>
      simp only [walk]
      split
      · have hch : ∀ e ∈ children fs q, IMap.get? fs e.1 = some e.2 ∧ isChild q e.1 = true ∧
            walkFuel fs ≤ k + e.1.length := by
          intro e he
          obtain ⟨h1, h2⟩ := mem_children.1 he
          obtain ⟨nm, h3, h4, h5⟩ := isChild_iff.1 h2
          exact ⟨w.mem_iff.1 h1, h2, by rw [h3]; simp; omega⟩
        rw [List.nodup_flatMap]
        refine ⟨fun e he => ih _ _ (hch e he).1 (hch e he).2.2, ?_⟩
        have hnd : (children fs q).Pairwise (fun a b => a.1 ≠ b.1) := by
          have := w.nodup
          rw [IMap.Nodup, List.Nodup, List.pairwise_map] at this
          exact this.filter _
        refine hnd.imp_of_mem ?_
        intro a b ha hb hne
        simp only [Function.onFun]
        rw [List.disjoint_left]
        intro p hpa hpb
        have h1 := (mem_walk w f k _ _ (hch a ha).1 (hch a ha).2.2 p).1 hpa
        have h2 := (mem_walk w f k _ _ (hch b hb).1 (hch b hb).2.2 p).1 hpb
        exact hne (isChild_unique (hch a ha).2.1 (hch b hb).2.1 h1.2.1 h2.2.1)
      · simp

/-! ## file names and extensions -/

theorem splitOn_append_cons (d f : Str) : (d ++ '/' :: f).splitOn '/' = d.splitOn '/' ++ f.splitOn '/' := by
  induction d with
  | nil => simp [List.splitOn, List.splitOnP_cons_eq_if_modifyHead]
  | cons a d ih =>
    simp only [List.splitOn] at ih ⊢
    simp only [List.cons_append, List.splitOnP_cons_eq_if_modifyHead, ih]
    split
    · rfl
    · cases h : d.splitOnP (fun x => x == '/') with
      | nil => exact absurd h (List.splitOnP_ne_nil _ _)
      | cons b l => rfl

theorem splitOn_of_not_mem {f : Str} (h : '/' ∉ f) : f.splitOn '/' = [f] := by
  induction f with
  | nil => rfl
  | cons a f ih =>
    simp only [List.mem_cons, not_or] at h
    simp only [List.splitOn] at ih ⊢
    rw [List.splitOnP_cons_eq_if_modifyHead, ih h.2, if_neg]
    · rfl
    · simpa using fun e => h.1 e.symm

theorem fileName_child (d : FilePath) {f : Str} (h : '/' ∉ f) : fileName (d ++ '/' :: f) = f := by
  simp [fileName, comps, splitOn_append_cons, splitOn_of_not_mem h, List.getLastD_eq_getLast?]

theorem drop_takeWhile_length {α : Type _} (p : α → Bool) (l : List α) :
    l.drop (l.takeWhile p).length = l.dropWhile p := by
  induction l with
  | nil => rfl
  | cons a l ih =>
    by_cases h : p a = true
    · simp [h, ih]
    · simp [h]

theorem extension_child (d : FilePath) {f : Str} (h : '/' ∉ f) {x : Str} :
    extension (d ++ '/' :: f) = some x ↔ ∃ n, n ≠ [] ∧ f = n ++ '.' :: x ∧ '.' ∉ x := by
  simp only [extension, fileName_child d h, drop_takeWhile_length]
  constructor
  · intro hx
    have e := List.takeWhile_append_dropWhile (p := fun c => decide (c ≠ '.')) (l := f.reverse)
    cases hd : f.reverse.dropWhile (fun c => decide (c ≠ '.')) with
    | nil => rw [hd] at hx; simp at hx
    | cons a r =>
      have ha : a = '.' := by
        have := List.head_dropWhile_not (fun c => decide (c ≠ '.')) (l := f.reverse) (by rw [hd]; simp)
        simp only [hd] at this
        exact not_not.1 (of_decide_eq_false this)
      rw [hd] at hx e
      split at hx
      · cases hx
      · rename_i hl
        refine ⟨r.reverse, ?_, ?_, ?_⟩
        · intro h0
          have : r = [] := by simpa using h0
          subst this
          simp at hl
        · have := congrArg List.reverse e
          simp only [List.reverse_append, List.reverse_cons, List.reverse_reverse] at this
          rw [← this, ha, Option.some.inj hx]
          simp
        · intro hm
          rw [← Option.some.inj hx, List.mem_reverse] at hm
          have := List.all_eq_true.1 (List.all_takeWhile (p := fun c => decide (c ≠ '.')) (l := f.reverse)) _ hm
          simp at this
  · rintro ⟨n, hn, rfl, hx⟩
    have e : (n ++ '.' :: x).reverse = x.reverse ++ ('.' :: n.reverse) := by simp
    have hp : ∀ c ∈ x.reverse, decide (c ≠ '.') = true := by
      intro c hc
      simp only [List.mem_reverse] at hc
      simp only [decide_eq_true_eq]
      rintro rfl
      exact hx hc
    rw [e, List.takeWhile_append_of_pos hp, List.dropWhile_append_of_pos hp]
    have : n.length ≠ 0 := by simpa using hn
    simp [this]

theorem absolute_cases {p : FilePath} (h : Absolute p) : p = [] ∨ ∃ d f, p = d ++ '/' :: f ∧ '/' ∉ f := by
  rcases h with h | ⟨r, rfl⟩
  · exact Or.inl h
  · right
    induction r using List.reverseRecOn with
    | nil => exact ⟨[], [], rfl, by simp⟩
    | append_singleton r c ih =>
      obtain ⟨d, f, e, hf⟩ := ih
      by_cases hc : c = '/'
      · subst hc
        exact ⟨'/' :: r, [], by simp, by simp⟩
      · refine ⟨d, f ++ [c], ?_, by simp [hf, Ne.symm hc]⟩
        rw [← List.cons_append, e]
        simp

theorem supported_iff {p : FilePath} (h : Absolute p) : (ArtFileType.fromPath p).isSome = true ↔ Supported p := by
  have key : (ArtFileType.fromPath p).isSome = true ↔
      ∃ x, extension p = some x ∧ (x = c!"toml" ∨ x = c!"md" ∨ x = c!"json") := by
    unfold ArtFileType.fromPath
    cases extension p with
    | none => simp
    | some e =>
      simp only [Option.some.injEq]
      by_cases h1 : e = c!"toml"
      · simp [h1]
      by_cases h2 : e = c!"md"
      · simp [h2]
      by_cases h3 : e = c!"json"
      · simp [h3]
      · simp [h1, h2, h3]
  rw [key]
  rcases absolute_cases h with rfl | ⟨d, f, rfl, hf⟩
  · constructor
    · rintro ⟨x, hx, _⟩
      exact absurd hx (by simp [extension, fileName, comps])
    · rintro ⟨d, n, x, e, _⟩
      simp at e
  · constructor
    · rintro ⟨x, hx, hx'⟩
      obtain ⟨n, hn, rfl, _⟩ := (extension_child d hf).1 hx
      simp only [List.mem_append, not_or] at hf
      exact ⟨d, n, x, rfl, hn, hf.1, hx'⟩
    · rintro ⟨d', n, x, e, hn, hn', hx⟩
      have hx' : '/' ∉ x ∧ '.' ∉ x := by rcases hx with rfl | rfl | rfl <;> decide
      refine ⟨x, ?_, hx⟩
      rw [e]
      exact (extension_child d' (by simp [hn', hx'.1])).2 ⟨n, hn, rfl, hx'.2⟩

theorem FS.WF.absolute {fs : FS} (w : FS.WF fs) {p : FilePath} {n : Node} (h : IMap.get? fs p = some n) :
    Absolute p := by
  induction hl : p.length using Nat.strong_induction_on generalizing p n with
  | _ l ih =>
    by_cases hp0 : p = []
    · exact Or.inl hp0
    · obtain ⟨q', m, e, _, _, h3⟩ := w.parent _ (w.mem_iff.2 h) hp0
      simp only at e
      subst e
      rcases ih q'.length (by subst hl; simp) h3 rfl with rfl | ⟨r, rfl⟩
      · exact Or.inr ⟨m, rfl⟩
      · exact Or.inr ⟨r ++ '/' :: m, by simp⟩

end Art
