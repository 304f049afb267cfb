import Verif.Lemmas.PatternParse

namespace Art
open Spec

variable {U : CharData}

/-! ## what the matcher finds -/

theorem inClass_iff (i neg : Bool) (l : List Item) (c : Char) : inClass U i neg l c = true ↔ InClass U i neg l c := by
  have hhas : ∀ d it, Item.has U d it = true ↔ Member U d it := by
    intro d it
    cases it with
    | range lo hi => simp [Item.has, Member]
    | perl k n => cases n <;> simp [Item.has, Member]
  unfold inClass InClass
  simp only [← hhas]
  cases i <;> cases neg <;> simp

namespace Pat

theorem iter_sound' {g : Bool} {L : Option Char → Str → Str → Prop} {f : Option Char → Str → List Match}
    (hf : ∀ p s m r c, (m, r, c) ∈ f p s → s = m ++ r ∧ L p m r) (n : Nat) : ∀ p s m r c, (m, r, c) ∈ iter g f n p s → s = m ++ r ∧ Pieces L p m r := by
  induction n with
  | zero =>
    intro p s m r c h
    simp only [iter, List.mem_singleton, Prod.mk.injEq] at h
    obtain ⟨rfl, rfl, _⟩ := h
    exact ⟨rfl, .nil _ _⟩
  | succ n ih =>
    intro p s m r c h
    have h' : (m, r, c) = ([], s, []) ∨ ∃ x ∈ f p s, x.1 ≠ [] ∧ ∃ y ∈ iter g f n (after p x.1) x.2.1, (m, r, c) = (x.1 ++ y.1, y.2.1, x.2.2 ++ y.2.2) := by
      simp only [iter] at h
      have hm : ∀ z : Match, z ∈ ((f p s).flatMap fun (m, r, c) => if m = [] then [] else (iter g f n (after p m) r).map fun (m', r', c') => (m ++ m', r', c ++ c')) →
          ∃ x ∈ f p s, x.1 ≠ [] ∧ ∃ y ∈ iter g f n (after p x.1) x.2.1, z = (x.1 ++ y.1, y.2.1, x.2.2 ++ y.2.2) := by
        intro z hz
        obtain ⟨x, hx, hz⟩ := List.mem_flatMap.mp hz
        obtain ⟨m, r, c⟩ := x
        simp only at hz
        split at hz
        · cases hz
        · rename_i hne
          obtain ⟨y, hy, rfl⟩ := List.mem_map.mp hz
          exact ⟨_, hx, hne, y, hy, rfl⟩
      cases g
      · simp only [Bool.false_eq_true, if_false, List.mem_cons] at h
        exact h.imp id (hm _)
      · simp only [if_true, List.mem_append, List.mem_singleton] at h
        exact h.symm.imp id (hm _)
    rcases h' with h' | ⟨⟨x1, x2, x3⟩, hx, _, ⟨y1, y2, y3⟩, hy, e⟩
    · simp only [Prod.mk.injEq] at h'
      obtain ⟨rfl, rfl, _⟩ := h'
      exact ⟨rfl, .nil _ _⟩
    · simp only [Prod.mk.injEq] at e
      obtain ⟨rfl, rfl, _⟩ := e
      obtain ⟨e1, l1⟩ := hf _ _ _ _ _ hx
      obtain ⟨e2, l2⟩ := ih _ _ _ _ _ hy
      simp only at e2 l2
      subst e2
      exact ⟨by rw [e1, List.append_assoc], .cons l1 l2⟩

theorem iter_complete' {g : Bool} {L : Option Char → Str → Str → Prop} {f : Option Char → Str → List Match}
    (hf : ∀ p m r, L p m r → ∃ c, (m, r, c) ∈ f p (m ++ r)) {p : Option Char} {m r : Str} (h : Pieces L p m r) :
    ∀ n, m.length ≤ n → ∃ c, (m, r, c) ∈ iter g f n p (m ++ r) := by
  induction h with
  | nil p r =>
    intro n _
    cases n with
    | zero => exact ⟨[], by simp [iter]⟩
    | succ n => exact ⟨[], by cases g <;> simp [iter]⟩
  | @cons p x y r hx hy ih =>
    intro n hn
    by_cases hxe : x = []
    · subst hxe
      exact ih n hn
    · cases n with
      | zero =>
        cases x with
        | nil => exact absurd rfl hxe
        | cons a x => simp at hn
      | succ n =>
        have hxl : 1 ≤ x.length := List.length_pos_of_ne_nil hxe
        obtain ⟨c1, h1⟩ := hf _ _ _ hx
        obtain ⟨c2, h2⟩ := ih n (by rw [List.length_append] at hn; omega)
        refine ⟨c1 ++ c2, ?_⟩
        have hm : (x ++ y, r, c1 ++ c2) ∈ ((f p (x ++ y ++ r)).flatMap fun (m, r, c) => if m = [] then [] else
            (iter g f n (after p m) r).map fun (m', r', c') => (m ++ m', r', c ++ c')) := by
          rw [List.append_assoc]
          refine List.mem_flatMap.mpr ⟨_, h1, ?_⟩
          simp only [if_neg hxe]
          exact List.mem_map.mpr ⟨_, h2, rfl⟩
        cases g
        · simp only [iter, Bool.false_eq_true, if_false]
          exact List.mem_cons_of_mem _ hm
        · simp only [iter, if_true]
          exact List.mem_append_left _ hm

theorem ms_sound' (a : Pat) : ∀ p s m r c, (m, r, c) ∈ ms U a p s → s = m ++ r ∧ Stands U a p m r := by
  induction a with
  | eps =>
    intro p s m r c h
    simp only [ms, List.mem_singleton, Prod.mk.injEq] at h
    obtain ⟨rfl, rfl, _⟩ := h
    exact ⟨rfl, rfl⟩
  | cls i neg l =>
    intro p s m r c h
    cases s with
    | nil => cases h
    | cons d s =>
      simp only [ms] at h
      split at h
      · rename_i hc
        simp only [List.mem_singleton, Prod.mk.injEq] at h
        obtain ⟨rfl, rfl, _⟩ := h
        exact ⟨rfl, d, rfl, (inClass_iff _ _ _ _).mp hc⟩
      · cases h
  | dot nl =>
    intro p s m r c h
    cases s with
    | nil => cases h
    | cons d s =>
      simp only [ms] at h
      split at h
      · rename_i hc
        simp only [List.mem_singleton, Prod.mk.injEq] at h
        obtain ⟨rfl, rfl, _⟩ := h
        exact ⟨rfl, d, rfl, by simpa using hc⟩
      · cases h
  | bol b =>
    intro p s m r c h
    simp only [ms] at h
    split at h
    · rename_i hc
      simp only [List.mem_singleton, Prod.mk.injEq] at h
      obtain ⟨rfl, rfl, _⟩ := h
      exact ⟨rfl, rfl, by simpa [atBol] using hc⟩
    · cases h
  | eol b =>
    intro p s m r c h
    simp only [ms] at h
    split at h
    · rename_i hc
      simp only [List.mem_singleton, Prod.mk.injEq] at h
      obtain ⟨rfl, rfl, _⟩ := h
      exact ⟨rfl, rfl, by simpa [atEnd] using hc⟩
    · cases h
  | seq a b ha hb =>
    intro p s m r c h
    simp only [ms, List.mem_flatMap, List.mem_map] at h
    obtain ⟨⟨m1, r1, c1⟩, h1, ⟨m2, r2, c2⟩, h2, e⟩ := h
    simp only [Prod.mk.injEq] at e h2
    obtain ⟨rfl, rfl, _⟩ := e
    obtain ⟨e1, l1⟩ := ha _ _ _ _ _ h1
    obtain ⟨e2, l2⟩ := hb _ _ _ _ _ h2
    subst e2
    exact ⟨by rw [e1, List.append_assoc], m1, m2, rfl, l1, l2⟩
  | alt a b ha hb =>
    intro p s m r c h
    rcases List.mem_append.mp h with h | h
    · exact ⟨(ha _ _ _ _ _ h).1, .inl (ha _ _ _ _ _ h).2⟩
    · exact ⟨(hb _ _ _ _ _ h).1, .inr (hb _ _ _ _ _ h).2⟩
  | star g a ha => exact fun p s => iter_sound' ha s.length p s
  | cap n a ha =>
    intro p s m r c h
    simp only [ms, List.mem_map] at h
    obtain ⟨⟨m1, r1, c1⟩, h1, e⟩ := h
    simp only [Prod.mk.injEq] at e
    obtain ⟨rfl, rfl, _⟩ := e
    exact ha _ _ _ _ _ h1

theorem ms_complete' (a : Pat) : ∀ p m r, Stands U a p m r → ∃ c, (m, r, c) ∈ ms U a p (m ++ r) := by
  induction a with
  | eps =>
    rintro p m r rfl
    exact ⟨[], by simp [ms]⟩
  | cls i neg l =>
    rintro p m r ⟨c, rfl, hc⟩
    exact ⟨[], by simp [ms, (inClass_iff _ _ _ _).mpr hc]⟩
  | dot nl =>
    rintro p m r ⟨c, rfl, hc⟩
    refine ⟨[], ?_⟩
    have : (nl || c != '\n') = true := by simpa using hc
    simp [ms, this]
  | bol b =>
    rintro p m r ⟨rfl, hc⟩
    have : atBol b p = true := by simpa [atBol] using hc
    exact ⟨[], by simp [ms, this]⟩
  | eol b =>
    rintro p m r ⟨rfl, hc⟩
    have : atEnd b r = true := by simpa [atEnd] using hc
    exact ⟨[], by simp [ms, this]⟩
  | seq a b ha hb =>
    rintro p m r ⟨x, y, rfl, h1, h2⟩
    obtain ⟨c1, k1⟩ := ha _ _ _ h1
    obtain ⟨c2, k2⟩ := hb _ _ _ h2
    refine ⟨c1 ++ c2, ?_⟩
    rw [List.append_assoc]
    exact List.mem_flatMap.mpr ⟨_, k1, List.mem_map.mpr ⟨_, k2, rfl⟩⟩
  | alt a b ha hb =>
    rintro p m r (h | h)
    · obtain ⟨c, k⟩ := ha _ _ _ h
      exact ⟨c, List.mem_append_left _ k⟩
    · obtain ⟨c, k⟩ := hb _ _ _ h
      exact ⟨c, List.mem_append_right _ k⟩
  | star g a ha =>
    intro p m r h
    exact iter_complete' ha h _ (by simp)
  | cap n a ha =>
    intro p m r h
    obtain ⟨c, k⟩ := ha _ _ _ h
    exact ⟨(n, m) :: c, List.mem_map.mpr ⟨_, k, rfl⟩⟩

theorem here_isSome' (a : Pat) (p : Option Char) (s : Str) : (here U a p s).isSome = true ↔ ∃ m post, s = m ++ post ∧ Stands U a p m post := by
  unfold here
  constructor
  · intro h
    cases hl : ms U a p s with
    | nil => rw [hl] at h; cases h
    | cons x l =>
      obtain ⟨m, r, c⟩ := x
      exact ⟨m, r, ms_sound' a p s m r c (by rw [hl]; simp)⟩
  · rintro ⟨m, post, rfl, h⟩
    obtain ⟨c, k⟩ := ms_complete' a p m post h
    cases hl : ms U a p (m ++ post) with
    | nil => rw [hl] at k; cases k
    | cons x l => rfl

theorem find_isSome' (a : Pat) (p : Option Char) (s : Str) :
    (find U a p s).isSome = true ↔ ∃ pre m post, s = pre ++ (m ++ post) ∧ Stands U a (pre.getLast?.or p) m post := by
  induction s generalizing p with
  | nil =>
    rw [find, here_isSome']
    constructor
    · rintro ⟨m, post, e, h⟩
      exact ⟨[], m, post, e, h⟩
    · rintro ⟨pre, m, post, e, h⟩
      have hp : pre = [] := by cases pre <;> simp_all
      subst hp
      exact ⟨m, post, e, h⟩
  | cons c s ih =>
    rw [find, Option.isSome_or, Bool.or_eq_true, here_isSome', ih]
    constructor
    · rintro (⟨m, post, e, h⟩ | ⟨pre, m, post, e, h⟩)
      · exact ⟨[], m, post, e, h⟩
      · refine ⟨c :: pre, m, post, by rw [e]; rfl, ?_⟩
        have : ((c :: pre).getLast?).or p = pre.getLast?.or (some c) := by
          cases pre with
          | nil => rfl
          | cons d pre => simp [List.getLast?_cons]
        rw [this]
        exact h
    · rintro ⟨pre, m, post, e, h⟩
      cases pre with
      | nil => exact .inl ⟨m, post, e, h⟩
      | cons d pre =>
        simp only [List.cons_append, List.cons.injEq] at e
        obtain ⟨rfl, rfl⟩ := e
        refine .inr ⟨pre, m, post, rfl, ?_⟩
        have : ((c :: pre).getLast?).or p = pre.getLast?.or (some c) := by
          cases pre with
          | nil => rfl
          | cons d pre => simp [List.getLast?_cons]
        rw [this] at h
        exact h

end Pat

theorem isMatch_iff (r : Rx) (t : Str) : r.isMatch U t = true ↔ Occurs U r.pat t := by
  unfold Rx.isMatch Occurs
  rw [Pat.find_isSome']
  simp

/-! ## without regard to case -/

section
variable {fold : Char → Char}

/-- The classes do not regard case. -/
def Pat.caseFree : Pat → Bool
  | .cls i _ l => i || l.all (fun it => match it with | .perl _ _ => true | .range _ _ => false)
  | .seq a b | .alt a b => caseFree a && caseFree b
  | .star _ a | .cap _ a => caseFree a
  | _ => true

theorem fold_nl (h : CharsOk U fold) {c d : Char} (e : fold c = fold d) : c = '\n' ↔ d = '\n' := by
  have key : ∀ x : Char, fold x = fold '\n' → x = '\n' := by
    intro x hx
    have := (h.ascii x '\n' (by decide)).mp hx
    rw [char_eq, foldC_toNat, foldC_toNat] at this
    rw [char_eq]
    have h10 : ('\n' : Char).toNat = 10 := by decide
    rw [h10] at this ⊢
    split_ifs at this <;> omega
  constructor
  · rintro rfl; exact key d e.symm
  · rintro rfl; exact key c e

theorem inClass_fold (h : CharsOk U fold) {i neg : Bool} {l : List Item} (hl : (Pat.cls i neg l).caseFree = true) {c d : Char} (e : fold c = fold d) :
    inClass U i neg l c = inClass U i neg l d := by
  unfold inClass
  cases i with
  | true =>
    have : ∀ x, x ∈ U.same c ↔ x ∈ U.same d := fun x => by rw [h.same, h.same, e]
    have : (U.same c).any (fun d => l.any (Item.has U d)) = (U.same d).any (fun d => l.any (Item.has U d)) := by
      rw [Bool.eq_iff_iff, List.any_eq_true, List.any_eq_true]
      simp only [this]
    simp [this]
  | false =>
    simp only [Pat.caseFree, Bool.false_or, List.all_eq_true] at hl
    have : l.any (Item.has U c) = l.any (Item.has U d) := by
      rw [Bool.eq_iff_iff, List.any_eq_true, List.any_eq_true]
      constructor
      · rintro ⟨it, h1, h2⟩
        refine ⟨it, h1, ?_⟩
        cases it with
        | range lo hi => exact absurd (hl _ h1) (by simp)
        | perl k n => simpa [Item.has, ← h.perl k c d e] using h2
      · rintro ⟨it, h1, h2⟩
        refine ⟨it, h1, ?_⟩
        cases it with
        | range lo hi => exact absurd (hl _ h1) (by simp)
        | perl k n => simpa [Item.has, h.perl k c d e] using h2
    simp [this]

theorem map_getLast? (p : Option Char) (x : Str) : (x.getLast?.or p).map fold = ((x.map fold).getLast?).or (p.map fold) := by
  rw [List.getLast?_map]
  cases x.getLast? <;> rfl

theorem map_append_split {x y m : Str} (e : m.map fold = (x ++ y).map fold) : ∃ x' y', m = x' ++ y' ∧ x'.map fold = x.map fold ∧ y'.map fold = y.map fold := by
  rw [List.map_append] at e
  obtain ⟨x', y', e1, e2, e3⟩ := List.map_eq_append_iff.mp e
  exact ⟨x', y', e1, e2, e3⟩

theorem pieces_fold {L L' : Option Char → Str → Str → Prop}
    (hL : ∀ {p p' m m' r r'}, L p m r → p'.map fold = p.map fold → m'.map fold = m.map fold → r'.map fold = r.map fold → L' p' m' r')
    {p : Option Char} {m r : Str} (h : Pieces L p m r) : ∀ {p' : Option Char} {m' r' : Str}, p'.map fold = p.map fold → m'.map fold = m.map fold → r'.map fold = r.map fold →
      Pieces L' p' m' r' := by
  induction h with
  | nil p r =>
    intro p' m' r' _ hm _
    have : m' = [] := by simpa using hm
    subst this
    exact .nil _ _
  | cons hx _ ih =>
    intro p' m' r' hp hm hr
    obtain ⟨x', y', rfl, e1, e2⟩ := map_append_split hm
    refine .cons (hL hx hp e1 ?_) (ih ?_ e2 hr)
    · rw [List.map_append, List.map_append, e2, hr]
    · rw [map_getLast?, map_getLast?, e1, hp]

theorem stands_fold (h : CharsOk U fold) {a : Pat} (ha : a.caseFree = true) : ∀ {p p' : Option Char} {m m' r r' : Str}, Stands U a p m r →
    p'.map fold = p.map fold → m'.map fold = m.map fold → r'.map fold = r.map fold → Stands U a p' m' r' := by
  have one : ∀ {m' : Str} {c : Char}, m'.map fold = [fold c] → ∃ d, m' = [d] ∧ fold d = fold c := by
    intro m' c e
    match m', e with
    | [d], e => exact ⟨d, rfl, by simpa using e⟩
    | [], e => simp at e
    | _ :: _ :: _, e => simp at e
  induction a with
  | eps =>
    rintro p p' m m' r r' rfl _ e _
    exact (by simpa using e : m' = [])
  | cls i neg l =>
    rintro p p' m m' r r' ⟨c, rfl, hc⟩ _ e _
    obtain ⟨d, rfl, hd⟩ := one e
    refine ⟨d, rfl, ?_⟩
    rw [← inClass_iff] at hc ⊢
    rw [inClass_fold h ha hd]
    exact hc
  | dot nl =>
    rintro p p' m m' r r' ⟨c, rfl, hc⟩ _ e _
    obtain ⟨d, rfl, hd⟩ := one e
    exact ⟨d, rfl, hc.imp id fun hn hd' => hn ((fold_nl h hd).mp hd')⟩
  | bol b =>
    rintro p p' m m' r r' ⟨rfl, hc⟩ ep e _
    refine ⟨by simpa using e, ?_⟩
    rcases hc with rfl | ⟨hb, rfl⟩
    · exact .inl (by simpa using ep)
    · obtain ⟨d, hd, hf⟩ := Option.map_eq_some_iff.mp (show p'.map fold = some (fold '\n') from ep)
      exact .inr ⟨hb, by rw [hd, (fold_nl h hf).mpr rfl]⟩
  | eol b =>
    rintro p p' m m' r r' ⟨rfl, hc⟩ _ e er
    refine ⟨by simpa using e, ?_⟩
    rcases hc with rfl | ⟨hb, hr⟩
    · exact .inl (by simpa using er)
    · cases r with
      | nil => cases hr
      | cons c r =>
        cases r' with
        | nil => simp at er
        | cons c' r' =>
          simp only [List.map_cons, List.cons.injEq] at er
          simp only [List.head?_cons, Option.some.injEq] at hr
          exact .inr ⟨hb, by simp [(fold_nl h er.1).mpr hr]⟩
  | seq a b iha ihb =>
    simp only [Pat.caseFree, Bool.and_eq_true] at ha
    rintro p p' m m' r r' ⟨x, y, rfl, h1, h2⟩ hp e hr
    obtain ⟨x', y', rfl, e1, e2⟩ := map_append_split e
    refine ⟨x', y', rfl, iha ha.1 h1 hp e1 ?_, ihb ha.2 h2 ?_ e2 hr⟩
    · rw [List.map_append, List.map_append, e2, hr]
    · rw [map_getLast?, map_getLast?, e1, hp]
  | alt a b iha ihb =>
    simp only [Pat.caseFree, Bool.and_eq_true] at ha
    rintro p p' m m' r r' (h1 | h1) hp e hr
    · exact .inl (iha ha.1 h1 hp e hr)
    · exact .inr (ihb ha.2 h1 hp e hr)
  | star g a iha =>
    intro p p' m m' r r' h1 hp e hr
    exact pieces_fold (fun h1 => iha ha h1) h1 hp e hr
  | cap n a iha =>
    intro p p' m m' r r' h1 hp e hr
    exact iha ha h1 hp e hr

theorem occurs_fold (h : CharsOk U fold) {a : Pat} (ha : a.caseFree = true) {t t' : Str} (e : t'.map fold = t.map fold) (ho : Occurs U a t) : Occurs U a t' := by
  obtain ⟨pre, m, post, rfl, hs⟩ := ho
  obtain ⟨pre', z, rfl, e1, e2⟩ := map_append_split e
  obtain ⟨m', post', rfl, e3, e4⟩ := map_append_split e2
  refine ⟨pre', m', post', rfl, stands_fold h ha hs ?_ e3 e4⟩
  rw [← List.getLast?_map, ← List.getLast?_map, e1]

end
end Art

namespace Art
open Spec

/-! ## reading a text without option groups -/

/-- A piece that was read does not regard case. -/
def OkPiece (o : Option Pat) : Prop := ∀ a, o = some a → a.caseFree = true

/-- All that was read does not regard case. -/
structure PState.Blind (st : PState) : Prop where
  i : st.flags.i = true
  x : st.flags.x = false
  cur : ∀ o ∈ st.cur, OkPiece o
  alts : ∀ o ∈ st.alts, OkPiece o
  stack : ∀ f ∈ st.stack, f.flags.i = true ∧ f.flags.x = false ∧ (∀ o ∈ f.cur, OkPiece o) ∧ ∀ o ∈ f.alts, OkPiece o

theorem OkPiece.some {a : Pat} (h : a.caseFree = true) : OkPiece (some a) := fun b e => by cases e; exact h

theorem caseFree_cat {l : List (Option Pat)} (h : ∀ o ∈ l, OkPiece o) : (catPat l).caseFree = true := by
  have key : ∀ (l : List (Option Pat)) (t : Pat), (∀ o ∈ l, OkPiece o) → t.caseFree = true → (l.foldl catStep t).caseFree = true := by
    intro l
    induction l with
    | nil => intro t _ ht; exact ht
    | cons o l ih =>
      intro t hl ht
      refine ih _ (fun o ho => hl o (by simp [ho])) ?_
      cases o with
      | none => exact ht
      | some a =>
        have := hl (some a) (by simp) a rfl
        simp [catStep, Pat.caseFree, this, ht]
  exact key l .eps h rfl

theorem caseFree_altEnd {l : List (Option Pat)} {o : Option Pat} (h : ∀ o ∈ l, OkPiece o) (he : altEnd l = some o) : OkPiece o := by
  unfold altEnd at he
  split at he
  · cases he
    intro a e
    cases e
  · split at he
    · cases he
    · cases he
      exact .some (caseFree_cat h)

theorem caseFree_altPat {l : List Pat} {a : Pat} (h : ∀ b ∈ l, b.caseFree = true) (he : altPat l = some a) : a.caseFree = true := by
  induction l generalizing a with
  | nil => cases he
  | cons b l ih =>
    cases l with
    | nil => cases he; exact h _ (by simp)
    | cons c l =>
      simp only [altPat, Option.map_eq_some_iff] at he
      obtain ⟨d, hd, rfl⟩ := he
      have h1 := h b (by simp)
      have h2 := ih (fun x hx => h x (by simp [hx])) hd
      simp [Pat.caseFree, h1, h2]

theorem caseFree_altsEnd {alts cur : List (Option Pat)} {a : Pat} (h1 : ∀ o ∈ alts, OkPiece o) (h2 : ∀ o ∈ cur, OkPiece o) (he : altsEnd alts cur = some a) : a.caseFree = true := by
  unfold altsEnd at he
  split at he
  · cases he
    exact caseFree_cat h2
  · cases hl : altEnd cur with
    | none => rw [hl] at he; cases he
    | some last =>
      rw [hl] at he
      refine caseFree_altPat ?_ (show altPat ((last :: alts).reverse.filterMap id) = some a from he)
      intro b hb
      simp only [List.mem_filterMap, List.mem_reverse, List.mem_cons, id] at hb
      obtain ⟨o, ho, rfl⟩ := hb
      rcases ho with rfl | ho
      · exact caseFree_altEnd h2 hl _ rfl
      · exact h1 _ ho _ rfl

theorem classChar_suffix {s t : Str} {c : Char} (h : classChar false s = some (c, t)) : t <:+ s := by
  unfold classChar at h
  split at h
  · cases h
  · simp only [Option.map_eq_some_iff, Prod.mk.injEq] at h
    obtain ⟨_, _, _, rfl⟩ := h
    exact (List.suffix_cons _ _).trans (List.suffix_cons _ _)
  · split at h
    · cases h
    · cases h
      exact List.suffix_cons _ _

theorem classRange_suffix {s t : Str} {lo : Char} {it : Item} (h : classRange false lo s = some (it, t)) : t <:+ s := by
  unfold classRange at h
  split at h
  · simp only [Option.bind_eq_some_iff] at h
    obtain ⟨⟨hi, u⟩, h1, h2⟩ := h
    simp only at h2
    split at h2
    · cases h2
      exact (classChar_suffix h1).trans (List.suffix_cons _ _)
    · cases h2
  · cases h
    exact List.suffix_rfl

theorem classNext_suffix {s t : Str} {it : Option Item} (h : classNext false s = some (it, t)) : t <:+ s := by
  cases s with
  | nil => cases h
  | cons c s =>
    simp only [classNext, Bool.false_and, Bool.false_eq_true, if_false] at h
    split at h
    · cases h
      exact (List.tail_suffix s).trans (List.suffix_cons _ _)
    · simp only [Option.bind_eq_some_iff, Option.map_eq_some_iff] at h
      obtain ⟨⟨d, u⟩, h1, ⟨it', v⟩, h2, h3⟩ := h
      cases h3
      exact (classRange_suffix h2).trans (classChar_suffix h1)

theorem classItems_suffix {n : Nat} {s t : Str} {l l' : List Item} (h : classItems false n s l = some (l', t)) : t <:+ s := by
  induction n generalizing s l with
  | zero => cases h
  | succ n ih =>
    simp only [classItems] at h
    split at h
    · split at h
      · cases h
      · cases h
        exact List.tail_suffix s
    · simp only [Option.bind_eq_some_iff] at h
      obtain ⟨⟨it, u⟩, h1, h2⟩ := h
      exact (ih h2).trans (classNext_suffix h1)

theorem PState.Blind.push {st : PState} (h : st.Blind) {a : Pat} (ha : a.caseFree = true) : (st.push a).Blind :=
  ⟨h.i, h.x, by
    intro o ho
    rcases List.mem_cons.mp ho with rfl | ho
    · exact .some ha
    · exact h.cur o ho, h.alts, h.stack⟩

theorem caseFree_rep (c : Char) (g : Bool) {a : Pat} (h : a.caseFree = true) : (repPat c g a).caseFree = true := by
  unfold repPat
  split
  · exact h
  · simp [Pat.caseFree, h]
  · split <;> simp [Pat.caseFree, h]

theorem PState.Blind.repeated {st st' : PState} (h : st.Blind) {c : Char} {g : Bool} (he : st.repeated (repPat c g) = some st') : st'.Blind := by
  unfold PState.repeated at he
  split at he
  · rename_i a l hc
    cases he
    refine ⟨h.i, h.x, ?_, h.alts, h.stack⟩
    intro o ho
    rcases List.mem_cons.mp ho with rfl | ho
    · exact .some (caseFree_rep c g (h.cur (Option.some a) (by rw [hc]; simp) a rfl))
    · exact h.cur o (by rw [hc]; simp [ho])
  · cases he

theorem PState.Blind.close {st st' : PState} (h : st.Blind) (he : st.closeGroup = some st') : st'.Blind := by
  unfold PState.closeGroup at he
  split at he
  · cases he
  · rename_i f stack hs
    split at he
    · cases he
    · simp only [Option.map_eq_some_iff] at he
      obtain ⟨a, ha, rfl⟩ := he
      obtain ⟨f1, f2, f3, f4⟩ := h.stack f (by rw [hs]; simp)
      have ha' := caseFree_altsEnd h.alts h.cur ha
      refine ⟨f1, f2, ?_, f4, fun g hg => h.stack g (by rw [hs]; simp [hg])⟩
      intro o ho
      rcases List.mem_cons.mp ho with rfl | ho
      · cases f.cap <;> exact .some ha'
      · exact f3 o ho

theorem PState.Blind.step {st st' : PState} {s t : Str} (h : st.Blind) (hs : ¬ c!"(?" <:+: s) (he : st.step s = some (st', t)) : st'.Blind ∧ t <:+ s := by
  cases s with
  | nil => cases he
  | cons c r =>
    simp only [PState.step, h.x, Bool.false_and, Bool.false_eq_true, if_false] at he
    split at he
    · split at he
      · exact absurd ⟨[], _, rfl⟩ hs
      · exact absurd ⟨[], _, rfl⟩ hs
      · cases he
        refine ⟨⟨h.i, h.x, by simp [PState.openGroup], by simp [PState.openGroup], ?_⟩, List.suffix_cons _ _⟩
        intro f hf
        rcases List.mem_cons.mp hf with rfl | hf
        · exact ⟨h.i, h.x, h.cur, h.alts⟩
        · exact h.stack f hf
    · simp only [Option.map_eq_some_iff, Prod.mk.injEq] at he
      obtain ⟨st1, h1, rfl, rfl⟩ := he
      exact ⟨h.close h1, List.suffix_cons _ _⟩
    · simp only [Option.map_eq_some_iff, Prod.mk.injEq] at he
      obtain ⟨a, h1, rfl, rfl⟩ := he
      refine ⟨⟨h.i, h.x, by simp, ?_, h.stack⟩, List.suffix_cons _ _⟩
      intro o ho
      rcases List.mem_cons.mp ho with rfl | ho
      · exact caseFree_altEnd h.cur h1
      · exact h.alts o ho
    · simp only [Option.map_eq_some_iff, Prod.mk.injEq] at he
      obtain ⟨⟨l, u⟩, h1, rfl, rfl⟩ := he
      refine ⟨h.push (by simp [Pat.caseFree, h.i]), (classItems_suffix h1).trans ?_⟩
      split
      · exact ⟨['[', '^'], rfl⟩
      · exact List.suffix_cons _ _
    · cases he
      exact ⟨h.push rfl, List.suffix_cons _ _⟩
    · cases he
      exact ⟨h.push rfl, List.suffix_cons _ _⟩
    · cases he
      exact ⟨h.push rfl, List.suffix_cons _ _⟩
    · cases he
    · split at he
      · cases he
      · rename_i d r
        split at he
        · rename_i it hit
          cases he
          refine ⟨h.push ?_, (List.suffix_cons _ _).trans (List.suffix_cons _ _)⟩
          unfold escClass at hit
          split at hit <;> first | (cases hit; rfl) | cases hit
        · simp only [Option.map_eq_some_iff, Prod.mk.injEq] at he
          obtain ⟨e, _, rfl, rfl⟩ := he
          exact ⟨h.push (by simp [litPat, Pat.caseFree, h.i]), (List.suffix_cons _ _).trans (List.suffix_cons _ _)⟩
    · split at he
      · split at he
        · simp only [Option.map_eq_some_iff, Prod.mk.injEq] at he
          obtain ⟨st1, h1, rfl, rfl⟩ := he
          exact ⟨h.repeated h1, (List.suffix_cons _ _).trans (List.suffix_cons _ _)⟩
        · simp only [Option.map_eq_some_iff, Prod.mk.injEq] at he
          obtain ⟨st1, h1, rfl, rfl⟩ := he
          exact ⟨h.repeated h1, List.suffix_cons _ _⟩
      · cases he
        exact ⟨h.push (by simp [litPat, Pat.caseFree, h.i]), List.suffix_cons _ _⟩

theorem PState.Blind.run {n : Nat} {st st' : PState} {s : Str} (h : st.Blind) (hs : ¬ c!"(?" <:+: s) (he : st.run n s = some st') : st'.Blind := by
  induction n generalizing st s with
  | zero =>
    cases s with
    | nil => simp only [PState.run, Option.some.injEq] at he; exact he ▸ h
    | cons c s => cases he
  | succ n ih =>
    cases s with
    | nil => simp only [PState.run, Option.some.injEq] at he; exact he ▸ h
    | cons c s =>
      simp only [PState.run, Option.bind_eq_some_iff] at he
      obtain ⟨⟨st1, t⟩, h1, h2⟩ := he
      obtain ⟨b, hsuf⟩ := h.step hs h1
      exact ih b (fun hi => hs (hi.trans hsuf.isInfix)) h2

theorem caseFree_parse {p : Str} {r : Rx} (hp : ¬ c!"(?" <:+: p) (h : Rx.parse (c!"(?i)" ++ p) = some r) : r.pat.caseFree = true := by
  unfold Rx.parse at h
  have hl : (c!"(?i)" ++ p).length = (p.length + 3) + 1 := by simp
  rw [hl, run_i] at h
  simp only [Option.bind_eq_some_iff] at h
  obtain ⟨st, h1, h2⟩ := h
  have b0 : ({ flags := { i := true }, cur := [none] } : PState).Blind :=
    ⟨rfl, rfl, (by intro o ho; simp at ho; subst ho; intro a e; cases e), (by simp), (by simp)⟩
  have b := b0.run hp h1
  unfold PState.finish at h2
  split at h2
  · simp only [Option.map_eq_some_iff] at h2
    obtain ⟨a, ha, rfl⟩ := h2
    exact caseFree_altsEnd b.alts b.cur ha
  · cases h2

/-! ## a word -/

theorem stands_litsI {U : CharData} {fold : Char → Char} (h : CharsOk U fold) (w : Str) : ∀ (p : Option Char) (m r : Str),
    Stands U (litsP true w) p m r ↔ m.map fold = w.map fold := by
  induction w with
  | nil =>
    intro p m r
    show m = [] ↔ _
    simp
  | cons c w ih =>
    intro p m r
    show (∃ x y, m = x ++ y ∧ (∃ d, x = [d] ∧ InClass U true false [.range c c] d) ∧ Stands U (litsP true w) (x.getLast?.or p) y r) ↔ _
    constructor
    · rintro ⟨x, y, rfl, ⟨d, rfl, hd⟩, hy⟩
      rw [← inClass_iff, inClass_litI h, beq_iff_eq] at hd
      rw [ih] at hy
      simp [hd, hy]
    · intro e
      cases m with
      | nil => simp at e
      | cons d m =>
        simp only [List.map_cons, List.cons.injEq] at e
        refine ⟨[d], m, rfl, ⟨d, rfl, ?_⟩, (ih _ _ _).mpr e.2⟩
        rw [← inClass_iff, inClass_litI h, beq_iff_eq]
        exact e.1

theorem stands_lits {U : CharData} (w : Str) : ∀ (p : Option Char) (m r : Str), Stands U (litsP false w) p m r ↔ m = w := by
  induction w with
  | nil => intro p m r; exact Iff.rfl
  | cons c w ih =>
    intro p m r
    show (∃ x y, m = x ++ y ∧ (∃ d, x = [d] ∧ InClass U false false [.range c c] d) ∧ Stands U (litsP false w) (x.getLast?.or p) y r) ↔ _
    constructor
    · rintro ⟨x, y, rfl, ⟨d, rfl, hd⟩, hy⟩
      rw [← inClass_iff, inClass_lit, beq_iff_eq] at hd
      rw [ih] at hy
      simp [hd, hy]
    · rintro rfl
      refine ⟨[c], w, rfl, ⟨c, rfl, ?_⟩, (ih _ _ _).mpr rfl⟩
      rw [← inClass_iff, inClass_lit, beq_iff_eq]

theorem occurs_seq_eps {U : CharData} {a : Pat} {t : Str} : Occurs U (.seq a .eps) t ↔ Occurs U a t := by
  constructor
  · rintro ⟨pre, m, post, rfl, x, y, rfl, h1, h2⟩
    have : y = [] := h2
    subst this
    exact ⟨pre, x, post, by simp, h1⟩
  · rintro ⟨pre, m, post, rfl, h⟩
    exact ⟨pre, m, post, rfl, m, [], by simp, h, rfl⟩

theorem occurs_litsI {U : CharData} {fold : Char → Char} (h : CharsOk U fold) {w t : Str} : Occurs U (litsP true w) t ↔ HasWord fold w t := by
  unfold Occurs HasWord
  simp only [stands_litsI h]

theorem occurs_lits {U : CharData} {w t : Str} : Occurs U (litsP false w) t ↔ w <:+: t := by
  unfold Occurs
  simp only [stands_lits]
  constructor
  · rintro ⟨pre, m, post, rfl, rfl⟩
    exact ⟨pre, post, by simp⟩
  · rintro ⟨pre, post, rfl⟩
    exact ⟨pre, w, post, by simp, rfl⟩

end Art
