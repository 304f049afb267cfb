import Verif.Spec.Wire
import Verif.Lemmas.Json
import Verif.Lemmas.Whole

/-! Lemmas for C63: JSON trees up to the order of members. -/

namespace Art
open Spec

/-- In this order, or in any. -/
def PermIf {α : Type} (keep : Bool) (l m : List α) : Prop := if keep then l = m else l.Perm m

theorem PermIf.perm {α : Type} {keep : Bool} {l m : List α} (h : PermIf keep l m) : l.Perm m := by
  cases keep
  · exact h
  · have : l = m := h
    rw [this]

theorem PermIf.refl {α : Type} (keep : Bool) (l : List α) : PermIf keep l l := by
  cases keep
  · exact List.Perm.refl _
  · rfl

theorem PermIf.map {α β : Type} (f : α → β) {keep : Bool} {l m : List α} (h : PermIf keep l m) : PermIf keep (l.map f) (m.map f) := by
  cases keep
  · exact List.Perm.map f h
  · have : l = m := h
    rw [this]; exact PermIf.refl _ _

mutual
/-- The same value up to the order of the members of objects. -/
def Alike (keep : Bool) : Json → Json → Prop
  | .null, w => w = .null
  | .bool b, w => w = .bool b
  | .num s, w => w = .num s
  | .str s, w => w = .str s
  | .arr l, w => ∃ m, w = .arr m ∧ Alikes keep l m
  | .obj l, w => ∃ k m, w = .obj m ∧ Alikem keep l k ∧ PermIf keep k m
termination_by structural v => v
def Alikes (keep : Bool) : List Json → List Json → Prop
  | [], m => m = []
  | v :: l, m => ∃ v' m', m = v' :: m' ∧ Alike keep v v' ∧ Alikes keep l m'
termination_by structural l => l
def Alikem (keep : Bool) : List (Str × Json) → List (Str × Json) → Prop
  | [], m => m = []
  | (k, v) :: l, m => ∃ v' m', m = (k, v') :: m' ∧ Alike keep v v' ∧ Alikem keep l m'
termination_by structural l => l
end

theorem sames_iff {keep : Bool} : ∀ {l m : List Json}, Alikes keep l m ↔ List.Forall₂ (Alike keep) l m
  | [], m => by simp [Alikes]
  | v :: l, m => by
    simp only [Alikes, List.forall₂_cons_left_iff]
    constructor
    · rintro ⟨v', m', rfl, a, b⟩; exact ⟨v', m', a, sames_iff.1 b, rfl⟩
    · rintro ⟨v', m', a, b, rfl⟩; exact ⟨v', m', rfl, a, sames_iff.2 b⟩

theorem samem_iff {keep : Bool} : ∀ {l m : List (Str × Json)}, Alikem keep l m ↔ List.Forall₂ (fun e f => e.1 = f.1 ∧ Alike keep e.2 f.2) l m
  | [], m => by simp [Alikem]
  | (k, v) :: l, m => by
    simp only [Alikem, List.forall₂_cons_left_iff]
    constructor
    · rintro ⟨v', m', rfl, a, b⟩; exact ⟨(k, v'), m', ⟨rfl, a⟩, samem_iff.1 b, rfl⟩
    · rintro ⟨⟨k', v'⟩, m', ⟨rfl, a⟩, b, rfl⟩; exact ⟨v', m', rfl, a, samem_iff.2 b⟩

mutual
theorem alike_refl (keep : Bool) : ∀ v : Json, Alike keep v v
  | .null => by simp [Alike]
  | .bool b => by simp [Alike]
  | .num s => by simp [Alike]
  | .str s => by simp [Alike]
  | .arr l => by rw [Alike]; exact ⟨l, rfl, sames_refl keep l⟩
  | .obj l => by rw [Alike]; exact ⟨l, l, rfl, samem_refl keep l, PermIf.refl _ _⟩
theorem sames_refl (keep : Bool) : ∀ l : List Json, Alikes keep l l
  | [] => by simp [Alikes]
  | v :: l => by rw [Alikes]; exact ⟨v, l, rfl, alike_refl keep v, sames_refl keep l⟩
theorem samem_refl (keep : Bool) : ∀ l : List (Str × Json), Alikem keep l l
  | [] => by simp [Alikem]
  | (k, v) :: l => by rw [Alikem]; exact ⟨v, l, rfl, alike_refl keep v, samem_refl keep l⟩
end

mutual
/-- No object has a member twice. -/
def Distinct : Json → Prop
  | .null => True
  | .bool _ => True
  | .num _ => True
  | .str _ => True
  | .arr l => Distincts l
  | .obj l => (l.map Prod.fst).Nodup ∧ Distinctm l
termination_by structural v => v
def Distincts : List Json → Prop
  | [] => True
  | v :: l => Distinct v ∧ Distincts l
termination_by structural l => l
def Distinctm : List (Str × Json) → Prop
  | [] => True
  | (_, v) :: l => Distinct v ∧ Distinctm l
termination_by structural l => l
end

theorem distincts_iff : ∀ {l : List Json}, Distincts l ↔ ∀ v ∈ l, Distinct v
  | [] => by simp [Distincts]
  | v :: l => by simp [Distincts, distincts_iff (l := l)]

theorem distinctm_iff : ∀ {l : List (Str × Json)}, Distinctm l ↔ ∀ e ∈ l, Distinct e.2
  | [] => by simp [Distinctm]
  | (k, v) :: l => by simp [Distinctm, distinctm_iff (l := l)]

theorem numsOks_iff : ∀ {l : List Json}, NumsOks l ↔ ∀ v ∈ l, NumsOk v
  | [] => by simp [NumsOks]
  | v :: l => by simp [NumsOks, numsOks_iff (l := l)]

theorem numsOkm_iff : ∀ {l : List (Str × Json)}, NumsOkm l ↔ ∀ e ∈ l, NumsOk e.2
  | [] => by simp [NumsOkm]
  | (k, v) :: l => by simp [NumsOkm, numsOkm_iff (l := l)]

theorem nestings_le {d : Nat} : ∀ {l : List Json}, nestings l ≤ d ↔ ∀ v ∈ l, nesting v ≤ d
  | [] => by simp [nestings]
  | v :: l => by simp [nestings, nestings_le (l := l)]

theorem nestingm_le {d : Nat} : ∀ {l : List (Str × Json)}, nestingm l ≤ d ↔ ∀ e ∈ l, nesting e.2 ≤ d
  | [] => by simp [nestingm]
  | (k, v) :: l => by simp [nestingm, nestingm_le (l := l)]

/-- The value can be written and read back, and has no member twice. -/
structure Fine (d : Nat) (v : Json) : Prop where
  nums : NumsOk v
  deep : nesting v ≤ d
  keys : Distinct v

theorem Fine.mono {d d' : Nat} {v : Json} (h : Fine d v) (hd : d ≤ d') : Fine d' v := ⟨h.nums, h.deep.trans hd, h.keys⟩

theorem fine_null (d : Nat) : Fine d .null := ⟨by simp [NumsOk], by simp [nesting], by simp [Distinct]⟩
theorem fine_bool (d : Nat) (b : Bool) : Fine d (.bool b) := ⟨by simp [NumsOk], by simp [nesting], by simp [Distinct]⟩
theorem fine_str (d : Nat) (s : Str) : Fine d (.str s) := ⟨by simp [NumsOk], by simp [nesting], by simp [Distinct]⟩
theorem fine_num (d : Nat) {s : Str} (h : JsonNum s) : Fine d (.num s) := ⟨by simpa [NumsOk] using h, by simp [nesting], by simp [Distinct]⟩

theorem fine_arr {d : Nat} {l : List Json} (h : ∀ v ∈ l, Fine d v) : Fine (d + 1) (.arr l) := by
  refine ⟨?_, ?_, ?_⟩
  · rw [NumsOk, numsOks_iff]; exact fun v hv => (h v hv).nums
  · have : nestings l ≤ d := nestings_le.2 fun v hv => (h v hv).deep
    simp only [nesting]; omega
  · rw [Distinct, distincts_iff]; exact fun v hv => (h v hv).keys

theorem fine_obj {d : Nat} {l : List (Str × Json)} (hn : (l.map Prod.fst).Nodup) (h : ∀ e ∈ l, Fine d e.2) : Fine (d + 1) (.obj l) := by
  refine ⟨?_, ?_, ?_⟩
  · rw [NumsOk, numsOkm_iff]; exact fun v hv => (h v hv).nums
  · have : nestingm l ≤ d := nestingm_le.2 fun v hv => (h v hv).deep
    simp only [nesting]; omega
  · rw [Distinct, distinctm_iff]; exact ⟨hn, fun v hv => (h v hv).keys⟩

theorem Fine.parse {d : Nat} {v : Json} (h : Fine d v) (hd : d ≤ 127) : Json.parse v.show = some v :=
  (parse_iff _ _).2 ⟨jsonText_of_value (show_value v h.nums), h.deep.trans hd⟩

theorem Fine.parsePretty {d : Nat} {v : Json} (h : Fine d v) (hd : d ≤ 127) (i : Nat) : Json.parse (v.pretty i) = some v :=
  (parse_iff _ _).2 ⟨jsonText_of_value (pretty_value v i h.nums), h.deep.trans hd⟩

/-! ## `json::Value` -/

theorem putField_new {k : Str} {v : Json} : ∀ {l : List (Str × Json)}, k ∉ l.map Prod.fst → (putField k v l).Perm ((k, v) :: l)
  | [], _ => .refl _
  | e :: l, h => by
    simp only [List.map_cons, List.mem_cons, not_or] at h
    rw [putField, if_neg h.1]
    split
    · exact .refl _
    · exact ((putField_new h.2).cons e).trans (.swap _ _ _)

mutual
theorem same_value : ∀ {v : Json}, Distinct v → Alike false v v.value
  | .null, _ => by simp [Alike, Json.value]
  | .bool b, _ => by simp [Alike, Json.value]
  | .num s, _ => by simp [Alike, Json.value]
  | .str s, _ => by simp [Alike, Json.value]
  | .arr l, h => by
    rw [Distinct] at h
    rw [Alike, Json.value]
    exact ⟨_, rfl, sames_value h⟩
  | .obj l, h => by
    rw [Distinct] at h
    rw [Alike, Json.value]
    obtain ⟨k, h1, h2⟩ := samem_value l [] h.2 h.1 (by simp)
    exact ⟨k, _, rfl, h1, by simpa [PermIf] using h2⟩
theorem sames_value : ∀ {l : List Json}, Distincts l → Alikes false l (valueList l)
  | [], _ => by simp [Alikes, valueList]
  | v :: l, h => by
    rw [Distincts] at h
    rw [Alikes, valueList]
    exact ⟨_, _, rfl, same_value h.1, sames_value h.2⟩
theorem samem_value : ∀ (l acc : List (Str × Json)), Distinctm l → (l.map Prod.fst).Nodup → (∀ k ∈ l.map Prod.fst, k ∉ acc.map Prod.fst) →
    ∃ k, Alikem false l k ∧ (k ++ acc).Perm (valueFields l acc)
  | [], acc, _, _, _ => ⟨[], by simp [Alikem], by simp [valueFields]⟩
  | (n, v) :: l, acc, h, hn, ha => by
    rw [Distinctm] at h
    simp only [List.map_cons, List.nodup_cons] at hn
    have hp : (putField n v.value acc).Perm ((n, v.value) :: acc) := putField_new (ha n (by simp))
    obtain ⟨k, h1, h2⟩ := samem_value l (putField n v.value acc) h.2 hn.2 (by
      intro x hx hm
      rw [(hp.map Prod.fst).mem_iff] at hm
      rcases List.mem_cons.1 hm with e | e
      · exact hn.1 ((show x = n from e) ▸ hx)
      · exact ha x (by simp [hx]) e)
    refine ⟨(n, v.value) :: k, ?_, ?_⟩
    · rw [Alikem]; exact ⟨_, _, rfl, same_value h.1, h1⟩
    · rw [valueFields]
      refine List.Perm.trans ?_ h2
      refine List.Perm.trans ?_ (hp.append_left k).symm
      exact List.perm_middle.symm
end

mutual
theorem Alike.fine {keep : Bool} {d : Nat} : ∀ {v w : Json}, Alike keep v w → Fine d v → Fine d w
  | .null, w, h, hf => by rw [Alike] at h; rw [h]; exact hf
  | .bool b, w, h, hf => by rw [Alike] at h; rw [h]; exact hf
  | .num s, w, h, hf => by rw [Alike] at h; rw [h]; exact hf
  | .str s, w, h, hf => by rw [Alike] at h; rw [h]; exact hf
  | .arr l, w, h, hf => by
    rw [Alike] at h
    obtain ⟨m, rfl, h⟩ := h
    obtain ⟨a, b, c⟩ := hf
    simp only [nesting] at b
    rw [NumsOk, numsOks_iff] at a
    rw [Distinct, distincts_iff] at c
    obtain ⟨e, rfl⟩ : ∃ e, d = e + 1 := ⟨d - 1, by omega⟩
    exact fine_arr (Alikes.fine h fun v hv => ⟨a v hv, nestings_le.1 (by omega) v hv, c v hv⟩)
  | .obj l, w, h, hf => by
    rw [Alike] at h
    obtain ⟨k, m, rfl, h, hp⟩ := h
    obtain ⟨a, b, c⟩ := hf
    simp only [nesting] at b
    rw [NumsOk, numsOkm_iff] at a
    rw [Distinct, distinctm_iff] at c
    obtain ⟨e, rfl⟩ : ∃ e, d = e + 1 := ⟨d - 1, by omega⟩
    obtain ⟨h1, h2⟩ := Alikem.fine h (d := e) fun v hv => ⟨a v hv, nestingm_le.1 (by omega) v hv, c.2 v hv⟩
    refine fine_obj ?_ fun x hx => h2 x (hp.perm.mem_iff.2 hx)
    rw [← (hp.perm.map Prod.fst).nodup_iff, ← h1]
    exact c.1
theorem Alikes.fine {keep : Bool} {d : Nat} : ∀ {l m : List Json}, Alikes keep l m → (∀ v ∈ l, Fine d v) → ∀ v ∈ m, Fine d v
  | [], m, h, _ => by rw [Alikes] at h; rw [h]; simp
  | v :: l, m, h, hf => by
    rw [Alikes] at h
    obtain ⟨v', m', rfl, a, b⟩ := h
    intro x hx
    rcases List.mem_cons.1 hx with rfl | hx
    · exact Alike.fine a (hf v (by simp))
    · exact Alikes.fine b (fun y hy => hf y (by simp [hy])) x hx
theorem Alikem.fine {keep : Bool} {d : Nat} : ∀ {l m : List (Str × Json)}, Alikem keep l m → (∀ e ∈ l, Fine d e.2) → l.map Prod.fst = m.map Prod.fst ∧ ∀ e ∈ m, Fine d e.2
  | [], m, h, _ => by rw [Alikem] at h; rw [h]; simp
  | (k, v) :: l, m, h, hf => by
    rw [Alikem] at h
    obtain ⟨v', m', rfl, a, b⟩ := h
    obtain ⟨h1, h2⟩ := Alikem.fine b (d := d) (fun y hy => hf y (by simp [hy]))
    refine ⟨by simp [h1], ?_⟩
    intro x hx
    rcases List.mem_cons.1 hx with rfl | hx
    · exact Alike.fine a (hf (k, v) (by simp))
    · exact h2 x hx
end

/-! ## fields -/

/-- A field up to the order of members. -/
def SameOpt (keep : Bool) : Option Json → Option Json → Prop
  | none, o => o = none
  | some v, o => ∃ v', o = some v' ∧ Alike keep v v'

theorem samem_field {keep : Bool} {l k : List (Str × Json)} (h : Alikem keep l k) (n : Str) :
    List.Forall₂ (fun e f => e.1 = f.1 ∧ Alike keep e.2 f.2) (l.filter fun e => e.1 = n) (k.filter fun e => e.1 = n) := by
  rw [samem_iff] at h
  induction h with
  | nil => exact .nil
  | cons a _ ih =>
    rw [List.filter_cons, List.filter_cons, a.1]
    split
    · exact .cons a ih
    · exact ih

theorem same_oneField {keep : Bool} {l k m : List (Str × Json)} (h : Alikem keep l k) (hp : PermIf keep k m) {n : Str} {o : Option Json} (ho : oneField l n = some o) :
    ∃ o', oneField m n = some o' ∧ SameOpt keep o o' := by
  have h1 := samem_field h n
  have h2 : (k.filter fun e => e.1 = n).Perm (m.filter fun e => e.1 = n) := hp.perm.filter _
  unfold oneField at ho ⊢
  revert ho h1 h2
  generalize l.filter (fun e => e.1 = n) = a
  generalize k.filter (fun e => e.1 = n) = b
  generalize m.filter (fun e => e.1 = n) = c
  intro ho h1 h2
  cases a with
  | nil =>
    cases h1
    rw [List.nil_perm.1 h2]
    cases ho
    exact ⟨none, rfl, rfl⟩
  | cons x a =>
    cases a with
    | nil =>
      obtain ⟨y, _, hy, hb, rfl⟩ := List.forall₂_cons_left_iff.1 h1
      cases hb
      rw [← List.singleton_perm.1 h2]
      cases ho
      exact ⟨some y.2, rfl, y.2, rfl, hy.2⟩
    | cons x' a => cases ho

theorem same_fields {keep : Bool} {l : List (Str × Json)} {w : Json} (h : Alike keep (.obj l) w) {names : List Str} {fs : List (Option Json)}
    (hf : (Json.obj l).fields names = some fs) : ∃ fs', w.fields names = some fs' ∧ List.Forall₂ (SameOpt keep) fs fs' := by
  rw [Alike] at h
  obtain ⟨k, m, rfl, h, hp⟩ := h
  unfold Json.fields at hf ⊢
  revert hf
  induction names generalizing fs with
  | nil =>
    intro hf
    cases hf
    exact ⟨[], rfl, .nil⟩
  | cons n names ih =>
    intro hf
    simp only [List.mapM_cons, Option.bind_eq_bind, Option.bind_eq_some_iff, Option.pure_def, Option.some.injEq] at hf
    obtain ⟨o, ho, os, hos, rfl⟩ := hf
    obtain ⟨o', a, b⟩ := same_oneField h hp ho
    obtain ⟨os', c, d⟩ := ih hos
    refine ⟨o' :: os', ?_, .cons b d⟩
    simp [a, c]

/-! ## maps and lists -/

/-- Related one to one, in this order or in any. -/
def ShuffledIf {α β : Type} (keep : Bool) (R : α → β → Prop) (l : List α) (m : List β) : Prop := ∃ k, List.Forall₂ R l k ∧ PermIf keep k m

theorem needed_some {α : Type} (a : α) : needed (some a) = .ok a := rfl

theorem deList_same {keep : Bool} {α β : Type} {enc : α → Json} {f : Json → Res Unit β} {R : α → β → Prop} {l : List α} {w : Json}
    (h : Alike keep (.arr (l.map enc)) w) (hd : ∀ a ∈ l, ∀ v, Alike keep (enc a) v → ∃ b, f v = .ok b ∧ R a b) :
    ∃ m, deList f w = .ok m ∧ List.Forall₂ R l m := by
  rw [Alike] at h
  obtain ⟨m, rfl, h⟩ := h
  rw [sames_iff, List.forall₂_map_left_iff] at h
  unfold deList
  simp only [Res.mapM'_eq_ok]
  induction h with
  | nil => exact ⟨[], .nil, .nil⟩
  | cons a _ ih =>
    obtain ⟨b, h1, h2⟩ := hd _ (by simp) _ a
    obtain ⟨m, h3, h4⟩ := ih fun a ha => hd a (by simp [ha])
    exact ⟨b :: m, .cons h1 h3, .cons h2 h4⟩

theorem deList_same_eq {keep : Bool} {α : Type} {enc : α → Json} {f : Json → Res Unit α} {l : List α} {w : Json}
    (h : Alike keep (.arr (l.map enc)) w) (hd : ∀ a ∈ l, ∀ v, Alike keep (enc a) v → f v = .ok a) : deList f w = .ok l := by
  obtain ⟨m, h1, h2⟩ := deList_same (R := Eq) h fun a ha v hv => ⟨a, hd a ha v hv, rfl⟩
  rw [List.forall₂_eq_eq_eq] at h2
  rw [h1, h2]

theorem deSet_same {keep : Bool} {α κ : Type} [HasKey α κ] [DecidableEq κ] {enc : α → Json} {f : Json → Res Unit α} {l : List α} {w : Json}
    (h : Alike keep (.arr (l.map enc)) w) (hn : ISet.Nodup l) (hd : ∀ a ∈ l, ∀ v, Alike keep (enc a) v → f v = .ok a) : deSet f w = .ok l := by
  unfold deSet
  rw [deList_same_eq h hd]
  simp [ISet.collect_of_nodup hn]

theorem mapM'_permIf {keep : Bool} {α β : Type} {f : α → Res Unit β} {l m : List α} {r : List β} (h : PermIf keep l m) (hr : Res.mapM' f l = .ok r) :
    ∃ s, Res.mapM' f m = .ok s ∧ PermIf keep r s := by
  cases keep
  · have h : l.Perm m := h
    rw [Res.mapM'_eq_ok] at hr
    have h2 : Relation.Comp (fun a b => List.Perm b a) (List.Forall₂ fun a b => f a = .ok b) m r := ⟨l, h, hr⟩
    obtain ⟨s, a, b⟩ := List.perm_comp_forall₂ h.symm hr
    exact ⟨s, Res.mapM'_eq_ok.2 a, List.Perm.symm b⟩
  · have h : l = m := h
    subst h
    exact ⟨r, hr, PermIf.refl _ _⟩

theorem deMap_same {keep : Bool} {α β γ κ : Type} [HasKey α κ] [DecidableEq κ] {raw : α → Str} {enc : β → Json} {k : Str → Res Unit α} {f : Json → Res Unit γ}
    {R : β → γ → Prop} {l : List (α × β)} {w : Json} (h : Alike keep (.obj (l.map fun x => (raw x.1, enc x.2))) w) (hn : IMap.Nodup l)
    (hk : ∀ x ∈ l, k (raw x.1) = .ok x.1) (hd : ∀ x ∈ l, ∀ v, Alike keep (enc x.2) v → ∃ y, f v = .ok y ∧ R x.2 y) :
    ∃ m, deMap k f w = .ok m ∧ ShuffledIf keep (fun x y => x.1 = y.1 ∧ R x.2 y.2) l m := by
  rw [Alike] at h
  obtain ⟨es, m, rfl, h, hp⟩ := h
  rw [samem_iff, List.forall₂_map_left_iff] at h
  have key : ∃ ys, Res.mapM' (deEntry k f) es = .ok ys ∧ List.Forall₂ (fun x y => x.1 = y.1 ∧ R x.2 y.2) l ys := by
    simp only [Res.mapM'_eq_ok]
    clear hp hn
    induction h with
    | nil => exact ⟨[], .nil, .nil⟩
    | @cons x e _ _ a _ ih =>
      obtain ⟨b, h1, h2⟩ := hd _ (by simp) _ a.2
      obtain ⟨ys, h3, h4⟩ := ih (fun a ha => hk a (by simp [ha])) (fun a ha => hd a (by simp [ha]))
      refine ⟨(x.1, b) :: ys, .cons ?_ h3, .cons ⟨rfl, h2⟩ h4⟩
      unfold deEntry
      rw [← a.1]
      simp only [hk x (by simp), h1, Res.bind_ok]
  obtain ⟨ys, h1, h2⟩ := key
  obtain ⟨s, h3, h4⟩ := mapM'_permIf hp h1
  refine ⟨s, ?_, ys, h2, h4⟩
  unfold deMap
  simp only [h3, Res.bind_ok]
  have : IMap.Nodup s := by
    rw [← IMap.nodup_perm h4.perm]
    refine IMap.nodup_of_fst hn ?_
    clear h1 h3 h4 h hp hn hk hd
    induction h2 with
    | nil => rfl
    | cons a _ ih => simp [a.1, ih]
  rw [IMap.collect_of_nodup this]

end Art
