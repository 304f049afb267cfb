import Verif.Model.Read
import Verif.Props.Completion
import Verif.Props.Project
import Verif.Props.Raw
import Verif.Props.Fs
import Verif.Props.Lint

/-! # Reading: what does not depend on the schedule -/

namespace Art
open Spec

/-! ## spelling of the names in `parts` -/

theorem fst_insert {α β κ : Type _} [HasKey α κ] [DecidableEq κ] (m : IMap α β) (a : α) (b : β) (p : α × β)
    (h : p ∈ IMap.insert m a b) : p.1 = a ∨ p.1 ∈ m.map Prod.fst := by
  induction m with
  | nil => simp [IMap.insert] at h; left; rw [h]
  | cons q m ih =>
    obtain ⟨x, y⟩ := q
    simp only [IMap.insert] at h
    split at h
    · rcases List.mem_cons.1 h with rfl | h
      · right; simp
      · right; exact List.mem_map.2 ⟨p, List.mem_cons_of_mem _ h, rfl⟩
    · rcases List.mem_cons.1 h with rfl | h
      · right; simp
      · rcases ih h with h | h
        · exact Or.inl h
        · right; simp only [List.map_cons, List.mem_cons]; exact Or.inr h

theorem createIds_spelled (partofs : IMap Name (ISet Name)) (x : Name × Nat) (hx : x ∈ createIds partofs) :
    ∃ p ∈ partofs, x.1 = p.1 ∨ x.1 ∈ p.2 := by
  have inner : ∀ (l : List Name) (st : IMap Name Nat × Nat) (P : Name → Prop), (∀ y ∈ st.1, P y.1) → (∀ q ∈ l, P q) →
      ∀ y ∈ (l.foldl createIdsInner st).1, P y.1 := by
    intro l
    induction l with
    | nil => intro st P h _; exact h
    | cons q l ih =>
      intro st P h hq
      refine ih _ P ?_ (fun r hr => hq r (List.mem_cons_of_mem _ hr))
      intro y hy
      rcases fst_insert _ _ _ _ hy with e | e
      · rw [e]; exact hq q (by simp)
      · obtain ⟨z, hz, e⟩ := List.mem_map.1 e
        rw [← e]; exact h z hz
  have outer : ∀ (l : IMap Name (ISet Name)) (st : IMap Name Nat × Nat) (P : Name → Prop), (∀ y ∈ st.1, P y.1) →
      (∀ p ∈ l, P p.1 ∧ ∀ q ∈ p.2, P q) → ∀ y ∈ (l.foldl createIdsStep st).1, P y.1 := by
    intro l
    induction l with
    | nil => intro st P h _; exact h
    | cons p l ih =>
      intro st P h hp
      refine ih _ P ?_ (fun r hr => hp r (List.mem_cons_of_mem _ hr))
      refine inner p.2 _ P ?_ (hp p (by simp)).2
      intro y hy
      rcases fst_insert _ _ _ _ hy with e | e
      · rw [e]; exact (hp p (by simp)).1
      · obtain ⟨z, hz, e⟩ := List.mem_map.1 e
        rw [← e]; exact h z hz
  exact outer partofs ([], 1) (fun n => ∃ p ∈ partofs, n = p.1 ∨ n ∈ p.2) (by simp)
    (fun p hp => ⟨⟨p, hp, Or.inl rfl⟩, fun q hq => ⟨p, hp, Or.inr hq⟩⟩) x hx

theorem iset_insert_sub {α κ : Type _} [HasKey α κ] [DecidableEq κ] {m : ISet α} {a x : α} (h : x ∈ ISet.insert m a) :
    x ∈ m ∨ x = a := by
  unfold ISet.insert at h
  split at h
  · exact Or.inl h
  · simpa using h

theorem iset_foldl_sub {α κ : Type _} [HasKey α κ] [DecidableEq κ] (l : List α) : ∀ (m : ISet α) (x : α),
    x ∈ l.foldl ISet.insert m → x ∈ m ∨ x ∈ l := by
  induction l with
  | nil => intro m x h; exact Or.inl h
  | cons a l ih =>
    intro m x h
    rcases ih _ x h with h | h
    · rcases iset_insert_sub h with h | rfl
      · exact Or.inl h
      · exact Or.inr (by simp)
    · exact Or.inr (List.mem_cons_of_mem _ h)

theorem collect_spelled {α κ : Type _} [HasKey α κ] [DecidableEq κ] {l : List α} {x : α} (h : x ∈ ISet.collect l) : x ∈ l := by
  rcases iset_foldl_sub l [] x h with h | h
  · simp at h
  · exact h

theorem extend_spelled {α κ : Type _} [HasKey α κ] [DecidableEq κ] {m l : ISet α} {x : α} (h : x ∈ ISet.extend m l) : x ∈ m ∨ x ∈ l :=
  iset_foldl_sub l m x h

theorem imap_collect_mem {α β κ : Type _} [HasKey α κ] [DecidableEq κ] (l : List (α × β)) : ∀ (m : IMap α β) (p : α × β),
    p ∈ l.foldl (fun m p => IMap.insert m p.1 p.2) m → (∃ q ∈ m, q.2 = p.2) ∨ ∃ q ∈ l, q.2 = p.2 := by
  induction l with
  | nil => intro m p h; exact Or.inl ⟨p, h, rfl⟩
  | cons a l ih =>
    intro m p h
    rcases ih _ p h with ⟨q, hq, e⟩ | ⟨q, hq, e⟩
    · rcases mem_insert hq with hq | hq
      · exact Or.inl ⟨q, hq, e⟩
      · exact Or.inr ⟨a, by simp, hq ▸ e⟩
    · exact Or.inr ⟨q, List.mem_cons_of_mem _ hq, e⟩

section
variable {hash : ArtifactIm → HashIm} {ims : IMap Name ArtifactIm} {code : IMap Name ImplCode}
  {defined : IMap Name FilePath} {arts : IMap Name Artifact}

/-- The links shown for an artifact, with their spelling. -/
def linksOf (ims : IMap Name ArtifactIm) (p : Name × ArtifactIm) : ISet Name := ISet.extend (autoPartofOf ims p.1) p.2.partof

/-- How names are spelled in `parts` and `partof`, entry by entry. -/
theorem Loads.raw (inp : LoadInput ims defined) (hfst : defined.map Prod.fst = ims.map Prod.fst) (h : Loads hash ims code defined arts) :
    ∀ x ∈ arts, ∃ im, (x.1, im) ∈ ims ∧ (x.1, x.2.file) ∈ defined ∧ x.2.name = x.1 ∧ x.2.partof = linksOf ims (x.1, im) ∧
      ∀ q ∈ x.2.parts, ∃ p ∈ ims, q = p.1 ∨ q ∈ linksOf ims p := by
  obtain ⟨l, topo, hl, ht, ha⟩ := h
  obtain ⟨b1, b2, b3, b4⟩ := determineArtifacts_built inp.nodup hl inp.dnodup ha
  have hl0 := hl
  unfold finalizeLoadArtifact at hl
  obtain ⟨subs, hs, hl⟩ := Res.bind_eq_ok.1 hl
  obtain ⟨pofs, hp, hl⟩ := Res.bind_eq_ok.1 hl
  obtain ⟨g, hg, hl⟩ := Res.bind_eq_ok.1 hl
  obtain ⟨parts, hpa, hl⟩ := Res.bind_eq_ok.1 hl
  have el := (Res.ok.inj hl).symm
  rw [determinePartofs_eq inp.nodup] at hp
  have ep := (Res.ok.inj hp).symm
  have hpn : IMap.Nodup pofs := by
    rw [ep]; exact IMap.nodup_of_fst inp.nodup (by rw [List.map_map]; rfl)
  intro x hx
  obtain ⟨im0, hb⟩ := b4 x hx
  have hn := b2 x hx
  have hxd : x.1 ∈ defined.map Prod.fst := by rw [← b1]; exact List.mem_map.2 ⟨x, hx, rfl⟩
  have hxi : x.1 ∈ ims.map Prod.fst := by rw [← hfst]; exact hxd
  obtain ⟨y, hy, ey⟩ := List.mem_map.1 hxi
  have him : (x.1, y.2) ∈ ims := by rw [← ey]; exact hy
  refine ⟨y.2, him, ?_, hn, ?_, ?_⟩
  · -- same position in both lists
    have e : arts.map (fun z => (z.1, z.2.file)) = defined := by
      have := b3
      rw [List.map_map] at this
      have hz : ∀ (u : IMap Name Artifact) (v : IMap Name FilePath), u.map Prod.fst = v.map Prod.fst →
          u.map ((fun a => a.file) ∘ Prod.snd) = v.map Prod.snd → u.map (fun z => (z.1, z.2.file)) = v := by
        intro u
        induction u with
        | nil => intro v h1 _; cases v <;> simp_all
        | cons a u ih =>
          intro v h1 h2
          cases v with
          | nil => simp at h1
          | cons b v =>
            simp only [List.map_cons, List.cons.injEq, Function.comp_apply] at h1 h2 ⊢
            refine ⟨?_, ih v h1.2 h2.2⟩
            rw [h1.1, h2.1]
      exact hz _ _ b1 this
    rw [← e]
    exact List.mem_map.2 ⟨x, hx, rfl⟩
  · have := hb.partof
    rw [el, hn] at this
    simp only at this
    have hm : (x.1, linksOf ims (x.1, y.2)) ∈ pofs := by
      rw [ep]; exact List.mem_map.2 ⟨(x.1, y.2), him, rfl⟩
    rw [IMap.get?_of_mem hpn hm] at this
    exact (Option.some.inj this).symm
  · intro q hq
    have := hb.parts
    rw [el] at this
    simp only at this
    obtain ⟨n', _, hm⟩ := IMap.mem_of_get? this
    unfold determineParts at hpa
    obtain ⟨out, hout, hpa⟩ := Res.bind_eq_ok.1 hpa
    have hc := (Res.ok.inj hpa).symm
    rw [hc] at hm
    obtain ⟨e, he, e2⟩ := (by simpa using imap_collect_mem out [] _ hm : ∃ q' ∈ out, q'.2 = x.2.parts)
    obtain ⟨w, _, hw⟩ := forall₂_mem_right (Res.mapM'_eq_ok.1 hout) he
    unfold partsOf at hw
    obtain ⟨ns, hns, hw⟩ := Res.bind_eq_ok.1 hw
    have hw' := Res.ok.inj hw
    have : q ∈ ns := by
      apply collect_spelled
      have : x.2.parts = ISet.collect ns := by rw [← e2, ← hw']
      rw [← this]; exact hq
    obtain ⟨i, _, hi⟩ := forall₂_mem_right (Res.mapM'_eq_ok.1 hns) this
    rw [index_eq_ok] at hi
    obtain ⟨i', _, hi'⟩ := IMap.mem_of_get? hi
    unfold determineGraphs at hg
    simp only at hg
    obtain ⟨gr, _, hg⟩ := Res.bind_eq_ok.1 hg
    have hg' := Res.ok.inj hg
    rw [← hg'] at hi'
    obtain ⟨z, hz, ez⟩ := (by simpa using imap_collect_mem ((createIds pofs).map (fun p => (p.2, p.1))) [] _ hi' :
      ∃ q' : Name × Nat, q' ∈ createIds pofs ∧ q'.1 = q)
    obtain ⟨p, hpp, hor⟩ := createIds_spelled pofs z hz
    rw [ez] at hor
    rw [ep] at hpp
    obtain ⟨p', hp', rfl⟩ := List.mem_map.1 hpp
    exact ⟨p', hp', hor⟩

end

/-! ## two loads of the same files -/

/-- An artifact without its list of parts, and with the code references in a canonical order. -/
def Artifact.bare (a : Artifact) : Artifact := { a with parts := [], impl := a.impl.sort }

theorem linksOf_congr {ims ims' : IMap Name ArtifactIm} (hc : ∀ n, IMap.contains ims n = IMap.contains ims' n) (p : Name × ArtifactIm) :
    linksOf ims p = linksOf ims' p := by
  unfold linksOf autoPartofOf
  simp only [hc]

theorem perm_of_mem_iff {α : Type _} {l l' : List α} (h : l.Nodup) (h' : l'.Nodup) (hm : ∀ x, x ∈ l ↔ x ∈ l') : l.Perm l' :=
  (List.perm_ext_iff_of_nodup h h').2 hm

theorem IMap.nodup_list {α β κ : Type _} [HasKey α κ] [DecidableEq κ] {m : IMap α β} (h : IMap.Nodup m) : List.Nodup m := by
  unfold IMap.Nodup at h; exact List.Nodup.of_map _ h

theorem mem_sort_secondary (c : ImplCode) (x : SubName × CodeLoc) : x ∈ c.sort.secondary ↔ x ∈ c.secondary := mem_sortOn _

/-- Code references that are the same up to order cover the same. -/
theorem coverage_of_sort {c c' : Option ImplCode} (h : c.map ImplCode.sort = c'.map ImplCode.sort) : SameCoverage c c' := by
  cases c <;> cases c' <;> simp only [Option.map_none, Option.map_some, reduceCtorEq, Option.some.injEq] at h
  · trivial
  · rename_i c c'
    refine ⟨?_, fun s => ?_⟩
    · have : c.sort.primary = c'.sort.primary := by rw [h]
      exact congrArg Option.isSome this
    · constructor
      · rintro ⟨x, hx, e⟩
        rw [← mem_sort_secondary, h, mem_sort_secondary] at hx
        exact ⟨x, hx, e⟩
      · rintro ⟨x, hx, e⟩
        rw [← mem_sort_secondary, ← h, mem_sort_secondary] at hx
        exact ⟨x, hx, e⟩

section
variable {hash : ArtifactIm → HashIm} {ims ims' : IMap Name ArtifactIm} {code code' : IMap Name ImplCode}
  {defined defined' : IMap Name FilePath} {arts arts' : IMap Name Artifact}

/-- Two loads of the same definitions with the same code references, both in any order, give the same artifacts, except for the order of
code references and the order and spelling of `parts`. -/
theorem Loads.same (inp : LoadInput ims defined) (hfst : defined.map Prod.fst = ims.map Prod.fst) (h : Loads hash ims code defined arts)
    (inp' : LoadInput ims' defined') (hfst' : defined'.map Prod.fst = ims'.map Prod.fst) (h' : Loads hash ims' code' defined' arts')
    (hi : ims.Perm ims') (hd : defined.Perm defined')
    (hc : ∀ n, (IMap.get? code n).map ImplCode.sort = (IMap.get? code' n).map ImplCode.sort) :
    ∀ x ∈ arts, ∃ x' ∈ arts', x'.1 = x.1 ∧ x'.2.bare = x.2.bare ∧ (x'.2.parts.map key).Perm (x.2.parts.map key) := by
  have hget : ∀ n, IMap.get? ims n = IMap.get? ims' n := fun n => IMap.get?_perm hi inp.nodup n
  have hcon : ∀ n, IMap.contains ims n = IMap.contains ims' n := by intro n; unfold IMap.contains; rw [hget]
  obtain ⟨s1, s2, s3, s4, s5, s6, s7, s8⟩ := h.spec inp
  obtain ⟨t1, t2, t3, t4, t5, t6, t7, t8⟩ := h'.spec inp'
  have R := h.raw inp hfst
  have R' := h'.raw inp' hfst'
  have M := match_of_inputs inp h inp' h' (fun _ => true) (fun _ _ _ _ => rfl) (fun n _ => hget n)
  have M' := match_of_inputs inp' h' inp h (fun _ => true) (fun _ _ _ _ => rfl) (fun n _ => (hget n).symm)
  intro x hx
  obtain ⟨im, r1, r2, r3, r4, r5⟩ := R x hx
  have hxd : x.1 ∈ defined'.map Prod.fst := by
    rw [← (hd.map Prod.fst).mem_iff, ← s1]; exact List.mem_map.2 ⟨x, hx, rfl⟩
  rw [← t1] at hxd
  obtain ⟨x', hx', e⟩ := List.mem_map.1 hxd
  obtain ⟨im', r1', r2', r3', r4', r5'⟩ := R' x' hx'
  have eim : im' = im := by
    have h1 := IMap.get?_of_mem inp'.nodup r1'
    have h2 := IMap.get?_of_mem inp.nodup r1
    rw [e, ← hget, h2] at h1
    exact (Option.some.inj h1).symm
  subst eim
  have efile : x'.2.file = x.2.file := by
    have h1 := IMap.get?_of_mem inp'.dnodup r2'
    have h2 := IMap.get?_of_mem inp.dnodup r2
    rw [e, ← IMap.get?_perm hd inp.dnodup, h2] at h1
    exact (Option.some.inj h1).symm
  have hm : x.2 ∈ arts.map Prod.snd := List.mem_map.2 ⟨x, hx, rfl⟩
  have hm' : x'.2 ∈ arts'.map Prod.snd := List.mem_map.2 ⟨x', hx', rfl⟩
  obtain ⟨j, sp⟩ := s6 x.2 hm
  obtain ⟨j', sp'⟩ := t6 x'.2 hm'
  have hkn : key x'.2.name = key x.2.name := by rw [r3', r3, e]
  have ej : im' = j := by
    have h2 := IMap.get?_of_mem inp.nodup r1
    have := sp.mem
    rw [r3, h2] at this
    exact Option.some.inj this
  have ej' : im' = j' := by
    have h2 := IMap.get?_of_mem inp'.nodup r1'
    have := sp'.mem
    rw [r3', h2] at this
    exact Option.some.inj this
  rw [← ej] at sp
  rw [← ej'] at sp'
  have ecomp := C16_order_independent inp h inp' h' hget (fun n => coverage_of_sort (hc n)) x.2 hm x'.2 hm' hkn.symm
  refine ⟨x', hx', e, ?_, ?_⟩
  · have e1 : x'.2.id = x.2.id := by rw [sp'.id, sp.id]
    have e2 : x'.2.name = x.2.name := by rw [r3', r3, e]
    have e3 : x'.2.partof = x.2.partof := by rw [r4', r4, e]; exact (linksOf_congr hcon _).symm
    have e4 : x'.2.text = x.2.text := by rw [sp'.text, sp.text]
    have e5 : x'.2.subnames = x.2.subnames := by
      have := sp'.subs; rw [sp.subs] at this; exact (Res.ok.inj this).symm
    have e6 : x'.2.impl.sort = x.2.impl.sort := by
      rw [sp'.impl, sp.impl, e2]
      unfold implOf
      simp only
      cases im'.done with
      | some d => rfl
      | none =>
        simp only
        have := hc x.2.name
        cases h1 : IMap.get? code x.2.name <;> cases h2 : IMap.get? code' x.2.name <;> rw [h1, h2] at this <;>
          simp only [Option.map_none, Option.map_some, reduceCtorEq, Option.some.injEq] at this
        simp only [Impl.sort, this]
    unfold Artifact.bare
    rw [e1, e2, e3, e4, e5, e6, efile, ecomp]
  · refine perm_of_mem_iff sp'.partsNodup sp.partsNodup fun k => ?_
    have key1 : ∀ {a : Artifact} {as : List Artifact} {im}, ArtSpec hash ims code as a im → ∀ k, k ∈ a.parts.map key ↔ ∃ b ∈ as, key b.name = k ∧ PartOf b a.name := by
      intro a as im sp k
      constructor
      · intro hk
        obtain ⟨q, hq, rfl⟩ := List.mem_map.1 hk
        exact (sp.parts q).1 ⟨q, hq, rfl⟩
      · rintro ⟨b, hb, rfl, hp⟩
        obtain ⟨q, hq, e⟩ := (sp.parts b.name).2 ⟨b, hb, rfl, hp⟩
        exact List.mem_map.2 ⟨q, hq, e⟩
    have key2 : ∀ {a : Artifact} {as : List Artifact} {im}, ArtSpec hash ims' code' as a im → ∀ k, k ∈ a.parts.map key ↔ ∃ b ∈ as, key b.name = k ∧ PartOf b a.name := by
      intro a as im sp k
      constructor
      · intro hk
        obtain ⟨q, hq, rfl⟩ := List.mem_map.1 hk
        exact (sp.parts q).1 ⟨q, hq, rfl⟩
      · rintro ⟨b, hb, rfl, hp⟩
        obtain ⟨q, hq, e⟩ := (sp.parts b.name).2 ⟨b, hb, rfl, hp⟩
        exact List.mem_map.2 ⟨q, hq, e⟩
    rw [key1 sp, key2 sp']
    constructor
    · rintro ⟨b, hb, ek, hp⟩
      obtain ⟨b', hb', hk', hpp, _⟩ := M' b hb rfl
      exact ⟨b', hb', hk'.trans ek, (hpp _).1 ((partOf_congr b hkn).1 hp)⟩
    · rintro ⟨b, hb, ek, hp⟩
      obtain ⟨b', hb', hk', hpp, _⟩ := M b hb rfl
      exact ⟨b', hb', hk'.trans ek, (hpp _).1 ((partOf_congr b hkn).2 hp)⟩

end

end Art
