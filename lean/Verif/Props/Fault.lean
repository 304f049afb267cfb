import Verif.Props.Grammar
import Verif.Props.Merge
import Verif.Spec.Fault

/-!
# Property C94: which mistake of a markdown file is reported
-/

namespace Art.Fault
open Spec Grammar

variable {L : Libs} {pre : Str} {x : Option LoadErr}

theorem failed_bind {α β : Type} {r : Res LoadErr α} {f : α → Res LoadErr β} :
    Failed (r >>= f) x ↔ Failed r x ∨ ∃ a, r = .ok a ∧ Failed (f a) x := by
  cases r with
  | ok a =>
    show Failed (f a) x ↔ _
    constructor
    · intro h; exact .inr ⟨a, rfl, h⟩
    · rintro (h | ⟨b, h, h2⟩)
      · cases x <;> cases h
      · cases h; exact h2
  | err e =>
    show Failed (Res.err e) x ↔ _
    constructor
    · intro h
      refine .inl ?_
      cases x with
      | none => cases h
      | some e' => cases h; rfl
    · rintro (h | ⟨b, h, _⟩)
      · cases x with
        | none => cases h
        | some e' => cases h; rfl
      · cases h
  | panic =>
    show Failed Res.panic x ↔ _
    constructor
    · intro h
      refine .inl ?_
      cases x with
      | none => rfl
      | some e' => cases h
    · rintro (h | ⟨b, h, _⟩)
      · cases x with
        | none => rfl
        | some e' => cases h
      · cases h

theorem not_failed_ok {α : Type} {a : α} : ¬ Failed (.ok a : Res LoadErr α) x := by
  intro h; cases x <;> cases h

/-- Reading the pieces of a section fails exactly if attributes are given twice. -/
theorem prun_failed {out : IMap Name ArtifactRaw} {n : Name} : ∀ (body : List Mark) (A : Option Str) (T : List Str), Headless body → CutLast body →
    (Failed (prun L ⟨out, some n, A, T, none⟩ body) x ↔ 2 ≤ given body + (if A.isSome then 1 else 0) ∧ x = some (.attrsTwice n))
  | [], A, T, _, _ => by
    constructor
    · intro h; exact absurd h not_failed_ok
    · rintro ⟨h, _⟩
      simp only [given, List.countP_nil] at h
      split at h <;> omega
  | p :: body, A, T, hh, hc => by
    have hh' : Headless body := fun m hm => hh m (List.mem_cons_of_mem _ hm)
    have twice : ∀ a, A = some a → ∀ (k : Unit → Res LoadErr MdSt), (checkAttrsEmpty ⟨out, some n, A, T, none⟩ >>= k) = .err (.attrsTwice n) := by
      rintro a rfl k; rfl
    have once : A = none → ∀ (k : Unit → Res LoadErr MdSt), (checkAttrsEmpty ⟨out, some n, A, T, none⟩ >>= k) = k () := by
      rintro rfl k; rfl
    have err_iff : Failed (Res.err (LoadErr.attrsTwice n) : Res LoadErr MdSt) x ↔ x = some (.attrsTwice n) := by
      cases x with
      | none => constructor <;> intro h <;> cases h
      | some e => constructor <;> intro h <;> cases h <;> rfl
    cases p with
    | head m => exact absurd (by simp) (hh m)
    | text l =>
      have e : given (.text l :: body) = given body := List.countP_cons_of_neg (by simp [isAttrs])
      rw [e]
      exact prun_failed body A (T ++ [l]) hh' hc
    | hashes =>
      have e : given (.hashes :: body) = given body + 1 := List.countP_cons_of_pos rfl
      rw [e]
      simp only [prun, pstep]
      cases A with
      | some a =>
        rw [twice a rfl]
        show Failed (Res.err _) x ↔ _
        rw [err_iff]
        simp only [Option.isSome_some, if_true]
        constructor
        · intro h; exact ⟨by omega, h⟩
        · exact fun h => h.2
      | none =>
        rw [once rfl]
        have := prun_failed (out := out) (n := n) body (some (joinLines T)) [] hh' hc
        simpa using this
    | block b =>
      have e : given (.block b :: body) = given body + 1 := List.countP_cons_of_pos rfl
      rw [e]
      simp only [prun, pstep]
      cases A with
      | some a =>
        rw [twice a rfl]
        show Failed (Res.err _) x ↔ _
        rw [err_iff]
        simp only [Option.isSome_some, if_true]
        constructor
        · intro h; exact ⟨by omega, h⟩
        · exact fun h => h.2
      | none =>
        rw [once rfl]
        have := prun_failed (out := out) (n := n) body (some (joinLines b)) T hh' hc
        simpa using this
    | cut o lost =>
      have hb : body = [] := hc
      subst hb
      have e : given [.cut o lost] = 1 := rfl
      rw [e]
      simp only [prun, pstep]
      cases A with
      | some a =>
        rw [twice a rfl]
        show Failed (Res.err _) x ↔ _
        rw [err_iff]; simp
      | none =>
        rw [once rfl]
        constructor
        · intro h; exact absurd h not_failed_ok
        · rintro ⟨h, _⟩; simp at h

/-- Reading attributes fails. -/
theorem readAttrs_failed {a : Option (List Str)} : Failed (readAttrs L (a.map joinLines)) x ↔
    ∃ b, a = some b ∧ ((L.yamlRead (joinLines b) = none ∧ x = some .doc) ∨
      ∃ d p, L.yamlRead (joinLines b) = some (d, some p) ∧ ((∃ e, namesRawDe p = .err e ∧ x = some (.name e)) ∨ (namesRawDe p = .panic ∧ x = none))) := by
  cases a with
  | none =>
    constructor
    · intro h; exact absurd h not_failed_ok
    · rintro ⟨b, h, _⟩; cases h
  | some b =>
    simp only [Option.map_some, readAttrs, Option.some.injEq, exists_eq_left']
    rcases hy : L.yamlRead (joinLines b) with _ | ⟨d, _ | p⟩
    · simp only
      cases x <;> simp [Failed, eq_comm]
    · simp only
      constructor
      · intro h; exact absurd h not_failed_ok
      · rintro (⟨h, _⟩ | ⟨d', p, h, _⟩) <;> simp at h
    · simp only
      cases hn : namesRawDe p with
      | ok l =>
        simp only
        constructor
        · intro h; exact absurd h not_failed_ok
        · rintro (⟨h, _⟩ | ⟨d', p', h, h2⟩)
          · cases h
          · simp only [Option.some.injEq, Prod.mk.injEq] at h
            obtain ⟨_, rfl⟩ := h
            rw [hn] at h2
            rcases h2 with ⟨e, h2, _⟩ | ⟨h2, _⟩ <;> cases h2
      | err e =>
        simp only
        constructor
        · intro h
          refine .inr ⟨d, p, rfl, .inl ⟨e, hn, ?_⟩⟩
          cases x with
          | none => cases h
          | some e' => cases h; rfl
        · rintro (⟨h, _⟩ | ⟨d', p', h, h2⟩)
          · cases h
          · simp only [Option.some.injEq, Prod.mk.injEq] at h
            obtain ⟨_, rfl⟩ := h
            rw [hn] at h2
            rcases h2 with ⟨e', h2, rfl⟩ | ⟨h2, _⟩ <;> cases h2
            rfl
      | panic =>
        simp only
        constructor
        · intro h
          refine .inr ⟨d, p, rfl, .inr ⟨hn, ?_⟩⟩
          cases x with
          | none => rfl
          | some e' => cases h
        · rintro (⟨h, _⟩ | ⟨d', p', h, h2⟩)
          · cases h
          · simp only [Option.some.injEq, Prod.mk.injEq] at h
            obtain ⟨_, rfl⟩ := h
            rw [hn] at h2
            rcases h2 with ⟨e', h2, rfl⟩ | ⟨_, rfl⟩
            · cases h2
            · rfl

theorem insert_failed {out : IMap Name ArtifactRaw} {n : Name} {attrs : Option Str} {other : List Str} :
    Failed (insertFromParts L out n attrs other) x ↔ Failed (readAttrs L attrs) x ∨
      ∃ d p, readAttrs L attrs = .ok (d, p) ∧ IMap.contains out n = true ∧ x = some (.nameTwice n) := by
  unfold insertFromParts
  rw [failed_bind]
  refine or_congr Iff.rfl ?_
  constructor
  · rintro ⟨⟨d, p⟩, h1, h2⟩
    refine ⟨d, p, h1, ?_⟩
    simp only at h2
    split at h2
    · rename_i hc
      refine ⟨hc, ?_⟩
      cases x with
      | none => cases h2
      | some e => cases h2; rfl
    · exact absurd h2 not_failed_ok
  · rintro ⟨d, p, h1, h2, rfl⟩
    refine ⟨(d, p), h1, ?_⟩
    simp only
    rw [if_pos h2]; rfl

/-- One section, with a name that is one. -/
theorem section_failed {out : IMap Name ArtifactRaw} {n : Name} {w : Str} (hn : Name.fromStr w = .ok n) {body : List Mark} (hh : Headless body)
    (hc : CutLast body) :
    Failed (prun L ⟨out, some n, none, [], none⟩ body >>= fun st' => flush L st') x ↔ Wrong L out w body x := by
  rw [failed_bind, prun_failed body none [] hh hc]
  simp only [Option.isSome_none, Bool.false_eq_true, if_false, Nat.add_zero]
  constructor
  · rintro (⟨h, rfl⟩ | ⟨st, h1, h2⟩)
    · exact .twice hn h
    · obtain ⟨a, t, hb, rfl⟩ := (prun_body body [] st hh hc).1 h1
      have hb : Body body a t := hb
      rcases insert_failed.1 (show Failed (insertFromParts L out n (a.map joinLines) t) x from h2) with h | ⟨d, p, h3, h4, rfl⟩
      · obtain ⟨b, rfl, ⟨h5, rfl⟩ | ⟨d, p, h5, ⟨e, h6, rfl⟩ | ⟨h6, rfl⟩⟩⟩ := readAttrs_failed.1 h
        · exact .doc hn hb h5
        · exact .partof hn hb h5 h6
        · exact .partofPanic hn hb h5 h6
      · obtain ⟨y, hy, hk⟩ := (IMap.contains_iff ..).1 h4
        exact .again (r := ⟨d, p, textOf t⟩) hn ⟨a, t, hb, readAttrs_iff.1 h3, textOf_iff.1 rfl⟩ hy hk
  · have run : ∀ {a t}, Body body a t → prun L ⟨out, some n, none, [], none⟩ body = .ok ⟨out, some n, a.map joinLines, t, none⟩ :=
      fun {a t} hb => (prun_body body [] _ hh hc).2 ⟨a, t, hb, rfl⟩
    intro h
    cases h with
    | name h => rw [hn] at h; cases h
    | namePanic h => rw [hn] at h; cases h
    | twice h h2 => rw [hn] at h; cases h; exact .inl ⟨h2, rfl⟩
    | doc h hb h5 => exact .inr ⟨_, run hb, insert_failed.2 (.inl (readAttrs_failed.2 ⟨_, rfl, .inl ⟨h5, rfl⟩⟩))⟩
    | partof h hb h5 h6 => exact .inr ⟨_, run hb, insert_failed.2 (.inl (readAttrs_failed.2 ⟨_, rfl, .inr ⟨_, _, h5, .inl ⟨_, h6, rfl⟩⟩⟩))⟩
    | partofPanic h hb h5 h6 => exact .inr ⟨_, run hb, insert_failed.2 (.inl (readAttrs_failed.2 ⟨_, rfl, .inr ⟨_, _, h5, .inr ⟨h6, rfl⟩⟩⟩))⟩
    | again h hs hy hk =>
      rw [hn] at h; cases h
      obtain ⟨a, t, hb, ha, _⟩ := hs
      exact .inr ⟨_, run hb, insert_failed.2 (.inr ⟨_, _, readAttrs_iff.2 ha, (IMap.contains_iff ..).2 ⟨_, hy, hk⟩, rfl⟩)⟩

theorem head_failed {st : MdSt} {w : Str} {ps : List Mark} :
    Failed (prun L st (.head w :: ps) >>= fun st' => flush L st') x ↔ Failed (flush L st) x ∨ ∃ out, flush L st = .ok out ∧
      ((∃ e, Name.fromStr w = .err e ∧ x = some (.name e)) ∨ (Name.fromStr w = .panic ∧ x = none) ∨
        ∃ n, Name.fromStr w = .ok n ∧ Failed (prun L ⟨out, some n, none, [], none⟩ ps >>= fun st' => flush L st') x) := by
  have e : (prun L st (.head w :: ps) >>= fun st' => flush L st') =
      (flush L st >>= fun out => match Name.fromStr w with
        | .ok n => prun L ⟨out, some n, none, [], none⟩ ps >>= fun st' => flush L st'
        | .err e => .err (.name e)
        | .panic => .panic) := by
    simp only [prun, pstep]
    rw [nameLine_flush]
    cases flush L st with
    | ok out => cases Name.fromStr w <;> rfl
    | err e => rfl
    | panic => rfl
  rw [e, failed_bind]
  refine or_congr Iff.rfl (exists_congr fun out => and_congr Iff.rfl ?_)
  cases hn : Name.fromStr w with
  | ok n =>
    simp only
    constructor
    · intro h; exact .inr (.inr ⟨n, rfl, h⟩)
    · rintro (⟨_, h, _⟩ | ⟨h, _⟩ | ⟨m, h, h2⟩)
      · cases h
      · cases h
      · cases h; exact h2
  | err e =>
    simp only
    constructor
    · intro h
      refine .inl ⟨e, rfl, ?_⟩
      cases x with
      | none => cases h
      | some e' => cases h; rfl
    · rintro (⟨_, h, rfl⟩ | ⟨h, _⟩ | ⟨m, h, h2⟩)
      · cases h; rfl
      · cases h
      · cases h
  | panic =>
    simp only
    constructor
    · intro h
      refine .inr (.inl ⟨trivial, ?_⟩)
      cases x with
      | none => rfl
      | some e' => cases h
    · rintro (⟨_, h, _⟩ | ⟨_, rfl⟩ | ⟨m, h, h2⟩)
      · cases h
      · rfl
      · cases h

/-- What follows in a file whose sections so far are read as `out`: the next sections up to the first that is wrong. -/
def NextWrong (L : Libs) (out : IMap Name ArtifactRaw) (ss : Sections) (x : Option LoadErr) : Prop :=
  ∃ (good : Sections) (w : Str) (body : List Mark) (rest : Sections) (more : IMap Name ArtifactRaw), ss = good ++ (w, body) :: rest ∧
    List.Forall₂ (fun s x => Name.fromStr s.1 = .ok x.1 ∧ Says L s.2 x.2) good more ∧ IMap.Nodup (out ++ more) ∧ Wrong L (out ++ more) w body x

theorem contains_false {out : IMap Name ArtifactRaw} {n : Name} {r : ArtifactRaw} {more : IMap Name ArtifactRaw}
    (h : IMap.Nodup (out ++ (n, r) :: more)) : IMap.contains out n = false := by
  rw [← Bool.not_eq_true, IMap.contains_iff]
  rintro ⟨x, hx, hk⟩
  unfold IMap.Nodup at h
  rw [List.map_append, List.nodup_append] at h
  exact h.2.2 _ (List.mem_map.2 ⟨x, hx, rfl⟩) (key n) (by simp) hk

/-- All sections from one on. -/
theorem sections_failed : ∀ (ss : Sections) (out : IMap Name ArtifactRaw) (w : Str) (n : Name) (body : List Mark), Name.fromStr w = .ok n →
    IMap.Nodup out → Headless body → (∀ s ∈ ss, Headless s.2) → CutLast (body ++ ss.marks) →
    (Failed (prun L ⟨out, some n, none, [], none⟩ (body ++ ss.marks) >>= fun st' => flush L st') x ↔ NextWrong L out ((w, body) :: ss) x)
  | [], out, w, n, body, hn, hnd, hh, _, hc => by
    have e : body ++ Sections.marks [] = body := by simp [Sections.marks]
    rw [e] at hc ⊢
    rw [section_failed hn hh hc]
    constructor
    · intro h; exact ⟨[], w, body, [], [], rfl, .nil, by simpa using hnd, by simpa using h⟩
    · rintro ⟨good, w', body', rest, more, e, hf, hnd', hw⟩
      cases good with
      | nil => cases hf; cases e; simpa using hw
      | cons g good => simp at e
  | (w2, b) :: ss, out, w, n, body, hn, hnd, hh, hss, hc => by
    have hcb : CutLast body := hc.left
    have hcr : CutLast (b ++ Sections.marks ss) := (hc.right : CutLast (.head w2 :: (b ++ Sections.marks ss)))
    have hhb : Headless b := hss (w2, b) (by simp)
    have hss' : ∀ s ∈ ss, Headless s.2 := fun x hx => hss x (by simp [hx])
    have e : (prun L ⟨out, some n, none, [], none⟩ (body ++ Sections.marks ((w2, b) :: ss)) >>= fun st' => flush L st') =
        (prun L ⟨out, some n, none, [], none⟩ body >>= fun st => prun L st (.head w2 :: (b ++ Sections.marks ss)) >>= fun st' => flush L st') := by
      rw [prun_append, bind_assoc', marks_cons]
    rw [e, failed_bind]
    have sec : ∀ {m}, (prun L ⟨out, some n, none, [], none⟩ body >>= fun st' => flush L st') = .ok m ↔
        ∃ r, Says L body r ∧ IMap.contains out n = false ∧ m = out ++ [(n, r)] := section_iff hh hcb
    have bad := section_failed (L := L) (x := x) (out := out) hn hh hcb
    rw [failed_bind] at bad
    have nd : ∀ {r}, IMap.contains out n = false → IMap.Nodup (out ++ [(n, r)]) := fun {r} h => by
      rw [← IMap.insert_of_not_contains h]; exact IMap.nodup_insert hnd _ _
    have lift : ∀ {r}, Says L body r → IMap.contains out n = false → NextWrong L (out ++ [(n, r)]) ((w2, b) :: ss) x →
        NextWrong L out ((w, body) :: (w2, b) :: ss) x := by
      rintro r hr hr2 ⟨good, w', body', rest, more, e, hf, hnd', hw⟩
      refine ⟨(w, body) :: good, w', body', rest, (n, r) :: more, by rw [e]; rfl, .cons ⟨hn, hr⟩ hf, ?_, ?_⟩
      · simpa using hnd'
      · simpa using hw
    constructor
    · rintro (h | ⟨st, h1, h2⟩)
      · exact ⟨[], w, body, _, [], rfl, .nil, by simpa using hnd, by simpa using bad.1 (.inl h)⟩
      · rcases head_failed.1 h2 with h3 | ⟨out', h3, h4⟩
        · exact ⟨[], w, body, _, [], rfl, .nil, by simpa using hnd, by simpa using bad.1 (.inr ⟨st, h1, h3⟩)⟩
        · obtain ⟨r, hr, hr2, rfl⟩ := sec.1 (Res.bind_eq_ok.2 ⟨st, h1, h3⟩)
          refine lift hr hr2 ?_
          rcases h4 with ⟨e, h5, rfl⟩ | ⟨h5, rfl⟩ | ⟨n2, h5, h6⟩
          · exact ⟨[], w2, b, ss, [], rfl, .nil, by simpa using nd hr2, .name h5⟩
          · exact ⟨[], w2, b, ss, [], rfl, .nil, by simpa using nd hr2, .namePanic h5⟩
          · exact (sections_failed ss _ w2 n2 b h5 (nd hr2) hhb hss' hcr).1 h6
    · rintro ⟨good, w', body', rest, more, e, hf, hnd', hw⟩
      cases good with
      | nil =>
        cases hf
        cases e
        rw [List.append_nil] at hw
        rcases bad.2 hw with h | ⟨st, h1, h2⟩
        · exact .inl h
        · exact .inr ⟨st, h1, head_failed.2 (.inl h2)⟩
      | cons g good =>
        cases hf with
        | @cons _ y _ more hx hf =>
          obtain ⟨n', r⟩ := y
          simp only [List.cons_append, List.cons.injEq] at e
          obtain ⟨rfl, e⟩ := e
          obtain ⟨hx1, hx2⟩ := hx
          rw [hn] at hx1
          obtain rfl := Res.ok.inj hx1
          have hr2 := contains_false hnd'
          obtain ⟨st, h1, h3⟩ := Res.bind_eq_ok.1 (sec.2 ⟨r, hx2, hr2, rfl⟩)
          refine .inr ⟨st, h1, head_failed.2 (.inr ⟨_, h3, ?_⟩)⟩
          cases hn2 : Name.fromStr w2 with
          | ok n2 =>
            refine .inr (.inr ⟨n2, rfl, (sections_failed ss _ w2 n2 b hn2 (nd hr2) hhb hss' hcr).2 ?_⟩)
            exact ⟨good, w', body', rest, more, e, hf, by simpa using hnd', by simpa using hw⟩
          | err e2 =>
            cases good with
            | nil =>
              simp only [List.nil_append, List.cons.injEq, Prod.mk.injEq] at e
              obtain ⟨⟨rfl, rfl⟩, rfl⟩ := e
              cases hw with
              | name h => rw [hn2] at h; cases h; exact .inl ⟨_, rfl, rfl⟩
              | namePanic h => rw [hn2] at h; cases h
              | twice h _ => rw [hn2] at h; cases h
              | doc h _ _ => rw [hn2] at h; cases h
              | partof h _ _ _ => rw [hn2] at h; cases h
              | partofPanic h _ _ _ => rw [hn2] at h; cases h
              | again h _ _ _ => rw [hn2] at h; cases h
            | cons g good =>
              cases hf with
              | cons hx hf =>
                simp only [List.cons_append, List.cons.injEq] at e
                rw [← e.1, hn2] at hx
                cases hx.1
          | panic =>
            cases good with
            | nil =>
              simp only [List.nil_append, List.cons.injEq, Prod.mk.injEq] at e
              obtain ⟨⟨rfl, rfl⟩, rfl⟩ := e
              cases hw with
              | name h => rw [hn2] at h; cases h
              | namePanic h => exact .inr (.inl ⟨rfl, rfl⟩)
              | twice h _ => rw [hn2] at h; cases h
              | doc h _ _ => rw [hn2] at h; cases h
              | partof h _ _ _ => rw [hn2] at h; cases h
              | partofPanic h _ _ _ => rw [hn2] at h; cases h
              | again h _ _ _ => rw [hn2] at h; cases h
            | cons g good =>
              cases hf with
              | cons hx hf =>
                simp only [List.cons_append, List.cons.injEq] at e
                rw [← e.1, hn2] at hx
                cases hx.1

/-- **Reading a markdown file fails exactly if some section is wrong, and what is reported is what is wrong with the first such section.** -/
theorem C94_reported (L : Libs) (pre s : Str) (x : Option LoadErr) : Failed (fromMarkdown L pre s) x ↔
    ∃ ps, Cut L.fold pre (lines s) ps ∧ ∃ (above : List Mark) (ss : Sections), ps = above ++ ss.marks ∧ Headless above ∧ (∀ s ∈ ss, Headless s.2) ∧
      FirstWrong L ss x := by
  obtain ⟨ps, hc⟩ := Grammar.cut_exists L.fold pre _ (lines s) le_rfl
  have hread : fromMarkdown L pre s = prun L ⟨[], none, none, [], none⟩ ps >>= fun st' => flush L st' := rest_cut hc rfl
  obtain ⟨above, ss, h1, h2, h3⟩ := split_heads ps
  have hlast : CutLast (above ++ ss.marks) := h1 ▸ hc.last
  have main : Failed (fromMarkdown L pre s) x ↔ FirstWrong L ss x := by
    rw [hread, h1, prun_append, bind_assoc']
    obtain ⟨A, T, ha⟩ := prun_above (L := L) above none [] h2
    rw [ha]
    show Failed (prun L ⟨[], none, A, T, none⟩ ss.marks >>= fun st' => flush L st') x ↔ _
    have hnil : IMap.Nodup ([] : IMap Name ArtifactRaw) := by unfold IMap.Nodup; simp
    cases ss with
    | nil =>
      constructor
      · intro h; exact absurd h not_failed_ok
      · rintro ⟨good, w, body, rest, seen, e, _⟩; simp at e
    | cons y ss =>
      obtain ⟨w, b⟩ := y
      rw [marks_cons, head_failed]
      have hb : Headless b := h3 (w, b) (by simp)
      have hss : ∀ s ∈ ss, Headless s.2 := fun s hs => h3 s (by simp [hs])
      have hcl : CutLast (b ++ Sections.marks ss) := (hlast.right : CutLast (.head w :: (b ++ Sections.marks ss)))
      constructor
      · rintro (h | ⟨out, h, h4⟩)
        · exact absurd h not_failed_ok
        · cases (show (Res.ok ([] : IMap Name ArtifactRaw) : Res LoadErr _) = .ok out from h)
          rcases h4 with ⟨e, h5, rfl⟩ | ⟨h5, rfl⟩ | ⟨n, h5, h6⟩
          · exact ⟨[], w, b, ss, [], rfl, .nil, hnil, .name h5⟩
          · exact ⟨[], w, b, ss, [], rfl, .nil, hnil, .namePanic h5⟩
          · exact (sections_failed ss [] w n b h5 hnil hb hss hcl).1 h6
      · intro h
        refine .inr ⟨[], rfl, ?_⟩
        cases hn : Name.fromStr w with
        | ok n => exact .inr (.inr ⟨n, rfl, (sections_failed ss [] w n b hn hnil hb hss hcl).2 h⟩)
        | err e2 =>
          obtain ⟨good, w', body', rest, seen, e, hf, _, hw⟩ := h
          cases hf with
          | nil =>
            cases e
            cases hw with
            | name h => rw [hn] at h; cases h; exact .inl ⟨_, rfl, rfl⟩
            | namePanic h => rw [hn] at h; cases h
            | twice h _ => rw [hn] at h; cases h
            | doc h _ _ => rw [hn] at h; cases h
            | partof h _ _ _ => rw [hn] at h; cases h
            | partofPanic h _ _ _ => rw [hn] at h; cases h
            | again h _ _ _ => rw [hn] at h; cases h
          | cons hx hf =>
            simp only [List.cons_append, List.cons.injEq] at e
            rw [← e.1, hn] at hx
            cases hx.1
        | panic =>
          obtain ⟨good, w', body', rest, seen, e, hf, _, hw⟩ := h
          cases hf with
          | nil =>
            cases e
            cases hw with
            | name h => rw [hn] at h; cases h
            | namePanic h => exact .inr (.inl ⟨rfl, rfl⟩)
            | twice h _ => rw [hn] at h; cases h
            | doc h _ _ => rw [hn] at h; cases h
            | partof h _ _ _ => rw [hn] at h; cases h
            | partofPanic h _ _ _ => rw [hn] at h; cases h
            | again h _ _ _ => rw [hn] at h; cases h
          | cons hx hf =>
            simp only [List.cons_append, List.cons.injEq] at e
            rw [← e.1, hn] at hx
            cases hx.1
  rw [main]
  constructor
  · intro h; exact ⟨ps, hc, above, ss, h1, h2, h3, h⟩
  · rintro ⟨qs, hq, above', ss', g1, g2, g3, g4⟩
    obtain ⟨rfl, rfl⟩ := headless_inj g2 h2 g3 h3 (g1.symm.trans ((Grammar.cut_unique hq hc).trans h1))
    exact g4

/-- The heading of a section is never rejected as a name: a line whose name is not one is no heading. The first kind of mistake does not happen, so a name that is not
one is reported only for `partof`. -/
theorem C94_heads {fold : Char → Char} {ls : List Str} {ps : List Mark} (hc : Cut fold pre ls ps) {n : Str} (h : .head n ∈ ps) :
    (∃ m, Name.fromStr n = .ok m) ∨ Name.fromStr n = .panic := by
  have hl : Re.Lang nameRe n := by
    induction hc with
    | nil => cases h
    | head hl _ ih =>
      rcases List.mem_cons.1 h with e | h
      · cases e; obtain ⟨_, _, _, _, _, _, h, _⟩ := hl; exact h
      · exact ih h
    | _ => first
      | (rename_i ih; rcases List.mem_cons.1 h with e | h; · cases e
         exact ih h)
      | simp at h
  rw [← Re.isFull_iff] at hl
  cases hn : Name.fromStr n with
  | ok m => exact .inl ⟨m, rfl⟩
  | panic => exact .inr rfl
  | err e =>
    rw [Name.fromStr_eq_err] at hn
    unfold InternalName.fromStr at hn
    rw [hl] at hn
    simp only [Bool.not_true, Bool.false_eq_true, if_false] at hn
    split at hn
    · simp at hn
    · split_ifs at hn

/-- The sections of two texts that are joined. -/
theorem join_sections {s s' : Str} (hc : Merge.AllClosed L.fold pre (s ++ ['\n'])) (hs : Merge.Starts L.fold pre s') :
    ∃ ps qs above ss ss', Cut L.fold pre (lines (s ++ ['\n'])) ps ∧ Cut L.fold pre (lines s') qs ∧ Cut L.fold pre (lines (s ++ '\n' :: s')) (ps ++ qs) ∧
      ps = above ++ Sections.marks ss ∧ qs = Sections.marks ss' ∧ ps ++ qs = above ++ Sections.marks (ss ++ ss') ∧ Headless above ∧
      (∀ x ∈ ss, Headless x.2) ∧ ∀ x ∈ ss', Headless x.2 := by
  obtain ⟨ps, hps, hcl⟩ := hc
  obtain ⟨qs, hqs⟩ := Grammar.cut_exists L.fold pre _ (lines s') le_rfl
  obtain ⟨above, ss, e1, h1, h2⟩ := split_heads ps
  obtain ⟨above', ss', e1', h1', h2'⟩ := split_heads qs
  obtain ⟨n, qs', hn⟩ := Merge.starts_cut hs hqs
  have hab : above' = [] := by
    cases above' with
    | nil => rfl
    | cons p r =>
      rw [hn] at e1'
      injection e1' with e _
      exact absurd (by rw [e]; simp) (h1' n)
  subst hab
  rw [List.nil_append] at e1'
  exact ⟨ps, qs, above, ss, ss', hps, hqs, by rw [Merge.lines_join]; exact hps.append hcl hqs, e1, e1',
    by rw [Merge.marks_append, e1, e1', List.append_assoc], h1, h2, h2'⟩

/-- **What follows a mistake does not change what is reported**: when the first of two texts fails, the file made of both fails in the same way. -/
theorem C94_first (L : Libs) (pre : Str) {s s' : Str} (hc : Merge.AllClosed L.fold pre (s ++ ['\n'])) (hs : Merge.Starts L.fold pre s')
    (h : Failed (fromMarkdown L pre (s ++ ['\n'])) x) : Failed (fromMarkdown L pre (s ++ '\n' :: s')) x := by
  obtain ⟨ps, qs, above, ss, ss', c1, _, c3, e1, _, e3, h1, h2, h3⟩ := join_sections hc hs
  obtain ⟨rs, d1, above2, tt, d2, d3, d4, good, w, body, rest, seen, d5, d6⟩ := (C94_reported ..).1 h
  obtain ⟨rfl, rfl⟩ := headless_inj d3 h1 d4 h2 (d2.symm.trans ((Grammar.cut_unique d1 c1).trans e1))
  exact (C94_reported ..).2 ⟨_, c3, above2, tt ++ ss', e3, h1, fun y hy => (List.mem_append.1 hy).elim (h2 y) (h3 y), good, w, body, rest ++ ss', seen,
    by rw [d5]; simp, d6⟩

theorem Wrong.mono {o o' : IMap Name ArtifactRaw} {w : Str} {body : List Mark} (h : Wrong L o w body x) : Wrong L (o' ++ o) w body x := by
  cases h with
  | name h => exact .name h
  | namePanic h => exact .namePanic h
  | twice h h2 => exact .twice h h2
  | doc h h2 h3 => exact .doc h h2 h3
  | partof h h2 h3 h4 => exact .partof h h2 h3 h4
  | partofPanic h h2 h3 h4 => exact .partofPanic h h2 h3 h4
  | again h h2 h3 h4 => exact .again h h2 (List.mem_append_right _ h3) h4

/-- Up to the first name that has been there before, if there is one. -/
theorem first_again {good : Sections} {o seen : IMap Name ArtifactRaw}
    (hf : List.Forall₂ (fun s x => Name.fromStr s.1 = .ok x.1 ∧ Says L s.2 x.2) good seen) : ∀ {o0 : IMap Name ArtifactRaw}, IMap.Nodup (o ++ o0) →
    IMap.Nodup (o0 ++ seen) → IMap.Nodup (o ++ (o0 ++ seen)) ∨
    ∃ (g : Sections) (w : Str) (b : List Mark) (g' : Sections) (seen1 : IMap Name ArtifactRaw) (n : Name) (r : ArtifactRaw),
      good = g ++ (w, b) :: g' ∧ List.Forall₂ (fun s x => Name.fromStr s.1 = .ok x.1 ∧ Says L s.2 x.2) g seen1 ∧ IMap.Nodup (o ++ (o0 ++ seen1)) ∧
      Name.fromStr w = .ok n ∧ Says L b r ∧ ∃ y ∈ o, key y.1 = key n := by
  induction hf with
  | nil => intro o0 h _; exact .inl (by simpa using h)
  | @cons sc y good seen hx hf ih =>
    intro o0 hn hn2
    by_cases hc : ∃ z ∈ o, key z.1 = key y.1
    · exact .inr ⟨[], sc.1, sc.2, good, [], y.1, y.2, rfl, .nil, by simpa using hn, hx.1, hx.2, hc⟩
    · have hn' : IMap.Nodup (o ++ (o0 ++ [y])) := by
        obtain ⟨a1, a2, a3⟩ := Merge.nodup_join.1 hn
        have b : IMap.Nodup (o0 ++ [y]) := by
          have : o0 ++ y :: seen = (o0 ++ [y]) ++ seen := by simp
          rw [this] at hn2
          exact (Merge.nodup_join.1 hn2).1
        refine Merge.nodup_join.2 ⟨a1, b, fun z hz v hv => ?_⟩
        rcases List.mem_append.1 hv with hv | hv
        · exact a3 z hz v hv
        · rw [List.mem_singleton.1 hv]; exact fun e => hc ⟨z, hz, e⟩
      rcases ih hn' (by simpa using hn2) with h | ⟨g, w, b, g', seen1, n, r, rfl, h2, h3, h4⟩
      · exact .inl (by simpa using h)
      · exact .inr ⟨sc :: g, w, b, g', y :: seen1, n, r, rfl, .cons hx h2, by simpa using h3, h4⟩

/-- **What comes before a mistake does not change what is reported, except for a name that is there twice**: when the first of two texts is read as `o` and the second fails, the
file made of both fails, in the same way or because of a name of `o`. -/
theorem C94_second (L : Libs) (pre : Str) {s s' : Str} (hc : Merge.AllClosed L.fold pre (s ++ ['\n'])) (hs : Merge.Starts L.fold pre s')
    {o : IMap Name ArtifactRaw} (ho : fromMarkdown L pre (s ++ ['\n']) = .ok o) (h : Failed (fromMarkdown L pre s') x) :
    Failed (fromMarkdown L pre (s ++ '\n' :: s')) x ∨
    ∃ n, fromMarkdown L pre (s ++ '\n' :: s') = .err (.nameTwice n) ∧ ∃ y ∈ o, key y.1 = key n := by
  obtain ⟨ps, qs, above, ss, ss', c1, c2, c3, e1, e2, e3, h1, h2, h3⟩ := join_sections hc hs
  obtain ⟨rs, d1, above2, tt, d2, d3, d4, d5, d6⟩ := (C91_reads ..).1 ho
  obtain ⟨rfl, rfl⟩ := headless_inj d3 h1 d4 h2 (d2.symm.trans ((Grammar.cut_unique d1 c1).trans e1))
  obtain ⟨rs', f1, above3, tt', f2, f3, f4, good, w, body, rest, seen, f5, f6, f7, f8⟩ := (C94_reported ..).1 h
  have hnil : Headless [] := fun _ h => by cases h
  obtain ⟨rfl, rfl⟩ := headless_inj f3 hnil f4 h3 (f2.symm.trans ((Grammar.cut_unique f1 c2).trans e2))
  have hall : ∀ y ∈ tt ++ tt', Headless y.2 := fun y hy => (List.mem_append.1 hy).elim (h2 y) (h3 y)
  rcases first_again (o := o) f6 (o0 := []) (by simpa using d6) (by simpa using f7) with hn | ⟨g, w1, b1, g', seen1, n, r, rfl, i1, i2, i3, i4, y, hy, hk⟩
  · refine .inl ((C94_reported ..).2 ⟨_, c3, above2, tt ++ tt', e3, h1, hall, tt ++ good, w, body, rest, o ++ seen, by rw [f5]; simp, ?_, ?_, f8.mono⟩)
    · exact List.rel_append d5 f6
    · simpa using hn
  · refine .inr ⟨n, ?_, y, hy, hk⟩
    refine (C94_reported L pre _ (some (.nameTwice n))).2 ⟨_, c3, above2, tt ++ tt', e3, h1, hall, tt ++ g, w1, b1, g' ++ (w, body) :: rest, o ++ seen1,
      by rw [f5]; simp, List.rel_append d5 i1, by simpa using i2, .again i3 i4 (List.mem_append_left _ hy) hk⟩

end Art.Fault
