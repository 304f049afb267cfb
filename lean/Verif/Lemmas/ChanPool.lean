import Verif.Lemmas.Chan
import Mathlib.Data.Multiset.Bind

/-!
# Lemmas about workers that share a receiver
One thread sends, several threads receive from the same channel, and some values make the receiving thread die.
-/

namespace Art.Chan
open scoped BigOperators

variable {ι C V : Type} [DecidableEq ι] [DecidableEq C] [Fintype ι] [Fintype C]

/-! ## the files up to the last death -/

/-- The values up to the `n`-th for which `d` holds. -/
def upTo (d : V → Bool) : Nat → List V → List V
  | 0, _ => []
  | _ + 1, [] => []
  | n + 1, v :: l => v :: upTo d (if d v then n else n + 1) l

theorem upTo_lt (d : V → Bool) : ∀ (n : Nat) (l : List V), l.countP d < n → upTo d n l = l
  | 0, _, h => by omega
  | _ + 1, [], _ => rfl
  | n + 1, v :: l, h => by
    rw [upTo]
    cases hv : d v with
    | true =>
      rw [List.countP_cons_of_pos hv] at h
      simp [upTo_lt d n l (by omega)]
    | false =>
      rw [List.countP_cons_of_neg (by simp [hv])] at h
      simp [upTo_lt d (n + 1) l h]

theorem upTo_snoc (d : V → Bool) (v : V) : ∀ (n : Nat) (l : List V), l.countP d < n → upTo d n (l ++ [v]) = l ++ [v]
  | 0, _, h => by omega
  | n + 1, [], _ => by
    simp only [List.nil_append, upTo]
    cases d v <;> cases n <;> rfl
  | n + 1, x :: l, h => by
    rw [List.cons_append, upTo]
    cases hv : d x with
    | true =>
      rw [List.countP_cons_of_pos hv] at h
      simp [upTo_snoc d v n l (by omega)]
    | false =>
      rw [List.countP_cons_of_neg (by simp [hv])] at h
      simp [upTo_snoc d v (n + 1) l h]

theorem upTo_ge (d : V → Bool) (m : List V) : ∀ (n : Nat) (l : List V), upTo d n l = l → n ≤ l.countP d → upTo d n (l ++ m) = l
  | 0, l, h, _ => by
    simp only [upTo] at h ⊢
    exact h
  | _ + 1, [], _, h => by simp at h
  | n + 1, x :: l, h, hc => by
    rw [upTo] at h
    rw [List.cons_append, upTo]
    simp only [List.cons.injEq, true_and] at h ⊢
    cases hv : d x with
    | true =>
      rw [List.countP_cons_of_pos hv] at hc
      simp only [hv, if_true] at h ⊢
      exact upTo_ge d m n l h (by omega)
    | false =>
      rw [List.countP_cons_of_neg (by simp [hv])] at hc
      simp only [hv, Bool.false_eq_true, if_false] at h ⊢
      exact upTo_ge d m (n + 1) l h hc

theorem upTo_prefix (d : V → Bool) (m : List V) : ∀ (n : Nat) (l : List V), n ≤ l.countP d → upTo d n (l ++ m) <+: l
  | 0, l, _ => by simp [upTo]
  | _ + 1, [], h => by simp at h
  | n + 1, x :: l, hc => by
    rw [List.cons_append, upTo]
    cases hv : d x with
    | true =>
      rw [List.countP_cons_of_pos hv] at hc
      simpa using upTo_prefix d m n l (by omega)
    | false =>
      rw [List.countP_cons_of_neg (by simp [hv])] at hc
      simpa using upTo_prefix d m (n + 1) l hc

/-! ## one sender -/

/-- A thread that is over stays as it is. -/
theorem over_stays {N : Net ι C V} {s s' : St ι C V} (hr : Reach N s) (h : Step N s s') {i : ι} (ho : (s.th i).fate ≠ .live) : s'.th i = s.th i := by
  obtain ⟨k, hk, hj⟩ := step_th h
  by_cases hik : i = k
  · subst hik
    exfalso
    have h0 := ((reach_th hr i).over_ops ho).1
    generalize s'.th i = t' at hk
    cases hk with
    | send _ _ _ h _ => rw [h0] at h; simp at h
    | sendDead _ _ _ h _ => rw [h0] at h; simp at h
    | dropTx _ _ h => rw [h0] at h; simp at h
    | dropRx _ _ h => rw [h0] at h; simp at h
    | die _ h => rw [h0] at h; simp at h
    | recv _ _ _ h _ _ => exact ho h
    | close _ _ h _ _ => exact ho h
    | stop _ h _ => exact ho h
  · exact hj i hik

/-- If only one thread can send then what is received is in the order of sending. -/
theorem sent_list {N : Net ι C V} {c : C} {w : ι} (hone : ∀ i, N.tx i c = true → i = w) {s : St ι C V} (h : Reach N s) :
    s.taken c ++ s.queue c = (s.th w).ran.filterMap (toChan c) := by
  induction h with
  | refl => simp [Net.init]
  | @tail s s' hr h ih =>
    have same : ∀ (k : ι) (x : Th C V), x.ran.filterMap (toChan c) = (s.th k).ran.filterMap (toChan c) →
        ((s.set k x).th w).ran.filterMap (toChan c) = (s.th w).ran.filterMap (toChan c) := by
      intro k x hx
      by_cases hkw : w = k
      · subst hkw; simpa [St.set] using hx
      · simp [St.set, Function.update_of_ne hkw]
    cases h with
    | send k d v rest ho ht _ _ =>
      by_cases hcd : d = c
      · subst hcd
        obtain rfl := hone k ((reach_th hr k).txle d ht)
        simp [St.set, toChan, ← ih]
      · rw [show ∀ q, ({s.set k { s.th k with ops := rest, ran := (s.th k).ran ++ [.send d v] } with queue := q} : St ι C V).th =
          (s.set k { s.th k with ops := rest, ran := (s.th k).ran ++ [.send d v] }).th from fun _ => rfl]
        rw [same k _ (by simp [toChan, hcd]), ← ih]
        simp [Function.update_of_ne (Ne.symm hcd), St.set]
    | dropTx k d rest ho => exact ih.trans (same k _ (by simp [toChan])).symm
    | dropRx k d rest ho => exact ih.trans (same k _ (by simp [toChan])).symm
    | sendDead k d v rest ho ht _ => exact ih.trans (same k _ (by rfl)).symm
    | die k rest ho => exact ih.trans (same k _ (by rfl)).symm
    | stop k ho hl hc => exact ih.trans (same k _ (by rfl)).symm
    | close k d ho hl hcl hsr hq ht => exact ih.trans (same k _ (by rfl)).symm
    | recv k d v q ho hl hcl hsr hq =>
      have := same k { s.th k with ops := (N.prog k).item v, got := (s.th k).got ++ [v] } rfl
      refine Eq.trans ?_ this.symm
      rw [← ih]
      by_cases hcd : c = d
      · subst hcd
        simp [hq]
      · simp [Function.update_of_ne hcd, St.set]

/-! ## workers -/

/-- Workers that share the receiver `c`; `walk` is the only one that sends into it. -/
structure Pool (N : Net ι C V) (F : ι → Prop) (c : C) (walk : ι) (n : Nat) (w : Fin n → ι) (sends : V → List (Op C V)) (dead : V → Bool) : Prop where
  faithful : Faithful N F
  inj : Function.Injective w
  only : ∀ i, (N.prog i).src = some c ↔ ∃ k, i = w k
  first : ∀ k, (N.prog (w k)).first = []
  item : ∀ k v, (N.prog (w k)).item v = sends v ++ if dead v then [.die] else []
  close : ∀ k l, (N.prog (w k)).close l = []
  sends : ∀ v, ∀ o ∈ sends v, ∃ d x, o = .send d x ∧ ∃ j, F j ∧ (N.prog j).src = some d
  rx : ∀ k, N.rx (w k) c = true
  tx : ∀ i, N.tx i c = true → i = walk
  walk_src : (N.prog walk).src = none
  walk_first : ∀ o ∈ (N.prog walk).first, ∃ d x, o = .send d x ∧ (d = c ∨ ∃ j, F j ∧ (N.prog j).src = some d)

variable {N : Net ι C V} {F : ι → Prop} {c : C} {walk : ι} {n : Nat} {w : Fin n → ι} {sends : V → List (Op C V)} {dead : V → Bool}

theorem Pool.full_work (P : Pool N F c walk n w sends dead) (k : Fin n) (g : List V) (b : Bool) :
    full N (w k) g b = g.flatMap fun v => sends v ++ if dead v then [.die] else [] := by
  have : (N.prog (w k)).item = fun v => sends v ++ if dead v then [.die] else [] := funext (P.item k)
  simp [full, P.first, this, P.close]

theorem Pool.does_work (P : Pool N F c walk n w sends dead) (k : Fin n) (o : Op C V) (h : Does N (w k) o) :
    o = .die ∨ ∃ d x, o = .send d x ∧ ∃ j, F j ∧ (N.prog j).src = some d := by
  rcases h with h | ⟨v, h⟩ | ⟨l, h⟩
  · rw [P.first] at h; simp at h
  · rw [P.item, List.mem_append] at h
    rcases h with h | h
    · exact .inr (P.sends v o h)
    · split at h
      · exact .inl (by simpa using h)
      · simp at h
  · rw [P.close] at h; simp at h

theorem Pool.nodie (P : Pool N F c walk n w sends dead) (v : V) : .die ∉ sends v := by
  intro h
  obtain ⟨_, _, h, _⟩ := P.sends v _ h
  simp at h

/-- A worker that waits has met no deadly value. -/
theorem Pool.idle (P : Pool N F c walk n w sends dead) {t : Th C V} {k : Fin n} (h : ThInv N (w k) t) (hl : t.fate ≠ .died) (ho : t.ops = []) :
    ∀ v ∈ t.got, dead v = false := by
  intro v hv
  have hs := h.script hl
  rw [ho, List.append_nil, P.full_work] at hs
  by_contra hd
  apply h.nodie
  rw [hs, List.mem_flatMap]
  exact ⟨v, hv, by simp [(by simpa using hd : dead v = true)]⟩

/-- A deadly value is the last that a worker receives. -/
theorem Pool.last (P : Pool N F c walk n w sends dead) {s : St ι C V} (h : Reach N s) (k : Fin n) :
    ∀ g v, (s.th (w k)).got = g ++ [v] → ∀ x ∈ g, dead x = false := by
  have := th_inv (N := N) (fun i t => ThInv N i t ∧ ∀ k, i = w k → ∀ g v, t.got = g ++ [v] → ∀ x ∈ g, dead x = false)
    (fun i => ⟨th_inv_init N i, fun k _ g v hg => by simp [Net.init] at hg⟩)
    (by
      rintro i t t' ⟨hi, ih⟩ hs
      refine ⟨th_inv_step i t t' hi hs, ?_⟩
      cases hs with
      | recv c' v ho hl _ _ =>
        rintro k rfl g x hg
        obtain ⟨rfl, _⟩ := List.append_inj' hg rfl
        exact P.idle hi (by rw [hl]; simp) ho
      | _ => exact ih) h (w k)
  exact this.2 k rfl

theorem Pool.died (P : Pool N F c walk n w sends dead) {s : St ι C V} (h : Reach N s) (k : Fin n) (hd : (s.th (w k)).fate = .died) :
    (s.th (w k)).ran = (s.th (w k)).got.flatMap sends ∧ (s.th (w k)).got.countP dead = 1 := by
  obtain ⟨o, rest, hf, ho⟩ := died_why P.faithful h (w k) hd
  have ho : o = .die := by
    refine ho.resolve_right ?_
    rintro ⟨d, x, rfl, hn⟩
    have : Does N (w k) (.send d x) := does_of_full (by rw [← hf]; simp)
    rcases P.does_work k _ this with h | ⟨_, _, h, j, hj, hs⟩
    · simp at h
    · cases h
      exact hn j hj hs
  subst ho
  rw [P.full_work] at hf
  rcases List.eq_nil_or_concat (s.th (w k)).got with hg | ⟨g, v, hg⟩
  · rw [hg] at hf
    simp at hf
  · rw [List.concat_eq_append] at hg
    have hlast := P.last h k g v hg
    have hgn : (g.flatMap fun v => sends v ++ if dead v then [.die] else []) = g.flatMap sends := by
      refine List.flatMap_congr fun x hx => ?_
      simp [hlast x hx]
    rw [hg, List.flatMap_append, List.flatMap_singleton, hgn] at hf
    have hdv : dead v = true := by
      by_contra hdv
      have : (Op.die : Op C V) ∈ g.flatMap sends ++ (sends v ++ if dead v = true then [.die] else []) := by rw [← hf]; simp
      rw [if_neg hdv, List.append_nil, List.mem_append, List.mem_flatMap] at this
      rcases this with ⟨x, _, hx⟩ | hx
      · exact P.nodie x hx
      · exact P.nodie v hx
    rw [if_pos hdv, ← List.append_assoc] at hf
    have hcount : ∀ l : List (Op C V), .die ∉ l → ∀ r a b, r ++ .die :: a = l ++ .die :: b → .die ∉ r → r = l := by
      intro l
      induction l with
      | nil =>
        intro _ r a b he hr
        cases r with
        | nil => rfl
        | cons x r =>
          simp only [List.cons_append, List.nil_append, List.cons.injEq] at he
          rw [he.1] at hr
          simp at hr
      | cons y l ih =>
        intro hl r a b he hr
        cases r with
        | nil =>
          simp only [List.cons_append, List.nil_append, List.cons.injEq] at he
          rw [← he.1] at hl
          simp at hl
        | cons x r =>
          simp only [List.cons_append, List.cons.injEq] at he
          rw [he.1, ih (fun h => hl (List.mem_cons_of_mem _ h)) r a b he.2 (fun h => hr (List.mem_cons_of_mem _ h))]
    constructor
    · rw [hg, List.flatMap_append, List.flatMap_singleton]
      refine hcount _ ?_ _ rest [] hf (reach_th h (w k)).nodie
      rw [List.mem_append, List.mem_flatMap]
      rintro (⟨x, _, hx⟩ | hx)
      · exact P.nodie x hx
      · exact P.nodie v hx
    · rw [hg, List.countP_append]
      have : g.countP dead = 0 := List.countP_eq_zero.2 fun x hx => by simp [hlast x hx]
      simp [this, hdv]

theorem Pool.ended (P : Pool N F c walk n w sends dead) {s : St ι C V} (h : Reach N s) (k : Fin n) (hd : (s.th (w k)).fate = .ended) :
    (s.th (w k)).ran = (s.th (w k)).got.flatMap sends ∧ (s.th (w k)).got.countP dead = 0 := by
  have hi := reach_th h (w k)
  have ho := (hi.over_ops (by rw [hd]; simp)).1
  have hn := P.idle hi (by rw [hd]; simp) ho
  have hs := hi.script (by rw [hd]; simp)
  rw [ho, List.append_nil, P.full_work] at hs
  refine ⟨?_, List.countP_eq_zero.2 fun x hx => by simp [hn x hx]⟩
  rw [hs]
  refine List.flatMap_congr fun x hx => ?_
  simp [hn x hx]

theorem Pool.le_one (P : Pool N F c walk n w sends dead) {s : St ι C V} (h : Reach N s) (k : Fin n) : (s.th (w k)).got.countP dead ≤ 1 := by
  rcases List.eq_nil_or_concat (s.th (w k)).got with hg | ⟨g, v, hg⟩
  · simp [hg]
  · rw [List.concat_eq_append] at hg
    rw [hg, List.countP_append]
    have : g.countP dead = 0 := List.countP_eq_zero.2 fun x hx => by simp [P.last h k g v hg x hx]
    rw [this]
    simp only [List.countP_singleton]
    split <;> omega

theorem Pool.taken (P : Pool N F c walk n w sends dead) {s : St ι C V} (h : Reach N s) :
    ((s.taken c : List V) : Multiset V) = ∑ k, ((s.th (w k)).got : Multiset V) := by
  rw [taken_inv h c]
  have h1 : ∀ i, gotFrom N c i (s.th i) = if i ∈ Finset.univ.image w then ((s.th i).got : Multiset V) else 0 := by
    intro i
    by_cases hi : ∃ k, i = w k
    · rw [gotFrom, if_pos ((P.only i).2 hi), if_pos]
      obtain ⟨k, rfl⟩ := hi
      simp
    · rw [gotFrom, if_neg (fun h => hi ((P.only i).1 h)), if_neg]
      simp only [Finset.mem_image, Finset.mem_univ, true_and, not_exists]
      exact fun k hk => hi ⟨k, hk.symm⟩
  rw [Finset.sum_congr rfl fun i _ => h1 i, ← Finset.sum_filter, Finset.filter_mem_eq_inter, Finset.univ_inter,
    Finset.sum_image fun a _ b _ hab => P.inj hab]

theorem Pool.count (P : Pool N F c walk n w sends dead) {s : St ι C V} (h : Reach N s) :
    (s.taken c).countP dead = ∑ k, (s.th (w k)).got.countP dead := by
  have := congrArg (Multiset.countPAddMonoidHom (fun v => dead v = true)) (P.taken h)
  rw [map_sum] at this
  simpa using this

/-- Nothing is received after the last worker has met a deadly value. -/
theorem Pool.upTo_taken (P : Pool N F c walk n w sends dead) {s : St ι C V} (h : Reach N s) : upTo dead n (s.taken c) = s.taken c := by
  induction h with
  | refl =>
    simp only [Net.init]
    cases n <;> rfl
  | @tail s s' hr h ih =>
    cases h with
    | recv k d v q ho hl hcl hsr hq =>
      by_cases hcd : c = d
      · subst hcd
        simp only [Function.update_self]
        refine upTo_snoc dead v n _ ?_
        obtain ⟨m, rfl⟩ := (P.only k).1 hsr
        rw [P.count hr]
        have hz : (s.th (w m)).got.countP dead = 0 := List.countP_eq_zero.2 fun x hx => by
          simp [P.idle (reach_th hr (w m)) (by rw [hl]; simp) ho x hx]
        calc ∑ k, (s.th (w k)).got.countP dead < ∑ _k : Fin n, 1 :=
              Finset.sum_lt_sum (fun k _ => P.le_one hr k) ⟨m, Finset.mem_univ m, by rw [hz]; exact Nat.one_pos⟩
          _ = n := by simp
      · simpa [Function.update_of_ne hcd] using ih
    | _ => exact ih

theorem Pool.work_rx (P : Pool N F c walk n w sends dead) {s : St ι C V} (h : Reach N s) (k : Fin n) (hd : (s.th (w k)).fate ≠ .died)
    {i : ι} (ht : (s.th i).tx c = true) : (s.th (w k)).rx c = true := by
  refine heard h hd ((P.only _).2 ⟨k, rfl⟩) (P.rx k) (fun hdoes => ?_) ht
  rcases P.does_work k _ hdoes with h | ⟨_, _, h, _⟩ <;> simp at h

/-- If the sender dies then all workers are dead. -/
theorem Pool.walk_died (P : Pool N F c walk n w sends dead) {s : St ι C V} (h : Reach N s) : (s.th walk).fate = .died →
    ∀ k, (s.th (w k)).fate = .died := by
  induction h with
  | refl => simp [Net.init]
  | @tail s s' hr h ih =>
    by_cases hd : (s.th walk).fate = .died
    · intro _ k
      have := ih hd k
      rw [over_stays hr h (by rw [this]; simp)]
      exact this
    · have hne : ∀ k, w k ≠ walk := by
        intro k hk
        have := (P.only (w k)).2 ⟨k, rfl⟩
        rw [hk, P.walk_src] at this
        simp at this
      intro hd'
      have hdoes : ∀ o, o ∈ (s.th walk).ops → o ∈ (N.prog walk).first := by
        intro o ho
        have hm := mem_full hr hd ho
        have hg : (s.th walk).closed = false := by
          by_contra hc
          exact (reach_th hr walk).closed_src (by simpa using hc) P.walk_src
        have hgot : (s.th walk).got = [] := by
          have := th_inv (N := N) (fun i t => i = walk → t.got = []) (fun i _ => rfl) (by
            intro i t t' ih hs
            cases hs with
            | recv c' v _ _ _ hsrc =>
              rintro rfl
              rw [P.walk_src] at hsrc
              simp at hsrc
            | _ => exact ih) hr walk
          exact this rfl
        simpa [full, hg, hgot] using hm
      cases h with
      | sendDead k d v rest ho ht hn =>
        by_cases hkw : walk = k
        · subst hkw
          intro m
          simp only [St.set, Function.update_of_ne (hne m)]
          by_contra hm
          obtain ⟨d', x, hx, hc⟩ := P.walk_first (.send d v) (hdoes _ (by rw [ho]; simp))
          cases hx
          rcases hc with rfl | ⟨j, hj, hs⟩
          · have := P.work_rx hr m hm ht
            rw [hn] at this
            simp at this
          · have := heard hr (faithful_alive P.faithful hr j hj) hs (P.faithful.rx j hj d hs).1 (P.faithful.rx j hj d hs).2 ht
            rw [hn] at this
            simp at this
        · simp only [St.set, Function.update_of_ne hkw] at hd'
          exact absurd hd' hd
      | die k rest ho =>
        by_cases hkw : walk = k
        · subst hkw
          obtain ⟨d', x, hx, hc⟩ := P.walk_first .die (hdoes _ (by rw [ho]; simp))
          simp at hx
        · simp only [St.set, Function.update_of_ne hkw] at hd'
          exact absurd hd' hd
      | stop k ho hl hc =>
        by_cases hkw : walk = k
        · subst hkw
          simp [St.set, Th.over] at hd'
        · simp only [St.set, Function.update_of_ne hkw] at hd'
          exact absurd hd' hd
      | send k d v rest ho ht _ _ =>
        by_cases hkw : walk = k
        · subst hkw
          simp only [St.set, Function.update_self] at hd'
          exact absurd hd' hd
        · simp only [St.set, Function.update_of_ne hkw] at hd'
          exact absurd hd' hd
      | dropTx k d rest ho =>
        by_cases hkw : walk = k
        · subst hkw
          simp only [St.set, Function.update_self] at hd'
          exact absurd hd' hd
        · simp only [St.set, Function.update_of_ne hkw] at hd'
          exact absurd hd' hd
      | dropRx k d rest ho =>
        by_cases hkw : walk = k
        · subst hkw
          simp only [St.set, Function.update_self] at hd'
          exact absurd hd' hd
        · simp only [St.set, Function.update_of_ne hkw] at hd'
          exact absurd hd' hd
      | recv k d v q ho hl hcl hsr hq =>
        by_cases hkw : walk = k
        · subst hkw
          simp only [St.set, Function.update_self] at hd'
          exact absurd hd' hd
        · simp only [St.set, Function.update_of_ne hkw] at hd'
          exact absurd hd' hd
      | close k d ho hl hcl hsr hq ht =>
        by_cases hkw : walk = k
        · subst hkw
          simp only [St.set, Function.update_self] at hd'
          exact absurd hd' hd
        · simp only [St.set, Function.update_of_ne hkw] at hd'
          exact absurd hd' hd

theorem Pool.walk_full (P : Pool N F c walk n w sends dead) {s : St ι C V} (h : Reach N s) :
    full N walk (s.th walk).got (s.th walk).closed = (N.prog walk).first := by
  have hg : (s.th walk).closed = false := by
    by_contra hc
    exact (reach_th h walk).closed_src (by simpa using hc) P.walk_src
  have hgot : (s.th walk).got = [] := by
    have := th_inv (N := N) (fun i t => i = walk → t.got = []) (fun i _ => rfl) (by
      intro i t t' ih hs
      cases hs with
      | recv c' v _ _ _ hsrc =>
        rintro rfl
        rw [P.walk_src] at hsrc
        simp at hsrc
      | _ => exact ih) h walk
    exact this rfl
  simp [full, hg, hgot]

/-- When all is over: exactly the values up to the `n`-th deadly one were received, whatever the scheduler did. -/
theorem Pool.over' (P : Pool N F c walk n w sends dead) {s : St ι C V} (h : Reach N s) (ho : ∀ k, (s.th (w k)).fate ≠ .live)
    (how : (s.th walk).fate ≠ .live) :
    s.taken c = upTo dead n ((N.prog walk).first.filterMap (toChan c)) ∧
      (s.th walk).ran <+: (N.prog walk).first ∧
      (((N.prog walk).first.filterMap (toChan c)).countP dead < n → (s.th walk).ran = (N.prog walk).first) ∧
      ∀ k, (s.th (w k)).ran = (s.th (w k)).got.flatMap sends := by
  have hran : ∀ k, (s.th (w k)).ran = (s.th (w k)).got.flatMap sends := by
    intro k
    match hf : (s.th (w k)).fate with
    | .live => exact absurd hf (ho k)
    | .ended => exact (P.ended h k hf).1
    | .died => exact (P.died h k hf).1
  have hpre : (s.th walk).ran <+: (N.prog walk).first := by
    have := (reach_th h walk).prefix_
    rwa [P.walk_full h] at this
  have hsent := sent_list P.tx h
  have hup := P.upTo_taken h
  by_cases hall : ∀ k, (s.th (w k)).fate = .died
  · have hcount : (s.taken c).countP dead = n := by
      rw [P.count h, Finset.sum_congr rfl fun k _ => (P.died h k (hall k)).2]
      simp
    obtain ⟨rest, hrest⟩ := hpre
    have htot : (N.prog walk).first.filterMap (toChan c) = s.taken c ++ (s.queue c ++ rest.filterMap (toChan c)) := by
      rw [← hrest, List.filterMap_append, ← hsent, List.append_assoc]
    refine ⟨?_, ⟨rest, hrest⟩, fun hlt => ?_, hran⟩
    · rw [htot, upTo_ge dead _ n _ hup (by omega)]
    · rw [htot, List.countP_append] at hlt
      omega
  · simp only [not_forall] at hall
    obtain ⟨k, hk⟩ := hall
    have hke : (s.th (w k)).fate = .ended := by
      match hf : (s.th (w k)).fate with
      | .live => exact absurd hf (ho k)
      | .ended => rfl
      | .died => exact absurd hf hk
    have hw : (s.th walk).fate ≠ .died := fun hd => hk (P.walk_died h hd k)
    have hwran : (s.th walk).ran = (N.prog walk).first := by
      have hs := (reach_th h walk).script hw
      rwa [((reach_th h walk).over_ops how).1, List.append_nil, P.walk_full h] at hs
    have hsrc := (P.only (w k)).2 ⟨k, rfl⟩
    have hc := ((reach_th h (w k)).ended hke).resolve_right (by rw [hsrc]; simp)
    have hq := (closed_inv h (w k) c hc hsrc).1
    rw [hq, List.append_nil, hwran] at hsent
    exact ⟨by rw [← hsent, hup], hpre, fun _ => hwran, hran⟩

theorem Pool.over (P : Pool N F c walk n w sends dead) {s : St ι C V} (h : Reach N s) (ho : s.Over) :
    s.taken c = upTo dead n ((N.prog walk).first.filterMap (toChan c)) ∧
      (s.th walk).ran <+: (N.prog walk).first ∧
      (((N.prog walk).first.filterMap (toChan c)).countP dead < n → (s.th walk).ran = (N.prog walk).first) ∧
      ∀ k, (s.th (w k)).ran = (s.th (w k)).got.flatMap sends := P.over' h (fun k => ho (w k)) (ho walk)

end Art.Chan
