import Verif.Lemmas.ChanPool
import Mathlib.Data.Fintype.Sum
import Mathlib.Data.Fintype.BigOperators
import Mathlib.Algebra.BigOperators.Fin

/-!
# Lemmas about the threads that read a project
-/

namespace Art.Chan
open scoped BigOperators

instance : Fintype RCh := ⟨{.codePath, .loc, .artPath, .im, .lint}, by intro x; cases x <;> simp⟩

/-- The threads in three groups. -/
def rthEquiv (n : Nat) : Fin 6 ⊕ Fin 4 ⊕ Fin n ≃ RTh n where
  toFun
    | .inl 0 => .main
    | .inl 1 => .lints
    | .inl 2 => .codeWalk
    | .inl 3 => .locs
    | .inl 4 => .artWalk
    | .inl 5 => .arts
    | .inr (.inl k) => .codeWork k
    | .inr (.inr k) => .artWork k
  invFun
    | .main => .inl 0
    | .lints => .inl 1
    | .codeWalk => .inl 2
    | .locs => .inl 3
    | .artWalk => .inl 4
    | .arts => .inl 5
    | .codeWork k => .inr (.inl k)
    | .artWork k => .inr (.inr k)
  left_inv := by
    rintro (k | k | k)
    · match k with
      | 0 | 1 | 2 | 3 | 4 | 5 => rfl
    · rfl
    · rfl
  right_inv := by intro x; cases x <;> rfl

instance (n : Nat) : Fintype (RTh n) := Fintype.ofEquiv _ (rthEquiv n)

theorem rth_sum {M : Type} [AddCommMonoid M] (n : Nat) (f : RTh n → M) :
    ∑ i, f i = f .main + f .lints + f .codeWalk + f .locs + f .artWalk + f .arts + (∑ k, f (.codeWork k) + ∑ k, f (.artWork k)) := by
  rw [← Equiv.sum_comp (rthEquiv n), Fintype.sum_sum_type, Fintype.sum_sum_type, Fin.sum_univ_six]
  rfl

section
variable (L : Libs) (n : Nat) (fs : FS) (s : Settings)

/-! ## it ends -/

/-- The weight of what a worker does. -/
def opBase : Op RCh Item → Nat
  | .send _ _ => 2
  | _ => 1

/-- The weight of a value in a queue. -/
def readVal : RCh → Item → Nat
  | .codePath, v => 1 + ((onPath (fun p => workOps .loc .loc (codeSent L fs p)) v).map opBase).sum
  | .artPath, v => 1 + ((onPath (fun p => workOps .im .im (artSent L s.pre fs p)) v).map opBase).sum
  | _, _ => 1

/-- The weight of an action. -/
def readOp : Op RCh Item → Nat
  | .send c v => readVal L fs s c v + 1
  | _ => 1

theorem workOps_base (out : RCh) (ho : out = .loc ∨ out = .im) (mk : α → Item) (x : Sent α) :
    ((workOps out mk x).map (readOp L fs s)).sum = ((workOps out mk x).map opBase).sum := by
  refine congrArg List.sum (List.map_congr_left fun o h => ?_)
  simp only [workOps, List.mem_append, List.mem_map] at h
  rcases h with (⟨a, _, rfl⟩ | ⟨l, _, rfl⟩) | h
  · rcases ho with rfl | rfl <;> rfl
  · rfl
  · split at h
    · simp only [List.mem_singleton] at h
      subst h
      rfl
    · simp at h

theorem onPath_base (out : RCh) (ho : out = .loc ∨ out = .im) (mk : α → Item) (f : FilePath → Sent α) (v : Item) :
    ((onPath (fun p => workOps out mk (f p)) v).map (readOp L fs s)).sum = ((onPath (fun p => workOps out mk (f p)) v).map opBase).sum := by
  cases v with
  | path p => exact workOps_base L fs s out ho mk (f p)
  | _ => rfl

/-- Weights that become smaller with each step of reading. -/
def readWeights : Weights (readNet L n fs s) where
  op := readOp L fs s
  val := readVal L fs s
  op_pos := by intro o; cases o <;> simp [readOp]
  send := by intro c v; simp [readOp]
  item := by
    intro i c v h
    cases i with
    | main => simp [readNet, readProg] at h
    | codeWalk => simp [readNet, readProg] at h
    | artWalk => simp [readNet, readProg] at h
    | lints => cases h; simp [readNet, readProg, readVal]
    | locs => cases h; simp [readNet, readProg, readVal]
    | arts => cases h; simp [readNet, readProg, readVal]
    | codeWork k =>
      cases h
      simp only [readNet, readProg, readVal]
      rw [onPath_base L fs s .loc (.inl rfl)]
      omega
    | artWork k =>
      cases h
      simp only [readNet, readProg, readVal]
      rw [onPath_base L fs s .im (.inr rfl)]
      omega

/-! ## it is never stuck -/

/-- Where a channel is on the way from the files to the lints. -/
def readRank : RCh → Nat
  | .codePath | .artPath => 0
  | .loc | .im => 1
  | .lint => 2

theorem walkOps_mem {f : FilePath → Bool → Bool} {out : RCh} {roots : ISet FilePath} {o : Op RCh Item} (h : o ∈ walkOps L fs f out roots) :
    (∃ p, o = .send out (.path p)) ∨ ∃ l, o = .send .lint (.lint l) := by
  simp only [walkOps, List.mem_flatMap] at h
  obtain ⟨r, _, h⟩ := h
  split at h
  · simp only [List.mem_map] at h
    obtain ⟨p, _, rfl⟩ := h
    exact .inl ⟨p, rfl⟩
  · simp only [List.mem_singleton] at h
    exact .inr ⟨_, h⟩

theorem workOps_mem {out : RCh} {mk : α → Item} {x : Sent α} {o : Op RCh Item} (h : o ∈ workOps out mk x) :
    (∃ a, o = .send out (mk a)) ∨ (∃ l, o = .send .lint (.lint l)) ∨ o = .die := by
  simp only [workOps, List.mem_append, List.mem_map] at h
  rcases h with (⟨a, _, rfl⟩ | ⟨l, _, rfl⟩) | h
  · exact .inl ⟨a, rfl⟩
  · exact .inr (.inl ⟨l, rfl⟩)
  · split at h
    · exact .inr (.inr (by simpa using h))
    · simp at h

theorem onPath_mem {out : RCh} {mk : α → Item} {f : FilePath → Sent α} {v : Item} {o : Op RCh Item} (h : o ∈ onPath (fun p => workOps out mk (f p)) v) :
    (∃ a, o = .send out (mk a)) ∨ (∃ l, o = .send .lint (.lint l)) ∨ o = .die := by
  cases v with
  | path p => exact workOps_mem h
  | _ => simp [onPath] at h

theorem read_wired (i : RTh n) : Holder (readNet L n fs s) i ∨ Worker (readNet L n fs s) readRank i := by
  cases i with
  | main =>
    left
    refine ⟨?_, fun _ => rfl, fun _ => rfl, ?_, ?_⟩
    · intro o ho
      simp only [readNet, readProg, List.mem_cons, List.not_mem_nil, or_false] at ho
      rcases ho with rfl | rfl | rfl | rfl | rfl <;> simp
    · intro c hc
      cases c <;> simp_all [readNet, readProg, readTx]
    · intro c hc
      cases c <;> simp_all [readNet, readProg, readRx]
  | lints =>
    right
    refine ⟨?_, ?_, ?_⟩
    · rintro o (h | ⟨v, h⟩ | ⟨l, h⟩) <;> simp [readNet, readProg] at h
    · intro c d hc; cases c <;> simp [readNet, readTx] at hc
    · intro c hc; cases c <;> simp_all [readNet, readProg, readRx]
  | codeWalk =>
    right
    refine ⟨?_, ?_, ?_⟩
    · rintro o (h | ⟨v, h⟩ | ⟨l, h⟩)
      · rcases walkOps_mem L fs h with ⟨p, rfl⟩ | ⟨l, rfl⟩
        · exact .inr ⟨_, _, rfl, rfl⟩
        · exact .inr ⟨_, _, rfl, rfl⟩
      · simp [readNet, readProg] at h
      · simp [readNet, readProg] at h
    · intro c d _ h; simp [readNet, readProg] at h
    · intro c hc; cases c <;> simp [readNet, readRx] at hc
  | artWalk =>
    right
    refine ⟨?_, ?_, ?_⟩
    · rintro o (h | ⟨v, h⟩ | ⟨l, h⟩)
      · rcases walkOps_mem L fs h with ⟨p, rfl⟩ | ⟨l, rfl⟩
        · exact .inr ⟨_, _, rfl, rfl⟩
        · exact .inr ⟨_, _, rfl, rfl⟩
      · simp [readNet, readProg] at h
      · simp [readNet, readProg] at h
    · intro c d _ h; simp [readNet, readProg] at h
    · intro c hc; cases c <;> simp [readNet, readRx] at hc
  | codeWork k =>
    right
    refine ⟨?_, ?_, ?_⟩
    · rintro o (h | ⟨v, h⟩ | ⟨l, h⟩)
      · simp [readNet, readProg] at h
      · rcases onPath_mem h with ⟨a, rfl⟩ | ⟨l, rfl⟩ | rfl
        · exact .inr ⟨_, _, rfl, rfl⟩
        · exact .inr ⟨_, _, rfl, rfl⟩
        · exact .inl rfl
      · simp [readNet, readProg] at h
    · intro c d hc h; cases h; cases c <;> first | decide | exact absurd hc Bool.false_ne_true
    · intro c hc; cases c <;> simp_all [readNet, readProg, readRx]
  | artWork k =>
    right
    refine ⟨?_, ?_, ?_⟩
    · rintro o (h | ⟨v, h⟩ | ⟨l, h⟩)
      · simp [readNet, readProg] at h
      · rcases onPath_mem h with ⟨a, rfl⟩ | ⟨l, rfl⟩ | rfl
        · exact .inr ⟨_, _, rfl, rfl⟩
        · exact .inr ⟨_, _, rfl, rfl⟩
        · exact .inl rfl
      · simp [readNet, readProg] at h
    · intro c d hc h; cases h; cases c <;> first | decide | exact absurd hc Bool.false_ne_true
    · intro c hc; cases c <;> simp_all [readNet, readProg, readRx]
  | locs =>
    right
    refine ⟨?_, ?_, ?_⟩
    · rintro o (h | ⟨v, h⟩ | ⟨l, h⟩)
      · simp [readNet, readProg] at h
      · simp [readNet, readProg] at h
      · simp only [readNet, readProg, List.mem_map] at h
        obtain ⟨d, _, rfl⟩ := h
        exact .inr ⟨_, _, rfl, rfl⟩
    · intro c d hc h; cases h; cases c <;> first | decide | exact absurd hc Bool.false_ne_true
    · intro c hc; cases c <;> simp_all [readNet, readProg, readRx]
  | arts =>
    right
    refine ⟨?_, ?_, ?_⟩
    · rintro o (h | ⟨v, h⟩ | ⟨l, h⟩)
      · simp [readNet, readProg] at h
      · simp [readNet, readProg] at h
      · simp only [readNet, readProg, List.mem_map] at h
        obtain ⟨d, _, rfl⟩ := h
        exact .inr ⟨_, _, rfl, rfl⟩
    · intro c d hc h; cases h; cases c <;> first | decide | exact absurd hc Bool.false_ne_true
    · intro c hc; cases c <;> simp_all [readNet, readProg, readRx]

/-! ## the collectors and the workers -/

/-- The collectors. -/
def Coll : RTh n → Prop
  | .lints | .locs | .arts => True
  | _ => False

theorem read_faithful : Faithful (readNet L n fs s) (Coll n) := by
  refine ⟨?_, ?_, ?_⟩
  · intro i hi
    cases i with
    | lints | locs | arts => rintro (h | ⟨v, h⟩ | ⟨l, h⟩) <;> simp [readNet, readProg] at h
    | _ => exact absurd hi id
  · intro i hi c v
    cases i with
    | lints => rintro (h | ⟨v, h⟩ | ⟨l, h⟩) <;> simp [readNet, readProg] at h
    | locs | arts =>
      rintro (h | ⟨v, h⟩ | ⟨l, h⟩)
      · simp [readNet, readProg] at h
      · simp [readNet, readProg] at h
      · simp only [readNet, readProg, List.mem_map] at h
        obtain ⟨d, _, h⟩ := h
        cases h
        exact ⟨.lints, trivial, rfl⟩
    | _ => exact absurd hi id
  · intro i hi c hc
    cases i with
    | lints | locs | arts =>
      cases hc
      refine ⟨rfl, ?_⟩
      rintro (h | ⟨v, h⟩ | ⟨l, h⟩) <;> simp [readNet, readProg] at h
    | _ => exact absurd hi id

/-- What a worker sends for a value. -/
def workSends (out : RCh) (mk : α → Item) (f : FilePath → Sent α) : Item → List (Op RCh Item) :=
  onPath fun p => (f p).items.map (fun a => .send out (mk a)) ++ (f p).lints.map (fun l => .send .lint (.lint l))

/-- Values that make a worker die. -/
def workDead (f : FilePath → Sent α) : Item → Bool
  | .path p => (f p).dead
  | _ => false

theorem work_item (out : RCh) (mk : α → Item) (f : FilePath → Sent α) (v : Item) :
    onPath (fun p => workOps out mk (f p)) v = workSends out mk f v ++ if workDead f v then [.die] else [] := by
  cases v <;> rfl

theorem workSends_mem {out : RCh} {mk : α → Item} {f : FilePath → Sent α} {v : Item} {o : Op RCh Item} (h : o ∈ workSends out mk f v) :
    (∃ a, o = .send out (mk a)) ∨ ∃ l, o = .send .lint (.lint l) := by
  cases v with
  | path p =>
    simp only [workSends, onPath, List.mem_append, List.mem_map] at h
    rcases h with ⟨a, _, rfl⟩ | ⟨l, _, rfl⟩
    · exact .inl ⟨a, rfl⟩
    · exact .inr ⟨l, rfl⟩
  | _ => simp [workSends, onPath] at h

theorem code_pool : Pool (readNet L n fs s) (Coll n) .codePath .codeWalk 4 RTh.codeWork (workSends .loc .loc (codeSent L fs)) (workDead (codeSent L fs)) where
  faithful := read_faithful L n fs s
  inj := fun a b h => by cases h; rfl
  only := by
    intro i
    constructor
    · intro h
      cases i <;> simp_all [readNet, readProg]
    · rintro ⟨k, rfl⟩
      rfl
  first := fun _ => rfl
  item := fun k v => work_item .loc .loc (codeSent L fs) v
  close := fun _ _ => rfl
  sends := by
    intro v o h
    rcases workSends_mem h with ⟨a, rfl⟩ | ⟨l, rfl⟩
    · exact ⟨_, _, rfl, .locs, trivial, rfl⟩
    · exact ⟨_, _, rfl, .lints, trivial, rfl⟩
  rx := fun _ => rfl
  tx := by intro i h; cases i <;> simp_all [readNet, readTx]
  walk_src := rfl
  walk_first := by
    intro o h
    rcases walkOps_mem L fs h with ⟨p, rfl⟩ | ⟨l, rfl⟩
    · exact ⟨_, _, rfl, .inl rfl⟩
    · exact ⟨_, _, rfl, .inr ⟨.lints, trivial, rfl⟩⟩

theorem art_pool : Pool (readNet L n fs s) (Coll n) .artPath .artWalk n RTh.artWork (workSends .im .im (artSent L s.pre fs)) (workDead (artSent L s.pre fs)) where
  faithful := read_faithful L n fs s
  inj := fun a b h => by cases h; rfl
  only := by
    intro i
    constructor
    · intro h
      cases i <;> simp_all [readNet, readProg]
    · rintro ⟨k, rfl⟩
      rfl
  first := fun _ => rfl
  item := fun k v => work_item .im .im (artSent L s.pre fs) v
  close := fun _ _ => rfl
  sends := by
    intro v o h
    rcases workSends_mem h with ⟨a, rfl⟩ | ⟨l, rfl⟩
    · exact ⟨_, _, rfl, .arts, trivial, rfl⟩
    · exact ⟨_, _, rfl, .lints, trivial, rfl⟩
  rx := fun _ => rfl
  tx := by intro i h; cases i <;> simp_all [readNet, readTx]
  walk_src := rfl
  walk_first := by
    intro o h
    rcases walkOps_mem L fs h with ⟨p, rfl⟩ | ⟨l, rfl⟩
    · exact ⟨_, _, rfl, .inl rfl⟩
    · exact ⟨_, _, rfl, .inr ⟨.lints, trivial, rfl⟩⟩

/-! ## what arrives -/

theorem no_send {ι C V : Type} [DecidableEq ι] [DecidableEq C] [Fintype ι] [Fintype C] {N : Net ι C V} {t : St ι C V} (h : Reach N t) {i : ι} {c : C}
    (hn : ∀ v, ¬ Does N i (.send c v)) : (t.th i).ran.filterMap (toChan c) = [] := by
  rw [List.filterMap_eq_nil_iff]
  intro o ho
  cases o with
  | send d v =>
    simp only [toChan]
    rw [if_neg]
    rintro rfl
    exact hn v (does_of_full (mem_full_of_ran h ho))
  | _ => rfl

theorem upTo_map {α β : Type} (f : α → β) (d : β → Bool) : ∀ (n : Nat) (l : List α), upTo d n (l.map f) = (upTo (fun a => d (f a)) n l).map f
  | 0, l => by simp [upTo]
  | n + 1, [] => rfl
  | n + 1, a :: l => by
    simp only [List.map_cons, upTo]
    rw [upTo_map f d _ l]

theorem walkOps_paths (f : FilePath → Bool → Bool) (out : RCh) (ho : out ≠ .lint) (roots : ISet FilePath) :
    (walkOps L fs f out roots).filterMap (toChan out) = (walkPaths fs f roots).map .path := by
  simp only [walkOps, walkPaths, List.filterMap_flatMap, List.map_flatMap]
  refine List.flatMap_congr fun r _ => ?_
  cases hw : walkPath fs f r with
  | some l => simp [hw, List.filterMap_map, Function.comp_def, toChan]
  | none => simp [hw, toChan, Ne.symm ho]

theorem walkOps_lints (f : FilePath → Bool → Bool) (out : RCh) (ho : out ≠ .lint) (roots : ISet FilePath) :
    (walkOps L fs f out roots).filterMap (toChan .lint) = (walkLints L fs f roots).map .lint := by
  simp only [walkOps, walkLints, List.filterMap_flatMap]
  induction roots with
  | nil => rfl
  | cons r rs ih =>
    rw [List.flatMap_cons, List.filterMap_cons]
    cases hw : walkPath fs f r with
    | some l => simpa [hw, List.filterMap_map, Function.comp_def, toChan, ho] using ih
    | none => simpa [hw, toChan] using ih

theorem workSends_out (out : RCh) (ho : out ≠ .lint) (mk : α → Item) (f : FilePath → Sent α) (v : Item) :
    (workSends out mk f v).filterMap (toChan out) = (match v with | .path p => (f p).items.map mk | _ => []) := by
  cases v with
  | path p => simp [workSends, onPath, List.filterMap_map, Function.comp_def, toChan, Ne.symm ho]
  | _ => rfl

theorem workSends_lints (out : RCh) (ho : out ≠ .lint) (mk : α → Item) (f : FilePath → Sent α) (v : Item) :
    (workSends out mk f v).filterMap (toChan .lint) = (match v with | .path p => (f p).lints.map .lint | _ => []) := by
  cases v with
  | path p => simp [workSends, onPath, List.filterMap_map, Function.comp_def, toChan, ho]
  | _ => rfl

theorem sum_flatMap {V W : Type} {n : Nat} (g : Fin n → List V) (l : List V) (f : V → List W) (h : (l : Multiset V) = ∑ k, (g k : Multiset V)) :
    ∑ k, (((g k).flatMap f : List W) : Multiset W) = ((l.flatMap f : List W) : Multiset W) := by
  have h2 : ∀ x : List V, ((x.flatMap f : List W) : Multiset W) = (x : Multiset V).bind fun v => (f v : Multiset W) := fun x => by
    rw [Multiset.coe_bind]
  let φ : Multiset V →+ Multiset W := ⟨⟨fun m => m.bind fun v => (f v : Multiset W), Multiset.zero_bind _⟩, fun a b => Multiset.add_bind a b _⟩
  rw [h2, h]
  rw [show (∑ k, (g k : Multiset V)).bind (fun v => (f v : Multiset W)) = φ (∑ k, (g k : Multiset V)) from rfl, map_sum]
  exact Finset.sum_congr rfl fun k _ => h2 _

/-- What the workers of a pool send into a channel, when all is over. -/
theorem pool_sum' {ι C V : Type} [DecidableEq ι] [DecidableEq C] [Fintype ι] [Fintype C] {N : Net ι C V} {F : ι → Prop} {c : C} {walk : ι} {n : Nat}
    {w : Fin n → ι} {sends : V → List (Op C V)} {dead : V → Bool} (P : Pool N F c walk n w sends dead) {t : St ι C V} (h : Reach N t)
    (ho : ∀ k, (t.th (w k)).fate ≠ .live) (how : (t.th walk).fate ≠ .live) (d : C) :
    ∑ k, (((t.th (w k)).ran.filterMap (toChan d) : List V) : Multiset V) =
      (((upTo dead n ((N.prog walk).first.filterMap (toChan c))).flatMap fun v => (sends v).filterMap (toChan d) : List V) : Multiset V) := by
  rw [← (P.over' h ho how).1, ← sum_flatMap (fun k => (t.th (w k)).got) _ _ (P.taken h)]
  refine Finset.sum_congr rfl fun k _ => ?_
  rw [(P.over' h ho how).2.2.2 k, List.filterMap_flatMap]

theorem pool_sum {ι C V : Type} [DecidableEq ι] [DecidableEq C] [Fintype ι] [Fintype C] {N : Net ι C V} {F : ι → Prop} {c : C} {walk : ι} {n : Nat}
    {w : Fin n → ι} {sends : V → List (Op C V)} {dead : V → Bool} (P : Pool N F c walk n w sends dead) {t : St ι C V} (h : Reach N t) (ho : t.Over) (d : C) :
    ∑ k, (((t.th (w k)).ran.filterMap (toChan d) : List V) : Multiset V) =
      (((upTo dead n ((N.prog walk).first.filterMap (toChan c))).flatMap fun v => (sends v).filterMap (toChan d) : List V) : Multiset V) :=
  pool_sum' P h (fun k => ho (w k)) (ho walk) d

variable {L n fs s}

theorem coll_ended {t : St (RTh n) RCh Item} (h : Reach (readNet L n fs s) t) (ho : t.Over) {i : RTh n} (hi : Coll n i) : (t.th i).fate = .ended := by
  match hf : (t.th i).fate with
  | .live => exact absurd hf (ho i)
  | .ended => rfl
  | .died => exact absurd hf (faithful_alive (read_faithful L n fs s) h i hi)

theorem coll_ran {t : St (RTh n) RCh Item} (h : Reach (readNet L n fs s) t) (ho : t.Over) {i : RTh n} (hi : Coll n i)
    (hs : ((readNet L n fs s).prog i).src ≠ none) : (t.th i).ran = full (readNet L n fs s) i (t.th i).got true := by
  have he := coll_ended h ho hi
  have h1 := (reach_th h i).script (by rw [he]; simp)
  rw [((reach_th h i).over_ops (ho i)).1, List.append_nil, ((reach_th h i).ended he).resolve_right hs] at h1
  exact h1

/-- The files that the workers for code handle. -/
def codeHandled (L : Libs) (fs : FS) (s : Settings) : List FilePath := upTo (fun p => (codeSent L fs p).dead) 4 (walkCode fs s)

/-- The files that the workers for artifacts handle. -/
def artHandled (L : Libs) (n : Nat) (fs : FS) (s : Settings) : List FilePath := upTo (fun p => (artSent L s.pre fs p).dead) n (walkArtifacts fs s)

theorem code_handled : upTo (workDead (codeSent L fs)) 4 (((readNet L n fs s).prog .codeWalk).first.filterMap (toChan .codePath)) =
    (codeHandled L fs s).map .path := by
  show upTo _ 4 ((walkOps L fs _ .codePath _).filterMap _) = _
  rw [walkOps_paths L fs _ .codePath (by simp), upTo_map]
  rfl

theorem art_handled : upTo (workDead (artSent L s.pre fs)) n (((readNet L n fs s).prog .artWalk).first.filterMap (toChan .artPath)) =
    (artHandled L n fs s).map .path := by
  show upTo _ n ((walkOps L fs _ .artPath _).filterMap _) = _
  rw [walkOps_paths L fs _ .artPath (by simp), upTo_map]
  rfl

theorem locs_got {t : St (RTh n) RCh Item} (h : Reach (readNet L n fs s) t) (ho : t.Over) :
    (runOf t).locs.Perm ((codeHandled L fs s).flatMap fun p => (codeSent L fs p).items) := by
  have h1 := ended_all h (i := .locs) (c := .loc) (coll_ended h ho trivial) rfl (by
    intro j hj; cases j <;> simp_all [readNet, readProg])
  rw [rth_sum] at h1
  have hz : ∀ i : RTh n, (∀ k, i ≠ .codeWork k) → (t.th i).ran.filterMap (toChan .loc) = [] := by
    intro i hi
    refine no_send h fun v => ?_
    cases i with
    | codeWork k => exact absurd rfl (hi k)
    | codeWalk | artWalk =>
      rintro (h | ⟨_, h⟩ | ⟨_, h⟩)
      · rcases walkOps_mem L fs h with ⟨p, h⟩ | ⟨l, h⟩ <;> simp at h
      · simp [readNet, readProg] at h
      · simp [readNet, readProg] at h
    | artWork k =>
      rintro (h | ⟨_, h⟩ | ⟨_, h⟩)
      · simp [readNet, readProg] at h
      · rcases onPath_mem h with ⟨p, h⟩ | ⟨l, h⟩ | h <;> simp at h
      · simp [readNet, readProg] at h
    | _ => rintro (h | ⟨_, h⟩ | ⟨_, h⟩) <;> simp [readNet, readProg] at h
  rw [hz .main (by simp), hz .lints (by simp), hz .codeWalk (by simp), hz .locs (by simp), hz .artWalk (by simp), hz .arts (by simp),
    Finset.sum_congr rfl fun k _ => congrArg (fun x : List Item => (x : Multiset Item)) (hz (.artWork k) (by simp)),
    pool_sum (code_pool L n fs s) h ho .loc, code_handled] at h1
  simp only [Multiset.coe_nil, Finset.sum_const_zero, add_zero, zero_add, Multiset.coe_eq_coe] at h1
  have h2 := h1.filterMap (fun | .loc l => some l | _ => none)
  refine h2.trans (List.Perm.of_eq ?_)
  rw [List.flatMap_map, List.filterMap_flatMap]
  refine List.flatMap_congr fun p _ => ?_
  rw [workSends_out _ (by simp)]
  simp [List.filterMap_map, Function.comp_def]

theorem arts_got {t : St (RTh n) RCh Item} (h : Reach (readNet L n fs s) t) (ho : t.Over) :
    (runOf t).arts.Perm ((artHandled L n fs s).flatMap fun p => (artSent L s.pre fs p).items) := by
  have h1 := ended_all h (i := .arts) (c := .im) (coll_ended h ho trivial) rfl (by
    intro j hj; cases j <;> simp_all [readNet, readProg])
  rw [rth_sum] at h1
  have hz : ∀ i : RTh n, (∀ k, i ≠ .artWork k) → (t.th i).ran.filterMap (toChan .im) = [] := by
    intro i hi
    refine no_send h fun v => ?_
    cases i with
    | artWork k => exact absurd rfl (hi k)
    | codeWalk | artWalk =>
      rintro (h | ⟨_, h⟩ | ⟨_, h⟩)
      · rcases walkOps_mem L fs h with ⟨p, h⟩ | ⟨l, h⟩ <;> simp at h
      · simp [readNet, readProg] at h
      · simp [readNet, readProg] at h
    | codeWork k =>
      rintro (h | ⟨_, h⟩ | ⟨_, h⟩)
      · simp [readNet, readProg] at h
      · rcases onPath_mem h with ⟨p, h⟩ | ⟨l, h⟩ | h <;> simp at h
      · simp [readNet, readProg] at h
    | _ => rintro (h | ⟨_, h⟩ | ⟨_, h⟩) <;> simp [readNet, readProg] at h
  rw [hz .main (by simp), hz .lints (by simp), hz .codeWalk (by simp), hz .locs (by simp), hz .artWalk (by simp), hz .arts (by simp),
    Finset.sum_congr rfl fun k _ => congrArg (fun x : List Item => (x : Multiset Item)) (hz (.codeWork k) (by simp)),
    pool_sum (art_pool L n fs s) h ho .im, art_handled] at h1
  simp only [Multiset.coe_nil, Finset.sum_const_zero, add_zero, zero_add, Multiset.coe_eq_coe] at h1
  have h2 := h1.filterMap (fun | .im l => some l | _ => none)
  refine h2.trans (List.Perm.of_eq ?_)
  rw [List.flatMap_map, List.filterMap_flatMap]
  refine List.flatMap_congr fun p _ => ?_
  rw [workSends_out _ (by simp)]
  simp [List.filterMap_map, Function.comp_def]

theorem lintsOf_map (l : List Lint) : lintsOf (l.map .lint) = l := by
  induction l with
  | nil => rfl
  | cons a l ih => simpa [lintsOf] using ih

theorem lintsOf_append (a b : List Item) : lintsOf (a ++ b) = lintsOf a ++ lintsOf b := List.filterMap_append

theorem lintsOf_perm {a b : List Item} (h : a.Perm b) : (lintsOf a).Perm (lintsOf b) := h.filterMap _

theorem lintsOf_prefix {a b : List Item} (h : a <+: b) : lintsOf a <+: lintsOf b := h.filterMap _

theorem lintsOf_work (out : RCh) (ho : out ≠ .lint) (mk : α → Item) (f : FilePath → Sent α) (l : List FilePath) :
    lintsOf ((l.map Item.path).flatMap fun v => (workSends out mk f v).filterMap (toChan .lint)) = l.flatMap fun p => (f p).lints := by
  rw [List.flatMap_map, lintsOf, List.filterMap_flatMap]
  refine List.flatMap_congr fun p _ => ?_
  rw [workSends_lints _ ho]
  exact lintsOf_map _

theorem walk_lints {t : St (RTh n) RCh Item} {i : RTh n} {f : FilePath → Bool → Bool} {out : RCh} (hout : out ≠ .lint) {roots : ISet FilePath}
    (hp : (t.th i).ran <+: walkOps L fs f out roots) :
    lintsOf ((t.th i).ran.filterMap (toChan .lint)) <+: walkLints L fs f roots := by
  have h1 := lintsOf_prefix (hp.filterMap (toChan .lint))
  rwa [walkOps_lints L fs f out hout, lintsOf_map] at h1

theorem lints_got {t : St (RTh n) RCh Item} (h : Reach (readNet L n fs s) t) (ho : t.Over) :
    (runOf t).lints.Perm (lintsOf ((t.th .codeWalk).ran.filterMap (toChan .lint)) ++ (codeHandled L fs s).flatMap (fun p => (codeSent L fs p).lints) ++
      lintsOf ((t.th .artWalk).ran.filterMap (toChan .lint)) ++ (artHandled L n fs s).flatMap (fun p => (artSent L s.pre fs p).lints) ++
      (joinLocations (runOf t).locs).2 ++ (joinArtifacts (runOf t).arts).lints) := by
  have h1 := ended_all h (i := .lints) (c := .lint) (coll_ended h ho trivial) rfl (by
    intro j hj; cases j <;> simp_all [readNet, readProg])
  rw [rth_sum] at h1
  have hz : ∀ i : RTh n, i = .main ∨ i = .lints → (t.th i).ran.filterMap (toChan .lint) = [] := by
    rintro i (rfl | rfl)
    · refine no_send h fun v => ?_
      rintro (h | ⟨_, h⟩ | ⟨_, h⟩) <;> simp [readNet, readProg] at h
    · refine no_send h fun v => ?_
      rintro (h | ⟨_, h⟩ | ⟨_, h⟩) <;> simp [readNet, readProg] at h
  have hlocs : (t.th .locs).ran.filterMap (toChan .lint) = (joinLocations (runOf t).locs).2.map .lint := by
    rw [coll_ran h ho (i := .locs) trivial (by simp [readNet, readProg])]
    simp [full, readNet, readProg, List.filterMap_map, Function.comp_def, toChan, runOf]
  have harts : (t.th .arts).ran.filterMap (toChan .lint) = (joinArtifacts (runOf t).arts).lints.map .lint := by
    rw [coll_ran h ho (i := .arts) trivial (by simp [readNet, readProg])]
    simp [full, readNet, readProg, List.filterMap_map, Function.comp_def, toChan, runOf]
  rw [hz .main (.inl rfl), hz .lints (.inr rfl), hlocs, harts, pool_sum (code_pool L n fs s) h ho .lint, pool_sum (art_pool L n fs s) h ho .lint,
    code_handled, art_handled] at h1
  simp only [Multiset.coe_nil, zero_add, Multiset.coe_add, Multiset.coe_eq_coe] at h1
  have h2 := lintsOf_perm h1
  refine List.Perm.trans h2 ?_
  simp only [lintsOf_append, lintsOf_map]
  rw [lintsOf_work .loc (by simp), lintsOf_work .im (by simp)]
  rw [← Multiset.coe_eq_coe]
  simp only [← Multiset.coe_add]
  abel

end

end Art.Chan
