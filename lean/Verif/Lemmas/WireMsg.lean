import Verif.Lemmas.WireSound

/-! Lemmas for C63: calls and answers. -/

namespace Art
open Spec

variable {keep : Bool}

/-! ## calls -/

theorem isI64_showNat {n : Nat} (h : n < 2 ^ 63) : isI64 (showNat n) = true := by
  have h1 := showNat_all n
  have h2 := decVal_showNat n
  unfold isI64
  split
  · rename_i s e
    rw [e] at h1
    simp [isDig] at h1
  · rw [h1, h2]; simpa using h

theorem deV2_same {w : Json} (h : Alike keep (.str c!"2.0") w) : deV2 w = .ok () := by
  unfold deV2
  rw [deStr_same h]
  rfl

theorem deVariant_same {s : Str} {w : Json} (h : Alike keep (.str s) w) : deVariant w = .ok s := by
  rw [Alike] at h
  rw [h]; rfl

theorem deId_same {n : Nat} {w : Json} (hn : n < 2 ^ 63) (h : Alike keep (.ofNat n) w) : deId w = .ok (.ofNat n) := by
  unfold Json.ofNat at h ⊢
  rw [Alike] at h
  rw [h]
  simp only [deId, isI64_showNat hn, if_true]

theorem deCall_same {jid : Nat} {m : Str} {params w : Json} (hj : jid < 2 ^ 63) (hp : ∀ v, Alike keep params v → v ≠ .null) (h : Alike keep (callJson jid m params) w) :
    ∃ p, Alike keep params p ∧ deCall w =
      if m = c!"ReadProject" then .ok (.ofNat jid, .read (some (okOnly (deReadParams p))))
      else if m = c!"ModifyProject" then .ok (.ofNat jid, .modify (some (okOnly (deList deOp p))))
      else .err () := by
  obtain ⟨fs, hf, hs⟩ := same_fields h (names := [c!"jsonrpc", c!"method", c!"params", c!"id"]) rfl
  rcases hs with _ | ⟨⟨v1, rfl, h1⟩, _ | ⟨⟨v2, rfl, h2⟩, _ | ⟨⟨v3, rfl, h3⟩, _ | ⟨⟨v4, rfl, h4⟩, _ | _⟩⟩⟩⟩
  refine ⟨v3, h3, ?_⟩
  have e : optField (fun v => Res.ok v) (some v3) = (.ok (some v3) : Res Unit _) := optField_same (hp v3 h3) rfl
  unfold deCall deFields
  rw [hf]
  simp only [needed_some, Res.bind_ok, reqField, deV2_same h1, deVariant_same h2, e, defField, deId_same hj h4, Option.map_some]

theorem deReadParams_same {b : Bool} {w : Json} (h : Alike keep (.obj [(c!"reload", .bool b)]) w) : deReadParams w = .ok b := by
  obtain ⟨fs, hf, hs⟩ := same_fields h (names := [c!"reload"]) rfl
  rcases hs with _ | ⟨⟨v1, rfl, h1⟩, _ | _⟩
  unfold deReadParams deFields
  rw [hf]
  simp only [needed_some, Res.bind_ok, reqField, deBool_same h1]

theorem alike_arr_not_null {l : List Json} {w : Json} (h : Alike keep (.arr l) w) : w ≠ .null := by
  rintro rfl
  simp [Alike] at h

/-- What the server takes a call for. -/
theorem requestOf_call {d jid : Nat} {m : Str} {params : Json} (hd : d ≤ 126) (hf : Fine d params) (hj : jid < 2 ^ 63) (hp : ∀ v, Alike false params v → v ≠ .null) :
    ∃ p, Alike false params p ∧ (∀ r, (if m = c!"ReadProject" then .ok (.ofNat jid, .read (some (okOnly (deReadParams p))))
      else if m = c!"ModifyProject" then .ok (.ofNat jid, .modify (some (okOnly (deList deOp p)))) else Res.err ()) = Res.ok r →
      requestOf (callJson jid m params).show = r) := by
  have hc := fine_call d jid m hf
  obtain ⟨p, h1, h2⟩ := deCall_same hj hp (same_value hc.keys)
  refine ⟨p, h1, fun r hr => ?_⟩
  unfold requestOf
  rw [hc.parse (by omega)]
  rw [hr] at h2
  rw [Option.bind_some, h2]
  rfl

theorem request_read {jid : Nat} (hj : jid < 2 ^ 63) (reload : Bool) :
    requestOf (callJson jid c!"ReadProject" (.obj [(c!"reload", .bool reload)])).show = (.ofNat jid, .read (some (some reload))) := by
  obtain ⟨p, h1, h2⟩ := requestOf_call (d := 1) (jid := jid) (m := c!"ReadProject") (params := .obj [(c!"reload", .bool reload)]) (by omega)
    (fine_only 0 (fine_bool 0 reload)) hj (fun v h => alike_obj_not_null h)
  refine h2 _ ?_
  rw [if_pos rfl, deReadParams_same h1]
  rfl

theorem request_modify {jid : Nat} (hj : jid < 2 ^ 63) (ops : List WireOp) :
    requestOf (callJson jid c!"ModifyProject" (.arr (ops.map WireOp.toJson))).show = (.ofNat jid, .modify (some (some ops))) := by
  obtain ⟨p, h1, h2⟩ := requestOf_call (d := 4) (jid := jid) (m := c!"ModifyProject") (params := .arr (ops.map WireOp.toJson)) (by omega)
    (fine_ops 0 ops) hj (fun v h => alike_arr_not_null h)
  refine h2 _ ?_
  rw [if_neg (by decide), if_pos rfl, deList_same_eq h1 (fun op _ _ => deOp_same)]
  rfl

/-! ## answers -/

theorem fine_value {d : Nat} {v : Json} (h : Fine d v) : Fine d v.value := (same_value h.keys).fine h

theorem got_of_result (strict : Bool) {wr : ℚ → Str} {read : Str → Option ℚ} {x : WireExport} {r r' : ProjectResult} (hp : ProjectSound r.project) (hr : RatiosBack wr read r.project)
    (hq : deResult strict read (r.toJson wr x).value = .ok (x, r')) {jid : Nat} (hj : jid < 2 ^ 63) (msg : Str) :
    ∃ body, Reply.body wr x msg (.ofNat jid) (.success r) = some body ∧ gotOf strict read body = .ok (.project (.ofNat jid) x r'.project) := by
  have hf := fine_value (fine_result 0 x hp hr)
  refine ⟨_, rfl, ?_⟩
  have hb : Fine 9 (Json.obj [(c!"jsonrpc", .str c!"2.0"), (c!"result", (r.toJson wr x).value), (c!"id", .ofNat jid)]) := by
    refine fine_obj (by simp) ?_
    simp only [List.forall_mem_cons, List.not_mem_nil, IsEmpty.forall_iff, implies_true, and_true]
    exact ⟨fine_str _ _, hf, fine_ofNat _ _⟩
  unfold gotOf
  rw [hb.parse (by omega)]
  have : deSuccess strict read (Json.obj [(c!"jsonrpc", .str c!"2.0"), (c!"result", (r.toJson wr x).value), (c!"id", .ofNat jid)]) = .ok (.project (.ofNat jid) x r'.project) := by
    unfold deSuccess deFields
    have e : (Json.obj [(c!"jsonrpc", .str c!"2.0"), (c!"result", (r.toJson wr x).value), (c!"id", .ofNat jid)]).fields [c!"jsonrpc", c!"result", c!"id"] =
      some [some (.str c!"2.0"), some (r.toJson wr x).value, some (.ofNat jid)] := rfl
    rw [e]
    simp only [needed_some, Res.bind_ok, reqField, deV2_same (alike_refl true _), hq, deId_same hj (alike_refl true _)]
  simp only [deResponse, this]

theorem got_project (strict : Bool) {wr : ℚ → Str} {read : Str → Option ℚ} {x : WireExport} {r : ProjectResult} (hp : ProjectSound r.project) (hr : RatiosBack wr read r.project)
    (hl : LintsSound r.lints) {jid : Nat} (hj : jid < 2 ^ 63) (msg : Str) :
    ∃ body q, Reply.body wr x msg (.ofNat jid) (.success r) = some body ∧ gotOf strict read body = .ok (.project (.ofNat jid) x q) ∧ SameProjectIf false r.project q := by
  obtain ⟨q, hq, hs⟩ := deResult_same strict hp hr hl (same_value (fine_result 0 x hp hr).keys)
  obtain ⟨body, h1, h2⟩ := got_of_result strict hp hr hq hj msg
  exact ⟨body, q, h1, h2, hs⟩

theorem value_result (wr : ℚ → Str) (x : WireExport) (r : ProjectResult) :
    (r.toJson wr x).value = .obj [(c!"lints", r.lints.toJson.value), (c!"project", (r.project.toJson wr x).value)] := by
  unfold ProjectResult.toJson
  rw [Json.value, valueFields, valueFields, valueFields]
  simp only [putField]
  rw [if_neg (by decide), if_pos (by decide)]

/-- The project is read without regard to the lints. -/
theorem got_lints (strict : Bool) {wr : ℚ → Str} {read : Str → Option ℚ} {x : WireExport} {p : Project} (hp : ProjectSound p) (hr : RatiosBack wr read p)
    {jid : Nat} (hj : jid < 2 ^ 63) (msg : Str) :
    ∃ q, ∀ l, LintsSound l → ∃ body, Reply.body wr x msg (.ofNat jid) (.success ⟨p, l⟩) = some body ∧ gotOf strict read body = .ok (.project (.ofNat jid) x q) := by
  obtain ⟨q, hq, _⟩ := deProject_same strict (x := x) hp hr (same_value (fine_project 0 x hp hr).keys)
  refine ⟨q, fun l hl => ?_⟩
  refine got_of_result strict (r' := ⟨q, l⟩) hp hr ?_ hj msg
  rw [value_result]
  unfold deResult deFields
  have e : (Json.obj [(c!"lints", l.toJson.value), (c!"project", (p.toJson wr x).value)]).fields [c!"project", c!"lints"] = some [some (p.toJson wr x).value, some l.toJson.value] := rfl
  rw [e]
  simp only [needed_some, Res.bind_ok, reqField, hq, deCategorized_same hl (same_value (fine_categorized 0 l).keys)]

theorem jsonNum_neg {s : Str} (h : readNum s = some (s, [])) : JsonNum s := (readNum_spec h).1

theorem fine_error {d : Nat} {id : Json} (hi : Fine (d + 1) id) {code : Str} (hc : JsonNum code) (msg : Str) {data : Option Json} (hd : ∀ v, data = some v → Fine d v) :
    Fine (d + 2) (errorJson id code msg data) := by
  unfold errorJson
  refine fine_obj (by simp) ?_
  simp only [List.forall_mem_cons, List.not_mem_nil, IsEmpty.forall_iff, implies_true, and_true]
  refine ⟨fine_str _ _, ?_, hi⟩
  cases data with
  | none =>
    refine fine_obj (by simp) ?_
    simp only [Option.toList, List.map_nil, List.append_nil, List.forall_mem_cons, List.not_mem_nil, IsEmpty.forall_iff, implies_true, and_true]
    exact ⟨fine_num _ hc, fine_str _ _⟩
  | some v =>
    refine fine_obj (by simp) ?_
    simp only [Option.toList, List.map_cons, List.map_nil, List.cons_append, List.nil_append, List.forall_mem_cons, List.not_mem_nil, IsEmpty.forall_iff, implies_true, and_true]
    exact ⟨fine_num _ hc, fine_str _ _, hd v rfl⟩

theorem got_error (strict : Bool) (read : Str → Option ℚ) {d : Nat} (hd : d ≤ 125) {id : Json} (hi : Fine (d + 1) id) (hid : deId id = .ok id) {code : Str} (hc : JsonNum code)
    (hc' : isI64 code = true) (msg : Str) {data : Option Json} (hdata : ∀ v, data = some v → Fine d v) :
    gotOf strict read (errorJson id code msg data).show = .ok (.error (errorJson id code msg data)) := by
  have hb := fine_error hi hc msg hdata
  unfold gotOf
  rw [hb.parse (by omega)]
  have e1 : deSuccess strict read (errorJson id code msg data) = .err () := by
    unfold deSuccess deFields
    have e : (errorJson id code msg data).fields [c!"jsonrpc", c!"result", c!"id"] = some [some (.str c!"2.0"), none, some id] := rfl
    rw [e]
    simp only [needed_some, Res.bind_ok, reqField, deV2_same (alike_refl true _)]
    rfl
  have e2 : deFailure (errorJson id code msg data) = .ok (.error (errorJson id code msg data)) := by
    have e : (errorJson id code msg data).fields [c!"jsonrpc", c!"error", c!"id"] =
      some [some (.str c!"2.0"), some (.obj ([(c!"code", .num code), (c!"message", .str msg)] ++ data.toList.map fun d => (c!"data", d))), some id] := rfl
    have e' : deErrorObject (.obj ([(c!"code", .num code), (c!"message", .str msg)] ++ data.toList.map fun d => (c!"data", d))) = .ok () := by
      cases data with
      | none =>
        have e : (Json.obj ([(c!"code", .num code), (c!"message", .str msg)] ++ (none : Option Json).toList.map fun d => (c!"data", d))).fields [c!"code", c!"message", c!"data"] =
          some [some (.num code), some (.str msg), none] := rfl
        unfold deErrorObject deFields
        rw [e]
        simp only [needed_some, Res.bind_ok, reqField, deI64, hc', if_true, deStr_same (alike_refl true _)]
      | some v =>
        have e : (Json.obj ([(c!"code", .num code), (c!"message", .str msg)] ++ (some v).toList.map fun d => (c!"data", d))).fields [c!"code", c!"message", c!"data"] =
          some [some (.num code), some (.str msg), some v] := rfl
        unfold deErrorObject deFields
        rw [e]
        simp only [needed_some, Res.bind_ok, reqField, deI64, hc', if_true, deStr_same (alike_refl true _)]
    unfold deFailure deFields
    rw [e]
    simp only [needed_some, Res.bind_ok, reqField, deV2_same (alike_refl true _), e', hid]
  simp only [deResponse, e1, e2]

end Art
