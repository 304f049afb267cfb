import Verif.Props.Http

/-!
# Cases for property C76
-/

namespace Art.Http
open Art.Spec Whole

/-- A server whose route is the path `/json-rpc`. -/
def caseHttp : HttpLibs := ⟨fun p => p = c!"/json-rpc", fun _ => some ⟨404, [], c!"Not Found"⟩, exDec, WireExport.default, fun _ => []⟩

/-- The bytes of a call, and bytes that are no text. -/
example : fromUtf8 (strBytes c!"{\"jsonrpc\":\"2.0\",ſ") = some c!"{\"jsonrpc\":\"2.0\",ſ" ∧ fromUtf8 [0xff] = none ∧ fromUtf8 [0xc0, 0x80] = none ∧ fromUtf8 [0xed, 0xa0, 0x80] = none ∧
    fromUtf8 [] = some [] := by
  refine ⟨fromUtf8_iff.2 rfl, ?_, ?_, ?_, fromUtf8_iff.2 rfl⟩ <;> decide +kernel

/-- `C76_call`: a `GET` with a body that deletes an artifact is such a call, the same with `DELETE` is not. -/
example : (∃ id ops, take caseHttp ⟨.get, c!"/json-rpc", [], strBytes killText⟩ = .call id (.modify (some (some ops))) ∧ ops.length = 1) ∧
    take caseHttp ⟨.other c!"DELETE", c!"/json-rpc", [], strBytes killText⟩ = .rest ∧ take caseHttp ⟨.get, c!"/index.html", [], strBytes killText⟩ = .rest := by
  refine ⟨⟨_, _, (C76_call _ _ _ _).2 ⟨⟨rfl, .inl rfl⟩, killText, rfl, request_modify (by norm_num) _⟩, rfl⟩, rfl, rfl⟩

/-- `C76_same`: the same request as `GET` from another origin. -/
example {E : Env} {fs fs' : FS} {v v' : ProjectResult} {a : Option HttpRes} (h : Serves caseHttp E fs v (formReq c!"/json-rpc" killText) a v' fs') :
    Serves caseHttp E fs v ⟨.get, c!"/json-rpc", [(c!"Origin", c!"https://example.com")], strBytes killText⟩ a v' fs' :=
  C76_same (q := formReq c!"/json-rpc" killText) ⟨rfl, .inr (.inl rfl)⟩ ⟨rfl, .inl rfl⟩ rfl h

/-- `C76_harmless`: requests of these kinds are served. -/
example (E : Env) (fs : FS) (v : ProjectResult) : Serves caseHttp E fs v ⟨.get, c!"/index.html", [], []⟩ (some ⟨404, [], c!"Not Found"⟩) v fs ∧
    ¬ ToRpc caseHttp ⟨.get, c!"/index.html", [], []⟩ ∧ ToRpc caseHttp ⟨.get, c!"/json-rpc", [], []⟩ ∧ ∃ a, Serves caseHttp E fs v ⟨.get, c!"/json-rpc", [], []⟩ (some a) v fs := by
  refine ⟨.other (msg := []) (by intro id r h; cases h), fun h => absurd h.1 (by decide), ⟨rfl, .inl rfl⟩, ?_⟩
  have e0 : (Json.parse []).isNone = true := by decide +kernel
  have ht : take caseHttp ⟨.get, c!"/json-rpc", [], []⟩ = .call .null .garbage :=
    (C76_call _ _ _ _).2 ⟨⟨rfl, .inl rfl⟩, [], rfl, by simp [requestOf, Option.isNone_iff_eq_none.1 e0]⟩
  have h := Serves.garbage (E := E) (fs := fs) (v := v) (msg := []) ht
  simp only [respond, ht] at h
  exact ⟨_, h⟩

/-- `C76_status`: bytes that are no text are refused, text that is no call is answered as a success. -/
example : (respond caseHttp [] ⟨.post, c!"/json-rpc", [], [0xff]⟩ .rejected).map (fun a => (a.status, a.body)) = some (400, c!"invalid utf8: ") ∧
    (respond caseHttp c!"m" ⟨.post, c!"/json-rpc", [], strBytes c!"{}"⟩ .rejected).map (fun a => (a.status, a.body)) =
      some (200, c!"{\"jsonrpc\":\"2.0\",\"error\":{\"code\":-32600,\"message\":\"m\"},\"id\":null}") ∧
    (respond caseHttp c!"m" ⟨.options, c!"/json-rpc", [], []⟩ .rejected).map (fun a => (a.status, a.headers.length, a.body)) = some (200, 3, c!"ok") := by
  refine ⟨by decide +kernel, ?_, by decide +kernel⟩
  have ht : take caseHttp ⟨.post, c!"/json-rpc", [], strBytes c!"{}"⟩ = .call (requestOf c!"{}").1 (requestOf c!"{}").2 := take_text ⟨rfl, .inr (.inl rfl)⟩ rfl
  simp only [respond, ht]
  decide +kernel

/-- `C76_preflight`: a page may send JSON with `PUT` after asking, but not with a header of its own, and not with `TRACE`. -/
example : ∃ a, respond caseHttp [] ⟨.options, c!"/json-rpc", [], []⟩ .rejected = some a ∧
    Agrees c!"https://example.com" a ⟨.put, c!"/json-rpc", [(c!"Content-Type", c!"application/json")], []⟩ ∧
    Agrees c!"https://example.com" a ⟨.other c!"DELETE", c!"/json-rpc", [], []⟩ ∧
    ¬ Agrees c!"https://example.com" a ⟨.put, c!"/json-rpc", [(c!"Authorization", c!"x")], []⟩ ∧ ¬ Agrees c!"https://example.com" a ⟨.other c!"TRACE", c!"/json-rpc", [], []⟩ := by
  obtain ⟨a, h1, h2⟩ := C76_preflight (H := caseHttp) (o := ⟨.options, c!"/json-rpc", [], []⟩) ⟨rfl, rfl⟩ [] .rejected
  refine ⟨a, h1, (h2 _ _).2 ⟨by decide, ?_⟩, (h2 _ _).2 ⟨by decide, by simp⟩, fun h => ?_, fun h => ?_⟩
  · intro h hh
    simp only [List.mem_cons, List.not_mem_nil, or_false] at hh
    subst hh
    exact .inr (.inl (by decide))
  · have := ((h2 _ _).1 h).2 (c!"Authorization", c!"x") (by simp)
    revert this
    unfold Harmless FormType
    decide
  · have := ((h2 _ _).1 h).1
    revert this
    decide

/-- `C76_any_page`: a page of another origin asks to delete an artifact. -/
example : ∃ body r, Simple (formReq c!"/json-rpc" body) ∧ take caseHttp (formReq c!"/json-rpc" body) = .call (.num c!"8") r ∧
    body = c!"{\"jsonrpc\":\"2.0\",\"method\":\"ModifyProject\",\"params\":[{\"op\":\"delete\",\"name\":\"REQ-a\",\"orig_id\":\"AQEBAQEBAQEBAQEBAQEBAQ\"}],\"id\":8}" := by
  obtain ⟨body, r, h1, _, h2, h3, _⟩ := C76_any_page (H := caseHttp) (path := c!"/json-rpc") rfl (.modify 8 [.delete (nm "REQ-a") (HashIm.mk (Vector.replicate 16 1))]) (jid := 8) rfl (by norm_num)
  exact ⟨body, r, h2, h3, Option.some.inj (h1.symm.trans exCalls.2.1)⟩

/-- `C76_reads`: it reads the three artifacts of a project that is served. -/
example : ∃ text a S, Simple (formReq c!"/json-rpc" text) ∧ MayRead c!"https://example.com" a ∧
    handleResponse ⟨true, exUndec, fun _ => []⟩ true [] a.body = .ok (some (.recvProject 7 S)) ∧ S.length = 3 := by
  obtain ⟨s, hist, t, x, _, _, _, h4, h5, _, h7⟩ := exServed
  obtain ⟨text, r, a, u, S, h8, _, _, _, _, h9, h10, h11⟩ := C76_reads (H := caseHttp) (path := c!"/json-rpc") rfl ⟨true, exUndec, fun _ => []⟩ exNumbers
    (.start (E := exEnv nameLibs) exGood_repo h5) .nil h7 (i := 0) rfl rfl rfl rfl c!"https://example.com" [] [] (jid := 7) (by norm_num)
  refine ⟨text, a, S, h8, h9, h10, ?_⟩
  have hl : x.project.artifacts.length = 3 := by simpa using congrArg List.length h4
  have := h11.length_eq
  simpa [Server.init, hl] using this

/-- `C76_writes`: it creates an artifact, after which the disk is another one. -/
example {v : ProjectResult} (hb : v.project.settings.base = c!"/p") : ∃ text a x, Simple (formReq c!"/json-rpc" text) ∧
    Serves caseHttp (exEnv keptLibs) exGood v (formReq c!"/json-rpc" text) (some a) x exCrashed ∧ MayRead c!"https://example.com" a := by
  obtain ⟨x, hm⟩ := exCrash_done
  have hm' : Modifies (exEnv keptLibs).L (exEnv keptLibs).readToml (exEnv keptLibs).hash (exEnv keptLibs).dbg (exEnv keptLibs).ncpu exGood v.project.settings.base [.create exCrash]
      (some (.ok x)) exCrashed := by rw [hb]; exact hm
  obtain ⟨text, a, h1, h2, h3⟩ := C76_writes (H := caseHttp) (path := c!"/json-rpc") rfl (wire_sets exCrashWire_read) hm' c!"https://example.com"
  exact ⟨text, a, _, h1, h2, h3⟩

/-- `C76_kill`: the text. -/
example : killText = c!"{\"jsonrpc\":\"2.0\",\"method\":\"ModifyProject\",\"params\":[{\"op\":\"delete\",\"name\":\"" ++ [longS] ++ c!"PC-a\",\"orig_id\":\"\"}],\"id\":0}" ∧
    (Server.init exGood ⟨exProject, ⟨[], []⟩⟩).alive = true := by
  refine ⟨by decide +kernel, rfl⟩

end Art.Http
